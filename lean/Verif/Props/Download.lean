import Verif.Props.SendfileRange
import Verif.Props.Client
import Verif.Props.HttpParser
import Verif.Proofs.Download
/-!
# C100: a client that downloads a file gets exactly its bytes

From the bytes of the request to what a client reads of the response: the parser (`Model/HttpParser`), `sendfile`
(`Model/Sendfile`), the response methods (`Model/Response`) and the client of `Spec/Client` and `Spec/Download`.
-/
namespace Verif
open Verif.Py Verif.Model.Response Verif.Model.Sendfile Verif.Model.HttpParser Verif.Spec.Response Verif.Spec.Sendfile Verif.Proofs.Response Verif.Proofs.Sendfile
open Verif.Spec.HttpParser (ReqHead valuesOf)
open Verif.Spec.Client (Resp Delimited values trim)
open Verif.Spec.Download (got Piece typeOf boundaryOf)

namespace Download

/-- The arguments of `sendfile` with the headers of the request `r`, as parsed from its bytes. -/
def argsOf (a : Args) (r : ReqHead) (rest : Bytes) (mx mls : Nat) : Args := a.ofHeaders (parse (r.wire rest) r.text.length [] mx mls).headers

/-- What the client gets from a handler that makes the calls `pre`, awaits `sendfile` and returns; `h` is the handle kept from
an earlier `sendfile` on the connection. -/
def answer (c : Cfg) (pre : Script) (a : Args) (f : File) (h : Option Bytes) (err : ErrHandler) (s : St) : Bytes :=
  wireBytes (seen (handleRequest c { handler := handler pre (sendfile c a (some f) h) .none, err := err } s).log)

/-- A download: the request `r` is legal, the handler's calls `pre` set up a response (of status 200 unless it is 206 or 304)
and do not touch Transfer-Encoding, the arguments are usable, the date has no white space around it, and a handle kept from
an earlier call is one of the same content. -/
structure Given (c : Cfg) (s s1 : St) (pre : Script) (a : Args) (f : File) (h : Option Bytes) (r : ReqHead) (mx mls : Nat) : Prop where
  cfg : CfgOk c
  sp : (32 : UInt8) ∉ c.version
  fresh : Fresh s
  fine : Script.Fine pre
  run : runScript c ((.setBaseHeader, false) :: pre) s = (.ok (), s1)
  te : ∀ x ∈ callsOf pre, touches b!"transfer-encoding" x = false
  ok : (lastStatus (callsOf pre)).1 = 200
  usable : Usable a f
  date : trim (32 :: f.mdate) = f.mdate
  handle : h = none ∨ h = some f.content
  head : r.Wf mx mls
  method : c.method = r.method
  version : c.version = r.version

theorem args_usable {a : Args} {f : File} (u : Usable a f) (r rest mx mls) : Usable (argsOf a r rest mx mls) f := ⟨u.buffer, u.marks, u.size, u.ctype, u.mdate⟩

/-- A list of values as the parser's dictionary keeps it. -/
def hvalOf : List Bytes → Option HVal
  | [] => none
  | [v] => some (.one v)
  | vs => some (.many vs)

theorem args_eq {r : ReqHead} {mx mls : Nat} (w : r.Wf mx mls) (a : Args) (rest : Bytes) :
    (argsOf a r rest mx mls).range = hvalOf (valuesOf r.pairs b!"range") ∧
    (argsOf a r rest mx mls).ifRange = hvalOf (valuesOf r.pairs b!"if-range") ∧
    (argsOf a r rest mx mls).ifModified = hvalOf (valuesOf r.pairs b!"if-modified-since") :=
  ⟨C03_dictionary w rest _ (by decide) (by decide), C03_dictionary w rest _ (by decide) (by decide), C03_dictionary w rest _ (by decide) (by decide)⟩

theorem hval_none {vs : List Bytes} : hvalOf vs = none ↔ vs = [] := by
  match vs with
  | [] => simp [hvalOf]
  | [v] => simp [hvalOf]
  | v :: w :: t => simp [hvalOf]

theorem hval_one {vs : List Bytes} {x : Bytes} : hvalOf vs = some (.one x) ↔ vs = [x] := by
  match vs with
  | [] => simp [hvalOf]
  | [v] => simp [hvalOf]
  | v :: w :: t => simp [hvalOf]

/-- The Range headers `vs` ask for the elements `es`. -/
def AsksFor (vs : List Bytes) (es : List Elem) : Prop := ∃ gs : List (List Elem), vs = gs.map headerText ∧ gs ≠ [] ∧ (∀ g ∈ gs, g ≠ []) ∧ gs.flatten = es

theorem asks_of {vs : List Bytes} {es : List Elem} (h : AsksFor vs es) : ∃ v, hvalOf vs = some v ∧ Asks v es := by
  obtain ⟨gs, rfl, h1, h2, rfl⟩ := h
  match gs, h1, h2 with
  | [g], _, h2 => exact ⟨.one (headerText g), rfl, .inl ⟨by simp, by simpa using h2 g (by simp)⟩⟩
  | g :: g' :: t, h1, h2 => exact ⟨.many ((g :: g' :: t).map headerText), rfl, .inr ⟨_, rfl, h1, h2, rfl⟩⟩

theorem same_handle {c : Cfg} {a : Args} {f : File} {h : Option Bytes} (hh : h = none ∨ h = some f.content) :
    sendfile c a (some f) h = sendfile c a (some f) none := by
  rcases hh with rfl | rfl
  · rfl
  · unfold sendfile; rfl

/-! ## What reaches the client -/

theorem wireBytes_twice (l : List Emit) (k k' : Bool) : wireBytes (l ++ [Emit.mark k] ++ [Emit.mark k']) = wireBytes (l ++ [Emit.mark k]) := by
  have hb : (sendAll ((l ++ [Emit.mark k]).map Emit.op)).buf = [] := by
    have : sendAll ((l ++ [Emit.mark k]).map Emit.op) = sendStep (sendAll (l.map Emit.op)) .close := by simp [sendAll, Emit.op]
    rw [this]
    exact (sendStep_stream _ .close trivial).2 rfl
  have : sendAll ((l ++ [Emit.mark k] ++ [Emit.mark k']).map Emit.op) = sendStep (sendAll ((l ++ [Emit.mark k]).map Emit.op)) .close := by
    rw [List.map_append (l₁ := l ++ [Emit.mark k])]; simp [sendAll, Emit.op]
  unfold wireBytes wire
  rw [this]
  generalize sendAll ((l ++ [Emit.mark k]).map Emit.op) = o at hb
  unfold sendStep
  simp [hb, delivered_append, delivered]

theorem filterMap_wire (bs : Bytes) : (bs.map some ++ [none]).filterMap id = bs := by
  induction bs with
  | nil => rfl
  | cons x t ih => simpa using ih

/-- What the handler does behind the calls `pre`. -/
theorem serve_run {c : Cfg} (hc : CfgOk c) {s s1 : St} (fs : Fresh s) {pre : Script} (sc : Script)
    (hr : runScript c ((.setBaseHeader, false) :: pre) s = (.ok (), s1)) (err : ErrHandler) :
    serve c { handler := .coro (pre ++ sc) .none, err := err } s = (do runScript c sc; close false) s1 ∧
    ∀ e, serve c { handler := .coro (pre ++ sc) (.raise e), err := err } s = (do runScript c sc; raise e) s1 := by
  obtain ⟨ok, _⟩ := inv_base (s := s) hc (inv_fresh (c := c) fs)
  have e : runScript c ((.setBaseHeader, false) :: pre) s = runScript c pre (setBaseHeader c s).2 := by
    rw [runScript_ok (x := .setBaseHeader) (s' := (setBaseHeader c s).2) (by rw [← ok]; rfl)]
  have hb : setBaseHeader c s = (.ok (), (setBaseHeader c s).2) := by rw [← ok]
  rw [e] at hr
  refine ⟨?_, fun ex => ?_⟩
  · show (do
      applyOpts none none
      setBaseHeader c
      runScript c (pre ++ sc)
      close false) s = _
    rw [bind_ok (show applyOpts none none s = (.ok (), s) from rfl), bind_ok hb, bind_run, bind_run, runScript_append hr]
  · show (do
      applyOpts none none
      setBaseHeader c
      runScript c (pre ++ sc)
      raise ex) s = _
    rw [bind_ok (show applyOpts none none s = (.ok (), s) from rfl), bind_ok hb, bind_run, bind_run, runScript_append hr]

/-- A response that was sent completely. -/
theorem answer_sent {c : Cfg} (hc : CfgOk c) {s s1 s' : St} (fs : Fresh s) {pre sc : Script} {a : Args} {f : File} {h : Option Bytes}
    (hh : h = none ∨ h = some f.content) (hr : runScript c ((.setBaseHeader, false) :: pre) s = (.ok (), s1))
    (hs : sendfile c a (some f) none = (sc, none)) (run : runScript c sc s1 = (.ok (), s')) {bs : Bytes} (hw : wire s'.log = bs.map some ++ [none])
    {k : Bool} (he : Ends s'.log k) (err : ErrHandler) : answer c pre a f h err s = bs := by
  unfold answer handleRequest
  rw [same_handle hh, hs]
  have sr := (serve_run hc fs sc hr err).1
  rw [bind_ok run, close_run] at sr
  show wireBytes (seen (match serve c { handler := .coro (pre ++ sc) .none, err := err } s with
    | (.ok _, s') => s'
    | (.error e, s') => (handleException c err e s').2).log) = bs
  rw [sr]
  show wireBytes (seen (s'.log ++ [Emit.mark false])) = bs
  obtain ⟨l, hl, hm⟩ := he
  rw [hl] at hw ⊢
  have h1 : wireBytes (l ++ [Emit.mark k]) = bs := by unfold wireBytes; rw [hw, filterMap_wire]
  cases k with
  | false => rw [List.append_assoc, List.singleton_append, seen_closed l hm]; exact h1
  | true =>
    have : seen (l ++ [Emit.mark true] ++ [Emit.mark false]) = l ++ [Emit.mark true] ++ [Emit.mark false] := by
      clear h1 hl hw
      induction l with
      | nil => rfl
      | cons x t ih => cases x <;> first | (simp [marks] at hm; done) | (simp only [marks] at hm; simpa [seen] using ih hm)
    rw [this, wireBytes_twice, h1]

theorem seen_mark : ∀ {l : List Emit} {a : List Emit}, seen l = a ++ [Emit.mark false] → ∀ m, seen (l ++ m) = a ++ [Emit.mark false]
  | [], a, h, _ => by cases a <;> cases h
  | e :: l, a, h, m => by
    by_cases he : e = .mark false
    · subst he; exact h
    · have e1 : ∀ r, seen (e :: r) = e :: seen r := by
        intro r
        cases e with
        | mark k => cases k <;> first | rfl | exact absurd rfl he
        | _ => rfl
      rw [e1] at h
      rw [List.cons_append, e1]
      cases a with
      | nil =>
        simp only [List.nil_append, List.cons.injEq] at h
        exact absurd h.1 he
      | cons y a =>
        simp only [List.cons_append, List.cons.injEq] at h ⊢
        exact ⟨h.1, seen_mark h.2 m⟩

/-- A response behind whose head the connection is closed. -/
theorem answer_head {c : Cfg} (hc : CfgOk c) {s s1 : St} (fs : Fresh s) {pre : Script} {a : Args} {f : File} {h : Option Bytes}
    (hh : h = none ∨ h = some f.content) (hr : runScript c ((.setBaseHeader, false) :: pre) s = (.ok (), s1)) {t : Bytes}
    (hs : (sendfile c a (some f) none).2 = none) (hl : seen (runScript c (sendfile c a (some f) none).1 s1).2.log = [.head t [] { throttle := false }, .mark false])
    (err : ErrHandler) : answer c pre a f h err s = t := by
  unfold answer handleRequest
  rw [same_handle hh]
  have ex : ∃ sc, sendfile c a (some f) none = (sc, none) := ⟨_, Prod.ext rfl hs⟩
  obtain ⟨sc, hs⟩ := ex
  rw [hs] at hl ⊢
  have sr := (serve_run hc fs sc hr err).1
  show wireBytes (seen (match serve c { handler := .coro (pre ++ sc) .none, err := err } s with
    | (.ok _, s') => s'
    | (.error e, s') => (handleException c err e s').2).log) = t
  rw [sr, bind_run]
  have key : ∀ s2 : St, (∃ m, s2.log = (runScript c sc s1).2.log ++ m) → wireBytes (seen s2.log) = t := by
    rintro s2 ⟨m, hm⟩
    rw [hm, seen_mark (a := [.head t [] { throttle := false }]) hl m]
    show wireBytes [.head t [] { throttle := false }, .mark false] = t
    have : wire [Emit.head t [] { throttle := false }, .mark false] = t.map some ++ [none] := by
      have := wire_closed (log := [.head t [] { throttle := false }]) (by simp [Emit.op, SendOp.Ok]) false
      simpa [Emit.op, asked] using this
    unfold wireBytes; rw [this, filterMap_wire]
  cases hx : runScript c sc s1 with
  | mk x s2 =>
    rw [hx] at key
    cases x with
    | ok u => dsimp only; rw [close_run]; exact key _ ⟨_, rfl⟩
    | error e =>
      dsimp only
      obtain ⟨⟨l, hl, _⟩, _⟩ := good_handleException c err e s2
      exact key _ ⟨l, hl⟩

/-! ## Reading -/

theorem no_te {l : List Call} (h : ∀ x ∈ l, touches b!"transfer-encoding" x = false) : linesFor b!"transfer-encoding" l = [] := by
  have := untouched_snoc h []
  rwa [List.nil_append] at this

theorem date_read {f : File} (hd : trim (32 :: f.mdate) = f.mdate) {ls : List Bytes} (h : named b!"last-modified" ls = [b!"Last-Modified: " ++ f.mdate]) :
    values b!"last-modified" ls = [f.mdate] := by
  rw [Proofs.Client.values_eq, h, List.map_singleton,
    show b!"Last-Modified: " ++ f.mdate = b!"Last-Modified" ++ b!": " ++ f.mdate from rfl, Proofs.Client.value_line (by decide), hd]

theorem type_read {ls : List Bytes} {x : Bytes} (h : named b!"content-type" ls = [x]) : typeOf ls = some (Spec.Response.valueOf x) := by
  unfold typeOf
  have : ls.filter (fun x => lower (x.takeWhile (· ≠ 58)) = b!"content-type") = [x] := h
  rw [this]; rfl

theorem boundary_read (B : Bytes) : Spec.Download.cut b!"boundary=" (b!"multipart/byteranges; boundary=" ++ B) = some (b!"multipart/byteranges; ", B) := by
  rfl

end Download
open Download

/-- The request asks for the whole file: it has no range that counts (none at all, a version without ranges, or an If-Range that
is not the file's date), and its If-Modified-Since, if it counts, is not the file's date. -/
def AsksWhole (r : ReqHead) (f : File) : Prop :=
  (valuesOf r.pairs b!"range" ≠ [] ∧ r.version = b!"1.1" ∧ valuesOf r.pairs b!"if-range" ≠ [] ∧ valuesOf r.pairs b!"if-range" ≠ [f.mdate]) ∨
  ((valuesOf r.pairs b!"range" = [] ∨ r.version ≠ b!"1.1") ∧ valuesOf r.pairs b!"if-modified-since" ≠ [f.mdate])

/-- The ranges of the request count. -/
def AsksPart (r : ReqHead) (f : File) : Prop := r.version = b!"1.1" ∧ (valuesOf r.pairs b!"if-range" = [] ∨ valuesOf r.pairs b!"if-range" = [f.mdate])

theorem Download.whole_of {c : Cfg} {a : Args} {f : File} {r : ReqHead} {mx mls : Nat} (w : r.Wf mx mls) (hv : c.version = r.version) (rest : Bytes) (h : AsksWhole r f) :
    WantsWhole c (argsOf a r rest mx mls) f := by
  have ⟨e1, e2, e3⟩ := args_eq w a rest
  unfold WantsWhole
  rw [e1, e2, e3, hv]
  rcases h with ⟨h1, h2, h3, h4⟩ | ⟨h1, h2⟩
  · exact .inl ⟨fun h => h1 (hval_none.1 h), h2, fun h => h3 (hval_none.1 h), fun h => h4 (hval_one.1 h)⟩
  · exact .inr ⟨h1.imp (fun h => hval_none.2 h) id, fun h => h2 (hval_one.1 h)⟩

theorem Download.counts_of {c : Cfg} {a : Args} {f : File} {r : ReqHead} {mx mls : Nat} (w : r.Wf mx mls) (hv : c.version = r.version) (rest : Bytes) (h : AsksPart r f) :
    Counts c (argsOf a r rest mx mls) f := by
  have ⟨_, e2, _⟩ := args_eq w a rest
  unfold Counts
  rw [e2, hv]
  exact ⟨h.1, h.2.imp (fun h => hval_none.2 h) (fun h => hval_one.2 h)⟩

/-- **C100**, the whole file: from the bytes of a request without a range that counts, the client reads a response with exactly the
bytes of the file and its date, whatever follows on the connection. -/
theorem C100_whole {c : Cfg} {s s1 : St} {pre : Script} {a : Args} {f : File} {h : Option Bytes} {r : ReqHead} {mx mls : Nat} (g : Given c s s1 pre a f h r mx mls)
    (rest : Bytes) (err : ErrHandler) (hq : AsksWhole r f) (hm : r.method ≠ b!"HEAD") :
    ∃ x, Delimited r.method (answer c pre (argsOf a r rest mx mls) f h err s) x ∧
      x.status = 200 ∧ x.body = f.content ∧ got x = some [⟨0, f.content.length - 1, f.content.length, f.content⟩] ∧ values b!"last-modified" x.fields = [f.mdate] := by
  have hmc : c.method ≠ b!"HEAD" := by rw [g.method]; exact hm
  obtain ⟨sc, s', t, ls, v, y, h1, h2, h3, _, _, h6, h7, h8, h9, _, h11, h12, h13⟩ := C26_whole g.cfg g.fresh g.fine g.run (args_usable g.usable r rest mx mls)
    (whole_of g.head g.version rest hq) (by rw [g.ok]; simp only [bodyless, hmc, decide_false, Bool.false_or]; decide)
  rw [answer_sent g.cfg g.fresh g.handle g.run h1 h2 h12 h13 err]
  rw [no_te g.te] at h11
  have hst := Proofs.Client.status_read g.sp (st := (lastStatus (callsOf pre)).1) (by rw [g.ok]; decide) (by rw [g.ok]; decide) (lastStatus (callsOf pre)).2
  rw [show (lastStatus (callsOf pre)).1.toNat = 200 by rw [g.ok]; rfl] at hst
  refine ⟨⟨200, ls, f.content⟩, fun closed tail => ?_, rfl, rfl, rfl, date_read g.date h6⟩
  rw [List.append_assoc, ← g.method]
  exact Proofs.Client.read_of h3 hst (Proofs.Client.body_length (by simp [hmc]) h11 h7 h8 h9 tail)

/-- **C100**, one range within the file: the client reads exactly that piece, and the response says which one it is. -/
theorem C100_range {c : Cfg} {s s1 : St} {pre : Script} {a : Args} {f : File} {h : Option Bytes} {r : ReqHead} {mx mls : Nat} (g : Given c s s1 pre a f h r mx mls)
    (rest : Bytes) (err : ErrHandler) (hq : AsksPart r f) {e : Elem} (ha : AsksFor (valuesOf r.pairs b!"range") [e]) (he : e.Ok)
    {p : Nat × Nat} (hp : e.range.within f.content.length = some p) (hm : r.method ≠ b!"HEAD")
    (hct : b!"multipart/byteranges".isPrefixOf (lower (lstrip a.ctype)) = false) :
    ∃ x, Delimited r.method (answer c pre (argsOf a r rest mx mls) f h err s) x ∧
      x.status = 206 ∧ x.body = slice f.content p ∧ got x = some [⟨p.1, p.2, f.content.length, slice f.content p⟩] := by
  have hmc : c.method ≠ b!"HEAD" := by rw [g.method]; exact hm
  have hin : p.1 ≤ p.2 ∧ p.2 < f.content.length := within_lt hp
  obtain ⟨v, hv, hav⟩ := asks_of ha
  have hrange : (argsOf a r rest mx mls).range = some v := by rw [(args_eq g.head a rest).1, hv]
  obtain ⟨sc, s', t, ls, w, y, h1, h2, h3, h4, h5, h6, h7, h8, h9, h10, h11, h12⟩ := C25_single g.cfg g.fresh g.fine g.run (args_usable g.usable r rest mx mls)
    (counts_of g.head g.version rest hq) hrange hav he hp hmc
  rw [answer_sent g.cfg g.fresh g.handle g.run h1 h2 h11 h12 err]
  rw [no_te g.te] at h10
  have hst := Proofs.Client.status_read g.sp (st := 206) (by decide) (by decide) b!"Partial Content"
  refine ⟨⟨206, ls, slice f.content p⟩, fun closed tail => ?_, rfl, rfl, ?_⟩
  · rw [List.append_assoc, ← g.method]
    exact Proofs.Client.read_of h3 hst (Proofs.Client.body_length (by simp [hmc]) h10 h7 h8 h9 tail)
  · unfold got
    rw [if_neg (show ¬ ((206 : Nat) = 200) by decide), if_pos rfl]
    have hb : boundaryOf ls = none := by
      unfold boundaryOf
      rw [type_read h4, h5]
      dsimp only
      rw [if_neg]
      rw [show (argsOf a r rest mx mls).ctype = a.ctype from rfl, hct]; decide
    rw [hb]
    dsimp only
    rw [Proofs.Download.piece_read hin.1 hin.2 h6]; rfl

/-- **C100**, two to 101 ranges within the file, in one Range header or several: the client splits the body at the boundary and gets
exactly the pieces it asked for, in its order. The boundary must not occur in the pieces (it is made of random numbers). -/
theorem C100_multi {c : Cfg} {s s1 : St} {pre : Script} {a : Args} {f : File} {h : Option Bytes} {r : ReqHead} {mx mls : Nat} (g : Given c s s1 pre a f h r mx mls)
    (rest : Bytes) (err : ErrHandler) (hq : AsksPart r f) {es : List Elem} (ha : AsksFor (valuesOf r.pairs b!"range") es) (he : ∀ e ∈ es, e.Ok)
    (h1 : 1 < es.length) (h2 : es.length ≤ 101) {ps : List (Nat × Nat)} (hp : es.map (fun e => e.range.within f.content.length) = ps.map some)
    (hm : r.method ≠ b!"HEAD") (hb1 : (13 : UInt8) ∉ a.boundary) (hb2 : (10 : UInt8) ∉ a.boundary)
    (hb : ∀ p ∈ ps, ¬ b!"\r\n--" ++ a.boundary <:+: slice f.content p) :
    ∃ x, Delimited r.method (answer c pre (argsOf a r rest mx mls) f h err s) x ∧
      x.status = 206 ∧ got x = some (ps.map (fun p => ⟨p.1, p.2, f.content.length, slice f.content p⟩)) := by
  have hmc : c.method ≠ b!"HEAD" := by rw [g.method]; exact hm
  obtain ⟨v, hv, hav⟩ := asks_of ha
  have hrange : (argsOf a r rest mx mls).range = some v := by rw [(args_eq g.head a rest).1, hv]
  have hin := (parseList_within he hp).2
  obtain ⟨sc, s', t, ls, y, cs, k1, k2, k3, k4, k5, k6, k7, k8, k9, k10⟩ := C25_multi g.cfg g.fresh g.fine g.run (args_usable g.usable r rest mx mls)
    (counts_of g.head g.version rest hq) hrange hav he h1 h2 hp hmc hb2
  rw [answer_sent g.cfg g.fresh g.handle g.run k1 k2 k9 k10 err]
  have hst := Proofs.Client.status_read g.sp (st := 206) (by decide) (by decide) b!"Partial Content"
  refine ⟨⟨206, ls, multipart a.boundary a.ctype f.content ps⟩, fun closed tail => ?_, rfl, ?_⟩
  · rw [List.append_assoc, ← g.method]
    have := Proofs.Client.body_chunked (closed := closed) (m := c.method) (st := 206) (by simp [hmc]) k6 k7 tail
    rw [k8] at this
    exact Proofs.Client.read_of k3 hst this
  · unfold got
    rw [if_neg (show ¬ ((206 : Nat) = 200) by decide), if_pos rfl]
    have hbd : boundaryOf ls = some a.boundary := by
      unfold boundaryOf
      rw [type_read k4, k5]
      dsimp only
      rw [show (argsOf a r rest mx mls).boundary = a.boundary from rfl, if_pos (by rfl), boundary_read]; rfl
    rw [hbd]
    dsimp only
    rw [Proofs.Download.multipart_read hb1 g.usable.ctype hb]
    dsimp only
    exact Proofs.Download.pieces_read hin

/-- **C100**, HEAD: the client reads a response without body, with the true length and date of the file. -/
theorem C100_head {c : Cfg} {s s1 : St} {pre : Script} {a : Args} {f : File} {h : Option Bytes} {r : ReqHead} {mx mls : Nat} (g : Given c s s1 pre a f h r mx mls)
    (rest : Bytes) (err : ErrHandler) (hq : AsksWhole r f) (hm : r.method = b!"HEAD") :
    ∃ x v, Delimited r.method (answer c pre (argsOf a r rest mx mls) f h err s) x ∧
      x.status = 200 ∧ x.body = [] ∧ values b!"content-length" x.fields = [v] ∧ Spec.Client.lengthOf v = some f.content.length ∧
      values b!"last-modified" x.fields = [f.mdate] := by
  have hmc : c.method = b!"HEAD" := by rw [g.method]; exact hm
  have u := args_usable g.usable r rest mx mls
  have w := whole_of (a := a) g.head g.version rest hq
  obtain ⟨t, ls, v, h1, h2, h3, h4, h5, h6⟩ := C26_head g.cfg g.fresh g.fine g.run u w hmc (by rw [g.ok]; decide)
  rw [answer_head g.cfg g.fresh g.handle g.run (by rw [wants_whole u w]) h1 err]
  have hst := Proofs.Client.status_read g.sp (st := (lastStatus (callsOf pre)).1) (by rw [g.ok]; decide) (by rw [g.ok]; decide) (lastStatus (callsOf pre)).2
  rw [show (lastStatus (callsOf pre)).1.toNat = 200 by rw [g.ok]; rfl] at hst
  have hl := Proofs.Client.length_read h4 h5 h6
  refine ⟨⟨200, ls, []⟩, v, fun closed tail => ?_, rfl, rfl, hl.1, hl.2, date_read g.date h3⟩
  rw [← g.method]
  exact Proofs.Client.read_of h2 hst (Proofs.Client.body_none (.inl hmc) ls tail)

/-- **C100**, a copy that is current: 304 and nothing else. -/
theorem C100_current {c : Cfg} {s s1 : St} {pre : Script} {a : Args} {f : File} {h : Option Bytes} {r : ReqHead} {mx mls : Nat} (g : Given c s s1 pre a f h r mx mls)
    (rest : Bytes) (err : ErrHandler) (h1 : valuesOf r.pairs b!"range" = [] ∨ r.version ≠ b!"1.1") (h2 : valuesOf r.pairs b!"if-modified-since" = [f.mdate]) :
    ∃ x, Delimited r.method (answer c pre (argsOf a r rest mx mls) f h err s) x ∧ x.status = 304 ∧ x.body = [] := by
  have ⟨e1, _, e3⟩ := args_eq g.head a rest
  have w : IsCurrent c (argsOf a r rest mx mls) f := by
    unfold IsCurrent
    rw [e1, e3, g.version]
    exact ⟨h1.imp (fun h => hval_none.2 h) id, hval_one.2 h2⟩
  obtain ⟨t, ls, k1, k2⟩ := C26_current g.cfg g.fresh g.fine g.run w
  have hn : (sendfile c (argsOf a r rest mx mls) (some f) none).2 = none := by
    have hx : ∀ fs data, (sendfile.noRange c (argsOf a r rest mx mls) fs f.mdate data).2 = none := by
      intro fs data; unfold sendfile.noRange; rw [if_pos w.2]
    unfold sendfile
    cases hr : (argsOf a r rest mx mls).range with
    | none => exact hx _ _
    | some v =>
      rcases w.1 with h | h
      · rw [hr] at h; cases h
      · dsimp only; rw [if_neg h]; exact hx _ _
  rw [answer_head g.cfg g.fresh g.handle g.run hn k1 err]
  have hst := Proofs.Client.status_read g.sp (st := 304) (by decide) (by decide) b!"Not Modified"
  refine ⟨⟨304, ls, []⟩, fun closed tail => ?_, rfl, rfl⟩
  exact Proofs.Client.read_of k2 hst (Proofs.Client.body_none (by simp) ls tail)

/-- **C100**, resuming: a client that kept the first `k` bytes of a download and asks for the rest with the date it read either gets
exactly the rest, or, if the file has another date now, the whole of the new file. As everywhere with such dates, a file
that changes without changing its date (which counts in seconds) is taken for the same. -/
theorem C100_resume {c : Cfg} {s s1 : St} {pre : Script} {a : Args} {f f' : File} {h : Option Bytes} {r : ReqHead} {mx mls : Nat} (g : Given c s s1 pre a f' h r mx mls)
    (rest : Bytes) (err : ErrHandler) (hm : r.method ≠ b!"HEAD") (hv : r.version = b!"1.1")
    (hct : b!"multipart/byteranges".isPrefixOf (lower (lstrip a.ctype)) = false)
    {x : Resp} (hx1 : x.body = f.content) (hx2 : values b!"last-modified" x.fields = [f.mdate]) {k : Nat} (hk : k < x.body.length)
    (hr : valuesOf r.pairs b!"range" = [b!"bytes=" ++ fmtNat k ++ b!"-"]) (hi : valuesOf r.pairs b!"if-range" = values b!"last-modified" x.fields)
    (same : f'.mdate = f.mdate → f'.content = f.content) :
    ∃ y, Delimited r.method (answer c pre (argsOf a r rest mx mls) f' h err s) y ∧
      if f'.mdate = f.mdate then y.status = 206 ∧ got y = some [⟨k, f'.content.length - 1, f'.content.length, y.body⟩] ∧ x.body.take k ++ y.body = f'.content
      else y.status = 200 ∧ y.body = f'.content := by
  rw [hx2] at hi
  by_cases hd : f'.mdate = f.mdate
  · rw [← hd] at hi
    rw [← same hd] at hx1
    have hdig : Digits (fmtNat k) := ⟨(Proofs.Numeral.canonical_fmtNat k).1, (Proofs.Numeral.canonical_fmtNat k).2.1⟩
    have hlt : k < f'.content.length := by rw [← hx1]; exact hk
    have hwin : (Range.fromOn (fmtNat k)).within f'.content.length = some (k, f'.content.length - 1) := by
      simp only [Range.within, Proofs.Numeral.valueOf_fmtNat, if_pos hlt]
    obtain ⟨y, y1, y2, y3, y4⟩ := C100_range g rest err ⟨hv, .inr hi⟩ (e := ⟨[], .fromOn (fmtNat k), []⟩)
      ⟨[[⟨[], .fromOn (fmtNat k), []⟩]], by rw [hr]; simp [headerText, Elem.text, Range.text, join], by simp, by simp, rfl⟩
      ⟨(by intro c hc; cases hc), hdig, (by intro c hc; cases hc)⟩ hwin hm hct
    have hs : slice f'.content (k, f'.content.length - 1) = f'.content.drop k := by
      unfold slice
      exact List.take_of_length_le (by simp only [List.length_drop]; omega)
    refine ⟨y, y1, ?_⟩
    rw [if_pos hd]
    exact ⟨y2, by rw [y4, y3], by rw [y3, hs, hx1, List.take_append_drop]⟩
  · obtain ⟨y, y1, y2, y3, _, _⟩ := C100_whole g rest err (.inl ⟨by rw [hr]; simp, hv, by rw [hi]; simp, by rw [hi]; simpa using fun h => hd h.symm⟩) hm
    refine ⟨y, y1, ?_⟩
    rw [if_neg hd]
    exact ⟨y2, y3⟩

/-- A range that is refused with an exception: the client reads a response with its status. -/
theorem Download.refused {c : Cfg} {s s1 : St} {pre : Script} {a : Args} {f : File} {h : Option Bytes} {r : ReqHead} {mx mls : Nat} (g : Given c s s1 pre a f h r mx mls)
    (rest : Bytes) {err : ErrHandler} (e1 : Script.Fine err.script) (e2 : ∀ x ∈ callsOf err.script, setsStatus x = false) (e3 : ∀ p ∈ err.script, Call.NoHeader p.1)
    (hq : AsksPart r f) {v : HVal} (hv : hvalOf (valuesOf r.pairs b!"range") = some v) {st : Int × Bytes}
    (hst : st = (400, b!"Bad Request") ∨ st = (416, b!"Range Not Satisfiable")) (he : parseRanges f.content.length v = .error (.http st.1 st.2 htmlType)) :
    ∃ x, Delimited r.method (answer c pre (argsOf a r rest mx mls) f h err s) x ∧ (x.status : Int) = st.1 := by
  have hrange : (argsOf a r rest mx mls).range = some v := by rw [(args_eq g.head a rest).1, hv]
  have hx : sendfile c (argsOf a r rest mx mls) (some f) none = ([], some (.http st.1 st.2 htmlType)) := by
    rw [counts_eq (args_usable g.usable r rest mx mls) (counts_of g.head g.version rest hq) hrange, he]
  have run := (serve_run g.cfg g.fresh [] g.run err).2 (.http st.1 st.2 htmlType)
  have i := script_inv g.cfg g.fresh g.fine g.run
  have hs : s1.headers ≠ none := by
    obtain ⟨h, e, _⟩ := i.ex
    rw [e]; simp
  have hcl : App.Clean { handler := .coro (pre ++ []) (.raise (.http st.1 st.2 htmlType)), err := err } :=
    ⟨by simp, by simp, fun p hp => fine_clean (g.fine p (by simpa using hp)), e3⟩
  obtain ⟨bs, x, h1, h2, h3, h4⟩ := C89_error g.cfg g.sp hcl e1 e2 g.fresh run (by rw [i.same.log, g.fresh.log]) hs (by intro code h; cases h) (by intro h; cases h)
    (by rcases hst with rfl | rfl <;> decide) (show (10 : UInt8) ∉ htmlType by decide) (by rcases hst with rfl | rfl <;> decide) (by rcases hst with rfl | rfl <;> decide)
    (by rcases hst with rfl | rfl <;> exact .inl (by decide))
  refine ⟨x, ?_, by rw [h4]; rfl⟩
  have : answer c pre (argsOf a r rest mx mls) f h err s = bs := by
    unfold answer
    rw [same_handle g.handle, hx]
    show wireBytes (seen (handleRequest c { handler := .coro (pre ++ []) (.raise (.http st.1 st.2 htmlType)), err := err } s).log) = bs
    obtain ⟨t, ls, d, _, _, hl⟩ := C28_status_partial g.cfg hcl e1 e2 g.fresh run hs (by intro code h; cases h) (by intro h; cases h)
      (by rcases hst with rfl | rfl <;> decide) (show (10 : UInt8) ∉ htmlType by decide)
    rw [i.same.log, g.fresh.log, List.nil_append] at hl
    rw [hl] at h1
    rw [hl, show seen [.head t d { throttle := false }, .mark false] = [.head t d { throttle := false }, .mark false] from rfl]
    unfold wireBytes; rw [h1, filterMap_wire]
  rw [this, ← g.method]
  exact h3

/-- **C100**, ranges of which one does not lie within the file: the client reads a response with status 416. -/
theorem C100_unsatisfiable {c : Cfg} {s s1 : St} {pre : Script} {a : Args} {f : File} {h : Option Bytes} {r : ReqHead} {mx mls : Nat} (g : Given c s s1 pre a f h r mx mls)
    (rest : Bytes) {err : ErrHandler} (e1 : Script.Fine err.script) (e2 : ∀ x ∈ callsOf err.script, setsStatus x = false) (e3 : ∀ p ∈ err.script, Call.NoHeader p.1)
    (hq : AsksPart r f) {es : List Elem} {e : Elem} {post : List Elem} (ha : AsksFor (valuesOf r.pairs b!"range") (es ++ e :: post)) (hok : ∀ x ∈ es ++ e :: post, x.Ok)
    (hl : (es ++ e :: post).length ≤ 101) (hin : ∀ x ∈ es, x.range.within f.content.length ≠ none) (ho : e.range.within f.content.length = none) (no : ¬ e.range.Odd) :
    ∃ x, Delimited r.method (answer c pre (argsOf a r rest mx mls) f h err s) x ∧ x.status = 416 := by
  obtain ⟨v, hv, hav⟩ := asks_of ha
  obtain ⟨x, x1, x2⟩ := refused g rest e1 e2 e3 hq hv (st := (416, b!"Range Not Satisfiable")) (.inr rfl) (C25_unsatisfiable hav hok hl hin ho no)
  exact ⟨x, x1, by have : (x.status : Int) = 416 := x2; omega⟩

/-- **C100**, a Range header in another unit than bytes (alone or among others): status 400. -/
theorem C100_unit {c : Cfg} {s s1 : St} {pre : Script} {a : Args} {f : File} {h : Option Bytes} {r : ReqHead} {mx mls : Nat} (g : Given c s s1 pre a f h r mx mls)
    (rest : Bytes) {err : ErrHandler} (e1 : Script.Fine err.script) (e2 : ∀ x ∈ callsOf err.script, setsStatus x = false) (e3 : ∀ p ∈ err.script, Call.NoHeader p.1)
    (hq : AsksPart r f) {b : Bytes} (hb : b ∈ valuesOf r.pairs b!"range") (hu : ∀ t, b ≠ b!"bytes=" ++ t) :
    ∃ x, Delimited r.method (answer c pre (argsOf a r rest mx mls) f h err s) x ∧ x.status = 400 := by
  have hv : ∃ v, hvalOf (valuesOf r.pairs b!"range") = some v ∧ parseRanges f.content.length v = .error (.http 400 b!"Bad Request" htmlType) := by
    match hvs : valuesOf r.pairs b!"range" with
    | [] => rw [hvs] at hb; cases hb
    | [x] =>
      rw [hvs, List.mem_singleton] at hb
      subst hb
      exact ⟨_, rfl, (C25_unit f.content.length b hu).1⟩
    | x :: y :: t =>
      rw [hvs] at hb
      exact ⟨_, rfl, (C25_unit f.content.length b hu).2 _ hb⟩
  obtain ⟨v, hv, hp⟩ := hv
  obtain ⟨x, x1, x2⟩ := refused g rest e1 e2 e3 hq hv (st := (400, b!"Bad Request")) (.inl rfl) hp
  exact ⟨x, x1, by have : (x.status : Int) = 400 := x2; omega⟩

/-! ## Cases -/

namespace Download
def exFile : File := ⟨b!"0123456789", b!"Tue, 17 Nov 2026 10:00:00 GMT"⟩
def exArgs : Args := { ctype := b!"text/plain", o := { bufferSize := 3 }, boundary := b!"----BoundaryX" }
def exReq (m : Bytes) (fields : List (Bytes × Bytes)) : ReqHead := ⟨m, b!"/f", b!"1.1", ⟨b!"Host", true, b!"h"⟩ :: fields.map (fun p => ⟨p.1, true, p.2⟩)⟩
def exRead (m : Bytes) (fields : List (Bytes × Bytes)) : Option (Resp × Bytes) :=
  Spec.Client.readResponse false m (answer { method := m } [] (argsOf exArgs (exReq m fields) b!"next" 100 8192) exFile none {} { keepalive := true } ++ b!"HTTP/")

/-- The hypotheses hold for a GET of the whole file, of two ranges and for HEAD. -/
theorem exGiven (m : Bytes) (fields : List (Bytes × Bytes)) (w : (exReq m fields).Wf 100 8192) :
    Given { method := m } { keepalive := true } (runScript { method := m } [(.setBaseHeader, false)] { keepalive := true }).2 [] exArgs exFile none (exReq m fields) 100 8192 where
  cfg := ⟨show (10 : UInt8) ∉ b!"1.1" by decide, show (10 : UInt8) ∉ ([] : Bytes) by decide, show (10 : UInt8) ∉ ([] : Bytes) by decide⟩
  sp := show (32 : UInt8) ∉ b!"1.1" by decide
  fresh := ⟨rfl, rfl, rfl, rfl, rfl, rfl⟩
  fine := by intro x hx; cases hx
  run := rfl
  te := by intro x hx; cases hx
  ok := rfl
  usable := ⟨by decide, by decide, rfl, by decide, by decide⟩
  date := by decide +kernel
  handle := .inl rfl
  head := w
  method := rfl
  version := rfl
end Download

/-- The whole file, then one range, two ranges, the rest with the date, and a range beyond the end. -/
example : (exRead b!"GET" []).map (fun p => (got p.1, p.2)) = some (some [⟨0, 9, 10, b!"0123456789"⟩], b!"HTTP/") := by decide +kernel
example : (exRead b!"GET" [(b!"Range", b!"bytes=2-5")]).map (fun p => (got p.1, p.2)) = some (some [⟨2, 5, 10, b!"2345"⟩], b!"HTTP/") := by decide +kernel
example : (exRead b!"GET" [(b!"Range", b!"bytes=-1"), (b!"range", b!"bytes=0-0")]).map (fun p => (got p.1, p.2)) =
    some (some [⟨9, 9, 10, b!"9"⟩, ⟨0, 0, 10, b!"0"⟩], b!"HTTP/") := by decide +kernel
example : (exRead b!"GET" [(b!"Range", b!"bytes=7-"), (b!"If-Range", b!"Tue, 17 Nov 2026 10:00:00 GMT")]).map (fun p => (p.1.status, p.1.body)) = some (206, b!"789") := by decide +kernel
example : (exRead b!"GET" [(b!"Range", b!"bytes=7-"), (b!"If-Range", b!"Tue, 17 Nov 2026 09:00:00 GMT")]).map (fun p => (p.1.status, p.1.body)) = some (200, b!"0123456789") := by decide +kernel
example : (exRead b!"GET" [(b!"Range", b!"bytes=10-")]).map (fun p => p.1.status) = some 416 := by decide +kernel
example : (exRead b!"HEAD" []).map (fun p => (p.1.status, p.1.body)) = some (200, []) := by decide +kernel

/-- The hypotheses of the theorems hold for such requests. -/
example : (exReq b!"GET" [(b!"Range", b!"bytes=-1"), (b!"range", b!"bytes=0-0")]).Wf 100 8192 ∧ AsksPart (exReq b!"GET" [(b!"Range", b!"bytes=-1"), (b!"range", b!"bytes=0-0")]) exFile ∧
    AsksFor (valuesOf (exReq b!"GET" [(b!"Range", b!"bytes=-1"), (b!"range", b!"bytes=0-0")]).pairs b!"range") [⟨[], .suffix b!"1", []⟩, ⟨[], .between b!"0" b!"0", []⟩] ∧
    [(⟨[], .suffix b!"1", []⟩ : Elem), ⟨[], .between b!"0" b!"0", []⟩].map (fun e => e.range.within 10) = [(9, 9), (0, 0)].map some := by
  refine ⟨⟨by decide, by decide, by decide, ?_, fun _ => ⟨_, List.mem_cons_self, by decide⟩, by decide, by decide, by decide⟩, ⟨rfl, .inl (by decide)⟩,
    ⟨[[⟨[], .suffix b!"1", []⟩], [⟨[], .between b!"0" b!"0", []⟩]], by decide, by simp, by simp, rfl⟩, by decide⟩
  intro f hf
  simp only [exReq, List.mem_cons, List.map_cons, List.map_nil, List.not_mem_nil, or_false] at hf
  rcases hf with rfl | rfl | rfl <;> exact ⟨by decide, by decide, by decide, by decide, by decide, by decide⟩

/-- **C100** fails where C25 does: a range whose end lies behind the file is refused instead of cut, a client that asks for the
first 4096 bytes of a small file gets 416; -/
theorem C100_refuted_cut : (exRead b!"GET" [(b!"Range", b!"bytes=0-4095")]).map (fun p => p.1.status) = some 416 := by decide +kernel
/-- and if the boundary (with 32 random bits) occurs in the pieces, the client does not get them. -/
theorem C100_refuted_boundary : ∃ (B content : Bytes) (p : Nat × Nat), p.1 ≤ p.2 ∧ p.2 < content.length ∧
    (Spec.Download.readMultipart B (multipart B b!"t" content [p, p])).bind Spec.Download.pieces ≠
      some [⟨p.1, p.2, content.length, slice content p⟩, ⟨p.1, p.2, content.length, slice content p⟩] :=
  ⟨b!"B", b!"x\r\n--B--", (0, 7), by decide, by decide, by decide +kernel⟩

end Verif
