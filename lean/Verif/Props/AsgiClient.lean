import Verif.Props.Asgi
import Verif.Props.Download
import Verif.Props.Written
import Verif.Proofs.ClientMono
/-!
# C106: a client reads what an ASGI application sends
-/
namespace Verif
open Verif.Py Verif.Model.Response Verif.Spec.Response Verif.Proofs.Response Verif.Model.Asgi Verif.Spec.Asgi Verif.Proofs.Asgi Verif.Spec.Client Verif.Proofs.Client
open Asgi ClientProps

namespace AsgiClient

/-- The lines of the head say what the application said: for every name that the server does not manage, its lines with that name, in its order and spelling. -/
def AppLines (l : List (Bytes × Bytes)) (ls : List Bytes) : Prop :=
  ∀ n, lower n = n → n ∉ [b!"date", b!"server", b!"transfer-encoding", b!"connection", b!"content-type", b!"_line"] →
    named n ls = (l.filter (fun h => lower h.1 = n)).map (fun h => h.1 ++ b!": " ++ h.2)

/-- The messages of a complete response. -/
def msgs (st : Int) (l : List (Bytes × Bytes)) (ds : List Bytes) (d : Bytes) : List Msg := [.start (some st) l] ++ ds.map (fun d => .body d true) ++ [.body d false]

/-- What the application gives: a status with a phrase, headers without LF and with ordinary names. -/
structure Said (e : Env) (st : Int) (p : Bytes) (l : List (Bytes × Bytes)) : Prop where
  phrases : PhraseOk e.phrase
  known : e.phrase st = some p
  usable : ∀ h ∈ l, bad h = false ∧ plain h = true
  from200 : 200 ≤ st
  to999 : st < 1000

theorem ready_of {e : Env} {st : Int} {p : Bytes} {l : List (Bytes × Bytes)} (g : Said e st p l) : Ready e [.start (some st) l] := ⟨by simp [early], by
  intro m hm h hh
  simp only [List.mem_singleton] at hm; subst hm
  simp only [headersOf, g.known, Option.isSome_some, if_true] at hh
  exact g.usable h hh⟩

theorem calls_of {e : Env} {st : Int} {p : Bytes} {l : List (Bytes × Bytes)} (g : Said e st p l) : calls e [.start (some st) l] = [.setStatus st p] ++ l.flatMap headerCalls := by
  simp [calls, msgCalls, g.known]

theorem hdrs_of {e : Env} {st : Int} {p : Bytes} {l : List (Bytes × Bytes)} (g : Said e st p l) : hdrs e [.start (some st) l] = l := by
  simp [hdrs, headersOf, g.known]

theorem status_of {e : Env} {st : Int} {p : Bytes} {l : List (Bytes × Bytes)} (g : Said e st p l) : lastStatus (calls e [.start (some st) l]) = (st, p) := by
  rw [calls_of g, lastStatus_headers]
  simp [lastStatus, g.phrases st p g.known]

theorem app_lines {c : Cfg} {e : Env} {st : Int} {p : Bytes} {l : List (Bytes × Bytes)} (g : Said e st p l) {ch : Option Bool} {ka b : Bool} {t : Bytes} {rest : List Bytes}
    (sl : SentLines c (genCalls c { chunked := ch } (calls e [.start (some st) l]) ka) b t rest) :
    HeadIs t (b!"HTTP/" ++ c.version ++ b!" " ++ fmtInt st ++ b!" " ++ p) rest ∧ AppLines l rest := by
  obtain ⟨y, hg, ho⟩ := genOwn c { chunked := ch } (calls e [.start (some st) l]) ka
  rw [hg] at sl
  have ⟨n1, n2, n3⟩ := own_mid ho (calls e [.start (some st) l]) []
  simp only [List.append_nil] at n1 n2 n3
  constructor
  · have := sl.is
    rw [n1, status_of g] at this
    exact this
  · intro n hn hm
    simp only [List.mem_cons, List.not_mem_nil, or_false, not_or] at hm
    obtain ⟨m1, m2, m3, m4, m5, m6⟩ := hm
    have := sl.lines n (by simp [reserved]; exact ⟨m6, m5, m1, m2⟩)
    unfold named
    rw [this]
    have e1 : linesFor n (calls e [.start (some st) l] ++ y) = linesFor n (calls e [.start (some st) l]) := by
      by_cases hcl : n = b!"content-length"
      · subst hcl
        have : y = teCalls (wantsChunked c { chunked := ch } (lastStatus (calls e [.start (some st) l])).1) ++
            [.setHeader b!"Connection" (connValue ka (lastStatus (calls e [.start (some st) l])).1)] := by
          unfold genCalls at hg
          rw [List.append_assoc] at hg
          exact (List.append_cancel_left hg).symm
        rw [this]
        apply untouched_snoc
        intro y hy
        unfold teCalls at hy
        rcases List.mem_append.1 hy with h | h
        · split at h
          · simp only [List.mem_singleton] at h; subst h; simp [touches]; decide
          · cases h
        · simp only [List.mem_singleton] at h; subst h; simp [touches]; decide
      · exact n3 n (by simp [ownNames]; exact ⟨m6, m5, m1, m2, m4, hcl, m3⟩)
    have hmg : Spec.Asgi.managed n = false := by
      unfold Spec.Asgi.managed; rw [hn]; simp [m1, m2, m3, m4]
    rw [e1, calls_of g, linesFor_headers l n hmg hn m5]
    simp [linesFor]

theorem te_of {c : Cfg} {e : Env} {st : Int} {p : Bytes} {l : List (Bytes × Bytes)} (g : Said e st p l) {ch : Option Bool} {ka b : Bool} {t : Bytes} {rest : List Bytes}
    (sl : SentLines c (genCalls c { chunked := ch } (calls e [.start (some st) l]) ka) b t rest) :
    named b!"transfer-encoding" rest = if wantsChunked c { chunked := ch } st then [b!"Transfer-Encoding: chunked"] else [] := by
  have := sl.lines kTE (by decide)
  rw [te_lines, status_of g] at this
  exact this

theorem read_none {m t first : Bytes} {ls : List Bytes} (h : HeadIs t first ls) {st : Nat} (hst : Spec.Client.statusOf first = some st) {x : Bytes}
    (hb : readBody false m st ls x = none) (hn : values b!"transfer-encoding" ls ≠ [] ∨ values b!"content-length" ls ≠ []) {part more : Bytes} (hp : t ++ x = part ++ more) (closed : Bool) :
    readResponse closed m part = none := by
  have hf : first ≠ [] := by rintro rfl; cases hst
  have hr := head_read h hf x
  rw [hp] at hr
  refine cut_read hr hn ?_ closed
  unfold readResponse
  rw [hr]
  dsimp only
  rw [hst]
  dsimp only
  rw [hb]; rfl

theorem wire_pieces {t : Bytes} {W K : Bool} {l : List (Bytes × SendOpts)} (ho : ∀ x ∈ l, 0 < x.2.bufferSize) :
    wire (.head t [] { throttle := false } :: (Asgi.pieces W l ++ [.body (framed W []) { throttle := false }, .mark K])) =
      (t.map some ++ asked ((Asgi.pieces W l).map Emit.op) ++ (framed W []).map some) ++ [none] ∧
    marks (.head t [] { throttle := false } :: (Asgi.pieces W l ++ [.body (framed W []) { throttle := false }, .mark K])) = [K] := by
  constructor
  · have := wire_closed (log := [.head t [] { throttle := false }] ++ (Asgi.pieces W l ++ [.body (framed W []) { throttle := false }])) (by
        intro y hy
        simp only [List.mem_append, List.mem_singleton] at hy
        rcases hy with h | h | h
        · subst h; simp [Emit.op, SendOp.Ok]
        · obtain ⟨d', o', h1, rfl⟩ := pieces_mem h; exact fun _ => ho _ h1
        · subst h; simp [Emit.op, SendOp.Ok]) K
    simp only [List.append_assoc, List.cons_append, List.nil_append] at this ⊢
    rw [this]
    simp only [List.map_cons, List.map_append, asked, Emit.op, List.append_nil, asked_append, List.map_nil, List.append_assoc]
  · simp only [marks]
    rw [marks_append, marks_pieces]; rfl

theorem chunked_bytes (l : List (Bytes × SendOpts)) :
    asked ((Asgi.pieces true l).map Emit.op) ++ (framed true []).map some = (Spec.Body.encode (((l.map (·.1)).filter (· ≠ [])).map chunkOf) (Spec.Body.lastChunk b!"0" [] CRLF)).map some := by
  rw [← last_frame, ← asked_pieces]

theorem keep_of {c : Cfg} {ch : Option Bool} {calls : List Call} {ka : Bool} (hb : bodyless c (lastStatus calls).1 = false) : writeKeep c ch calls ka = genKeep c { chunked := ch } calls ka := by
  unfold writeKeep; rw [hb]; simp

end AsgiClient
open AsgiClient

/-- **C106**, without a Content-Length (HTTP/1.1; no earlier response of the connection gave one): the client reads one response, whatever follows; its status, header lines and body are
those of the application. The connection is kept if the request allows it and the application does not say `Connection: close`. -/
theorem C106_chunked {c : Cfg} (hc : CfgOk c) (hv : c.version = b!"1.1") {e : Env} (hbs : 0 < e.bufferSize) {st : Int} {p : Bytes} {l : List (Bytes × Bytes)} (g : Said e st p l)
    (ns : l.any sized = false) (ds : List Bytes) (d : Bytes) {a : A} (hf : Fresh a.resp) (hch : a.chunked = none) (nb : bodyless c st = false) :
    ∃ bs r, wire (run c e (msgs st l ds d) none a).resp.log = bs.map some ++ [none] ∧ marks (run c e (msgs st l ds d) none a).resp.log = [a.resp.keepalive && !l.any closes] ∧
      Delimited c.method bs r ∧ (r.status : Int) = st ∧ AppLines l r.fields ∧ r.body = (ds ++ [d]).flatten := by
  have hs := status_of g
  obtain ⟨t, rest, cs, sl, hl, ho, hlog⟩ := body_log hc g.phrases hbs hf ds d [.start (some st) l] (ready_of g) (by rw [hs]; exact nb)
  rw [hdrs_of g, ns, hch] at sl hlog
  rw [hs] at hlog
  simp only [Bool.false_eq_true, if_false] at sl hlog
  have nb' := nb
  simp only [bodyless, Bool.or_eq_false_iff] at nb'
  have hw : wantsChunked c { chunked := none } st = true := by simp [wantsChunked, hv, nb'.2]
  obtain ⟨hh, hal⟩ := app_lines g sl
  have hte := te_of g sl
  rw [hw] at hte hlog
  obtain ⟨w1, w2⟩ := wire_pieces (t := t) (W := true) (K := writeKeep c none (calls e [.start (some st) l]) (a.resp.keepalive && !l.any closes)) ho
  have hkeep : writeKeep c none (calls e [.start (some st) l]) (a.resp.keepalive && !l.any closes) = (a.resp.keepalive && !l.any closes) := by
    rw [keep_of (by rw [hs]; exact nb)]
    unfold genKeep
    rw [hs, hw]; simp
  have hlog' : (run c e (msgs st l ds d) none a).resp.log = _ := hlog
  rw [← hlog'] at w1 w2
  rw [hkeep] at w2
  refine ⟨t ++ Spec.Body.encode (((cs.map (·.1)).filter (· ≠ [])).map chunkOf) (Spec.Body.lastChunk b!"0" [] CRLF), ⟨st.toNat, rest, (ds ++ [d]).flatten⟩, ?_, w2, ?_, ?_, hal, rfl⟩
  · rw [w1, List.append_assoc (t.map some), chunked_bytes]; simp
  · intro closed tail
    rw [List.append_assoc]
    refine read_of hh (status_read (by rw [hv]; decide) (by have := g.from200; omega) g.to999 p) ?_
    have wf : ∀ x ∈ ((cs.map (·.1)).filter (· ≠ [])).map chunkOf, x.Wf := by
      intro x hx
      obtain ⟨y, hy, rfl⟩ := List.mem_map.1 hx
      exact chunkOf_wf (by simpa using (List.mem_filter.1 hy).2)
    rw [body_chunked (Written.has_body g.from200 nb) (by simpa using hte) wf, payload_chunks, hl]
  · show (st.toNat : Int) = st
    have := g.from200
    omega

/-- With one Content-Length: the client reads as many bytes as it says; the rest is left over. If it says more than the application sends, the client reads no response, not even from a
part of the bytes. -/
theorem C106_sized {c : Cfg} (hc : CfgOk c) (hv : (32 : UInt8) ∉ c.version) {e : Env} (hbs : 0 < e.bufferSize) {st : Int} {p : Bytes} {l : List (Bytes × Bytes)} (g : Said e st p l)
    {h : Bytes × Bytes} (hone : l.filter sized = [h]) {n : Nat} (hn : lengthOf (trim (32 :: h.2)) = some n) (ds : List Bytes) (d : Bytes) {a : A} (hf : Fresh a.resp) (nb : bodyless c st = false) :
    ∃ bs ls, wire (run c e (msgs st l ds d) none a).resp.log = bs.map some ++ [none] ∧ marks (run c e (msgs st l ds d) none a).resp.log = [a.resp.keepalive && !l.any closes] ∧
      AppLines l ls ∧
      (n ≤ (ds ++ [d]).flatten.length → ∀ closed tail, readResponse closed c.method (bs ++ tail) = some (⟨st.toNat, ls, (ds ++ [d]).flatten.take n⟩, (ds ++ [d]).flatten.drop n ++ tail)) ∧
      ((ds ++ [d]).flatten.length < n → ∀ part more, bs = part ++ more → ∀ closed, readResponse closed c.method part = none) := by
  have hs := status_of g
  obtain ⟨t, rest, cs, sl, hl, ho, hlog⟩ := body_log hc g.phrases hbs hf ds d [.start (some st) l] (ready_of g) (by rw [hs]; exact nb)
  have hany : l.any sized = true := by
    have : h ∈ l.filter sized := by rw [hone]; simp
    obtain ⟨h1, h2⟩ := List.mem_filter.1 this
    exact List.any_eq_true.2 ⟨h, h1, h2⟩
  rw [hdrs_of g, hany] at sl hlog
  rw [hs] at hlog
  simp only [if_true] at sl hlog
  have hw : wantsChunked c { chunked := some false } st = false := by simp [wantsChunked]
  obtain ⟨hh, hal⟩ := app_lines g sl
  have hte := te_of g sl
  rw [hw] at hte hlog
  have hte : named b!"transfer-encoding" rest = [] := by simpa using hte
  have hcl0 := hal b!"content-length" (by decide) (by decide)
  have hcl : named b!"content-length" rest = [h.1 ++ b!": " ++ h.2] := by
    rw [hcl0, show (fun h : Bytes × Bytes => decide (lower h.1 = b!"content-length")) = sized from rfl, hone]; rfl
  obtain ⟨w1, w2⟩ := wire_pieces (t := t) (W := false) (K := writeKeep c (some false) (calls e [.start (some st) l]) (a.resp.keepalive && !l.any closes)) ho
  have hkeep : writeKeep c (some false) (calls e [.start (some st) l]) (a.resp.keepalive && !l.any closes) = (a.resp.keepalive && !l.any closes) := by
    rw [keep_of (by rw [hs]; exact nb)]
    unfold genKeep
    have hlf : linesFor kCL (calls e [.start (some st) l]) ≠ [] := by
      rw [calls_of g, linesFor_headers l kCL (by decide) (by decide) (by decide)]
      have : h ∈ l.filter (fun h => lower h.1 = kCL) := by
        show h ∈ l.filter sized
        rw [hone]; simp
      intro hx
      rw [List.append_eq_nil_iff] at hx
      have := List.map_eq_nil_iff.1 hx.2
      simp_all
    have : (linesFor kCL (calls e [.start (some st) l])).isEmpty = false := by
      cases hq : linesFor kCL (calls e [.start (some st) l]) with
      | nil => exact absurd hq hlf
      | cons _ _ => rfl
    simp_all
  have hlog' : (run c e (msgs st l ds d) none a).resp.log = _ := hlog
  rw [← hlog'] at w1 w2
  rw [hkeep] at w2
  have hpl : (58 : UInt8) ∉ h.1 := by
    have : h ∈ l.filter sized := by rw [hone]; simp
    have := (g.usable h (List.mem_filter.1 this).1).2
    simp only [plain, Bool.and_eq_true, decide_eq_true_eq] at this
    exact this.1
  have hval : values b!"content-length" rest = [trim (32 :: h.2)] := by
    rw [values_eq, hcl, List.map_singleton, value_line hpl]
  have hsr := status_read (v := c.version) hv (st := st) (by have := g.from200; omega) g.to999 p
  have hcls := Written.has_body g.from200 nb
  refine ⟨t ++ (ds ++ [d]).flatten, rest, ?_, w2, hal, ?_, ?_⟩
  · rw [w1, Asgi.asked_raw, hl]; simp [framed]
  · intro hle closed tail
    rw [List.append_assoc]
    refine read_of hh hsr ?_
    unfold readBody
    rw [if_neg hcls, values_nil hte]
    dsimp only
    rw [hval]
    dsimp only
    rw [hn]
    dsimp only
    rw [if_neg (by rw [List.length_append]; omega), List.drop_append_of_le_length hle, List.take_append_of_le_length hle]
  · intro hlt part more hp closed
    refine read_none hh hsr ?_ (.inr (by rw [hval]; simp)) hp closed
    unfold readBody
    rw [if_neg hcls, values_nil hte]
    dsimp only
    rw [hval]
    dsimp only
    rw [hn]
    dsimp only
    rw [if_pos hlt]

/-- **C106** with a right Content-Length. -/
theorem C106_length {c : Cfg} (hc : CfgOk c) (hv : (32 : UInt8) ∉ c.version) {e : Env} (hbs : 0 < e.bufferSize) {st : Int} {p : Bytes} {l : List (Bytes × Bytes)} (g : Said e st p l)
    {h : Bytes × Bytes} (hone : l.filter sized = [h]) (ds : List Bytes) (d : Bytes) (hn : lengthOf (trim (32 :: h.2)) = some (ds ++ [d]).flatten.length) {a : A} (hf : Fresh a.resp)
    (nb : bodyless c st = false) :
    ∃ bs r, wire (run c e (msgs st l ds d) none a).resp.log = bs.map some ++ [none] ∧ marks (run c e (msgs st l ds d) none a).resp.log = [a.resp.keepalive && !l.any closes] ∧
      Delimited c.method bs r ∧ (r.status : Int) = st ∧ AppLines l r.fields ∧ r.body = (ds ++ [d]).flatten := by
  obtain ⟨bs, ls, e1, e2, e3, e4, -⟩ := C106_sized hc hv hbs g hone hn ds d hf nb
  refine ⟨bs, ⟨st.toNat, ls, (ds ++ [d]).flatten⟩, e1, e2, fun closed tail => ?_, ?_, e3, rfl⟩
  · have := e4 (Nat.le_refl _) closed tail
    rw [List.take_length, List.drop_length] at this
    exact this
  · show (st.toNat : Int) = st
    have := g.from200
    omega

/-- Without a Content-Length and without chunks (HTTP/1.0, or an earlier response of the connection had a Content-Length): the connection is closed behind the response, and the client
reads all that the application sent. -/
theorem C106_closed {c : Cfg} (hc : CfgOk c) (hv : (32 : UInt8) ∉ c.version) {e : Env} (hbs : 0 < e.bufferSize) {st : Int} {p : Bytes} {l : List (Bytes × Bytes)} (g : Said e st p l)
    (ns : l.any sized = false) (ds : List Bytes) (d : Bytes) {a : A} (hf : Fresh a.resp) (hr : a.chunked = some false ∨ (a.chunked = none ∧ c.version ≠ b!"1.1")) (nb : bodyless c st = false) :
    ∃ bs r, wire (run c e (msgs st l ds d) none a).resp.log = bs.map some ++ [none] ∧ marks (run c e (msgs st l ds d) none a).resp.log = [false] ∧
      Final c.method bs r ∧ (r.status : Int) = st ∧ AppLines l r.fields ∧ r.body = (ds ++ [d]).flatten := by
  have hs := status_of g
  obtain ⟨t, rest, cs, sl, hl, ho, hlog⟩ := body_log hc g.phrases hbs hf ds d [.start (some st) l] (ready_of g) (by rw [hs]; exact nb)
  rw [hdrs_of g, ns] at sl hlog
  rw [hs] at hlog
  simp only [Bool.false_eq_true, if_false] at sl hlog
  have hw : wantsChunked c { chunked := a.chunked } st = false := by
    rcases hr with h | ⟨h, h'⟩
    · simp [wantsChunked, h]
    · simp [wantsChunked, h, h']
  obtain ⟨hh, hal⟩ := app_lines g sl
  have hte := te_of g sl
  rw [hw] at hte hlog
  have hte : named b!"transfer-encoding" rest = [] := by simpa using hte
  have hcl0 := hal b!"content-length" (by decide) (by decide)
  have hfil : l.filter sized = [] := by
    rw [List.filter_eq_nil_iff]
    intro x hx hz
    have : l.any sized = true := List.any_eq_true.2 ⟨x, hx, hz⟩
    rw [ns] at this; cases this
  have hcl : named b!"content-length" rest = [] := by
    rw [hcl0, show (fun h : Bytes × Bytes => decide (lower h.1 = b!"content-length")) = sized from rfl, hfil]; rfl
  obtain ⟨w1, w2⟩ := wire_pieces (t := t) (W := false) (K := writeKeep c a.chunked (calls e [.start (some st) l]) (a.resp.keepalive && !l.any closes)) ho
  have hkeep : writeKeep c a.chunked (calls e [.start (some st) l]) (a.resp.keepalive && !l.any closes) = false := by
    rw [keep_of (by rw [hs]; exact nb)]
    unfold genKeep
    have hlf : linesFor kCL (calls e [.start (some st) l]) = [] := by
      rw [calls_of g, linesFor_headers l kCL (by decide) (by decide) (by decide), show (fun h : Bytes × Bytes => decide (lower h.1 = kCL)) = sized from rfl, hfil]
      simp [linesFor]
    have h101 : (st == 101) = false := beq_eq_false_iff_ne.2 (by have := g.from200; omega)
    rw [hlf, hs, hw, h101]; simp
  have hlog' : (run c e (msgs st l ds d) none a).resp.log = _ := hlog
  rw [← hlog'] at w1 w2
  rw [hkeep] at w2
  refine ⟨t ++ (ds ++ [d]).flatten, ⟨st.toNat, rest, (ds ++ [d]).flatten⟩, ?_, w2, ?_, ?_, hal, rfl⟩
  · rw [w1, Asgi.asked_raw, hl]; simp [framed]
  · exact read_of hh (status_read (v := c.version) hv (st := st) (by have := g.from200; omega) g.to999 p) (body_close (Written.has_body g.from200 nb) hte hcl _)
  · show (st.toNat : Int) = st
    have := g.from200
    omega

/-- A response without a body (HEAD, 204, 304): the client reads the head alone, whatever the application sends behind it, and the connection is closed. -/
theorem C106_bodyless {c : Cfg} (hc : CfgOk c) (hv : (32 : UInt8) ∉ c.version) {e : Env} {st : Int} {p : Bytes} {l : List (Bytes × Bytes)} (g : Said e st p l) {d : Bytes} {more : Bool}
    (hd : d ≠ [] ∨ more = false) (post : List Msg) (x : Option Exc) {a : A} (hf : Fresh a.resp) (nb : bodyless c st = true) (h5 : st ≠ 205 ∨ c.method = b!"HEAD") (h6 : st ≠ 426) :
    ∃ t r, seen (run c e (.start (some st) l :: .body d more :: post) x a).resp.log = [.head t [] { throttle := false }, .mark false] ∧ Delimited c.method t r ∧
      (r.status : Int) = st ∧ AppLines l r.fields ∧ r.body = [] := by
  have hs := status_of g
  have pp := ready_pre hc g.phrases (ready_of g) hf
  obtain ⟨t, rest, s1, sl, _, _, k3, k4, k5, k6, _, k8⟩ := body_first hc (e := e) hf.upgraded pp hd
  obtain ⟨r, hr⟩ := k8 (by rw [hs]; exact nb)
  have hk : s1.keepalive = false := by
    rw [k4, writeKeep, hs, nb, beq_eq_false_iff_ne.2 h6, beq_eq_false_iff_ne.2 (show st ≠ 101 by have := g.from200; omega)]
    simp only [Bool.not_true, Bool.or_false, Bool.and_false]
  obtain ⟨hh, hal⟩ := app_lines g sl
  refine ⟨t, ⟨st.toNat, rest, []⟩, ?_, ?_, ?_, hal, rfl⟩
  · obtain ⟨tail, k9, _⟩ := after_head c e post x (send c e ([Msg.start (some st) l].foldl (send c e) a) (.body d more)) (by
      show (body c e _ d more _).2.headers = none
      rw [hr]; exact k3)
    show seen (run c e post x (send c e ([Msg.start (some st) l].foldl (send c e) a) (.body d more))).resp.log = _
    rw [k9]
    show seen ((body c e _ d more _).2.log ++ tail) = _
    rw [hr]
    show seen (s1.log ++ _ ++ tail) = _
    rw [k6, hf.log, hk]
    simp [seen]
  · intro closed tail
    exact read_of hh (status_read (v := c.version) hv (st := st) (by have := g.from200; omega) g.to999 p) (body_none ((bodyless_iff g.from200 h5).1 nb) rest tail)
  · show (st.toNat : Int) = st
    have := g.from200
    omega

namespace AsgiClient

/-- The lines of an error response. -/
theorem err_head {c : Cfg} (hc : CfgOk c) {code : Int} {m ct : Bytes} (hm : (10 : UInt8) ∉ m) (ht : (10 : UInt8) ∉ ct) (n : Nat) :
    HeadIs (errText c code m ct n) (b!"HTTP/" ++ c.version ++ b!" " ++ fmtInt code ++ b!" " ++ m)
      [b!"Content-Type" ++ b!": " ++ ct, b!"Content-Length" ++ b!": " ++ fmtNat n, b!"Connection" ++ b!": " ++ b!"close", b!"Date" ++ b!": " ++ c.date, b!"Server" ++ b!": " ++ c.server] := by
  refine ⟨?_, ?_, ?_⟩
  · unfold errText
    simp [join, CRLF, CRLF2, List.append_assoc]
  · have := fmtInt_noLF code
    simp only [List.mem_append, not_or]
    exact ⟨⟨⟨⟨⟨by decide, hc.version⟩, by decide⟩, this⟩, by decide⟩, hm⟩
  · intro x hx
    have hn := fmtNat_noLF n
    simp only [List.mem_cons, List.not_mem_nil, or_false] at hx
    rcases hx with rfl | rfl | rfl | rfl | rfl
    · exact ⟨_, _, rfl, by decide, by decide, ht⟩
    · exact ⟨_, _, rfl, by decide, by decide, hn⟩
    · exact ⟨_, _, rfl, by decide, by decide, by decide⟩
    · exact ⟨_, _, rfl, by decide, by decide, hc.date⟩
    · exact ⟨_, _, rfl, by decide, by decide, hc.server⟩

end AsgiClient

/-- An application that raises before it sends a body: the client reads one complete error response, with the status and the page of the exception and no header of the application; the
connection is closed behind it. -/
theorem C106_error {c : Cfg} (hc : CfgOk c) (hv : (32 : UInt8) ∉ c.version) {e : Env} (he : PhraseOk e.phrase) {pre : List Msg} (hp : Ready e pre) {x : Exc} (hx : Plainly x)
    (h1 : 200 ≤ (asHttp x).1) (h2 : (asHttp x).1 < 1000) (h5 : (asHttp x).1 ≠ 205 ∨ c.method = b!"HEAD") {a : A} (hf : Fresh a.resp) :
    ∃ bs r, wire (run c e pre (some x) a).resp.log = bs.map some ++ [none] ∧ marks (run c e pre (some x) a).resp.log = [false] ∧ Delimited c.method bs r ∧
      (r.status : Int) = (asHttp x).1 ∧ r.body = (if bodyless c (asHttp x).1 then [] else e.page x) ∧
      r.fields.map nameOf = [b!"content-type", b!"content-length", b!"connection", b!"date", b!"server"] := by
  have pp := ready_pre hc he hp hf
  obtain ⟨⟨gg, i⟩, _, _⟩ := pp
  obtain ⟨h, eh, _⟩ := i.ex
  have hlog : (pre.foldl (send c e) a).resp.log = [] := by rw [← hf.log]; exact i.same.log
  have hup : (pre.foldl (send c e) a).resp.upgraded = false := by rw [← hf.upgraded]; exact i.same.upgraded
  have hl := (handle_spec hc (e := e) hx eh hup).1
  rw [hlog, List.nil_append, endBody_eq] at hl
  have hl : (run c e pre (some x) a).resp.log = _ := hl
  rw [hl]
  have hh := err_head hc (code := (asHttp x).1) hx.2.2.1 hx.2.2.2 (e.page x).length
  generalize hls : [b!"Content-Type" ++ b!": " ++ (asHttp x).2.2, b!"Content-Length" ++ b!": " ++ fmtNat (e.page x).length, b!"Connection" ++ b!": " ++ b!"close", b!"Date" ++ b!": " ++ c.date,
    b!"Server" ++ b!": " ++ c.server] = ls at hh
  have hn : ls.map nameOf = [b!"content-type", b!"content-length", b!"connection", b!"date", b!"server"] := by
    rw [← hls]; rfl
  have hte : named b!"transfer-encoding" ls = [] := by rw [← hls]; rfl
  have hcl : named b!"content-length" ls = [b!"Content-Length: " ++ fmtNat (e.page x).length] := by rw [← hls]; rfl
  refine ⟨errText c (asHttp x).1 (asHttp x).2.1 (asHttp x).2.2 (e.page x).length ++ (if bodyless c (asHttp x).1 then [] else e.page x),
    ⟨(asHttp x).1.toNat, ls, if bodyless c (asHttp x).1 then [] else e.page x⟩, ?_, rfl, ?_, ?_, rfl, hn⟩
  · have := wire_closed (log := [.head (errText c (asHttp x).1 (asHttp x).2.1 (asHttp x).2.2 (e.page x).length) (if bodyless c (asHttp x).1 then [] else e.page x) { throttle := false }])
      (by simp [Emit.op, SendOp.Ok]) false
    simpa [Emit.op, asked] using this
  · intro closed tail
    rw [List.append_assoc]
    refine read_of hh (status_read (v := c.version) hv (st := (asHttp x).1) (by omega) h2 _) ?_
    by_cases hb : bodyless c (asHttp x).1 = true
    · rw [if_pos hb]
      exact body_none ((bodyless_iff h1 h5).1 hb) ls tail
    · rw [if_neg hb]
      exact body_length (fun hz => hb ((bodyless_iff h1 h5).2 hz)) hte hcl (Proofs.Numeral.canonical_fmtNat _) (Proofs.Numeral.valueOf_fmtNat _) tail
  · show ((asHttp x).1.toNat : Int) = _
    omega

/-- An application that raises in the middle of its body: the connection is aborted. If the response was chunked, then the client reads no complete response from what it got of it, be
it all or a part, and whether or not it sees the end of the connection. -/
theorem C106_cut {c : Cfg} (hc : CfgOk c) (hv : c.version = b!"1.1") {e : Env} {st : Int} {p : Bytes} {l : List (Bytes × Bytes)} (g : Said e st p l)
    (ns : l.any sized = false) {d : Bytes} (hd : d ≠ []) (ds : List Bytes) (x : Exc) {a : A} (hf : Fresh a.resp) (hch : a.chunked = none) (nb : bodyless c st = false) :
    ∃ bs, asked ((run c e (.start (some st) l :: (d :: ds).map (fun d => .body d true)) (some x) a).resp.log.map Emit.op) = bs.map some ∧
      (run c e (.start (some st) l :: (d :: ds).map (fun d => .body d true)) (some x) a).resp.aborted = true ∧
      ∀ part more, bs = part ++ more → ∀ closed, readResponse closed c.method part = none := by
  have hs := status_of g
  have pp := ready_pre hc g.phrases (ready_of g) hf
  obtain ⟨t, rest, s1, sl, _, _, k3, k4, k5, k6, k7, _⟩ := body_first hc (e := e) (d := d) (more := true) hf.upgraded pp (.inl hd)
  obtain ⟨hu, hb⟩ := k7 (by rw [hs]; exact nb)
  rw [pp.chunked, hdrs_of g, ns, hch] at sl k5
  simp only [Bool.false_eq_true, if_false] at sl k5
  have nb' := nb
  simp only [bodyless, Bool.or_eq_false_iff] at nb'
  have hw : wantsChunked c { chunked := none } st = true := by simp [wantsChunked, hv, nb'.2]
  rw [hs, hw] at k5
  obtain ⟨hh, -⟩ := app_lines g sl
  have hte := te_of g sl
  rw [hw] at hte
  have hte : named b!"transfer-encoding" rest = [b!"Transfer-Encoding: chunked"] := by simpa using hte
  have hval : values b!"transfer-encoding" rest = [b!"chunked"] := values_one (n := b!"Transfer-Encoding") (v := b!"chunked") (by rw [hte]; rfl) (by decide)
    (fun b hb => (by
      have := List.all_eq_true.1 (show (b!"chunked").all (fun b => decide (b ≠ 32 ∧ b ≠ 9)) = true by decide) b hb
      simpa using this))
  have e2 : send c e ([Msg.start (some st) l].foldl (send c e) a) (.body d true) =
      A.mk { s1 with log := s1.log ++ bodyTail s1.chunked s1.keepalive e.bufferSize false d true } ([Msg.start (some st) l].foldl (send c e) a).chunked := by
    show A.mk (body c e _ d true _).2 _ = _
    rw [hb]
  have e3 : (run c e (.start (some st) l :: (d :: ds).map (fun d => .body d true)) (some x) a).resp =
      handle c e x (ds.foldl (fun a d => send c e a (.body d true)) (send c e ([Msg.start (some st) l].foldl (send c e) a) (.body d true))).resp := by
    unfold run
    simp only [List.map_cons, List.foldl_cons, List.foldl_nil, List.foldl_map]
  rw [e3, e2, bodies_sent ds (by exact k3)]
  dsimp only
  rw [k6, hf.log, hu, k5, flat_pieces, bodyTail_pieces]
  simp only [List.nil_append, if_true, Bool.not_false, Bool.and_self, List.append_nil]
  rw [List.append_assoc, ← pieces_append]
  generalize hcs : [(d, ({ throttle := false, bufferSize := e.bufferSize } : SendOpts))] ++ ds.map (fun d => (d, { throttle := true, bufferSize := e.bufferSize })) = cs
  have hfst : cs.map (·.1) = d :: ds := by rw [← hcs]; simp [Function.comp_def]
  have ha : ∀ s : St, s.headers = none → s.upgraded = false → (handle c e x s).log = s.log ∧ (handle c e x s).aborted = true := by
    intro s q1 q2
    unfold handle handleException
    rw [bind_ok (get_run s), if_pos (by simp [headersSent, q1, q2])]
    exact ⟨rfl, rfl⟩
  obtain ⟨h1, h2⟩ := ha { s1 with chunked := true, upgraded := false, log := [.head t [] { throttle := false }] ++ Asgi.pieces true cs } (by exact k3) rfl
  rw [h1, h2]
  have hq := asked_pieces cs []
  simp only [List.map_nil, List.append_nil] at hq
  refine ⟨t ++ Spec.Body.encode (((cs.map (·.1)).filter (· ≠ [])).map chunkOf) [], ?_, rfl, ?_⟩
  · simp only [List.map_append, List.map_cons, List.map_nil, asked_append, asked, Emit.op, List.append_nil]
    rw [hq]
  · intro part more hp closed
    refine read_none hh (status_read (v := c.version) (by rw [hv]; decide) (st := st) (by have := g.from200; omega) g.to999 p) ?_ (.inl (by rw [hval]; simp)) hp closed
    unfold readBody
    rw [if_neg (Written.has_body g.from200 nb), hval]
    dsimp only
    rw [if_pos (by decide), hfst]
    have hne : ∀ {xs : List Bytes}, (∀ z ∈ xs, z ≠ []) → Spec.Written.upToEmpty xs = none := by
      intro xs
      induction xs with
      | nil => intro _; rfl
      | cons z zs ih => intro hz; rw [Spec.Written.upToEmpty, if_neg (hz z (by simp)), ih (fun y hy => hz y (by simp [hy]))]; rfl
    have := Written.chunks_open (ds := (d :: ds).filter (· ≠ [])) (hne (fun z hz => by simpa using (List.mem_filter.1 hz).2))
    have enc : ∀ xs : List Bytes, (xs.map (framed true)).flatten = Spec.Body.encode (xs.map chunkOf) [] := by
      intro xs
      induction xs with
      | nil => rfl
      | cons z zs ih => rw [List.map_cons, List.flatten_cons, ih, List.map_cons, Spec.Body.encode]; simp [chunkOf, framed]
    rw [enc] at this
    exact this _

/-! ## Several responses on one connection -/

namespace AsgiClient

/-- A request (its method) and what the application answers. -/
structure Exch where
  method : Bytes
  st : Int
  p : Bytes
  l : List (Bytes × Bytes)
  ds : List Bytes
  d : Bytes

def Exch.body (x : Exch) : Bytes := (x.ds ++ [x.d]).flatten

/-- What is queued for requests that come one after the other on a kept connection; the flag that turns chunks off lasts as long as the connection. -/
def serveAll (c : Cfg) (e : Env) : Option Bool → List Exch → List (List Emit)
  | _, [] => []
  | f, x :: r =>
    let a := run { c with method := x.method } e (msgs x.st x.l x.ds x.d) none { resp := { keepalive := true }, chunked := f }
    a.resp.log :: serveAll c e a.chunked r

/-- Each response has a right Content-Length, or none, and none of those before it has one; no response asks for the end of the connection. -/
def Fits (c : Cfg) (e : Env) : Bool → List Exch → Prop
  | _, [] => True
  | sizedBefore, x :: r => Said e x.st x.p x.l ∧ bodyless { c with method := x.method } x.st = false ∧ x.l.any closes = false ∧
    ((∃ h, x.l.filter sized = [h] ∧ lengthOf (trim (32 :: h.2)) = some x.body.length) ∨ (sizedBefore = false ∧ x.l.any sized = false)) ∧ Fits c e (sizedBefore || x.l.any sized) r

theorem chunked_after {c : Cfg} (hc : CfgOk c) {e : Env} {st : Int} {p : Bytes} {l : List (Bytes × Bytes)} (g : Said e st p l) (ds : List Bytes) (d : Bytes) {a : A} (hf : Fresh a.resp) :
    (run c e (msgs st l ds d) none a).chunked = if l.any sized then some false else a.chunked := by
  have pp := ready_pre hc g.phrases (ready_of g) hf
  have key : ∀ (ms : List Msg) (b : A), (∀ m ∈ ms, ∃ d more, m = .body d more) → (ms.foldl (send c e) b).chunked = b.chunked := by
    intro ms
    induction ms with
    | nil => intro b _; rfl
    | cons m ms ih =>
      intro b h
      obtain ⟨d, more, rfl⟩ := h m (by simp)
      rw [List.foldl_cons, ih _ (fun y hy => h y (by simp [hy]))]; rfl
  have h1 := pp.chunked
  rw [hdrs_of g] at h1
  rw [← h1]
  unfold msgs
  rw [List.append_assoc, run_append]
  exact key _ _ (by
    intro m hm
    simp only [List.mem_append, List.mem_map, List.mem_singleton] at hm
    rcases hm with ⟨y, _, rfl⟩ | rfl
    · exact ⟨_, _, rfl⟩
    · exact ⟨_, _, rfl⟩)

end AsgiClient

/-- **C106** for a kept connection: the client reads the responses one by one, each with the status, header lines and body that the application gave for its request, and nothing is left
over; no end marker closes the connection. -/
theorem C106_sequence {c : Cfg} (hc : CfgOk c) (hv : c.version = b!"1.1") {e : Env} (hbs : 0 < e.bufferSize) : ∀ (xs : List Exch) (f : Option Bool) (b : Bool),
    (f = if b then some false else none) → Fits c e b xs → ∃ rs : List Resp, (∀ closed tail, readAll closed (xs.map (·.method)) (((serveAll c e f xs).map wireBytes).flatten ++ tail) = some (rs, tail)) ∧
      (∀ log ∈ serveAll c e f xs, marks log = [true]) ∧ rs.map (fun r => ((r.status : Int), r.body)) = xs.map (fun x => (x.st, x.body)) ∧
      (∀ y ∈ rs.zip xs, AppLines y.2.l y.1.fields) := by
  intro xs
  induction xs with
  | nil => intro f b _ _; exact ⟨[], fun _ _ => rfl, (fun _ h => by cases h), rfl, (fun _ h => by cases h)⟩
  | cons x xs ih =>
    intro f b hfb hfit
    obtain ⟨g, nb, ncl, hlen, hrest⟩ := hfit
    have hc' : CfgOk { c with method := x.method } := ⟨hc.version, hc.date, hc.server⟩
    have hfr : Fresh ({ keepalive := true } : St) := ⟨rfl, rfl, rfl, rfl, rfl, rfl⟩
    have hfl := chunked_after hc' g x.ds x.d (a := { resp := { keepalive := true }, chunked := f }) hfr
    have one : ∃ bs r, wire (run { c with method := x.method } e (msgs x.st x.l x.ds x.d) none { resp := { keepalive := true }, chunked := f }).resp.log = bs.map some ++ [none] ∧
        marks (run { c with method := x.method } e (msgs x.st x.l x.ds x.d) none { resp := { keepalive := true }, chunked := f }).resp.log = [true] ∧
        Delimited x.method bs r ∧ (r.status : Int) = x.st ∧ AppLines x.l r.fields ∧ r.body = x.body := by
      rcases hlen with ⟨h, h1, h2⟩ | ⟨h1, h2⟩
      · have := C106_length hc' (by show _ ∉ c.version; rw [hv]; decide) hbs g h1 x.ds x.d h2 (a := { resp := { keepalive := true }, chunked := f }) hfr nb
        rw [ncl] at this
        exact this
      · have := C106_chunked hc' hv hbs g h2 x.ds x.d (a := { resp := { keepalive := true }, chunked := f }) hfr (by rw [hfb, h1]; rfl) nb
        rw [ncl] at this
        exact this
    obtain ⟨bs, r, w, mk, del, q1, q2, q3⟩ := one
    obtain ⟨rs, i1, i2, i3, i4⟩ := ih (run { c with method := x.method } e (msgs x.st x.l x.ds x.d) none { resp := { keepalive := true }, chunked := f }).chunked (b || x.l.any sized) (by
      rw [hfl, hfb]; cases b <;> cases x.l.any sized <;> rfl) hrest
    have hwb : wireBytes (run { c with method := x.method } e (msgs x.st x.l x.ds x.d) none { resp := { keepalive := true }, chunked := f }).resp.log = bs := by
      unfold wireBytes; rw [w, Download.filterMap_wire]
    refine ⟨r :: rs, ?_, ?_, ?_, ?_⟩
    · intro closed tail
      rw [List.map_cons, serveAll]
      rw [List.map_cons, List.flatten_cons, hwb, List.append_assoc, readAll, del closed]
      dsimp only
      rw [i1 closed tail]; rfl
    · intro log hlog
      rw [serveAll] at hlog
      rcases List.mem_cons.1 hlog with h | h
      · rw [h]; exact mk
      · exact i2 log h
    · rw [List.map_cons, List.map_cons, i3, q1, q3]
    · intro y hy
      rw [List.zip_cons_cons] at hy
      rcases List.mem_cons.1 hy with h | h
      · rw [h]; exact q2
      · exact i4 y h

/-! ## Cases -/

namespace AsgiClient

def keptA : A := { resp := { keepalive := true } }
def env200 : Env := { phrase := somePhrases }
theorem said_ok {l : List (Bytes × Bytes)} (h : l.all (fun h => !bad h && plain h) = true) : Said env200 200 b!"OK" l :=
  ⟨somePhrases_ok, rfl, fun x hx => by simpa using List.all_eq_true.1 h x hx, by decide, by decide⟩
def readsOf (log : List Emit) (m : Bytes := b!"GET") (closed : Bool := true) : Option (Nat × Bytes × Bytes) := (readResponse closed m (wireBytes log)).map (fun p => (p.1.status, p.1.body, p.2))

end AsgiClient

/-- Two requests, the first answered in three pieces without a length, the second with one. -/
example : Fits { date := b!"D", server := b!"S" } env200 false [⟨b!"GET", 200, b!"OK", [(b!"X-A", b!"1")], [b!"ab", []], b!"cde"⟩, ⟨b!"POST", 200, b!"OK", [(b!"content-LENGTH", b!"5")], [b!"hel"], b!"lo"⟩] ∧
    (readAll false [b!"GET", b!"POST"] ((serveAll { date := b!"D", server := b!"S" } env200 none [⟨b!"GET", 200, b!"OK", [(b!"X-A", b!"1")], [b!"ab", []], b!"cde"⟩,
      ⟨b!"POST", 200, b!"OK", [(b!"content-LENGTH", b!"5")], [b!"hel"], b!"lo"⟩]).map wireBytes).flatten).map (fun p => (p.1.map (fun r => (r.status, r.body)), p.2)) =
      some ([(200, b!"abcde"), (200, b!"hello")], []) := by
  refine ⟨⟨said_ok (by decide +kernel), by decide +kernel, by decide +kernel, .inr ⟨rfl, by decide +kernel⟩, said_ok (by decide +kernel), by decide +kernel, by decide +kernel,
    .inl ⟨(b!"content-LENGTH", b!"5"), by decide +kernel, by decide +kernel⟩, trivial⟩, by decide +kernel⟩

/-- A response to HEAD; an application that fails before and after its first piece. -/
example : (∃ bs, seen (run { method := b!"HEAD" } env200 [.start (some 200) [(b!"X-A", b!"1")], .body b!"ab" true, .body [] false] none keptA).resp.log = [.head bs [] { throttle := false }, .mark false]) ∧
    readsOf (seen (run { method := b!"HEAD" } env200 [.start (some 200) [(b!"X-A", b!"1")], .body b!"ab" true, .body [] false] none keptA).resp.log) b!"HEAD" = some (200, [], []) ∧
    readsOf (run {} env200 [.start (some 200) [(b!"X-A", b!"1")]] (some .other) keptA).resp.log = some (500, env200.page .other, []) ∧
    readsOf (run {} env200 [.start (some 200) [(b!"X-A", b!"1")], .body b!"ab" true] (some .other) keptA).resp.log = none := by
  refine ⟨⟨_, rfl⟩, ?_, ?_, ?_⟩ <;> decide +kernel

/-- **C106 fails** for a Content-Length that is too small: the server does not check it, the connection is kept, and the client takes the rest for its next response. -/
theorem C106_refuted_small : let log := (run {} env200 (msgs 200 [(b!"Content-Length", b!"2")] [] b!"okHTTP/1.1 200 OK\r\n\r\n") none keptA).resp.log
    marks log = [true] ∧ readsOf log b!"GET" false = some (200, b!"ok", b!"HTTP/1.1 200 OK\r\n\r\n") := by decide +kernel

/-- One that is too large: the client takes the next response for the rest of the body. -/
theorem C106_refuted_large : let log := (run {} env200 (msgs 200 [(b!"Content-Length", b!"9")] [] b!"ok") none keptA).resp.log
    marks log = [true] ∧ readsOf log = none ∧ readsOf (log ++ log) = some (200, b!"okHTTP/1.", b!"1 200 OK\r\nDate: \r\nServer: \r\nContent-Length: 9\r\nContent-Type: text/html; charset=utf-8\r\nConnection: keep-alive\r\n\r\nok") := by
  decide +kernel

/-- An application that fails in the middle of a response without a length and without chunks (HTTP/1.0): the client cannot tell that the rest is missing. -/
theorem C106_refuted_cut : let a := run { version := b!"1.0" } env200 [.start (some 200) [], .body b!"only the first half, " true] (some .other) keptA
    a.resp.aborted = true ∧ readsOf a.resp.log = some (200, b!"only the first half, ", []) := by decide +kernel

/-- An application that returns without the last body message: the response has no end, and the connection is not closed either. -/
theorem C106_refuted_open : let a := run {} env200 [.start (some 200) [], .body b!"hello" true] none keptA
    readsOf a.resp.log = none ∧ marks a.resp.log = [] ∧ a.resp.aborted = false := by decide +kernel

end Verif
