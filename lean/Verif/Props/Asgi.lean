import Verif.Proofs.Asgi
import Verif.Props.ResponseEnds
/-!
# ASGI responses: C46, C65, C66, C67
-/
namespace Verif
open Verif.Py Verif.Model.Upload Verif.Model.Response Verif.Spec.Response Verif.Proofs.Response Verif.Model.Asgi Verif.Spec.Asgi Verif.Proofs.Asgi

namespace Asgi

/-- The messages before the head: only `http.response.start` (with usable headers) and empty bodies that are not the last. -/
structure Ready (e : Env) (pre : List Msg) : Prop where
  early : ∀ m ∈ pre, early m = true
  usable : ∀ m ∈ pre, ∀ h ∈ headersOf e.phrase m, bad h = false ∧ plain h = true

/-- What the messages ask for, and the headers they give. -/
abbrev calls (e : Env) (pre : List Msg) : List Call := pre.flatMap (msgCalls e.phrase)
abbrev hdrs (e : Env) (pre : List Msg) : List (Bytes × Bytes) := pre.flatMap (headersOf e.phrase)

theorem ready_pre {c : Cfg} (hc : CfgOk c) {e : Env} (he : PhraseOk e.phrase) {pre : List Msg} (hp : Ready e pre) {a : A} (hf : Fresh a.resp) :
    Pre c a.resp a.chunked (calls e pre) (hdrs e pre) (pre.foldl (send c e) a) := by
  simpa using early_pre hc he pre hp.early hp.usable (fresh_pre (c := c) hf)

theorem untouched_header {n : Bytes} (h : Spec.Asgi.managed n = true) (hn : n = b!"date" ∨ n = b!"server" ∨ n = b!"transfer-encoding" ∨ n = b!"connection")
    (l : List (Bytes × Bytes)) : ∀ y ∈ l.flatMap headerCalls, touches n y = false := by
  intro y hy
  obtain ⟨x, _, hx⟩ := List.mem_flatMap.1 hy
  unfold headerCalls at hx
  split at hx
  · cases hx
  · next hm =>
    split at hx
    · simp only [List.mem_singleton] at hx; subst hx; rfl
    · simp only [List.mem_singleton] at hx; subst hx
      simp only [touches, decide_eq_false_iff_not]
      intro he
      apply hm
      simp only [Spec.Asgi.managed, he]
      rcases hn with rfl | rfl | rfl | rfl <;> decide

theorem untouched_calls {n : Bytes} (hn : n = b!"date" ∨ n = b!"server" ∨ n = b!"transfer-encoding" ∨ n = b!"connection") (e : Env) (pre : List Msg) :
    ∀ y ∈ calls e pre, touches n y = false := by
  intro y hy
  obtain ⟨m, _, hm⟩ := List.mem_flatMap.1 hy
  have hmg : Spec.Asgi.managed n = true := by rcases hn with rfl | rfl | rfl | rfl <;> decide
  cases m with
  | body d more => cases hm
  | start st l =>
    cases st with
    | none => exact untouched_header hmg hn l y hm
    | some x =>
      simp only [msgCalls] at hm
      split at hm
      · rcases List.mem_cons.1 hm with h | h
        · subst h; rfl
        · exact untouched_header hmg hn l y h
      · cases hm

theorem te_lines (c : Cfg) (ch : Option Bool) (e : Env) (pre : List Msg) (ka : Bool) :
    linesFor kTE (genCalls c { chunked := ch } (calls e pre) ka) = if wantsChunked c { chunked := ch } (lastStatus (calls e pre)).1 then [b!"Transfer-Encoding: chunked"] else [] := by
  cases hw : wantsChunked c { chunked := ch } (lastStatus (calls e pre)).1 with
  | true => exact gen_te c { chunked := ch } _ _ hw
  | false =>
    have : linesFor kTE ([] ++ genCalls c { chunked := ch } (calls e pre) ka) = linesFor kTE [] := by
      apply untouched_snoc
      intro y hy
      unfold genCalls teCalls at hy
      rw [hw] at hy
      simp only [Bool.false_eq_true, if_false, List.append_nil, List.mem_append, List.mem_singleton] at hy
      rcases hy with h | h
      · exact untouched_calls (.inr (.inr (.inl rfl))) e pre y h
      · subst h; simp [touches]; decide
    simpa [linesFor] using this

end Asgi
open Asgi

/-! ## C46 -/

/-- **C46** for headers with ordinary names: whatever headers the application gives, and whatever it sends afterwards, one
head goes out; it has the server's Date line, the server's Server line, at most one Transfer-Encoding line, which is the
server's, and every other line is a well-formed field. Missing: names that contain a colon or are `_line`. -/
theorem C46_partial {c : Cfg} (hc : CfgOk c) {e : Env} (he : PhraseOk e.phrase) {pre : List Msg} (hp : Ready e pre) {d : Bytes} {more : Bool}
    (hd : d ≠ [] ∨ more = false) (post : List Msg) (x : Option Exc) {a : A} (hf : Fresh a.resp) :
    ∃ t rest tail, (run c e (pre ++ .body d more :: post) x a).resp.log = .head t [] { throttle := false } :: tail ∧ (∀ y ∈ tail, isHead y = false) ∧
      (∃ first, HeadIs t first rest) ∧ named b!"date" rest = [b!"Date: " ++ c.date] ∧ named b!"server" rest = [b!"Server: " ++ c.server] ∧
      (named b!"transfer-encoding" rest = [] ∨ named b!"transfer-encoding" rest = [b!"Transfer-Encoding: chunked"]) := by
  have p := ready_pre hc he hp hf
  obtain ⟨t, rest, s1, sl, h1, h2, h3, h4, h5, h6, h7, h8⟩ := body_first hc (e := e) hf.upgraded p hd
  have key : ∃ r, (send c e (pre.foldl (send c e) a) (.body d more)).resp.log = .head t [] { throttle := false } :: r ∧
      (send c e (pre.foldl (send c e) a) (.body d more)).resp.headers = none ∧ ∀ y ∈ r, isHead y = false := by
    show ∃ r, (body c e _ d more _).2.log = _ ∧ (body c e _ d more _).2.headers = none ∧ _
    rw [hf.log] at h6
    cases hb : bodyless c (lastStatus (calls e pre)).1 with
    | false =>
      rw [(h7 hb).2]
      refine ⟨bodyTail s1.chunked s1.keepalive e.bufferSize false d more, by simp [h6], h3, fun y hy => ?_⟩
      unfold bodyTail at hy
      rcases List.mem_append.1 hy with h | h
      · split at h
        · cases h
        · simp only [List.mem_singleton] at h; subst h; rfl
      · split at h
        · cases h
        · simp only [List.mem_cons, List.not_mem_nil, or_false] at h
          rcases h with rfl | rfl <;> rfl
    | true =>
      obtain ⟨r, hr⟩ := h8 hb
      have hg := good_body c e (pre.foldl (send c e) a).chunked d more (pre.foldl (send c e) a).resp
      rw [hr] at hg ⊢
      refine ⟨.mark s1.keepalive :: r, by simp [h6], h3, ?_⟩
      obtain ⟨l, e1, _, _, e4⟩ := hg.log
      obtain ⟨g, i⟩ := p.inv
      obtain ⟨h, eh, _⟩ := i.ex
      obtain ⟨a1, t', b', o', r', e5, e6, e7⟩ := e4 (by rw [eh]; simp) h3
      have hl0 : (pre.foldl (send c e) a).resp.log = [] := i.same.log.trans hf.log
      rw [hl0, e5, h6] at e1
      simp only [List.nil_append] at e1
      cases a1 with
      | nil =>
        simp only [List.nil_append, List.cons_append, List.cons.injEq] at e1
        rw [e1.2]
        intro y hy
        have := e7 y hy
        cases y <;> simp_all [NotHead, isHead]
      | cons z zs =>
        simp only [List.cons_append, List.cons.injEq, List.nil_append] at e1
        have := e6 z (by simp)
        rw [← e1.1] at this
        exact absurd this (by simp [Quiet])
  obtain ⟨r, k1, k2, k3⟩ := key
  rw [run_append]
  obtain ⟨tail, k4, k5⟩ := after_head c e post x (send c e (pre.foldl (send c e) a) (.body d more)) k2
  refine ⟨t, rest, r ++ tail, ?_, ?_, ⟨_, sl.is⟩, h1, h2, ?_⟩
  · show (run c e post x (send c e (pre.foldl (send c e) a) (.body d more))).resp.log = _
    rw [k4, k1]; rfl
  · intro y hy
    rcases List.mem_append.1 hy with h | h
    · exact k3 y h
    · exact k5 y h
  · have := sl.lines kTE (by decide)
    rw [te_lines] at this
    unfold named
    rw [this]
    split
    · exact .inr rfl
    · exact .inl rfl

/-- **C46**, LF in a name or a value: the client sees the server's error response, which is the same whatever the headers
are, and the end of the connection; nothing else that the application sends or raises is seen. -/
theorem C46_lf {c : Cfg} (hc : CfgOk c) {e : Env} (he : PhraseOk e.phrase) {st : Option Int} (hst : ∀ x, st = some x → (e.phrase x).isSome)
    {l : List (Bytes × Bytes)} (hb : ∃ h ∈ l, (10 : UInt8) ∈ h.1 ∨ (10 : UInt8) ∈ h.2) (post : List Msg) (x : Option Exc) {a : A} (hf : Fresh a.resp) :
    seen (run c e (.start st l :: post) x a).resp.log =
      [.head (errText c 500 b!"Internal Server Error" b!"text/html; charset=utf-8" (e.page ise).length) (if c.method = b!"HEAD" then [] else e.page ise) { throttle := false }, .mark false] := by
  have hb' : ∃ h ∈ l, bad h = true := by
    obtain ⟨h, h1, h2⟩ := hb
    exact ⟨h, h1, by simpa [bad] using h2⟩
  obtain ⟨h1, h2⟩ := start_bad hc he hf hst hb'
  obtain ⟨tail, k4, _⟩ := after_head c e post x (start c e st l a) h2
  have e1 : run c e (.start st l :: post) x a = run c e post x (start c e st l a) := rfl
  rw [e1, k4, h1]
  have e2 : endBody c 500 (e.page ise) = if c.method = b!"HEAD" then [] else e.page ise := by
    rw [endBody_eq]
    unfold bodyless
    by_cases hm : c.method = b!"HEAD"
    · simp [hm]
    · have : noBody 500 = false := by decide
      simp [hm, this]
  rw [e2]
  exact seen_closed [.head _ _ _] rfl tail

/-- Whatever the application sends and however it ends: at most one head, and it comes before any body. -/
theorem C46_once (c : Cfg) (e : Env) (ms : List Msg) (x : Option Exc) {a : A} (hf : Fresh a.resp) : OneHead (run c e ms x a).resp.log :=
  oneHead_of_R (good_run c e ms x a) (by rw [hf.headers]; simp) hf.log

/-- The phrases that the examples use. -/
def somePhrases : Int → Option Bytes := fun st => if st = 200 then some b!"OK" else if st = 404 then some b!"Not Found" else if st = 426 then some b!"Upgrade Required" else none
theorem somePhrases_ok : PhraseOk somePhrases := by
  intro st p h
  unfold somePhrases at h
  split at h
  · cases h; decide
  · split at h
    · cases h; decide
    · split at h
      · cases h; decide
      · cases h

/-- A response with its own Date, Server, Transfer-Encoding and Connection. -/
example : Ready { phrase := somePhrases } [.start (some 404) [(b!"DATE", b!"x"), (b!"X-A", b!"1"), (b!"Transfer-Encoding", b!"gzip"), (b!"server", b!"y"), (b!"x-a", b!"2")]] ∧
    ((run { date := b!"D", server := b!"S" } { phrase := somePhrases } [.start (some 404) [(b!"DATE", b!"x"), (b!"X-A", b!"1"), (b!"Transfer-Encoding", b!"gzip"), (b!"server", b!"y"), (b!"x-a", b!"2")],
      .body b!"hi" true, .start none [], .body [] false] none { resp := { keepalive := true } }).resp.log) =
    [.head b!"HTTP/1.1 404 Not Found\r\nDate: D\r\nServer: S\r\nX-A: 1\r\nx-a: 2\r\nContent-Type: text/html; charset=utf-8\r\nTransfer-Encoding: chunked\r\nConnection: keep-alive\r\n\r\n" [] { throttle := false },
      .body b!"2\r\nhi\r\n" { throttle := false }, .body b!"0\r\n\r\n" { throttle := false }, .mark true] := by
  refine ⟨⟨?_, ?_⟩, by decide +kernel⟩
  · decide +kernel
  · decide +kernel

/-- An attempt to split the response. -/
example : seen (run { date := b!"D", server := b!"S" } { phrase := somePhrases, page := fun _ => b!"oops" } [.start (some 200) [(b!"X-A", b!"1"), (b!"X-B", b!"1\r\nSet-Cookie: a=b")], .body b!"hi" false]
      none { resp := { keepalive := true } }).resp.log =
    [.head b!"HTTP/1.1 500 Internal Server Error\r\nContent-Type: text/html; charset=utf-8\r\nContent-Length: 4\r\nConnection: close\r\nDate: D\r\nServer: S\r\n\r\n" b!"oops" { throttle := false },
      .mark false] := by decide +kernel

/-- **C46 fails** for a header name with a colon: a second Date line and a Transfer-Encoding line of the application's
choice, -/
theorem C46_refuted_colon : ((run { date := b!"D", server := b!"S", version := b!"1.0" } { phrase := somePhrases } [.start (some 200) [(b!"Date: x", b!"y"), (b!"Transfer-Encoding: gzip", b!"")], .body b!"hi" false]
      none {}).resp.log.head?) =
    some (.head b!"HTTP/1.0 200 OK\r\nDate: D\r\nServer: S\r\nDate: x: y\r\nTransfer-Encoding: gzip: \r\nContent-Type: text/html; charset=utf-8\r\nConnection: close\r\n\r\n" [] { throttle := false }) := by
  decide +kernel
/-- and for a header named `_line`, which takes the place of the status line and suppresses Content-Type, Connection and
Transfer-Encoding. -/
theorem C46_refuted_line : ((run { date := b!"D", server := b!"S" } { phrase := somePhrases } [.start (some 200) [(b!"_line", b!"HTTP/9.9 999 Odd")], .body b!"hi" false] none {}).resp.log.head?) =
    some (.head b!"_line: HTTP/9.9 999 Odd\r\nDate: D\r\nServer: S\r\n\r\n" [] { throttle := false }) := by decide +kernel

/-! ## C65 -/

namespace Asgi

theorem lastStatus_headers (l : List (Bytes × Bytes)) (acc : List Call) : lastStatus (acc ++ l.flatMap headerCalls) = lastStatus acc := by
  induction l using snocInd with
  | h0 => simp
  | h1 l x ih =>
    rw [List.flatMap_append, ← List.append_assoc]
    have : ∀ y ∈ [x].flatMap headerCalls, setsStatus y = false := by
      intro y hy
      simp only [List.flatMap_cons, List.flatMap_nil, List.append_nil] at hy
      unfold headerCalls at hy
      split at hy
      · cases hy
      · split at hy <;> (simp only [List.mem_singleton] at hy; subst hy; rfl)
    rw [setsStatus_snoc this, ih]

theorem lastType_headers (l : List (Bytes × Bytes)) (hb : ∀ h ∈ l, bad h = false) (acc : List Call) :
    lastType (acc ++ l.flatMap headerCalls) = ((l.filter (fun h => lower h.1 = b!"content-type")).getLast?.map (·.2)).getD (lastType acc) := by
  induction l using snocInd with
  | h0 => simp
  | h1 l x ih =>
    rw [List.flatMap_append, ← List.append_assoc, List.filter_append]
    have ih := ih (fun h hh => hb h (by simp [hh]))
    have hx := hb x (by simp)
    simp only [bad, Bool.or_eq_false_iff, decide_eq_false_iff_not] at hx
    by_cases hc : lower x.1 = b!"content-type"
    · have hm : Spec.Asgi.managed x.1 = false := by simp [Spec.Asgi.managed, hc]
      have e1 : [x].flatMap headerCalls = [.setContentType x.2] := by simp [headerCalls, hm, hc]
      have e2 : [x].filter (fun h => decide (lower h.1 = b!"content-type")) = [x] := by simp [hc]
      rw [e1, e2, lastType_snoc]
      simp [hx.2]
    · have : [x].filter (fun h => decide (lower h.1 = b!"content-type")) = [] := by simp [hc]
      rw [this, List.append_nil, ← ih]
      by_cases hm : Spec.Asgi.managed x.1 = true
      · simp [headerCalls, hm]
      · have e1 : [x].flatMap headerCalls = [.appendHeader x.1 x.2] := by simp [headerCalls, hm, hc]
        rw [e1, lastType_snoc]

theorem linesFor_headers (l : List (Bytes × Bytes)) (n : Bytes) (hn : Spec.Asgi.managed n = false) (hl : lower n = n) (hc : n ≠ b!"content-type") (acc : List Call) :
    linesFor n (acc ++ l.flatMap headerCalls) = linesFor n acc ++ (l.filter (fun h => lower h.1 = n)).map (fun h => h.1 ++ b!": " ++ h.2) := by
  induction l using snocInd with
  | h0 => simp
  | h1 l x ih =>
    rw [List.flatMap_append, ← List.append_assoc, List.filter_append]
    by_cases hx : lower x.1 = n
    · have hm : Spec.Asgi.managed x.1 = false := by
        unfold Spec.Asgi.managed at hn ⊢
        rw [hl] at hn; rw [hx]; exact hn
      have hc' : lower x.1 ≠ b!"content-type" := by rw [hx]; exact hc
      have e1 : [x].flatMap headerCalls = [.appendHeader x.1 x.2] := by simp [headerCalls, hm, hc']
      have e2 : [x].filter (fun h => decide (lower h.1 = n)) = [x] := by simp [hx]
      rw [e1, e2, linesFor_snoc, ih]
      simp [hx]
    · have e1 : [x].filter (fun h => decide (lower h.1 = n)) = [] := by simp [hx]
      rw [e1, List.append_nil, ← ih]
      apply untouched_snoc
      intro y hy
      simp only [List.flatMap_cons, List.flatMap_nil, List.append_nil] at hy
      unfold headerCalls at hy
      split at hy
      · cases hy
      · split at hy <;> (simp only [List.mem_singleton] at hy; subst hy)
        · rfl
        · simp [touches, hx]

end Asgi

/-- **C65**: the application sends `http.response.start` with a known status and usable headers, then a body. The head has
that status and its phrase; for every name that the server does not manage, it has exactly the application's lines with
that name, in their order and spelling; its content type is the last one given, or the default. -/
theorem C65_partial {c : Cfg} (hc : CfgOk c) {e : Env} (he : PhraseOk e.phrase) {st : Int} {p : Bytes} (hst : e.phrase st = some p) {l : List (Bytes × Bytes)}
    (hl : ∀ h ∈ l, bad h = false ∧ plain h = true) {d : Bytes} {more : Bool} (hd : d ≠ [] ∨ more = false) (post : List Msg) (x : Option Exc) {a : A} (hf : Fresh a.resp) :
    ∃ t rest tail, (run c e (.start (some st) l :: .body d more :: post) x a).resp.log = .head t [] { throttle := false } :: tail ∧
      HeadIs t (b!"HTTP/" ++ c.version ++ b!" " ++ fmtInt st ++ b!" " ++ p) rest ∧
      (∀ n, lower n = n → n ∉ [b!"date", b!"server", b!"transfer-encoding", b!"connection", b!"content-type", b!"_line"] →
        named n rest = (l.filter (fun h => lower h.1 = n)).map (fun h => h.1 ++ b!": " ++ h.2)) ∧
      (noBody st = false → ∃ y, named b!"content-type" rest = [y] ∧
        valueOf y = lstrip (((l.filter (fun h => lower h.1 = b!"content-type")).getLast?.map (·.2)).getD b!"text/html; charset=utf-8")) := by
  have hp : Ready e [.start (some st) l] := ⟨by simp [early], by
    intro m hm h hh
    simp only [List.mem_singleton] at hm; subst hm
    simp only [headersOf, hst, Option.isSome_some, if_true] at hh
    exact hl h hh⟩
  have pp := ready_pre hc he hp hf
  obtain ⟨t, rest, s1, sl, h1, h2, h3, h4, h5, h6, h7, h8⟩ := body_first hc (e := e) hf.upgraded pp hd
  rw [hf.log] at h6
  have hcalls : calls e [.start (some st) l] = [.setStatus st p] ++ l.flatMap headerCalls := by simp [calls, msgCalls, hst]
  have hls : lastStatus (calls e [.start (some st) l]) = (st, p) := by
    rw [hcalls, lastStatus_headers]
    simp [lastStatus, he st p hst]
  have key : ∃ r, (send c e ([Msg.start (some st) l].foldl (send c e) a) (.body d more)).resp.log = .head t [] { throttle := false } :: r := by
    show ∃ r, (body c e _ d more _).2.log = _
    cases hb : bodyless c (lastStatus (calls e [.start (some st) l])).1 with
    | false => rw [(h7 hb).2]; exact ⟨_, by rw [h6]; rfl⟩
    | true =>
      obtain ⟨r, hr⟩ := h8 hb
      rw [hr]; exact ⟨_, by rw [h6]; rfl⟩
  obtain ⟨r, k1⟩ := key
  obtain ⟨⟨tail, k2, _⟩, _⟩ := good_run c e post x (send c e ([Msg.start (some st) l].foldl (send c e) a) (.body d more))
  obtain ⟨g, hg, ho⟩ := genOwn c { chunked := ([Msg.start (some st) l].foldl (send c e) a).chunked } (calls e [.start (some st) l]) (a.resp.keepalive && !(hdrs e [.start (some st) l]).any closes)
  rw [hg] at sl
  have ⟨n1, n2, n3⟩ := own_mid ho (calls e [.start (some st) l]) []
  simp only [List.append_nil] at n1 n2 n3
  refine ⟨t, rest, r ++ tail, ?_, ?_, fun n hn hm => ?_, fun nb => ?_⟩
  · show (run c e post x (send c e ([Msg.start (some st) l].foldl (send c e) a) (.body d more))).resp.log = _
    rw [k2, k1]; rfl
  · have := sl.is
    rw [n1, hls] at this
    exact this
  · simp only [List.mem_cons, List.not_mem_nil, or_false, not_or] at hm
    obtain ⟨m1, m2, m3, m4, m5, m6⟩ := hm
    have := sl.lines n (by simp [reserved]; exact ⟨m6, m5, m1, m2⟩)
    unfold named
    rw [this]
    have e1 : linesFor n (calls e [.start (some st) l] ++ g) = linesFor n (calls e [.start (some st) l]) := by
      by_cases hcl : n = b!"content-length"
      · subst hcl
        have : g = teCalls (wantsChunked c { chunked := ([Msg.start (some st) l].foldl (send c e) a).chunked } (lastStatus (calls e [.start (some st) l])).1) ++
            [.setHeader b!"Connection" (connValue (a.resp.keepalive && !(hdrs e [.start (some st) l]).any closes) (lastStatus (calls e [.start (some st) l])).1)] := by
          unfold genCalls at hg
          rw [List.append_assoc] at hg
          exact (List.append_cancel_left hg).symm
        rw [this]
        apply untouched_snoc
        intro y hy
        unfold teCalls at hy
        rcases List.mem_append.1 hy with h | h
        · split at h
          · simp only [List.mem_singleton] at h; subst h; simp [touches]; decide
          · cases h
        · simp only [List.mem_singleton] at h; subst h; simp [touches]; decide
      · exact n3 n (by simp [ownNames]; exact ⟨m6, m5, m1, m2, m4, hcl, m3⟩)
    have hmg : Spec.Asgi.managed n = false := by
      unfold Spec.Asgi.managed; rw [hn]; simp [m1, m2, m3, m4]
    rw [e1, hcalls, linesFor_headers l n hmg hn m5]
    simp [linesFor]
  · obtain ⟨y, y1, y2⟩ := sl.ctype (by rw [hls]; simp [nb])
    refine ⟨y, y1, ?_⟩
    rw [y2, n2, hcalls, lastType_headers l (fun h hh => (hl h hh).1)]
    rfl

example : (run { date := b!"D", server := b!"S" } { phrase := somePhrases } [.start (some 404) [(b!"X-Test", b!" a "), (b!"Content-Type", b!"a/b"), (b!"CONTENT-TYPE", b!"c/d"), (b!"x-test", b!""), (b!"Content-Length", b!"2")],
      .body b!"hi" false] none {}).resp.log =
    [.head b!"HTTP/1.1 404 Not Found\r\nDate: D\r\nServer: S\r\nX-Test:  a \r\nx-test: \r\nContent-Length: 2\r\nContent-Type: c/d\r\nConnection: close\r\n\r\n" [] { throttle := false },
      .body b!"hi" { throttle := false }, .body [] { throttle := false }, .mark false] := by decide +kernel

/-- **C65 fails** for a status that `http.HTTPStatus` does not know: the whole message is dropped, and a body that follows
is sent with status 200 and without the application's headers. -/
theorem C65_refuted_status : ∀ (st : Int) (e : Env), e.phrase st = none → ∀ (c : Cfg) (l : List (Bytes × Bytes)) (ms : List Msg) (x : Option Exc) (a : A),
    run c e (.start (some st) l :: ms) x a = run c e ms x a := by
  intro st e h c l ms x a
  have : send c e a (.start (some st) l) = a := by
    show start c e (some st) l a = a
    simp only [start, statusOf, h]; rfl
  unfold run
  rw [List.foldl_cons, this]

/-- 299, 599 and 451 on old Python versions are such; here 299 with a cookie. -/
example : (run { date := b!"D", server := b!"S" } { phrase := somePhrases } [.start (some 299) [(b!"Set-Cookie", b!"a=b")], .body b!"hi" false] none {}).resp.log.head? =
    some (.head b!"HTTP/1.1 200 OK\r\nDate: D\r\nServer: S\r\nContent-Type: text/html; charset=utf-8\r\nTransfer-Encoding: chunked\r\nConnection: close\r\n\r\n" [] { throttle := false }) := by
  decide +kernel

/-! ## C66 -/

namespace Asgi

/-- Pieces with arbitrary send options. -/
def pieces (ch : Bool) : List (Bytes × SendOpts) → List Emit
  | [] => []
  | (d, o) :: r => (if d = [] then [] else [.body (framed ch d) o]) ++ pieces ch r

theorem asked_pieces (l : List (Bytes × SendOpts)) (rest : Bytes) :
    asked ((pieces true l).map Emit.op) ++ rest.map some = (Spec.Body.encode (((l.map (·.1)).filter (· ≠ [])).map chunkOf) rest).map some := by
  induction l with
  | nil => rfl
  | cons x t ih =>
    obtain ⟨d, o⟩ := x
    by_cases hd : d = []
    · simpa [pieces, hd] using ih
    · have e : pieces true ((d, o) :: t) = .body (framed true d) o :: pieces true t := by simp [pieces, hd]
      have e' : (((d, o) :: t).map (·.1)).filter (· ≠ []) = d :: (t.map (·.1)).filter (· ≠ []) := by simp [hd]
      rw [e, e', List.map_cons, List.map_cons, Spec.Body.encode]
      simp only [Emit.op, asked, framed, if_true, List.append_assoc, ih, chunkOf, List.map_append, List.nil_append]

theorem asked_raw (l : List (Bytes × SendOpts)) : asked ((pieces false l).map Emit.op) = (l.map (·.1)).flatten.map some := by
  induction l with
  | nil => rfl
  | cons x t ih =>
    obtain ⟨d, o⟩ := x
    by_cases hd : d = []
    · simpa [pieces, hd] using ih
    · simp [pieces, hd, framed, asked, Emit.op] at ih ⊢
      exact ih

theorem pieces_append (ch : Bool) (a b : List (Bytes × SendOpts)) : pieces ch (a ++ b) = pieces ch a ++ pieces ch b := by
  induction a with
  | nil => rfl
  | cons x t ih => simp [pieces, ih]

theorem pieces_mem {ch : Bool} {l : List (Bytes × SendOpts)} {y : Emit} (h : y ∈ pieces ch l) : ∃ d o, (d, o) ∈ l ∧ y = .body (framed ch d) o := by
  induction l with
  | nil => cases h
  | cons x t ih =>
    obtain ⟨d, o⟩ := x
    unfold pieces at h
    rcases List.mem_append.1 h with h | h
    · split at h
      · cases h
      · simp only [List.mem_singleton] at h; exact ⟨d, o, by simp, h⟩
    · obtain ⟨d', o', h1, h2⟩ := ih h
      exact ⟨d', o', by simp [h1], h2⟩

theorem marks_pieces (ch : Bool) (l : List (Bytes × SendOpts)) : marks (pieces ch l) = [] := by
  induction l with
  | nil => rfl
  | cons x t ih =>
    unfold pieces
    rw [marks_append, ih]
    split <;> rfl

theorem bodyTail_pieces (ch k : Bool) (buf : Nat) (th : Bool) (d : Bytes) (more : Bool) :
    bodyTail ch k buf th d more = pieces ch [(d, { throttle := th, bufferSize := buf })] ++ if more then [] else [.body (framed ch []) { throttle := false }, .mark k] := by
  simp [bodyTail, pieces]

theorem flat_pieces (ch k : Bool) (buf : Nat) (ds : List Bytes) :
    ds.flatMap (fun d => bodyTail ch k buf true d true) = pieces ch (ds.map (fun d => (d, { throttle := true, bufferSize := buf }))) := by
  induction ds with
  | nil => rfl
  | cons d t ih => rw [List.flatMap_cons, ih, bodyTail_pieces]; simp [pieces]

theorem ready_snoc {e : Env} {pre : List Msg} (hp : Ready e pre) : Ready e (pre ++ [.body [] true]) := by
  refine ⟨fun m hm => ?_, fun m hm => ?_⟩
  · rcases List.mem_append.1 hm with h | h
    · exact hp.early m h
    · simp only [List.mem_singleton] at h; subst h; rfl
  · rcases List.mem_append.1 hm with h | h
    · exact hp.usable m h
    · simp only [List.mem_singleton] at h; subst h; intro h hh; cases hh

theorem calls_snoc (e : Env) (pre : List Msg) : calls e (pre ++ [.body [] true]) = calls e pre ∧ hdrs e (pre ++ [.body [] true]) = hdrs e pre := by
  simp [calls, hdrs, msgCalls, headersOf]

/-- The exact log of a response with a body. -/
theorem body_log {c : Cfg} (hc : CfgOk c) {e : Env} (he : PhraseOk e.phrase) (hbs : 0 < e.bufferSize) {a : A} (hf : Fresh a.resp) :
    ∀ (ds : List Bytes) (d : Bytes) (pre : List Msg), Ready e pre → bodyless c (lastStatus (calls e pre)).1 = false →
    ∃ t rest l, let ch := if (hdrs e pre).any sized then some false else a.chunked
      let K := writeKeep c ch (calls e pre) (a.resp.keepalive && !(hdrs e pre).any closes)
      let W := wantsChunked c { chunked := ch } (lastStatus (calls e pre)).1
      SentLines c (genCalls c { chunked := ch } (calls e pre) (a.resp.keepalive && !(hdrs e pre).any closes)) true t rest ∧
      l.map (·.1) = ds ++ [d] ∧ (∀ x ∈ l, 0 < x.2.bufferSize) ∧
      (run c e (pre ++ ds.map (fun d => .body d true) ++ [.body d false]) none a).resp.log =
        .head t [] { throttle := false } :: (pieces W l ++ [.body (framed W []) { throttle := false }, .mark K]) := by
  intro ds
  induction ds with
  | nil =>
    intro d pre hp nb
    have p := ready_pre hc he hp hf
    obtain ⟨t, rest, s1, sl, _, _, h3, h4, h5, h6, h7, _⟩ := body_first hc (e := e) (d := d) hf.upgraded p (.inr rfl)
    rw [p.chunked] at sl h4 h5
    refine ⟨t, rest, [(d, { throttle := false, bufferSize := e.bufferSize })], ?_, rfl, by simpa using hbs, ?_⟩
    · simp only [bodyless, Bool.or_eq_false_iff] at nb
      rw [nb.2] at sl; exact sl
    · show (run c e (pre ++ [] ++ [.body d false]) none a).resp.log = _
      rw [List.append_nil, run_append]
      show (body c e _ d false _).2.log = _
      rw [(h7 nb).2]
      show s1.log ++ _ = _
      rw [h6, hf.log, h4, h5, bodyTail_pieces]; simp
  | cons d0 ds ih =>
    intro d pre hp nb
    by_cases hd0 : d0 = []
    · subst hd0
      obtain ⟨hcs, hhs⟩ := calls_snoc e pre
      have := ih d (pre ++ [.body [] true]) (ready_snoc hp) (by rw [hcs]; exact nb)
      rw [hcs, hhs] at this
      obtain ⟨t, rest, l, h1, h2, h3, h4⟩ := this
      refine ⟨t, rest, ([], { bufferSize := e.bufferSize }) :: l, h1, by simp [h2], by simpa [hbs] using h3, ?_⟩
      simpa [pieces] using h4
    · have p := ready_pre hc he hp hf
      obtain ⟨t, rest, s1, sl, _, _, h3, h4, h5, h6, h7, _⟩ := body_first hc (e := e) (d := d0) (more := true) hf.upgraded p (.inl hd0)
      obtain ⟨hu, hb⟩ := h7 nb
      rw [p.chunked] at sl h4 h5
      refine ⟨t, rest, (d0, { throttle := false, bufferSize := e.bufferSize }) :: (ds ++ [d]).map (fun d => (d, { throttle := true, bufferSize := e.bufferSize })), ?_,
        by simp [Function.comp_def], fun x hx => ?_, ?_⟩
      · simp only [bodyless, Bool.or_eq_false_iff] at nb
        rw [nb.2] at sl; exact sl
      · rcases List.mem_cons.1 hx with h | h
        · subst h; exact hbs
        · obtain ⟨y, _, rfl⟩ := List.mem_map.1 h; exact hbs
      · have e1 : run c e (pre ++ (d0 :: ds).map (fun d => .body d true) ++ [.body d false]) none a =
            send c e ((ds.foldl (fun a d => send c e a (.body d true)) (send c e (pre.foldl (send c e) a) (.body d0 true)))) (.body d false) := by
          unfold run
          simp only [List.map_cons, List.append_assoc, List.cons_append, List.foldl_append, List.foldl_cons, List.foldl_nil, List.foldl_map]
        have e2 : send c e (pre.foldl (send c e) a) (.body d0 true) = A.mk { s1 with log := s1.log ++ bodyTail s1.chunked s1.keepalive e.bufferSize false d0 true } (pre.foldl (send c e) a).chunked := by
          show A.mk (body c e _ d0 true _).2 _ = _
          rw [hb]
        rw [e1, e2, bodies_sent ds (by exact h3)]
        show (body c e _ d false _).2.log = _
        rw [body_sent (by exact h3)]
        dsimp only
        rw [h6, hf.log, hu, h4, h5, flat_pieces, bodyTail_pieces, bodyTail_pieces]
        simp [pieces, pieces_append]

end Asgi

/-- **C66**, chunked (HTTP/1.1, and neither this response nor an earlier one of the connection gives a Content-Length): the
client gets the head, with `Transfer-Encoding: chunked`, and a well-formed chunked body whose payload is what the
application sent, in order; then the end of the response. -/
theorem C66_chunked {c : Cfg} (hc : CfgOk c) (hv : c.version = b!"1.1") {e : Env} (he : PhraseOk e.phrase) (hbs : 0 < e.bufferSize) {pre : List Msg} (hp : Ready e pre)
    (ns : (hdrs e pre).any sized = false) (ds : List Bytes) (d : Bytes) {a : A} (hf : Fresh a.resp) (hch : a.chunked = none)
    (nb : bodyless c (lastStatus (calls e pre)).1 = false) :
    ∃ t rest cs k, (∃ first, HeadIs t first rest) ∧ named b!"transfer-encoding" rest = [b!"Transfer-Encoding: chunked"] ∧ (∀ x ∈ cs, x.Wf) ∧
      Spec.Body.payload cs = (ds ++ [d]).flatten ∧
      wire (run c e (pre ++ ds.map (fun d => .body d true) ++ [.body d false]) none a).resp.log =
        (t ++ Spec.Body.encode cs (Spec.Body.lastChunk b!"0" [] CRLF)).map some ++ [none] ∧
      marks (run c e (pre ++ ds.map (fun d => .body d true) ++ [.body d false]) none a).resp.log = [k] := by
  obtain ⟨t, rest, l, sl, hl, ho, hlog⟩ := body_log hc he hbs hf ds d pre hp nb
  have nb' := nb
  simp only [bodyless, Bool.or_eq_false_iff] at nb'
  simp only [ns, Bool.false_eq_true, if_false, hch] at sl hlog
  have hw : wantsChunked c { chunked := none } (lastStatus (calls e pre)).1 = true := by
    simp [wantsChunked, hv, nb'.2]
  refine ⟨t, rest, ((l.map (·.1)).filter (· ≠ [])).map chunkOf, writeKeep c none (calls e pre) (a.resp.keepalive && !(hdrs e pre).any closes), ⟨_, sl.is⟩, ?_, ?_, by rw [payload_chunks, hl], ?_, ?_⟩
  · have := sl.lines kTE (by decide)
    rw [te_lines, hw] at this
    exact this
  · intro x hx
    obtain ⟨y, hy, rfl⟩ := List.mem_map.1 hx
    exact chunkOf_wf (by simpa using (List.mem_filter.1 hy).2)
  · rw [hlog, hw]
    have := wire_closed (log := [.head t [] { throttle := false }] ++ (pieces true l ++ [.body (framed true []) { throttle := false }])) (by
        intro y hy
        simp only [List.mem_append, List.mem_singleton] at hy
        rcases hy with h | h | h
        · subst h; simp [Emit.op, SendOp.Ok]
        · obtain ⟨d', o', h1, rfl⟩ := pieces_mem h; exact fun _ => ho _ h1
        · subst h; simp [Emit.op, SendOp.Ok]) (writeKeep c none (calls e pre) (a.resp.keepalive && !(hdrs e pre).any closes))
    simp only [List.append_assoc, List.cons_append, List.nil_append] at this ⊢
    rw [this]
    simp only [List.map_cons, List.map_append, asked, Emit.op, List.append_nil, asked_append, List.map_nil, List.append_assoc]
    rw [← last_frame, ← asked_pieces]
    simp
  · rw [hlog]
    simp only [marks]
    rw [marks_append]
    have : marks (pieces (wantsChunked c { chunked := none } (lastStatus (calls e pre)).1) l) = [] := by
      exact marks_pieces _ l
    rw [this]; rfl

/-- **C66**, not chunked (the application gives a Content-Length, or HTTP/1.0): the bytes behind the head are what the
application sent; without a Content-Length, the connection is closed at the end of the body. -/
theorem C66_raw {c : Cfg} (hc : CfgOk c) {e : Env} (he : PhraseOk e.phrase) (hbs : 0 < e.bufferSize) {pre : List Msg} (hp : Ready e pre) (ds : List Bytes) (d : Bytes)
    {a : A} (hf : Fresh a.resp) (hr : (hdrs e pre).any sized = true ∨ a.chunked = some false ∨ (a.chunked = none ∧ c.version ≠ b!"1.1"))
    (nb : bodyless c (lastStatus (calls e pre)).1 = false) :
    ∃ t rest k, (∃ first, HeadIs t first rest) ∧ named b!"transfer-encoding" rest = [] ∧
      named b!"content-length" rest = linesFor b!"content-length" (calls e pre) ∧
      wire (run c e (pre ++ ds.map (fun d => .body d true) ++ [.body d false]) none a).resp.log = (t ++ (ds ++ [d]).flatten).map some ++ [none] ∧
      marks (run c e (pre ++ ds.map (fun d => .body d true) ++ [.body d false]) none a).resp.log = [k] ∧
      (linesFor b!"content-length" (calls e pre) = [] → (lastStatus (calls e pre)).1 ≠ 101 → k = false) := by
  obtain ⟨t, rest, l, sl, hl, ho, hlog⟩ := body_log hc he hbs hf ds d pre hp nb
  generalize hch : (if (hdrs e pre).any sized then some false else a.chunked) = ch at sl hlog
  have hw : wantsChunked c { chunked := ch } (lastStatus (calls e pre)).1 = false := by
    subst hch
    rcases hr with h | h | ⟨h, h'⟩
    · simp [wantsChunked, h]
    · simp [wantsChunked, h]
    · cases hs : (hdrs e pre).any sized <;> simp [wantsChunked, h, h']
  refine ⟨t, rest, writeKeep c ch (calls e pre) (a.resp.keepalive && !(hdrs e pre).any closes), ⟨_, sl.is⟩, ?_, ?_, ?_, ?_, fun h1 h2 => ?_⟩
  · have := sl.lines kTE (by decide)
    rw [te_lines, hw] at this
    exact this
  · have := sl.lines kCL (by decide)
    unfold named
    rw [this]
    unfold genCalls teCalls
    rw [hw]
    simp only [Bool.false_eq_true, if_false, List.append_nil]
    exact untouched_snoc (by simp [touches]; decide) _
  · rw [hlog, hw]
    have := wire_closed (log := [.head t [] { throttle := false }] ++ (pieces false l ++ [.body (framed false []) { throttle := false }])) (by
        intro y hy
        simp only [List.mem_append, List.mem_singleton] at hy
        rcases hy with h | h | h
        · subst h; simp [Emit.op, SendOp.Ok]
        · obtain ⟨d', o', h1, rfl⟩ := pieces_mem h; exact fun _ => ho _ h1
        · subst h; simp [Emit.op, SendOp.Ok]) (writeKeep c ch (calls e pre) (a.resp.keepalive && !(hdrs e pre).any closes))
    simp only [List.append_assoc, List.cons_append, List.nil_append] at this ⊢
    rw [this]
    simp only [List.map_cons, List.map_append, asked, Emit.op, List.append_nil, asked_append, List.map_nil, List.append_assoc]
    rw [asked_raw, hl]
    simp [framed]
  · rw [hlog]
    simp only [marks]
    rw [marks_append]
    have : marks (pieces (wantsChunked c { chunked := ch } (lastStatus (calls e pre)).1) l) = [] := by
      exact marks_pieces _ l
    rw [this]; rfl
  · unfold writeKeep genKeep
    rw [hw, show linesFor kCL (calls e pre) = [] from h1]
    simp [h2]

/-- **C66**, HEAD and statuses without a body (other than 101 and 426): the client sees the head and the end of the
connection, whatever is sent. -/
theorem C66_bodyless {c : Cfg} (hc : CfgOk c) {e : Env} (he : PhraseOk e.phrase) {pre : List Msg} (hp : Ready e pre) {d : Bytes} {more : Bool}
    (hd : d ≠ [] ∨ more = false) (post : List Msg) (x : Option Exc) {a : A} (hf : Fresh a.resp) (nb : bodyless c (lastStatus (calls e pre)).1 = true)
    (nu : (lastStatus (calls e pre)).1 ≠ 101 ∧ (lastStatus (calls e pre)).1 ≠ 426) :
    ∃ t, seen (run c e (pre ++ .body d more :: post) x a).resp.log = [.head t [] { throttle := false }, .mark false] := by
  have p := ready_pre hc he hp hf
  obtain ⟨t, rest, s1, sl, h1, h2, h3, h4, h5, h6, _, h8⟩ := body_first hc (e := e) hf.upgraded p hd
  obtain ⟨r, hr⟩ := h8 nb
  have hk : s1.keepalive = false := by
    rw [h4, writeKeep, nb]; simp [nu.1, nu.2]
  rw [run_append]
  obtain ⟨tail, k4, _⟩ := after_head c e post x (send c e (pre.foldl (send c e) a) (.body d more)) (by
    show (body c e _ d more _).2.headers = none
    rw [hr]; exact h3)
  refine ⟨t, ?_⟩
  show seen (run c e post x (send c e (pre.foldl (send c e) a) (.body d more))).resp.log = _
  rw [k4]
  show seen ((body c e _ d more _).2.log ++ tail) = _
  rw [hr]
  show seen (s1.log ++ _ ++ tail) = _
  rw [h6, hf.log, hk]
  simp [seen]

/-- Three pieces, one empty; chunked, and with a Content-Length; and a HEAD request. -/
example : bodyBytes (run {} { phrase := somePhrases } [.start (some 200) [], .body [] true, .body b!"ab" true, .body [] true, .body b!"cde" false] none {}).resp.log = b!"2\r\nab\r\n3\r\ncde\r\n0\r\n\r\n" ∧
    bodyBytes (run {} { phrase := somePhrases } [.start (some 200) [(b!"content-length", b!"5")], .body [] true, .body b!"ab" true, .body [] true, .body b!"cde" false] none {}).resp.log = b!"abcde" ∧
    (seen (run { method := b!"HEAD" } { phrase := somePhrases } [.start (some 200) [(b!"content-length", b!"5")], .body b!"ab" true, .body b!"cde" false] none { resp := { keepalive := true } }).resp.log).length = 2 := by
  decide +kernel

/-- **C66 fails** for HEAD with status 426 on a kept connection: the end marker comes behind the head, keeps the connection,
and the last chunk is sent behind it, where the client expects the next response. -/
theorem C66_refuted_426 : seen (run { method := b!"HEAD" } { phrase := somePhrases } [.start (some 426) [], .body b!"ab" false] none { resp := { keepalive := true } }).resp.log =
    [.head b!"HTTP/1.1 426 Upgrade Required\r\nDate: \r\nServer: \r\nContent-Type: text/html; charset=utf-8\r\nTransfer-Encoding: chunked\r\nConnection: upgrade\r\n\r\n" [] { throttle := false },
      .mark true, .body b!"0\r\n\r\n" { throttle := false }, .mark true] := by decide +kernel

/-- The flag that turns chunks off belongs to the connection: a later response on it that gives no Content-Length is not
chunked either; it says `Connection: keep-alive` although the end of its body is the end of the connection. -/
theorem C66_refuted_flag : let a := run {} { phrase := somePhrases } [.start (some 200) [(b!"Content-Length", b!"2")], .body b!"hi" false] none { resp := { keepalive := true } }
    a.chunked = some false ∧
    (run {} { phrase := somePhrases } [.start (some 200) [], .body b!"hello" false] none { a with resp := { keepalive := true } }).resp.log =
      [.head b!"HTTP/1.1 200 OK\r\nDate: \r\nServer: \r\nContent-Type: text/html; charset=utf-8\r\nConnection: keep-alive\r\n\r\n" [] { throttle := false },
        .body b!"hello" { throttle := false }, .body [] { throttle := false }, .mark false] := by decide +kernel

/-- Data sent after the last body message is queued behind the end of the response. -/
theorem C66_refuted_late : (run {} { phrase := somePhrases } [.start (some 200) [(b!"Content-Length", b!"2")], .body b!"hi" false, .body b!"HTTP/1.1 200 OK" true] none { resp := { keepalive := true } }).resp.log.drop 2 =
      [.body [] { throttle := false }, .mark true, .body b!"HTTP/1.1 200 OK" {}] := by decide +kernel

/-! ## C67 -/

namespace Asgi

/-- The response has ended: an end marker is queued or the connection is aborted. -/
def Ended (s : St) : Prop := marks s.log ≠ [] ∨ s.aborted = true

end Asgi

/-- **C67**, the application raises (an exception that is not a WebSocket one and whose message can be a status line): the
response ends, whatever was sent before, unless the connection was upgraded. -/
theorem C67_raises {c : Cfg} (hc : CfgOk c) {e : Env} (ms : List Msg) {x : Exc} (hx : Plainly x) {a : A}
    (hu : (ms.foldl (send c e) a).resp.upgraded = false) : Asgi.Ended (run c e ms (some x) a).resp := by
  show Asgi.Ended (handle c e x (ms.foldl (send c e) a).resp)
  generalize (ms.foldl (send c e) a).resp = s at hu
  cases hs : s.headers with
  | some h =>
    left
    rw [(handle_spec hc hx hs hu).1]
    simp [marks_append, marks]
  | none =>
    right
    unfold handle handleException
    rw [bind_ok (get_run s), if_pos (by simp [headersSent, hs, hu])]
    rfl

/-- **C67**, the application returns after it sent its last body message: the response has ended. -/
theorem C67_returns_partial {c : Cfg} (hc : CfgOk c) {e : Env} (he : PhraseOk e.phrase) (hbs : 0 < e.bufferSize) {pre : List Msg} (hp : Ready e pre) (ds : List Bytes) (d : Bytes)
    {a : A} (hf : Fresh a.resp) (nb : bodyless c (lastStatus (calls e pre)).1 = false) :
    Asgi.Ended (run c e (pre ++ ds.map (fun d => .body d true) ++ [.body d false]) none a).resp := by
  obtain ⟨t, rest, l, _, _, _, hlog⟩ := body_log hc he hbs hf ds d pre hp nb
  left
  rw [hlog]
  simp [marks, marks_append]

/-- **C67 fails** for an application that returns without a last body message: nothing ends the response, whatever else it
sent; in particular an application that returns at once. -/
theorem C67_refuted (c : Cfg) (e : Env) (a : A) : run c e [] none a = a := rfl
theorem C67_refuted_silent : (run {} { phrase := somePhrases } [] none {}).resp.log = [] ∧ (run {} { phrase := somePhrases } [] none {}).resp.aborted = false ∧
    (run {} { phrase := somePhrases } [.start (some 200) [], .body b!"hi" true] none {}).resp.log.length = 2 ∧
    marks (run {} { phrase := somePhrases } [.start (some 200) [], .body b!"hi" true] none {}).resp.log = [] := by decide +kernel

example : Plainly .other ∧ Plainly .timeout ∧ Plainly (.http 404 b!"Not Found" b!"text/plain") := by
  refine ⟨⟨by simp, by simp, by decide, by decide⟩, ⟨by simp, by simp, by decide, by decide⟩, ⟨by simp, by simp, by decide, by decide⟩⟩

end Verif
