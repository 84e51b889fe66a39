import Verif.Proofs.ResponseFlow
/-!
# What serving a request emits
-/
namespace Verif.Proofs.Response
open Verif.Py Verif.Py.Dict Verif.Model.Upload Verif.Model.Response Verif.Spec.Response

/-! ## Preparing the head -/

theorem typeHeader_spec {c : Cfg} {s0 b calls s} (i : Inv c true s0 b calls s) :
    ∃ s', typeHeader s = (.ok (), s') ∧ Inv c true s0 b calls s' ∧ Typed s' := by
  obtain ⟨h, e, t⟩ := i.ex
  obtain ⟨ct, ct', hg, hl⟩ := getType_spec e t.type t.single
  have hlf : (10 : UInt8) ∉ ct := by
    have := keep_getContentType (b := true) s i.wf
    rw [hg] at this; exact this.2
  have run : typeHeader s = (.ok (), { s with headers := some (Dict.set (del h kCT) (lower b!"Content-Type") [line b!"Content-Type" ct]), ctype := ct' }) := by
    unfold typeHeader
    rw [bind_ok hg, setHeader_ok (by decide) hlf rfl]
  have w := keep_typeHeader s i.wf
  rw [run] at w
  have el : lower b!"Content-Type" = kCT := by decide
  rw [el] at run w
  refine ⟨_, run, ⟨w.1, ⟨i.same.log, i.same.keepalive, i.same.upgraded, i.same.chunked, i.same.cont, i.same.aborted⟩, _, rfl, ?_⟩,
    ⟨_, rfl, by rw [mem_set]; simp⟩⟩
  refine ⟨nodup_set (nodup_filter t.nodup _) _ _, ?_, t.status, ?_, ?_, ?_⟩
  · rw [get_set, if_neg (by decide), get_del, if_pos (by decide)]; exact t.lineOk
  · simp only [curType, get_set, if_true]
    rw [line_drop (by decide)]; exact hl
  · intro l hl'
    rw [get_set, if_pos rfl] at hl'; cases hl'; rfl
  · intro k hk
    have : kCT ≠ k := by rintro rfl; exact hk (by decide)
    rw [get_set, if_neg this, get_del, if_pos (Ne.symm this)]; exact t.lines k hk

/-- Taking the status and putting the status line into the table. -/
theorem line_spec {β : Type} {c : Cfg} (hc : CfgOk c) {s0 calls s} (i : Inv c true s0 false calls s) (chf : Int → Bool) (K : Int × Bytes → M β) :
    ∃ s', Inv c true { s0 with chunked := chf (lastStatus calls).1 } true calls s' ∧
      (getStatus >>= fun st => modify (fun s => { s with chunked := chf st.1 }) >>= fun _ => headers >>= fun h =>
        putHeaders (Dict.set h kLine [b!"HTTP/" ++ c.version, fmtInt st.1, st.2]) >>= fun _ => K st) s = K (lastStatus calls) s' := by
  obtain ⟨h, e, t⟩ := i.ex
  obtain ⟨st', h2, _⟩ := getStatus_spec e t
  have hl := t.lineOk
  rw [if_neg (by decide)] at hl
  rw [del_absent hl] at h2
  have w2 := keep_getStatus (b := true) s i.wf
  rw [h2] at w2
  have tt := i.wf.table h e
  have w3 : Wf true { s with headers := some (Dict.set h kLine [b!"HTTP/" ++ c.version, fmtInt (lastStatus calls).1, (lastStatus calls).2]), status := st', chunked := chf (lastStatus calls).1 } := by
    have := w2.1.put (tt.setLine (line_noLF hc w2.2) tt.strict)
    exact ⟨this.table, this.status, this.ctype, this.log⟩
  refine ⟨_, ⟨w3, ⟨i.same.log, i.same.keepalive, i.same.upgraded, rfl, i.same.cont, i.same.aborted⟩, _, rfl, ?_⟩, ?_⟩
  · refine ⟨nodup_set t.nodup _ _, ?_, fun h => (by cases h), ?_, ?_, ?_⟩
    · rw [get_set, if_pos rfl, if_pos rfl]
    · simp only [curType, get_set, show kLine ≠ kCT by decide, if_false]; exact t.type
    · intro l hl'
      rw [get_set, if_neg (by decide)] at hl'; exact t.single l hl'
    · intro k hk
      have : kLine ≠ k := by rintro rfl; exact hk (by decide)
      rw [get_set, if_neg this]; exact t.lines k hk
  · rw [bind_ok h2]
    rfl

def teCalls (ch : Bool) : List Call := if ch then [.setHeader b!"Transfer-Encoding" b!"chunked"] else []

theorem te_spec {c : Cfg} (hc : CfgOk c) {s0 b calls s} (i : Inv c true s0 b calls s) :
    ∃ s', (when s.chunked (setHeader b!"Transfer-Encoding" b!"chunked")) s = (.ok (), s') ∧ Inv c true s0 b (calls ++ teCalls s0.chunked) s' ∧
      (Typed s → Typed s') := by
  rw [i.same.chunked]
  cases s0.chunked with
  | true => exact inv_set hc i (n := b!"Transfer-Encoding") (v := b!"chunked") (by decide) (by decide) (by decide) (by decide)
  | false => exact ⟨s, rfl, by simpa [teCalls] using i, id⟩

theorem noContent_eq (n : Int) : noContent n = noBody n := rfl

theorem startHead_spec {c : Cfg} (hc : CfgOk c) (o : Opt) {s0 calls s} (i : Inv c true s0 false calls s) :
    ∃ s', startHead c o s = (.ok (lastStatus calls), s') ∧
      Inv c true { s0 with chunked := wantsChunked c o (lastStatus calls).1 } true (calls ++ teCalls (wantsChunked c o (lastStatus calls).1)) s' ∧
      (noBody (lastStatus calls).1 = false → Typed s') := by
  obtain ⟨s1, i1, h1⟩ := line_spec hc i (wantsChunked c o) (fun st => do
    when (!noBody st.1) typeHeader
    let s ← get
    when s.chunked (setHeader b!"Transfer-Encoding" b!"chunked")
    pure st)
  have e : startHead c o s = _ := h1
  rw [e]
  have h2 : ∃ s2, (when (!noBody (lastStatus calls).1) typeHeader) s1 = (.ok (), s2) ∧
      Inv c true { s0 with chunked := wantsChunked c o (lastStatus calls).1 } true calls s2 ∧ (noBody (lastStatus calls).1 = false → Typed s2) := by
    cases hn : noBody (lastStatus calls).1 with
    | true => exact ⟨s1, rfl, i1, fun h => by cases h⟩
    | false =>
      obtain ⟨s2, r2, i2, t2⟩ := typeHeader_spec i1
      exact ⟨s2, r2, i2, fun _ => t2⟩
  obtain ⟨s2, r2, i2, t2⟩ := h2
  obtain ⟨s3, r3, i3, t3⟩ := te_spec hc i2
  refine ⟨s3, ?_, i3, fun h => t3 (t2 h)⟩
  rw [bind_ok r2, bind_ok (get_run _), bind_ok r3]; rfl

/-! ## `write` -/

theorem write_flush {c : Cfg} {s0 calls s} (i : Inv c true s0 true calls s) {ty : Bool} (ht : ty = true → Typed s) (d : Option Bytes) (ch : Option Bool) (o : SendOpts) :
    ∃ t rest, write c d ch o s = writeBody d o { s with headers := none, log := s0.log ++ [.head t [] { throttle := false }] } ∧ SentLines c calls ty t rest := by
  obtain ⟨t, rest, run, sl⟩ := flush_spec i ht
  obtain ⟨h, e, tb⟩ := i.ex
  have hl := tb.lineOk
  rw [if_pos rfl] at hl
  refine ⟨t, rest, ?_, sl⟩
  unfold write
  rw [bind_ok (get_run s)]
  simp only [e]
  rw [if_pos (by simp [mem, hl]), bind_ok run, i.same.log]

theorem write_sent {c : Cfg} {s : St} (h : s.headers = none) (d : Option Bytes) (ch : Option Bool) (o : SendOpts) :
    write c d ch o s = writeBody d o s := by
  unfold write
  rw [bind_ok (get_run s)]
  simp only [h]

theorem writeBody_none (o : SendOpts) (s : St) : writeBody none o s = (.ok (), { s with log := s.log ++ [.mark s.keepalive] }) := rfl
theorem writeBody_some (d : Bytes) (o : SendOpts) (s : St) :
    writeBody (some d) o s = (.ok (), { s with log := s.log ++ [.body (framed (s.chunked && !s.upgraded) d) o] }) := by
  unfold writeBody
  rw [bind_ok (get_run s)]
  dsimp only
  cases s.chunked && !s.upgraded <;> rfl

/-- Head calls on a response that has been sent change nothing. -/
theorem call_sent {c : Cfg} (call : Call) (hf : Call.Fine call) {s : St} (hs : s.headers = none) :
    call.run c s = (.ok (), s) ∨ ∃ e, call.run c s = (.error e, s) := by
  cases call with
  | appendHeader n v => exact .inr ⟨_, bind_err (headers_none hs)⟩
  | setBaseHeader =>
    left
    show setBaseHeader c s = _
    unfold setBaseHeader
    rw [bind_ok (get_run s), if_pos (.inl (by simp [hs]))]; rfl
  | setCookie k =>
    right
    show ∃ e, setCookie k s = _
    unfold setCookie
    split
    · exact ⟨_, rfl⟩
    · exact ⟨_, bind_err (headers_none hs)⟩
  | setHeader n v =>
    right
    show ∃ e, setHeader n v s = _
    unfold setHeader
    split
    · exact ⟨_, rfl⟩
    · exact ⟨_, bind_err (headers_none hs)⟩
  | setStatus st m =>
    right
    show ∃ e, setStatus st m s = _
    unfold setStatus
    split
    · exact ⟨_, rfl⟩
    · exact ⟨_, bind_err (headers_none hs)⟩
  | setContentType ct =>
    right
    show ∃ e, setContentType ct s = _
    unfold setContentType
    split
    · exact ⟨_, rfl⟩
    · exact ⟨_, bind_err (headers_none hs)⟩
  | getStatus => cases hf
  | getContentType => cases hf
  | write d ch o => cases hf
  | end_ d k o => cases hf
  | close k => cases hf
  | stream => cases hf

theorem script_sent {c : Cfg} {s : St} (hs : s.headers = none) : ∀ (sc : Script), Script.Fine sc →
    runScript c sc s = (.ok (), s) ∨ ∃ e, runScript c sc s = (.error e, s)
  | [], _ => .inl rfl
  | (call, g) :: rest, hf => by
    have ih := script_sent (c := c) hs rest (fun p hp => hf p (by simp [hp]))
    unfold runScript
    rcases call_sent (c := c) call (hf (call, g) (by simp)) hs with h | ⟨e, h⟩
    · simp only [h]; exact ih
    · simp only [h]
      cases g with
      | true => exact ih
      | false => exact .inr ⟨e, rfl⟩

/-! ## Handlers that return data -/

/-- The calls behind the head of a returned body. -/
def dataCalls (c : Cfg) (o : Opt) (calls : List Call) (d : Bytes) (ka : Bool) : List Call :=
  calls ++ teCalls (wantsChunked c o (lastStatus calls).1) ++
    (if noBody (lastStatus calls).1 || wantsChunked c o (lastStatus calls).1 then [] else [.setHeader b!"Content-Length" (fmtNat d.length)]) ++
    [.setHeader b!"Connection" (keepOrClose ka)]

/-- What follows the head of a returned body. -/
def dataTail (c : Cfg) (o : Opt) (status : Int) (d : Bytes) (ka : Bool) : List Emit :=
  if bodyless c status then [.mark ka]
  else (if d = [] then [] else [.body (framed (wantsChunked c o status) d) { bufferSize := o.bufferSize }]) ++
    [.body (framed (wantsChunked c o status) []) { throttle := false }, .mark ka]

/-- The head and what follows it. -/
structure Sent (c : Cfg) (calls : List Call) (typed : Bool) (log0 tail : List Emit) (ka : Bool) (s' : St) : Prop where
  ex : ∃ t rest, s'.log = log0 ++ [.head t [] { throttle := false }] ++ tail ∧ SentLines c calls typed t rest
  keepalive : s'.keepalive = ka
  headers : s'.headers = none

theorem coro_spec {c : Cfg} (hc : CfgOk c) (o : Opt) {rms : List Mw} (hr : ∀ m ∈ rms, Script.Fine m.script) {sc : Script} (hs : Script.Fine sc) (d : Bytes)
    {g s0 calls} (hup : s0.upgraded = false) : 
    let A := calls ++ optCalls o.status o.ctype ++ callsOf sc
    Tri (fun s => Inv c g s0 false calls s) (handleResponse c o rms (.coro sc (.data d))) (fun _ s' =>
      Sent c (dataCalls c o A d s0.keepalive ++ mwCalls rms) (!noBody (lastStatus A).1) s0.log (dataTail c o (lastStatus A).1 d s0.keepalive) s0.keepalive s' ∨
      MwEnded c s0 (dataCalls c o A d s0.keepalive) rms s' ∨ (MwOdd rms ∧ s'.log = s0.log)) (fun _ => True) := by
  intro A
  unfold handleResponse
  refine Tri.bind (Q := fun _ s => Inv c g s0 false (calls ++ optCalls o.status o.ctype) s ∧ True)
    (Tri.pre (inv_opts hc (stable_true c)) (fun _ h => ⟨h, trivial⟩)) (fun _ => Tri.bind (inv_base' hc (stable_true c)) (fun _ =>
    Tri.bind (inv_script' hc (stable_true c) sc hs) (fun _ => ?_)))
  intro s i
  have i := i.1
  change Inv c true s0 false A s at i
  dsimp only
  obtain ⟨s1, r1, i1, t1⟩ := startHead_spec hc o i
  rw [bind_ok r1, bind_ok (get_run _)]
  have hch := i1.same.chunked
  have hka := i1.same.keepalive
  dsimp only at hch hka
  rw [hch, hka, noContent_eq]
  generalize hch' : wantsChunked c o (lastStatus A).1 = ch at i1 hch
  have h2 : ∃ s2, (when (!(noBody (lastStatus A).1 || ch)) (setHeader b!"Content-Length" (fmtNat d.length))) s1 = (.ok (), s2) ∧
      Inv c true { s0 with chunked := ch } true (A ++ teCalls ch ++ (if noBody (lastStatus A).1 || ch then [] else [.setHeader b!"Content-Length" (fmtNat d.length)])) s2 ∧
      (Typed s1 → Typed s2) := by
    cases noBody (lastStatus A).1 || ch with
    | true => exact ⟨s1, rfl, by simpa using i1, id⟩
    | false => exact inv_set hc i1 (n := b!"Content-Length") (by decide) (fmtNat_noLF _) (by decide) (by decide)
  obtain ⟨s2, r2, i2, t2⟩ := h2
  obtain ⟨s3, r3, i3, t3⟩ := inv_set hc i2 (n := b!"Connection") (v := keepOrClose s0.keepalive) (by decide) (by cases s0.keepalive <;> decide) (by decide) (by decide)
  rw [bind_ok r2, bind_ok r3]
  have hd : A ++ teCalls ch ++ (if noBody (lastStatus A).1 || ch then [] else [.setHeader b!"Content-Length" (fmtNat d.length)]) ++
      [.setHeader b!"Connection" (keepOrClose s0.keepalive)] = dataCalls c o A d s0.keepalive := by
    unfold dataCalls; rw [hch']
  rw [hd] at i3
  have ty : (!noBody (lastStatus A).1) = true → Typed s3 := fun h => t3 (t2 (t1 (by simpa using h)))
  refine Tri.bind (loop_spec hc (stable_typed c (!noBody (lastStatus A).1)) rms hr) (fun go => ?_) s3 ⟨i3, ty⟩
  cases go with
  | false =>
    rw [if_neg (by decide)]
    exact Tri.pure _ (fun s' h => .inr h)
  | true =>
    rw [if_pos rfl]
    intro s4 ⟨i4, ty4, _⟩
    have u4 : s4.upgraded = false := by rw [i4.same.upgraded]; exact hup
    have c4 : s4.chunked = ch := i4.same.chunked
    have k4 : s4.keepalive = s0.keepalive := i4.same.keepalive
    by_cases hb : c.method = b!"HEAD" ∨ noBody (lastStatus A).1 = true
    · rw [if_pos hb]
      obtain ⟨t, rest, rw1, sl⟩ := write_flush i4 ty4 none none {}
      rw [rw1, writeBody_none]
      have hbl : bodyless c (lastStatus A).1 = true := by simpa [bodyless] using hb
      refine .inl ⟨⟨t, rest, ?_, sl⟩, k4, rfl⟩
      simp [dataTail, hbl, k4]
    · rw [if_neg hb]
      have hbl : bodyless c (lastStatus A).1 = false := by simpa [bodyless] using hb
      by_cases hd0 : d = []
      · rw [show (when (d ≠ []) (write c (some d) none { bufferSize := o.bufferSize })) = pure () by simp [hd0, when]]
        obtain ⟨t, rest, rw1, sl⟩ := write_flush i4 ty4 (some []) none { throttle := false }
        rw [bind_ok (pure_run _ _), bind_ok (rw1.trans (writeBody_some _ _ _)), close_run]
        refine .inl ⟨⟨t, rest, ?_, sl⟩, ?_, rfl⟩
        · simp [dataTail, hbl, hd0, k4, u4, c4, hch']
        · simp [k4]
      · rw [show (when (d ≠ []) (write c (some d) none { bufferSize := o.bufferSize })) = write c (some d) none { bufferSize := o.bufferSize } by simp [hd0, when]]
        obtain ⟨t, rest, rw1, sl⟩ := write_flush i4 ty4 (some d) none { bufferSize := o.bufferSize }
        rw [bind_ok (rw1.trans (writeBody_some _ _ _)), bind_ok ((write_sent (by rfl) _ _ _).trans (writeBody_some _ _ _)), close_run]
        refine .inl ⟨⟨t, rest, ?_, sl⟩, ?_, rfl⟩
        · simp [dataTail, hbl, hd0, k4, u4, c4, hch']
        · simp [k4]

/-! ## Generators -/

def bodies (ch : Bool) (o : SendOpts) (ds : List Bytes) : List Emit := (ds.filter (· ≠ [])).map (fun d => .body (framed ch d) o)
def lastOpts (o : SendOpts) : SendOpts := { o with throttle := false, bufferSize := 16384 }

/-- The loop on a response whose head has been sent. -/
theorem genLoop_sent {c : Cfg} {o : SendOpts} {fin : Script} (hf : Script.Fine fin) {e : Option Exc} : ∀ (ys : List (Script × Bytes)), (∀ y ∈ ys, Script.Fine y.1) →
    ∀ s : St, s.headers = none → Post (fun _ s' => e = none ∧
      s' = { s with log := s.log ++ bodies (s.chunked && !s.upgraded) o (ys.map (·.2)) ++ [.body (framed (s.chunked && !s.upgraded) []) (lastOpts o)] }) (fun _ => True)
      (genLoop c o fin e ys s)
  | [], _, s, hs => by
    unfold genLoop
    rcases script_sent (c := c) hs fin hf with h | ⟨e', h⟩
    · rw [bind_ok h]
      cases e with
      | some e => trivial
      | none =>
        show Post _ _ (write c (some []) none (lastOpts o) s)
        rw [write_sent hs, writeBody_some]
        exact ⟨rfl, by simp [bodies]⟩
    · rw [bind_err h]; trivial
  | (sc, d) :: rest, hy, s, hs => by
    have ih := genLoop_sent (c := c) (o := o) hf (e := e) rest (fun y h => hy y (by simp [h]))
    unfold genLoop
    rcases script_sent (c := c) hs sc (hy (sc, d) (by simp)) with h | ⟨e', h⟩
    · rw [bind_ok h]
      by_cases hd : d = []
      · rw [show (when (d ≠ []) (write c (some d) none o)) = pure () by simp [hd, when], bind_ok (pure_run _ _)]
        have := ih s hs
        simpa [bodies, hd] using this
      · rw [show (when (d ≠ []) (write c (some d) none o)) = write c (some d) none o by simp [hd, when],
          bind_ok ((write_sent hs _ _ _).trans (writeBody_some _ _ _))]
        have := ih { s with log := s.log ++ [.body (framed (s.chunked && !s.upgraded) d) o] } hs
        simpa [bodies, hd] using this
    · rw [bind_err h]; trivial

/-- The state after the loop. -/
structure Streamed (c : Cfg) (calls : List Call) (typed : Bool) (s0 : St) (tail : List Emit) (s' : St) : Prop where
  ex : ∃ t rest, s'.log = s0.log ++ [.head t [] { throttle := false }] ++ tail ∧ SentLines c calls typed t rest
  keepalive : s'.keepalive = s0.keepalive
  headers : s'.headers = none

/-- The loop on a response whose head is ready but not sent. -/
theorem genLoop_unsent {c : Cfg} (hc : CfgOk c) {o : SendOpts} {fin : Script} (hf : Script.Fine fin) {e : Option Exc} {s0 ty} :
    ∀ (ys : List (Script × Bytes)), (∀ y ∈ ys, Script.Fine y.1) → ∀ {calls},
    Tri (fun s => Inv c true s0 true calls s ∧ (ty = true → Typed s)) (genLoop c o fin e ys) (fun _ s' => e = none ∧
      Streamed c (calls ++ lateCalls ys fin) ty s0 (bodies (s0.chunked && !s0.upgraded) o (ys.map (·.2)) ++ [.body (framed (s0.chunked && !s0.upgraded) []) (lastOpts o)]) s')
      (fun _ => True)
  | [], _, calls => by
    unfold genLoop
    refine Tri.bind (inv_script' hc (stable_typed c ty) fin hf) (fun _ => ?_)
    cases e with
    | some e => exact fun _ _ => trivial
    | none =>
      intro s i
      show Post _ _ (write c (some []) none (lastOpts o) s)
      obtain ⟨t, rest, rw1, sl⟩ := write_flush i.1 i.2 (some []) none (lastOpts o)
      rw [rw1, writeBody_some]
      refine ⟨rfl, ⟨t, rest, ?_, sl⟩, i.1.same.keepalive, rfl⟩
      simp [bodies, i.1.same.chunked, i.1.same.upgraded]
  | (sc, d) :: rest, hy, calls => by
    have ih := genLoop_unsent hc (o := o) hf (e := e) (s0 := s0) (ty := ty) rest (fun y h => hy y (by simp [h])) (calls := calls ++ callsOf sc)
    unfold genLoop
    refine Tri.bind (inv_script' hc (stable_typed c ty) sc (hy (sc, d) (by simp))) (fun _ => ?_)
    intro s i
    by_cases hd : d = []
    · rw [show (when (d ≠ []) (write c (some d) none o)) = pure () by simp [hd, when], bind_ok (pure_run _ _)]
      have := ih s i
      simpa [bodies, hd, lateCalls] using this
    · obtain ⟨t, rest', rw1, sl⟩ := write_flush i.1 i.2 (some d) none o
      rw [show (when (d ≠ []) (write c (some d) none o)) = write c (some d) none o by simp [hd, when],
        bind_ok (rw1.trans (writeBody_some _ _ _))]
      have := genLoop_sent (c := c) (o := o) hf (e := e) rest (fun y h => hy y (by simp [h]))
        { s with headers := none, log := s0.log ++ [.head t [] { throttle := false }] ++ [.body (framed (s.chunked && !s.upgraded) d) o] } rfl
      dsimp only at this ⊢
      generalize genLoop c o fin e rest _ = x at this ⊢
      obtain ⟨x, s'⟩ := x
      cases x with
      | error e => trivial
      | ok a =>
        obtain ⟨h1, h2⟩ := this
        refine ⟨h1, ⟨t, rest', ?_, ?_⟩, ?_, ?_⟩
        · rw [h2]; simp [bodies, hd, i.1.same.chunked, i.1.same.upgraded]
        · simpa [lateCalls, hd] using sl
        · rw [h2]; exact i.1.same.keepalive
        · rw [h2]

/-- The calls behind the head of a streamed body. -/
def genCalls (c : Cfg) (o : Opt) (calls : List Call) (ka : Bool) : List Call :=
  calls ++ teCalls (wantsChunked c o (lastStatus calls).1) ++ [.setHeader b!"Connection" (connValue ka (lastStatus calls).1)]

/-- Whether the connection is kept after a streamed body. -/
def genKeep (c : Cfg) (o : Opt) (calls : List Call) (ka : Bool) : Bool :=
  ka && ((lastStatus calls).1 == 101 || wantsChunked c o (lastStatus calls).1 || !(linesFor kCL calls).isEmpty)

def genTail (c : Cfg) (o : Opt) (status : Int) (ds : List Bytes) (ka : Bool) : List Emit :=
  if bodyless c status then [.mark ka]
  else bodies (wantsChunked c o status) o.sendOpts ds ++ [.body (framed (wantsChunked c o status) []) (lastOpts o.sendOpts), .mark ka]

/-- Head calls that come after the head is prepared. -/
def genLate (c : Cfg) (status : Int) (d : Bytes) (rest : List (Script × Bytes)) (fin : Script) : List Call :=
  if bodyless c status then [] else if d = [] then lateCalls rest fin else []

theorem mem_cl {c : Cfg} {g s0 b calls s h} (i : Inv c g s0 b calls s) (e : s.headers = some h) : mem h kCL = !(linesFor kCL calls).isEmpty := by
  obtain ⟨h', e', t⟩ := i.ex
  rw [e] at e'; cases e'
  rw [← t.lines kCL (by decide)]
  rcases hg : Dict.get h kCL with _ | l
  · simp [mem, hg]
  · have := ((i.wf.table h e).field _ l (get_mem hg) (by decide)).1
    simp [mem, hg, this]

theorem linesFor_te (ch : Bool) (calls : List Call) : linesFor kCL (calls ++ teCalls ch) = linesFor kCL calls := by
  cases ch
  · simp [teCalls]
  · simp only [teCalls, if_true]
    rw [linesFor_snoc]; simp [show lower b!"Transfer-Encoding" ≠ kCL by decide]

theorem decideKeep_run (st : Int) (h : Dict Bytes (List Bytes)) (s : St) : decideKeep st h s = (.ok (), { s with
    keepalive := s.keepalive && (st == 101 || s.chunked || mem h kCL), upgraded := s.upgraded || (s.keepalive && st == 101) }) := by
  unfold decideKeep
  rw [modify_run]
  obtain ⟨hd, ch, sts, ct, ka, up, co, lg, ab⟩ := s
  cases ka <;> cases ch <;> cases mem h kCL <;> cases hst : st == 101 <;> simp

theorem up_false {k : Bool} {st : Int} (hn : noBody st = false) : (k && st == 101) = false := by
  have : (st == 101) = false := by
    by_cases h101 : st = 101
    · subst h101; exact absurd hn (by decide)
    · simpa using h101
  rw [this]; simp

theorem decideKeep_spec {c : Cfg} {s0 calls s h} (i : Inv c true s0 true calls s) (e : s.headers = some h) (hup : s0.upgraded = false) (st : Int) :
    ∃ up, up = (s0.keepalive && st == 101) ∧ ∃ s2, decideKeep st h s = (.ok (), s2) ∧
      Inv c true { s0 with keepalive := s0.keepalive && (st == 101 || s0.chunked || !(linesFor kCL calls).isEmpty), upgraded := up } true calls s2 ∧
      (Typed s → Typed s2) := by
  obtain ⟨h', e', t⟩ := i.ex
  rw [e] at e'; cases e'
  refine ⟨s.upgraded || (s.keepalive && st == 101), ?_, _, decideKeep_run st h s, ?_, id⟩
  · rw [i.same.upgraded, hup, i.same.keepalive]; simp
  · rw [← mem_cl i e, i.same.keepalive, i.same.chunked]
    exact ⟨⟨i.wf.table, i.wf.status, i.wf.ctype, i.wf.log⟩, ⟨i.same.log, rfl, rfl, rfl, i.same.cont, i.same.aborted⟩, h, e, t⟩

theorem gen_spec {c : Cfg} (hc : CfgOk c) (o : Opt) {rms : List Mw} (hr : ∀ m ∈ rms, Script.Fine m.script) {sc : Script} (hs : Script.Fine sc) (d : Bytes)
    {rest : List (Script × Bytes)} (hy : ∀ y ∈ rest, Script.Fine y.1) {fin : Script} (hf : Script.Fine fin) {ex : Option Exc}
    {g s0 calls} (hup : s0.upgraded = false) :
    let A := calls ++ optCalls o.status o.ctype ++ callsOf sc
    let st := (lastStatus A).1
    Tri (fun s => Inv c g s0 false calls s) (handleResponse c o rms (.gen ((sc, d) :: rest) fin ex)) (fun _ s' =>
      ((bodyless c st = true ∨ ex = none) ∧ Sent c (genCalls c o A s0.keepalive ++ mwCalls rms ++ genLate c st d rest fin) (!noBody st) s0.log
        (genTail c o st (d :: rest.map (·.2)) (genKeep c o A s0.keepalive)) (genKeep c o A s0.keepalive) s') ∨
      MwEnded c { s0 with keepalive := genKeep c o A s0.keepalive } (genCalls c o A s0.keepalive) rms s' ∨ (MwOdd rms ∧ s'.log = s0.log)) (fun _ => True) := by
  intro A st
  unfold handleResponse
  refine Tri.bind (Q := fun _ s => Inv c g s0 false (calls ++ optCalls o.status o.ctype) s ∧ True)
    (Tri.pre (inv_opts hc (stable_true c)) (fun _ h => ⟨h, trivial⟩)) (fun _ => Tri.bind (inv_base' hc (stable_true c)) (fun _ =>
    Tri.bind (inv_script' hc (stable_true c) sc hs) (fun _ => ?_)))
  intro s i
  have i := i.1
  change Inv c true s0 false A s at i
  obtain ⟨s1, r1, i1, t1⟩ := startHead_spec hc o i
  obtain ⟨h1, e1, _⟩ := i1.ex
  rw [bind_ok r1, bind_ok (get_run _), bind_ok (headers_some e1)]
  have hka := i1.same.keepalive
  dsimp only at hka
  generalize hch' : wantsChunked c o (lastStatus A).1 = ch at i1
  have hst : wantsChunked c o st = ch := hch'
  obtain ⟨up, hupn, s2, r2, i2, t2⟩ := decideKeep_spec i1 e1 (by exact hup) st
  dsimp only at i2
  rw [linesFor_te] at i2
  have hgk : (s0.keepalive && (st == 101 || ch || !(linesFor kCL A).isEmpty)) = genKeep c o A s0.keepalive := by
    unfold genKeep; rw [hch']
  rw [hgk] at i2
  rw [bind_ok r2]
  obtain ⟨s3, r3, i3, t3⟩ := inv_set hc i2 (n := b!"Connection") (v := connValue s1.keepalive st) (by decide)
    (by unfold connValue keepOrUpgrade; split <;> (try split) <;> decide) (by decide) (by decide)
  rw [bind_ok r3, noContent_eq]
  have hd : A ++ teCalls ch ++ [.setHeader b!"Connection" (connValue s1.keepalive st)] = genCalls c o A s0.keepalive := by
    unfold genCalls; rw [hch', hka]
  rw [hd] at i3
  have ty : (!noBody st) = true → Typed s3 := fun h => t3 (t2 (t1 (by simpa using h)))
  refine Tri.bind (loop_spec hc (stable_typed c (!noBody st)) rms hr) (fun go => ?_) s3 ⟨i3, ty⟩
  cases go with
  | false =>
    rw [if_neg (by decide)]
    refine Tri.pure _ (fun s' h => .inr ?_)
    exact h
  | true =>
    rw [if_pos rfl]
    intro s4 ⟨i4, ty4, _⟩
    have u4 : s4.upgraded = up := i4.same.upgraded
    have c4 : s4.chunked = ch := i4.same.chunked
    have k4 : s4.keepalive = genKeep c o A s0.keepalive := i4.same.keepalive
    by_cases hb : c.method = b!"HEAD" ∨ noBody st = true
    · rw [if_pos hb]
      obtain ⟨t, rest', rw1, sl⟩ := write_flush i4 ty4 none none {}
      rw [rw1, writeBody_none]
      have hbl : bodyless c st = true := by simpa [bodyless] using hb
      refine .inl ⟨.inl hbl, ⟨t, rest', ?_, ?_⟩, k4, rfl⟩
      · simp [genTail, hbl, k4]
      · simpa [genLate, hbl] using sl
    · rw [if_neg hb]
      have hbl : bodyless c st = false := by simpa [bodyless] using hb
      have hu0 : up = false := hupn.trans (up_false (by simpa [bodyless] using (fun h => hb (.inr h))))
      subst hu0
      by_cases hd0 : d = []
      · rw [show (when (d ≠ []) (write c (some d) none o.sendOpts)) = pure () by simp [hd0, when], bind_ok (pure_run _ _)]
        have := genLoop_unsent hc (o := o.sendOpts) hf (e := ex) (ty := !noBody st) rest hy s4 ⟨i4, ty4⟩
        rw [bind_run]
        generalize genLoop c o.sendOpts fin ex rest s4 = x at this ⊢
        obtain ⟨x, s5⟩ := x
        cases x with
        | error e => trivial
        | ok a =>
          obtain ⟨h1, ⟨t, rest', hl, sl⟩, hk5, hh5⟩ := this
          dsimp only
          rw [close_run]
          refine .inl ⟨.inr h1, ⟨t, rest', ?_, ?_⟩, ?_, hh5⟩
          · dsimp only; rw [hl, hk5]; simp [genTail, hbl, hd0, bodies, hst]
          · simpa [genLate, hbl, hd0] using sl
          · dsimp only; rw [hk5]; simp
      · rw [show (when (d ≠ []) (write c (some d) none o.sendOpts)) = write c (some d) none o.sendOpts by simp [hd0, when]]
        obtain ⟨t, rest', rw1, sl⟩ := write_flush i4 ty4 (some d) none o.sendOpts
        rw [bind_ok (rw1.trans (writeBody_some _ _ _)), bind_run]
        have := genLoop_sent (c := c) (o := o.sendOpts) hf (e := ex) rest hy
          { s4 with headers := none, log := s0.log ++ [.head t [] { throttle := false }] ++ [.body (framed (s4.chunked && !s4.upgraded) d) o.sendOpts] } rfl
        dsimp only at this ⊢
        generalize genLoop c o.sendOpts fin ex rest _ = x at this ⊢
        obtain ⟨x, s5⟩ := x
        cases x with
        | error e => trivial
        | ok a =>
          obtain ⟨h1, h2⟩ := this
          dsimp only
          rw [close_run]
          subst h2
          refine .inl ⟨.inr h1, ⟨t, rest', ?_, ?_⟩, ?_, rfl⟩
          · simp [genTail, hbl, hd0, bodies, hst, c4, u4, k4]
          · simpa [genLate, hbl, hd0] using sl
          · simp [k4]

/-! ## `write` on a fresh head -/

/-- Whether the connection is kept after `write` has sent the head. -/
def writeKeep (c : Cfg) (ch : Option Bool) (calls : List Call) (ka : Bool) : Bool :=
  genKeep c { chunked := ch } calls ka && (!bodyless c (lastStatus calls).1 || (lastStatus calls).1 == 101 || (lastStatus calls).1 == 426)

theorem prepare_spec {c : Cfg} (hc : CfgOk c) (data : Option Bytes) (ch : Option Bool) (o : SendOpts) {g s0 calls s} (hup : s0.upgraded = false) (i : Inv c g s0 false calls s)
    (ho : bodyless c (lastStatus calls).1 = false → o.marks = true) :
    ∃ up s', up = (s0.keepalive && (lastStatus calls).1 == 101) ∧
      prepare c data ch o s = (.ok (if bodyless c (lastStatus calls).1 then none else data), s') ∧
      Inv c true { s0 with chunked := wantsChunked c { chunked := ch } (lastStatus calls).1, keepalive := writeKeep c ch calls s0.keepalive, upgraded := up } true
        (genCalls c { chunked := ch } calls s0.keepalive) s' ∧
      (noBody (lastStatus calls).1 = false → Typed s') := by
  obtain ⟨ok, i0⟩ := inv_base hc i
  generalize hb : setBaseHeader c s = x at ok i0
  obtain ⟨x, s00⟩ := x
  dsimp only at ok i0
  subst ok
  obtain ⟨s1, i1, h1⟩ := line_spec hc i0 (wantsChunked c { chunked := ch }) (fun st => do
    when (!noBody st.1) typeHeader
    let s ← get
    when s.chunked (setHeader b!"Transfer-Encoding" b!"chunked")
    let h ← headers
    decideKeep st.1 h
    setHeader b!"Connection" (connValue s.keepalive st.1)
    if c.method = b!"HEAD" ∨ noBody st.1 = true then do
      when (!(st.1 == 101 || st.1 == 426)) (modify (fun s => { s with keepalive := false }))
      pure none
    else if o.marks then pure data
    else raise .other)
  have e : prepare c data ch o s = _ := (bind_ok hb).trans h1
  rw [e]
  generalize hst : (lastStatus calls).1 = st at *
  generalize hch' : wantsChunked c { chunked := ch } st = chk at i1
  have h2 : ∃ s2, (when (!noBody st) typeHeader) s1 = (.ok (), s2) ∧
      Inv c true { s0 with chunked := chk } true calls s2 ∧ (noBody st = false → Typed s2) := by
    cases hn : noBody st with
    | true => exact ⟨s1, rfl, i1, fun h => by cases h⟩
    | false =>
      obtain ⟨s2, r2, i2, t2⟩ := typeHeader_spec i1
      exact ⟨s2, r2, i2, fun _ => t2⟩
  obtain ⟨s2, r2, i2, t2⟩ := h2
  obtain ⟨s3, r3, i3, t3⟩ := te_spec hc i2
  obtain ⟨h3, e3, _⟩ := i3.ex
  obtain ⟨up, hupn, s4, r4, i4, t4⟩ := decideKeep_spec i3 e3 (by exact hup) st
  dsimp only at i4
  rw [linesFor_te] at i4
  have hgk : (s0.keepalive && (st == 101 || chk || !(linesFor kCL calls).isEmpty)) = genKeep c { chunked := ch } calls s0.keepalive := by
    unfold genKeep; rw [hst, hch']
  rw [hgk] at i4
  have hka : s2.keepalive = s0.keepalive := i2.same.keepalive
  obtain ⟨s5, r5, i5, t5⟩ := inv_set hc i4 (n := b!"Connection") (v := connValue s2.keepalive st) (by decide)
    (by unfold connValue keepOrUpgrade; split <;> (try split) <;> decide) (by decide) (by decide)
  have hd : calls ++ teCalls chk ++ [.setHeader b!"Connection" (connValue s2.keepalive st)] = genCalls c { chunked := ch } calls s0.keepalive := by
    unfold genCalls; rw [hst, hch', hka]
  rw [hd] at i5
  have ty : noBody st = false → Typed s5 := fun h => t5 (t4 (t3 (t2 h)))
  rw [bind_ok r2, bind_ok (get_run _), bind_ok r3, bind_ok (headers_some e3), bind_ok r4, bind_ok r5]
  by_cases hb : c.method = b!"HEAD" ∨ noBody st = true
  · rw [if_pos hb]
    have hbl : bodyless c st = true := by simpa [bodyless] using hb
    rw [hbl]
    obtain ⟨h5, e5, tb5⟩ := i5.ex
    cases hup' : (st == 101 || st == 426) with
    | true =>
      refine ⟨up, s5, hupn, ?_, ?_, ty⟩
      · rfl
      · have : writeKeep c ch calls s0.keepalive = genKeep c { chunked := ch } calls s0.keepalive := by
          unfold writeKeep; rw [hst, hbl]; simp only [Bool.not_true, Bool.false_or, hup', Bool.and_true]
        rw [this]; exact i5
    | false =>
      refine ⟨up, { s5 with keepalive := false }, hupn, rfl, ?_, ?_⟩
      · have : writeKeep c ch calls s0.keepalive = false := by
          unfold writeKeep; rw [hst, hbl]; simp only [Bool.not_true, Bool.false_or, hup', Bool.and_false]
        rw [this]
        exact ⟨⟨i5.wf.table, i5.wf.status, i5.wf.ctype, i5.wf.log⟩, ⟨i5.same.log, rfl, i5.same.upgraded, i5.same.chunked, i5.same.cont, i5.same.aborted⟩, h5, e5, tb5⟩
      · intro h; exact ty h
  · rw [if_neg hb]
    have hbl : bodyless c st = false := by simpa [bodyless] using hb
    rw [hbl, if_pos (ho hbl)]
    refine ⟨up, s5, hupn, rfl, ?_, ty⟩
    have : writeKeep c ch calls s0.keepalive = genKeep c { chunked := ch } calls s0.keepalive := by
      unfold writeKeep; rw [hst, hbl]; simp
    rw [this]; exact i5

/-- The first `write` of a response. -/
theorem write_spec {c : Cfg} (hc : CfgOk c) (data : Option Bytes) (ch : Option Bool) (o : SendOpts) {g s0 calls s} (hup : s0.upgraded = false) (i : Inv c g s0 false calls s)
    (ho : bodyless c (lastStatus calls).1 = false → o.marks = true) :
    ∃ t rest s1, write c data ch o s = writeBody (if bodyless c (lastStatus calls).1 then none else data) o s1 ∧
      SentLines c (genCalls c { chunked := ch } calls s0.keepalive) (!noBody (lastStatus calls).1) t rest ∧
      s1.log = s0.log ++ [.head t [] { throttle := false }] ∧ s1.keepalive = writeKeep c ch calls s0.keepalive ∧ s1.headers = none ∧
      s1.chunked = wantsChunked c { chunked := ch } (lastStatus calls).1 ∧ (noBody (lastStatus calls).1 = false → s1.upgraded = false) := by
  obtain ⟨up, s1, hu, run, i1, ty⟩ := prepare_spec hc data ch o hup i ho
  obtain ⟨t, rest, rf, sl⟩ := flush_spec i1 (ty := !noBody (lastStatus calls).1) (fun h => ty (by simpa using h))
  obtain ⟨h, e, tb⟩ := i.ex
  have hl := tb.lineOk
  rw [if_neg (by decide)] at hl
  refine ⟨t, rest, { s1 with headers := none, log := s1.log ++ [.head t [] { throttle := false }] }, ?_, sl, ?_, i1.same.keepalive, rfl, i1.same.chunked, fun h => ?_⟩
  · unfold write
    rw [bind_ok (get_run s)]
    simp only [e]
    rw [if_neg (by simp [mem, hl]), bind_ok run, bind_ok rf]
  · exact congrArg (· ++ _) i1.same.log
  · rw [show _ = s1.upgraded from rfl, i1.same.upgraded]; exact hu.trans (up_false h)

end Verif.Proofs.Response
