import Verif.Props.ResponseFlow
/-!
# C118: when what a generator yields reaches the queue
-/
namespace Verif
open Verif.Py Verif.Model.Upload Verif.Model.Response Verif.Spec.Response Verif.Proofs.Response

namespace Prompt

theorem sendAll_snoc (l : List Emit) (e : Emit) : sendAll ((l ++ [e]).map Emit.op) = sendStep (sendAll (l.map Emit.op)) e.op := by simp [sendAll]

/-- What a response of yielded pieces hands to `send`. -/
theorem emits {c : Cfg} {o : Opt} {st : Int} {ds : List Bytes} {k : Bool} {e : Emit} (h : e ∈ genTail c o st ds k) : e = .mark k ∨ ∃ b so, e = .body b so ∧ so.bufferMin = o.sendOpts.bufferMin := by
  unfold genTail at h
  split at h
  · exact .inl (List.mem_singleton.1 h)
  · simp only [List.mem_append, List.mem_cons, List.not_mem_nil, or_false, bodies, List.mem_map] at h
    rcases h with ⟨d, _, rfl⟩ | rfl | rfl
    · exact .inr ⟨_, _, rfl, rfl⟩
    · exact .inr ⟨_, _, rfl, rfl⟩
    · exact .inl rfl

theorem mem_prefix {α : Type} {l : List α} {e : α} {m : List α} (h : l ++ [e] <+: m) : e ∈ m := h.subset (by simp)

theorem empty_step {s : Out} {op : SendOp} (hs : s.buf = []) (h : ∀ d o, op = .send d o → o.bufferMin = none) : (sendStep s op).buf = [] := by
  cases op with
  | close => simp [sendStep, hs]
  | send d o =>
    have : o.holds s.buf.length = false := by simp [SendOpts.holds, h d o rfl]
    simp only [sendStep, this, Bool.false_eq_true, if_false]
    split <;> rfl

end Prompt
open Prompt

/-- **C118 (`stream`, the default).** Whatever a generator has yielded is in the queue of the connection when the generator is asked for
more: at no point of the response is anything held back, and what the queue has is what was handed over so far. -/
theorem C118_prompt {c : Cfg} (hc : CfgOk c) {a : App} (hq : ∀ m ∈ a.qms, Script.Fine m.script) (hr : ∀ m ∈ a.rms, Script.Fine m.script)
    (pq : Pass a.qms) (pr : Pass a.rms) {sc : Script} (hs : Script.Fine sc) {d : Bytes} {rest : List (Script × Bytes)} (hy : ∀ y ∈ rest, Script.Fine y.1)
    {fin : Script} (hf : Script.Fine fin) {ex : Option Exc} (hh : a.handler = .gen ((sc, d) :: rest) fin ex) {s s' : St} (fs : Fresh s)
    (run : serve c a s = (.ok (), s')) (hb : 0 < a.opt.bufferSize) (hst : a.opt.stream = true) :
    ∀ l, l <+: s'.log → (sendAll (l.map Emit.op)).buf = [] ∧ delivered (sendAll (l.map Emit.op)).queue = asked (l.map Emit.op) := by
  obtain ⟨t, ls, hl, _⟩ := (streamed_sent hc hq hr pq pr hs hy hf hh fs run).2.ex
  rw [List.nil_append] at hl
  have hmin : ∀ e ∈ s'.log, ∀ x o, e.op = .send x o → o.bufferMin = none := by
    intro e he x o hx
    rw [hl] at he
    rcases List.mem_append.1 he with he | he
    · rw [List.mem_singleton] at he
      subst he
      cases hx; rfl
    · rcases emits he with rfl | ⟨b, so, rfl, hso⟩
      · cases hx
      · cases hx
        rw [hso]; simp [Opt.sendOpts, hst]
  have hok : ∀ e ∈ s'.log, SendOp.Ok e.op := by
    intro e he
    rw [hl] at he
    rcases List.mem_append.1 he with he | he
    · rw [List.mem_singleton] at he
      subst he
      simp [Emit.op, SendOp.Ok]
    · unfold genTail at he
      split at he
      · rw [List.mem_singleton] at he; subst he; trivial
      · simp only [List.mem_append, List.mem_cons, List.not_mem_nil, or_false, bodies, List.mem_map] at he
        rcases he with ⟨x, _, rfl⟩ | rfl | rfl
        · exact fun _ => hb
        · simp [Emit.op, SendOp.Ok, lastOpts]
        · trivial
  intro l hp
  have hbuf : (sendAll (l.map Emit.op)).buf = [] := by
    induction l using snocInd with
    | h0 => rfl
    | h1 l x ih =>
      rw [sendAll_snoc]
      exact empty_step (ih ((List.prefix_append l [x]).trans hp)) (hmin x (mem_prefix hp))
  refine ⟨hbuf, ?_⟩
  have := C24_stream (l.map Emit.op) (fun op ho => by
    obtain ⟨e, he, rfl⟩ := List.mem_map.1 ho
    exact hok e (hp.subset he))
  rw [hbuf] at this
  simpa using this

/-- **C118 (`stream=False`).** Then no more is held back than half the buffer size and one piece, and what a piece sets free is at least half the
buffer size: a piece is queued only if so much was held back before. -/
theorem C118_held {c : Cfg} (hc : CfgOk c) {a : App} (hq : ∀ m ∈ a.qms, Script.Fine m.script) (hr : ∀ m ∈ a.rms, Script.Fine m.script)
    (pq : Pass a.qms) (pr : Pass a.rms) {sc : Script} (hs : Script.Fine sc) {d : Bytes} {rest : List (Script × Bytes)} (hy : ∀ y ∈ rest, Script.Fine y.1)
    {fin : Script} (hf : Script.Fine fin) {ex : Option Exc} (hh : a.handler = .gen ((sc, d) :: rest) fin ex) {s s' : St} (fs : Fresh s)
    (run : serve c a s = (.ok (), s')) (hst : a.opt.stream = false) {L : Nat} (hL : ∀ b o, Emit.body b o ∈ s'.log → b.length ≤ L) :
    ∀ l, l <+: s'.log → (sendAll (l.map Emit.op)).buf.length ≤ a.opt.bufferSize / 2 + L ∧
      ∀ b o, l ++ [Emit.body b o] <+: s'.log → (sendAll ((l ++ [Emit.body b o]).map Emit.op)).queue ≠ (sendAll (l.map Emit.op)).queue →
        a.opt.bufferSize / 2 ≤ (sendAll (l.map Emit.op)).buf.length := by
  obtain ⟨t, ls, hl, _⟩ := (streamed_sent hc hq hr pq pr hs hy hf hh fs run).2.ex
  rw [List.nil_append] at hl
  have hmin : ∀ b o, Emit.body b o ∈ s'.log → o.bufferMin = some (a.opt.bufferSize / 2) := by
    intro b o he
    rw [hl] at he
    rcases List.mem_append.1 he with he | he
    · rw [List.mem_singleton] at he
      cases he
    · rcases emits he with h | ⟨b', so, h, hso⟩
      · cases h
      · cases h
        rw [hso]; simp [Opt.sendOpts, hst]
  have hkind : ∀ e ∈ s'.log, (∃ t, e = .head t [] { throttle := false }) ∨ (∃ k, e = .mark k) ∨ ∃ b o, e = .body b o := by
    intro e he
    rw [hl] at he
    rcases List.mem_append.1 he with he | he
    · rw [List.mem_singleton] at he
      exact .inl ⟨_, he⟩
    · rcases emits he with h | ⟨b', so, h, hso⟩
      · exact .inr (.inl ⟨_, h⟩)
      · exact .inr (.inr ⟨_, _, h⟩)
  intro l hp
  constructor
  · induction l using snocInd with
    | h0 => simp [sendAll]
    | h1 l x ih =>
      have i := ih ((List.prefix_append l [x]).trans hp)
      rw [sendAll_snoc]
      have hx := mem_prefix hp
      rcases hkind x hx with ⟨t, rfl⟩ | ⟨k, rfl⟩ | ⟨b, o, rfl⟩
      · simp [Emit.op, sendStep, SendOpts.holds]
      · simp only [Emit.op, sendStep]
        split
        · simp
        · exact i
      · have h1 := hmin b o hx
        have h2 := hL b o hx
        simp only [Emit.op, sendStep, SendOpts.holds, h1]
        split
        · rename_i hlt
          have := of_decide_eq_true hlt
          simp only [List.length_append]; omega
        · split <;> simp
  · intro b o hp' hne
    have h1 := hmin b o (mem_prefix hp')
    rw [sendAll_snoc] at hne
    apply Classical.byContradiction
    intro hlt
    apply hne
    have hh : o.holds (sendAll (l.map Emit.op)).buf.length = true := by
      simp only [SendOpts.holds, h1]
      exact decide_eq_true (by omega)
    simp only [Emit.op, sendStep, hh, if_true]

/-! ## Any request -/

namespace Prompt

/-- Sent without being held back, in pieces that are not empty. -/
def At (o : SendOpts) : Prop := o.bufferMin = none ∧ (o.throttle = true → 0 < o.bufferSize)

/-- What an entry hands over is sent without being held back. -/
def Now (e : Emit) : Prop := ∀ d o, e.op = .send d o → At o

/-- A method that only adds such entries, however it ends. -/
def Adds {α : Type} (m : M α) : Prop := ∀ s, ∃ l, (m s).2.log = s.log ++ l ∧ ∀ e ∈ l, Now e

theorem same {s s' : St} (h : s'.log = s.log) : ∃ l, s'.log = s.log ++ l ∧ ∀ e ∈ l, Now e := ⟨[], by simp [h], by simp⟩
theorem step {s t u : St} (h : ∃ l, t.log = s.log ++ l ∧ ∀ e ∈ l, Now e) (h' : ∃ l, u.log = t.log ++ l ∧ ∀ e ∈ l, Now e) : ∃ l, u.log = s.log ++ l ∧ ∀ e ∈ l, Now e := by
  obtain ⟨l, a, b⟩ := h
  obtain ⟨l', a', b'⟩ := h'
  exact ⟨l ++ l', by rw [a', a, List.append_assoc], fun e he => (List.mem_append.1 he).elim (b e) (b' e)⟩

theorem Adds.pure {α : Type} (a : α) : Adds (pure a : M α) := fun _ => same rfl
theorem Adds.raise {α : Type} (e : Exc) : Adds (raise e : M α) := fun _ => same rfl
theorem Adds.modify {f : St → St} (h : ∀ s, (f s).log = s.log) : Adds (modify f) := fun s => same (h s)
theorem Adds.get : Adds Model.Response.get := fun _ => same rfl
theorem Adds.headers : Adds headers := fun s => by unfold Model.Response.headers; split <;> exact same rfl
theorem Adds.emit {e : Emit} (h : Now e) : Adds (emit e) := fun s => ⟨[e], rfl, by simpa using h⟩
theorem Adds.bind {α β : Type} {m : M α} {f : α → M β} (hm : Adds m) (hf : ∀ a, Adds (f a)) : Adds (m >>= f) := by
  intro s
  have h := hm s
  rw [bind_run]
  generalize m s = x at h ⊢
  obtain ⟨x, s'⟩ := x
  cases x with
  | ok a => exact step h (hf a s')
  | error e => exact h
theorem Adds.ite {α : Type} {p : Prop} [Decidable p] {a b : M α} (ha : Adds a) (hb : Adds b) : Adds (if p then a else b) := by split <;> assumption
theorem Adds.when {b : Bool} {m : M Unit} (h : Adds m) : Adds (when b m) := Adds.ite h (Adds.pure _)

theorem now_mark (k : Bool) : Now (.mark k) := fun _ _ h => by cases h
theorem now_head (t b : Bytes) {o : SendOpts} (h : At o) : Now (.head t b o) := fun _ _ e => by cases e; exact h
theorem now_body (b : Bytes) {o : SendOpts} (h : At o) : Now (.body b o) := fun _ _ e => by cases e; exact h
theorem at_off (n : Nat) : At { throttle := false, bufferSize := n } := ⟨rfl, fun h => by cases h⟩

theorem adds_appendHeader (n v : Bytes) : Adds (appendHeader n v) := Adds.bind Adds.headers (fun _ => Adds.modify (fun _ => rfl))
theorem adds_setHeader (n v : Bytes) : Adds (setHeader n v) := by
  unfold setHeader
  exact Adds.ite (Adds.raise _) (Adds.bind Adds.headers (fun _ => Adds.modify (fun _ => rfl)))
theorem adds_setBaseHeader (c : Cfg) : Adds (setBaseHeader c) := by
  refine Adds.bind Adds.get (fun s => ?_)
  split
  · exact Adds.pure _
  · exact Adds.bind (adds_setHeader _ _) (fun _ => adds_setHeader _ _)
theorem adds_setCookie (k : Bytes) : Adds (setCookie k) := by
  unfold setCookie
  split
  · exact Adds.raise _
  · exact adds_appendHeader _ _
theorem adds_setStatus (st : Int) (m : Bytes) : Adds (setStatus st m) := by
  unfold setStatus
  split
  · exact Adds.raise _
  · refine Adds.bind Adds.headers (fun h => ?_)
    rcases Dict.get h kLine with _ | (_ | ⟨_, _ | ⟨_, _ | ⟨_, _⟩⟩⟩) <;> exact fun s => same rfl
theorem adds_getStatus : Adds getStatus := by
  refine Adds.bind Adds.headers (fun h => ?_)
  rcases Dict.get h kLine with _ | l
  · intro s
    dsimp only
    rcases s.status with _ | ⟨_, _⟩ <;> exact same rfl
  · refine Adds.bind (fun s => same rfl) (fun _ => ?_)
    rcases l with _ | ⟨_, _ | ⟨st, _ | ⟨_, _ | ⟨_, _⟩⟩⟩⟩
    iterate 3 exact Adds.raise _
    · dsimp only
      rcases intDec st with _ | n
      · exact Adds.raise _
      · exact Adds.pure _
    · exact Adds.raise _
theorem adds_setContentType (ct : Bytes) : Adds (setContentType ct) := by
  unfold setContentType
  split
  · exact Adds.raise _
  · refine Adds.bind Adds.headers (fun h => ?_)
    rcases Dict.get h kCT with _ | l <;> exact fun s => same rfl
theorem adds_getContentType : Adds getContentType := by
  refine Adds.bind Adds.headers (fun h => ?_)
  rcases Dict.get h kCT with _ | l
  · intro s
    dsimp only
    rcases s.ctype with _ | ⟨_, _⟩ <;> exact same rfl
  · refine Adds.bind (fun s => same rfl) (fun _ => ?_)
    rcases l with _ | ⟨_, _⟩
    · exact Adds.raise _
    · exact Adds.pure _
theorem adds_close (k : Bool) : Adds (close k) := by
  intro s
  rw [close_run]
  exact ⟨_, rfl, by simpa using now_mark _⟩
theorem adds_sendContinue (c : Cfg) : Adds (sendContinue c) := by
  refine Adds.bind Adds.get (fun s => ?_)
  split
  · split
    · exact Adds.raise _
    · exact Adds.bind (Adds.emit (fun _ _ e => by cases e; exact at_off _)) (fun _ => adds_close true)
  · exact Adds.pure _
theorem adds_typeHeader : Adds typeHeader := Adds.bind adds_getContentType (fun _ => adds_setHeader _ _)
theorem adds_decideKeep (st : Int) (h) : Adds (decideKeep st h) := by
  apply Adds.modify; intro s; (repeat' split) <;> rfl
theorem adds_prepare (c : Cfg) (d ch o) : Adds (prepare c d ch o) := by
  unfold prepare
  refine Adds.bind (adds_setBaseHeader c) (fun _ => Adds.bind adds_getStatus (fun st => ?_))
  refine Adds.bind (Adds.modify (fun _ => rfl)) (fun _ => Adds.bind Adds.headers (fun _ => Adds.bind (Adds.modify (fun _ => rfl)) (fun _ => ?_)))
  refine Adds.bind (Adds.when adds_typeHeader) (fun _ => ?_)
  refine Adds.bind Adds.get (fun s1 => ?_)
  refine Adds.bind (Adds.when (adds_setHeader _ _)) (fun _ => ?_)
  refine Adds.bind Adds.headers (fun _ => Adds.bind (adds_decideKeep _ _) (fun _ => Adds.bind (adds_setHeader _ _) (fun _ => ?_)))
  exact Adds.ite (Adds.bind (Adds.when (Adds.modify (fun _ => rfl))) (fun _ => Adds.pure _)) (Adds.ite (Adds.pure _) (Adds.raise _))
theorem adds_writeBody (d : Option Bytes) {o : SendOpts} (h : At o) : Adds (writeBody d o) := by
  refine Adds.bind Adds.get (fun s => ?_)
  cases d with
  | none => exact fun s => ⟨_, rfl, by simpa using now_mark _⟩
  | some d => exact Adds.ite (Adds.emit (now_body _ h)) (Adds.emit (now_body _ h))
theorem adds_flushHead : Adds flushHead :=
  Adds.bind Adds.headers (fun _ => Adds.bind (Adds.emit (now_head _ _ (at_off _))) (fun _ => Adds.modify (fun _ => rfl)))
theorem adds_write (c : Cfg) (d ch) {o : SendOpts} (h : At o) : Adds (write c d ch o) := by
  refine Adds.bind Adds.get (fun s => ?_)
  split
  · exact Adds.ite (Adds.bind adds_flushHead (fun _ => adds_writeBody _ h))
      (Adds.bind (adds_prepare _ _ _ _) (fun _ => Adds.bind adds_flushHead (fun _ => adds_writeBody _ h)))
  · exact adds_writeBody _ h
theorem adds_end (c : Cfg) (d k) {o : SendOpts} (h : At o) : Adds (end_ c d k o) := by
  refine Adds.bind (Adds.bind Adds.get (fun s => ?_)) (fun _ => adds_close k)
  refine Adds.ite (adds_write _ _ _ (at_off _)) ?_
  refine Adds.bind (adds_setBaseHeader c) (fun _ => Adds.bind adds_getStatus (fun st => Adds.bind adds_getContentType (fun ct => ?_)))
  exact Adds.bind Adds.headers (fun _ => Adds.bind Adds.get (fun _ => Adds.bind (Adds.emit (now_head _ _ h)) (fun _ => Adds.modify (fun _ => rfl))))

end Prompt

/-- The calls of `write` and `end` ask for nothing to be held back (no `buffer_min_size`, which is the default). -/
def Direct (sc : Script) : Prop := ∀ p ∈ sc, match p.1 with
  | .write _ _ o => Prompt.At o
  | .end_ _ _ o => Prompt.At o
  | _ => True

/-- So do all parts of the application. -/
structure DirectApp (a : App) : Prop where
  qms : ∀ m ∈ a.qms, Direct m.script
  rms : ∀ m ∈ a.rms, Direct m.script
  err : Direct a.err.script
  size : 0 < a.opt.bufferSize
  handler : match a.handler with
    | .coro sc _ => Direct sc
    | .gen ys fin _ => a.opt.stream = true ∧ (∀ y ∈ ys, Direct y.1) ∧ Direct fin

namespace Prompt

theorem adds_call (c : Cfg) (call : Call) (h : match call with | .write _ _ o => At o | .end_ _ _ o => At o | _ => True) : Adds (call.run c) := by
  cases call with
  | appendHeader n v => exact adds_appendHeader n v
  | setBaseHeader => exact adds_setBaseHeader c
  | setCookie k => exact adds_setCookie k
  | setHeader n v => exact adds_setHeader n v
  | setStatus st m => exact adds_setStatus st m
  | getStatus => exact Adds.bind adds_getStatus (fun _ => Adds.pure _)
  | setContentType ct => exact adds_setContentType ct
  | getContentType => exact Adds.bind adds_getContentType (fun _ => Adds.pure _)
  | write d ch o => exact adds_write c d ch h
  | end_ d k o => exact adds_end c d k h
  | close k => exact adds_close k
  | stream => exact adds_sendContinue c

theorem adds_script (c : Cfg) : ∀ sc : Script, Direct sc → Adds (runScript c sc)
  | [], _ => Adds.pure _
  | (call, g) :: rest, hd => by
    intro s
    unfold runScript
    have h := adds_call c call (hd (call, g) (by simp)) s
    have ih := adds_script c rest (fun p hp => hd p (by simp [hp]))
    generalize call.run c s = x at h ⊢
    obtain ⟨x, s'⟩ := x
    cases x with
    | ok a => exact step h (ih s')
    | error e =>
      dsimp only
      split
      · exact step h (ih s')
      · exact h

theorem adds_applyOpts (st ct) : Adds (applyOpts st ct) := by
  refine Adds.bind ?_ (fun _ => ?_)
  · rcases st with _ | ⟨st, m⟩
    · exact Adds.pure _
    · exact adds_setStatus _ _
  · rcases ct with _ | ct
    · exact Adds.pure _
    · exact adds_setContentType _

theorem adds_middleware (c : Cfg) (m : Mw) (h : Direct m.script) : Adds (handleMiddleware c m) := by
  refine Adds.bind (adds_setBaseHeader c) (fun _ => Adds.bind (adds_script c _ h) (fun _ => ?_))
  split
  · exact Adds.pure _
  · exact Adds.pure _
  · exact Adds.raise _
  · exact Adds.bind (adds_applyOpts _ _) (fun _ => Adds.bind (adds_end _ _ _ (at_off _)) (fun _ => Adds.pure _))

theorem adds_responseLoop (c : Cfg) : ∀ ms : List Mw, (∀ m ∈ ms, Direct m.script) → Adds (responseLoop c ms)
  | [], _ => Adds.pure _
  | m :: ms, h => Adds.bind (adds_middleware c m (h m (by simp))) (fun _ => Adds.ite (adds_responseLoop c ms (fun m hm => h m (by simp [hm]))) (Adds.pure _))

theorem adds_requestLoop (c : Cfg) : ∀ ms : List Mw, (∀ m ∈ ms, Direct m.script) → Adds (requestLoop c ms)
  | [], _ => Adds.pure _
  | m :: ms, h => Adds.bind (adds_middleware c m (h m (by simp))) (fun _ => Adds.ite (adds_requestLoop c ms (fun m hm => h m (by simp [hm]))) (Adds.pure _))

theorem adds_startHead (c : Cfg) (o : Opt) : Adds (startHead c o) := by
  unfold startHead
  refine Adds.bind adds_getStatus (fun st => ?_)
  refine Adds.bind (Adds.modify (fun _ => rfl)) (fun _ => Adds.bind Adds.headers (fun _ => Adds.bind (Adds.modify (fun _ => rfl)) (fun _ => ?_)))
  refine Adds.bind (Adds.when adds_typeHeader) (fun _ => ?_)
  refine Adds.bind Adds.get (fun s1 => ?_)
  exact Adds.bind (Adds.when (adds_setHeader _ _)) (fun _ => Adds.pure _)

theorem adds_genLoop (c : Cfg) {o : SendOpts} (ho : At o) {fin : Script} (hf : Direct fin) (e) : ∀ ys : List (Script × Bytes), (∀ y ∈ ys, Direct y.1) → Adds (genLoop c o fin e ys)
  | [], _ => by
    refine Adds.bind (adds_script c _ hf) (fun _ => ?_)
    split
    · exact Adds.raise _
    · exact adds_write _ _ _ ⟨ho.1, fun h => by cases h⟩
  | (sc, d) :: rest, h => by
    exact Adds.bind (adds_script c _ (h (sc, d) (by simp))) (fun _ => Adds.bind (Adds.when (adds_write _ _ _ ho)) (fun _ => adds_genLoop c ho hf e rest (fun y hy => h y (by simp [hy]))))

theorem adds_handleResponse (c : Cfg) (a : App) (h : DirectApp a) : Adds (handleResponse c a.opt a.rms a.handler) := by
  have hh := h.handler
  generalize a.handler = x at hh ⊢
  cases x with
  | coro sc r =>
    refine Adds.bind (adds_applyOpts _ _) (fun _ => Adds.bind (adds_setBaseHeader c) (fun _ => Adds.bind (adds_script c _ hh) (fun _ => ?_)))
    split
    · exact adds_close _
    · exact Adds.pure _
    · exact Adds.raise _
    · refine Adds.bind (adds_startHead c _) (fun st => Adds.bind Adds.get (fun s => ?_))
      refine Adds.bind (Adds.when (adds_setHeader _ _)) (fun _ => Adds.bind (adds_setHeader _ _) (fun _ => ?_))
      refine Adds.bind (adds_responseLoop c _ h.rms) (fun go => Adds.ite (Adds.ite (adds_write _ _ _ ⟨rfl, fun _ => by decide⟩) ?_) (Adds.pure _))
      exact Adds.bind (Adds.when (adds_write _ _ _ ⟨rfl, fun _ => h.size⟩)) (fun _ => Adds.bind (adds_write _ _ _ (at_off _)) (fun _ => adds_close _))
  | gen ys fin e =>
    obtain ⟨h1, h2, h3⟩ := hh
    have ho : At a.opt.sendOpts := ⟨by simp [Opt.sendOpts, h1], fun _ => h.size⟩
    refine Adds.bind (adds_applyOpts _ _) (fun _ => Adds.bind (adds_setBaseHeader c) (fun _ => ?_))
    cases ys with
    | nil => exact Adds.bind (adds_script c _ h3) (fun _ => Adds.raise _)
    | cons y rest =>
      obtain ⟨sc, d⟩ := y
      refine Adds.bind (adds_script c _ (h2 (sc, d) (by simp))) (fun _ => Adds.bind (adds_startHead c _) (fun st => Adds.bind Adds.get (fun s => ?_)))
      refine Adds.bind Adds.headers (fun _ => Adds.bind (adds_decideKeep _ _) (fun _ => Adds.bind (adds_setHeader _ _) (fun _ => ?_)))
      refine Adds.bind (adds_responseLoop c _ h.rms) (fun go => Adds.ite (Adds.ite (adds_write _ _ _ ⟨rfl, fun _ => by decide⟩) ?_) (Adds.pure _))
      exact Adds.bind (Adds.when (adds_write _ _ _ ho)) (fun _ => Adds.bind (adds_genLoop _ ho h3 _ _ (fun y hy => h2 y (by simp [hy]))) (fun _ => adds_close _))

theorem adds_finally {α : Type} {m : M α} {f : Option α → M Unit} (hm : Adds m) (hf : ∀ a, Adds (f a)) : Adds (finally_ m f) := by
  intro s
  unfold finally_
  have h := hm s
  generalize m s = x at h ⊢
  obtain ⟨x, s'⟩ := x
  cases x with
  | ok a => exact step h (hf _ s')
  | error e =>
    have h2 := hf none s'
    dsimp only
    generalize f none s' = y at h2 ⊢
    obtain ⟨y, s''⟩ := y
    cases y <;> exact step h h2

theorem adds_handleException (c : Cfg) (eh : ErrHandler) (he : Direct eh.script) (e : Exc) : Adds (handleException c eh e) := by
  refine Adds.bind Adds.get (fun s => ?_)
  refine Adds.ite (Adds.modify (fun _ => rfl)) ?_
  have key : ∀ x, Adds (errorResponse c eh x) := fun x => by
    refine Adds.bind Adds.get (fun s => Adds.ite (adds_close _) ?_)
    refine Adds.bind (Adds.modify (fun _ => rfl)) (fun _ => Adds.bind (adds_setStatus _ _) (fun _ => Adds.bind (adds_setContentType _) (fun _ => adds_finally ?_ (fun _ => adds_end _ _ _ (at_off _)))))
    refine Adds.bind (adds_script c _ he) (fun _ => ?_)
    split
    · exact Adds.pure _
    · exact Adds.pure _
    · exact Adds.raise _
  split
  · exact Adds.bind (Adds.emit (fun _ _ e => by cases e; exact ⟨rfl, fun _ => by decide⟩)) (fun _ => adds_close _)
  · exact adds_close _
  · exact key _

theorem adds_request (c : Cfg) (a : App) (h : DirectApp a) (s : St) : ∃ l, (handleRequest c a s).log = s.log ++ l ∧ ∀ e ∈ l, Now e := by
  have h1 : Adds (serve c a) := Adds.bind (adds_requestLoop c _ h.qms) (fun _ => Adds.ite (adds_handleResponse _ _ h) (Adds.pure _))
  have h2 := h1 s
  unfold handleRequest
  generalize serve c a s = x at h2 ⊢
  obtain ⟨x, s'⟩ := x
  cases x with
  | ok a => exact h2
  | error e => exact step h2 (adds_handleException c _ h.err e s')

end Prompt

/-- **C118 (any request).** Whatever middlewares, handler and error handler do, and however the request ends: if nobody asks for data to be
held back, then at every point all that was handed over so far is in the queue of the connection. -/
theorem C118_any (c : Cfg) {a : App} (h : DirectApp a) {s : St} (fs : s.log = []) :
    ∀ l, l <+: (handleRequest c a s).log → (sendAll (l.map Emit.op)).buf = [] ∧ delivered (sendAll (l.map Emit.op)).queue = asked (l.map Emit.op) := by
  obtain ⟨l0, h0, hn⟩ := adds_request c a h s
  rw [fs, List.nil_append] at h0
  rw [h0]
  intro l hp
  have hbuf : (sendAll (l.map Emit.op)).buf = [] := by
    induction l using snocInd with
    | h0 => rfl
    | h1 l x ih =>
      rw [sendAll_snoc]
      exact empty_step (ih ((List.prefix_append l [x]).trans hp)) (fun d o e => (hn x (mem_prefix hp) d o e).1)
  refine ⟨hbuf, ?_⟩
  have := C24_stream (l.map Emit.op) (fun op ho => by
    obtain ⟨e, he, rfl⟩ := List.mem_map.1 ho
    have := hn e (hp.subset he)
    cases hop : e.op with
    | close => trivial
    | send d o => exact (this d o hop).2)
  rw [hbuf] at this
  simpa using this

/-- With `stream=False` a generator that raises loses what it has yielded last: it was held back, and the connection is aborted. -/
theorem C118_lost : ∃ a : App, a.opt.stream = false ∧ (handleRequest {} a { keepalive := true }).aborted = true ∧
    (sendAll ((handleRequest {} a { keepalive := true }).log.map Emit.op)).buf = b!"5\r\nhello\r\n" ∧
    (sendAll ((handleRequest {} a { keepalive := true }).log.map Emit.op)).queue.length = 1 :=
  ⟨{ opt := { stream := false }, handler := .gen [([], b!"hello")] [] (some .other) }, by decide +kernel⟩

/-! ## Cases -/

/-- A generator that raises after two pieces: both are in the queue. -/
example : (sendAll ((handleRequest {} { handler := .gen [([], b!"ab"), ([], b!"cd")] [] (some .other) } { keepalive := true }).log.map Emit.op)).queue.drop 1 =
    [some b!"2\r\nab\r\n", some b!"2\r\ncd\r\n"] ∧ DirectApp { handler := .gen [([], b!"ab"), ([], b!"cd")] [] (some .other) } := by
  refine ⟨by decide +kernel, ⟨by simp, by simp, by simp [Direct], by decide, ⟨rfl, by simp [Direct], by simp [Direct]⟩⟩⟩

/-- A generator of three pieces, run with `stream` and without: what is in the queue after its second piece. -/
def ticks (stream : Bool) : App := { opt := { stream, bufferSize := 16 }, handler := .gen [([], b!"ab"), ([], b!"cd"), ([], b!"efghi")] [] none }

example : serve {} (ticks true) { keepalive := true } = (.ok (), (serve {} (ticks true) { keepalive := true }).2) ∧
    (sendAll (((serve {} (ticks true) { keepalive := true }).2.log.take 3).map Emit.op)).queue.drop 1 = [some b!"2\r\nab\r\n", some b!"2\r\ncd\r\n"] ∧
    (sendAll (((serve {} (ticks false) { keepalive := true }).2.log.take 3).map Emit.op)).queue.drop 1 = [] ∧
    (sendAll (((serve {} (ticks false) { keepalive := true }).2.log.take 3).map Emit.op)).buf = b!"2\r\nab\r\n2\r\ncd\r\n" ∧
    (sendAll (((serve {} (ticks false) { keepalive := true }).2.log.take 4).map Emit.op)).queue.drop 1 = (pieces 16 b!"2\r\nab\r\n2\r\ncd\r\n5\r\nefghi\r\n").map some := by decide +kernel

end Verif
