import Verif.Model.Response
import Verif.Proofs.BodyStream
/-!
# Lemmas about the response model
-/
namespace Verif.Proofs.Response
open Verif.Py Verif.Py.Dict Verif.Model.Upload Verif.Model.Response

@[simp] theorem pure_run {α : Type} (a : α) (s : St) : (pure a : M α) s = (.ok a, s) := rfl
theorem bind_run {α β : Type} (m : M α) (f : α → M β) (s : St) : (m >>= f) s =
    (match m s with | (.ok a, s') => f a s' | (.error e, s') => (.error e, s')) := rfl
theorem bind_ok {α β : Type} {m : M α} {f : α → M β} {s s' : St} {a : α} (h : m s = (.ok a, s')) : (m >>= f) s = f a s' := by
  rw [bind_run, h]
theorem bind_err {α β : Type} {m : M α} {f : α → M β} {s s' : St} {e : Exc} (h : m s = (.error e, s')) :
    (m >>= f) s = (.error e, s') := by
  rw [bind_run, h]
@[simp] theorem raise_run {α : Type} (e : Exc) (s : St) : (raise e : M α) s = (.error e, s) := rfl
@[simp] theorem get_run (s : St) : Model.Response.get s = (.ok s, s) := rfl
@[simp] theorem modify_run (f : St → St) (s : St) : modify f s = (.ok (), f s) := rfl
@[simp] theorem emit_run (e : Emit) (s : St) : emit e s = (.ok (), { s with log := s.log ++ [e] }) := rfl
@[simp] theorem putHeaders_run (h) (s : St) : putHeaders h s = (.ok (), { s with headers := some h }) := rfl
@[simp] theorem setSent_run (s : St) : setSent s = (.ok (), { s with headers := none }) := rfl
theorem headers_some {s : St} {h} (e : s.headers = some h) : headers s = (.ok h, s) := by simp [headers, e]
theorem headers_none {s : St} (e : s.headers = none) : headers s = (.error ise, s) := by simp [headers, e]

/-! ## A relation between the states before and after a method -/

/-- Neither a head nor body bytes. -/
def Quiet : Emit → Prop
  | .head .. => False
  | .body .. => False
  | _ => True
/-- Not a head. -/
def NotHead : Emit → Prop
  | .head .. => False
  | _ => True

theorem Quiet.notHead {e : Emit} (h : Quiet e) : NotHead e := by cases e <;> simp_all [Quiet, NotHead]

/-- What a method may do: append to the log; no head if the head was sent before; nothing but interim responses and
markers while the head is not sent; exactly one head, before any body, when it gets sent. `http_keepalive` is never
switched on. -/
structure R (s s' : St) : Prop where
  log : ∃ l, s'.log = s.log ++ l ∧
    (s.headers = none → s'.headers = none ∧ ∀ e ∈ l, NotHead e) ∧
    (s'.headers ≠ none → ∀ e ∈ l, Quiet e) ∧
    (s.headers ≠ none → s'.headers = none → ∃ a t b o r, l = a ++ .head t b o :: r ∧ (∀ e ∈ a, Quiet e) ∧ ∀ e ∈ r, NotHead e)
  keep : s'.keepalive = true → s.keepalive = true

theorem R.refl (s : St) : R s s := ⟨⟨[], by simp⟩, id⟩

theorem R.trans {s t u : St} (h1 : R s t) (h2 : R t u) : R s u := by
  obtain ⟨⟨l1, e1, a1, b1, c1⟩, k1⟩ := h1
  obtain ⟨⟨l2, e2, a2, b2, c2⟩, k2⟩ := h2
  refine ⟨⟨l1 ++ l2, by rw [e2, e1, List.append_assoc], ?_, ?_, ?_⟩, fun h => k1 (k2 h)⟩
  · intro h
    obtain ⟨ht, q1⟩ := a1 h
    obtain ⟨hu, q2⟩ := a2 ht
    exact ⟨hu, fun e he => (List.mem_append.1 he).elim (q1 e) (q2 e)⟩
  · intro h e he
    have ht : t.headers ≠ none := fun ht => h (a2 ht).1
    exact (List.mem_append.1 he).elim (b1 ht e) (b2 h e)
  · intro hs hu
    by_cases ht : t.headers = none
    · obtain ⟨a, x, y, o, r, e, qa, qr⟩ := c1 hs ht
      refine ⟨a, x, y, o, r ++ l2, by rw [e]; simp, qa, fun e he => (List.mem_append.1 he).elim (qr e) ((a2 ht).2 e)⟩
    · obtain ⟨a, x, y, o, r, e, qa, qr⟩ := c2 ht hu
      refine ⟨l1 ++ a, x, y, o, r, by rw [e]; simp, fun e he => (List.mem_append.1 he).elim (b1 ht e) (qa e), qr⟩

/-- A method all of whose runs satisfy `R`. -/
def Good {α : Type} (m : M α) : Prop := ∀ s, R s (m s).2

theorem Good.pure {α : Type} (a : α) : Good (pure a : M α) := fun s => R.refl s
theorem Good.raise {α : Type} (e : Exc) : Good (raise e : M α) := fun s => R.refl s
theorem Good.bind {α β : Type} {m : M α} {f : α → M β} (hm : Good m) (hf : ∀ a, Good (f a)) : Good (m >>= f) := by
  intro s
  have h := hm s
  rw [bind_run]
  generalize hr : m s = r at h ⊢
  obtain ⟨r, s'⟩ := r
  cases r with
  | ok a => exact h.trans (hf a s')
  | error e => exact h
theorem Good.get {β : Type} {f : St → M β} (hf : ∀ s, R s (f s s).2) : Good (Model.Response.get >>= f) := hf
theorem Good.get' : Good Model.Response.get := fun s => R.refl s
theorem Good.headers : Good headers := by
  intro s; unfold Model.Response.headers; split <;> exact R.refl s

/-- Changes that leave log, sent flag and keep-alive alone. -/
theorem R.silent {s s' : St} (hl : s'.log = s.log) (hh : s'.headers = none ↔ s.headers = none)
    (hk : s'.keepalive = true → s.keepalive = true) : R s s' :=
  ⟨⟨[], by simp [hl], fun h => ⟨hh.2 h, by simp⟩, by simp, fun h h' => absurd (hh.1 h') h⟩, hk⟩

theorem R.quiet {s s' : St} {l : List Emit} (hl : s'.log = s.log ++ l) (hq : ∀ e ∈ l, Quiet e)
    (hh : s'.headers = none ↔ s.headers = none) (hk : s'.keepalive = true → s.keepalive = true) : R s s' :=
  ⟨⟨l, hl, fun h => ⟨hh.2 h, fun e he => (hq e he).notHead⟩, fun _ => hq, fun h h' => absurd (hh.1 h') h⟩, hk⟩

theorem Good.modify {f : St → St} (hl : ∀ s, (f s).log = s.log) (hh : ∀ s, (f s).headers = none ↔ s.headers = none)
    (hk : ∀ s, (f s).keepalive = true → s.keepalive = true) : Good (modify f) :=
  fun s => R.silent (hl s) (hh s) (hk s)

/-- `headers` followed by an update of the table. -/
theorem Good.update {β : Type} {f : Dict Bytes (List Bytes) → M β}
    (hf : ∀ s h, s.headers = some h → R s (f h s).2) : Good (Model.Response.headers >>= f) := by
  intro s
  rw [bind_run]
  cases e : s.headers with
  | none => rw [headers_none e]; exact R.refl s
  | some h => rw [headers_some e]; exact hf s h e

theorem R.put {s : St} {h h'} (e : s.headers = some h) : R s { s with headers := some h' } :=
  R.silent rfl (by simp [e]) id

theorem good_appendHeader (n v : Bytes) : Good (appendHeader n v) := Good.update (fun _ _ e => R.put e)

theorem good_setHeader (n v : Bytes) : Good (setHeader n v) := by
  unfold setHeader
  split
  · exact Good.raise _
  · exact Good.update (fun _ _ e => R.put e)

theorem good_setBaseHeader (c : Cfg) : Good (setBaseHeader c) := by
  refine Good.get (fun s => ?_)
  split
  · exact R.refl s
  · exact Good.bind (good_setHeader _ _) (fun _ => good_setHeader _ _) s

theorem good_setCookie (k : Bytes) : Good (setCookie k) := by
  unfold setCookie
  split
  · exact Good.raise _
  · exact good_appendHeader _ _

theorem good_setStatus (st : Int) (m : Bytes) : Good (setStatus st m) := by
  unfold setStatus
  split
  · exact Good.raise _
  · refine Good.update (fun s h e => ?_)
    rcases Dict.get h kLine with _ | (_ | ⟨_, _ | ⟨_, _ | ⟨_, _⟩⟩⟩)
    · exact R.silent rfl Iff.rfl id
    · exact R.refl s
    · exact R.refl s
    · exact R.put e
    · exact R.put e

theorem good_getStatus : Good getStatus := by
  refine Good.update (fun s h e => ?_)
  rcases Dict.get h kLine with _ | l
  rotate_left
  · refine (R.put (h' := del h kLine) e).trans ?_
    rcases l with _ | ⟨_, _ | ⟨st, _ | ⟨_, _ | ⟨_, _⟩⟩⟩⟩
    iterate 3 exact R.refl _
    · dsimp only
      rcases intDec st with _ | n <;> exact R.refl _
    · exact R.refl _
  · show R s (match s.status with
      | top :: rest => (_, { s with status := rest })
      | [] => (_, s)).2
    split
    · exact R.silent rfl Iff.rfl id
    · exact R.refl s

theorem good_setContentType (ct : Bytes) : Good (setContentType ct) := by
  unfold setContentType
  split
  · exact Good.raise _
  · refine Good.update (fun s h e => ?_)
    rcases Dict.get h kCT with _ | l
    · exact R.silent rfl Iff.rfl id
    · exact R.put e

theorem good_getContentType : Good getContentType := by
  refine Good.update (fun s h e => ?_)
  rcases Dict.get h kCT with _ | l
  rotate_left
  · refine (R.put (h' := del h kCT) e).trans ?_
    rcases l with _ | ⟨_, _⟩ <;> exact R.refl _
  · show R s (match s.ctype with
      | top :: rest => (_, { s with ctype := rest })
      | [] => (_, s)).2
    split
    · exact R.silent rfl Iff.rfl id
    · exact R.refl s

theorem close_run (k : Bool) (s : St) : close k s = (.ok (), { s with keepalive := k && s.keepalive, log := s.log ++ [.mark (k && s.keepalive)] }) := by
  cases k <;> rfl

theorem good_close (k : Bool) : Good (close k) := by
  intro s
  rw [close_run]
  exact R.quiet rfl (by simp [Quiet]) Iff.rfl (by simp)

theorem good_sendContinue (c : Cfg) : Good (sendContinue c) := by
  refine Good.get (fun s => ?_)
  split
  · split
    · exact R.refl s
    · refine Good.bind (fun s => ?_) (fun _ => good_close true) s
      exact R.quiet rfl (by simp [Quiet]) Iff.rfl id
  · exact R.refl s

theorem good_ite {α : Type} {p : Prop} [Decidable p] {a b : M α} (ha : Good a) (hb : Good b) : Good (if p then a else b) := by
  split <;> assumption

theorem good_when {b : Bool} {m : M Unit} (h : Good m) : Good (when b m) := good_ite h (Good.pure _)
theorem good_typeHeader : Good typeHeader := Good.bind good_getContentType (fun _ => good_setHeader _ _)

theorem good_decideKeep (st : Int) (h) : Good (decideKeep st h) := by
  apply Good.modify <;> intro s <;> (repeat' split) <;> simp_all

theorem good_put_bind {β : Type} {g : Dict Bytes (List Bytes) → Dict Bytes (List Bytes)} {f : M β} (hf : Good f) :
    Good (Model.Response.headers >>= fun h => putHeaders (g h) >>= fun _ => f) := by
  refine Good.update (fun s h e => ?_)
  rw [bind_run]
  exact (R.put (h' := g h) e).trans (hf _)

theorem good_prepare (c : Cfg) (d ch o) : Good (prepare c d ch o) := by
  unfold prepare
  refine Good.bind (good_setBaseHeader c) (fun _ => Good.bind good_getStatus (fun st => ?_))
  refine Good.bind (Good.modify (fun _ => rfl) (fun _ => Iff.rfl) (fun _ => id)) (fun _ => good_put_bind ?_)
  refine Good.bind (good_when good_typeHeader) (fun _ => ?_)
  refine Good.bind Good.get' (fun s1 => ?_)
  refine Good.bind (good_when (good_setHeader _ _)) (fun _ => ?_)
  refine Good.bind Good.headers (fun _ => Good.bind (good_decideKeep _ _) (fun _ => Good.bind (good_setHeader _ _) (fun _ => ?_)))
  refine good_ite (Good.bind (good_when (Good.modify (fun _ => rfl) (fun _ => Iff.rfl) ?_)) (fun _ => Good.pure _)) (good_ite (Good.pure _) (Good.raise _))
  intro _ h; simp at h

/-- The states in which a body may be emitted. -/
theorem writeBody_R {d : Option Bytes} {o : SendOpts} {s : St} (hs : s.headers = none) : R s (writeBody d o s).2 := by
  unfold writeBody
  rw [bind_run]
  simp only [get_run]
  cases d with
  | none => exact R.quiet rfl (by simp [Quiet]) Iff.rfl id
  | some d =>
    dsimp only
    split
    all_goals
      refine ⟨⟨_, rfl, fun _ => ⟨hs, by simp [NotHead]⟩, fun h => absurd hs h, fun h => absurd hs h⟩, id⟩

theorem flushHead_R {s : St} {h} (hs : s.headers = some h) : R s (flushHead s).2 ∧ (flushHead s).1 = .ok () ∧ (flushHead s).2.headers = none := by
  have e : flushHead s = (.ok (), { s with headers := none, log := s.log ++
      [.head (writeHead ((Dict.get h kLine).getD []) (del h kLine)) [] { throttle := false }] }) := by
    unfold flushHead
    rw [bind_ok (headers_some hs)]; rfl
  rw [e]
  refine ⟨⟨⟨_, rfl, by simp [hs], by simp, fun _ _ => ⟨[], _, _, _, [], rfl, by simp, by simp⟩⟩, id⟩, rfl, rfl⟩

theorem flush_write_good (d : Option Bytes) (o : SendOpts) : Good (flushHead >>= fun _ => writeBody d o) := by
  intro s
  rw [bind_run]
  cases hs : s.headers with
  | none =>
    have : flushHead s = (.error ise, s) := by unfold flushHead; rw [bind_err (headers_none hs)]
    rw [this]; exact R.refl s
  | some h =>
    obtain ⟨r, ok, hn⟩ := flushHead_R hs
    generalize hr : flushHead s = x at r ok hn ⊢
    obtain ⟨x, s'⟩ := x
    cases ok
    exact r.trans (writeBody_R hn)

theorem good_write (c : Cfg) (d ch o) : Good (write c d ch o) := by
  refine Good.get (fun s => ?_)
  cases hs : s.headers with
  | none => exact writeBody_R hs
  | some h => exact good_ite (flush_write_good _ _) (Good.bind (good_prepare _ _ _ _) (fun _ => flush_write_good _ _)) s

/-- The head emitted by `end`, as a method of the table. -/
theorem endPart_R {s : St} {c : Cfg} {data ct k o st} : R s ((do
    let h ← headers
    let s ← Model.Response.get
    emit (.head (endHead c st ct data.length (k && s.keepalive) h) (endBody c st.1 data) o)
    setSent : M Unit) s).2 := by
  cases hs : s.headers with
  | none => rw [bind_err (headers_none hs)]; exact R.refl s
  | some h =>
    rw [bind_ok (headers_some hs)]
    refine ⟨⟨_, rfl, by simp [hs], fun h => absurd rfl h, fun _ _ => ⟨[], _, _, _, [], rfl, by simp, by simp⟩⟩, id⟩

theorem good_end (c : Cfg) (d k o) : Good (end_ c d k o) := by
  refine Good.bind (Good.get (fun s => ?_)) (fun _ => good_close k)
  refine good_ite (good_write _ _ _ _) ?_ s
  refine Good.bind (good_setBaseHeader c) (fun _ => Good.bind good_getStatus (fun st => Good.bind good_getContentType (fun ct => ?_)))
  exact fun _ => endPart_R

theorem good_call (c : Cfg) (call : Call) : Good (call.run c) := by
  cases call with
  | appendHeader n v => exact good_appendHeader n v
  | setBaseHeader => exact good_setBaseHeader c
  | setCookie k => exact good_setCookie k
  | setHeader n v => exact good_setHeader n v
  | setStatus st m => exact good_setStatus st m
  | getStatus => exact Good.bind good_getStatus (fun _ => Good.pure _)
  | setContentType ct => exact good_setContentType ct
  | getContentType => exact Good.bind good_getContentType (fun _ => Good.pure _)
  | write d ch o => exact good_write c d ch o
  | end_ d k o => exact good_end c d k o
  | close k => exact good_close k
  | stream => exact good_sendContinue c

theorem good_script (c : Cfg) : ∀ sc : Script, Good (runScript c sc)
  | [] => Good.pure _
  | (call, g) :: rest => by
    intro s
    unfold runScript
    have h := good_call c call s
    generalize call.run c s = x at h ⊢
    obtain ⟨x, s'⟩ := x
    cases x with
    | ok a => exact h.trans (good_script c rest s')
    | error e =>
      dsimp only
      split
      · exact h.trans (good_script c rest s')
      · exact h

theorem good_applyOpts (st ct) : Good (applyOpts st ct) := by
  refine Good.bind ?_ (fun _ => ?_)
  · rcases st with _ | ⟨st, m⟩
    · exact Good.pure _
    · exact good_setStatus _ _
  · rcases ct with _ | ct
    · exact Good.pure _
    · exact good_setContentType _

theorem good_middleware (c : Cfg) (m : Mw) : Good (handleMiddleware c m) := by
  refine Good.bind (good_setBaseHeader c) (fun _ => Good.bind (good_script c _) (fun _ => ?_))
  split
  · exact Good.pure _
  · exact Good.pure _
  · exact Good.raise _
  · exact Good.bind (good_applyOpts _ _) (fun _ => Good.bind (good_end _ _ _ _) (fun _ => Good.pure _))

theorem good_responseLoop (c : Cfg) : ∀ ms, Good (responseLoop c ms)
  | [] => Good.pure _
  | m :: ms => Good.bind (good_middleware c m) (fun _ => good_ite (good_responseLoop c ms) (Good.pure _))

theorem good_requestLoop (c : Cfg) : ∀ ms, Good (requestLoop c ms)
  | [] => Good.pure _
  | m :: ms => Good.bind (good_middleware c m) (fun _ => good_ite (good_requestLoop c ms) (Good.pure _))

theorem good_startHead (c : Cfg) (o : Opt) : Good (startHead c o) := by
  unfold startHead
  refine Good.bind good_getStatus (fun st => ?_)
  refine Good.bind (Good.modify (fun _ => rfl) (fun _ => Iff.rfl) (fun _ => id)) (fun _ => good_put_bind ?_)
  refine Good.bind (good_when good_typeHeader) (fun _ => ?_)
  refine Good.bind Good.get' (fun s1 => ?_)
  exact Good.bind (good_when (good_setHeader _ _)) (fun _ => Good.pure _)

theorem good_genLoop (c : Cfg) (o fin e) : ∀ ys, Good (genLoop c o fin e ys)
  | [] => by
    refine Good.bind (good_script c _) (fun _ => ?_)
    split
    · exact Good.raise _
    · exact good_write _ _ _ _
  | (sc, d) :: rest => by
    refine Good.bind (good_script c _) (fun _ => Good.bind (good_when (good_write _ _ _ _)) (fun _ => good_genLoop c o fin e rest))

theorem good_handleResponse (c : Cfg) (o : Opt) (rms : List Mw) (h : Handler) : Good (handleResponse c o rms h) := by
  cases h with
  | coro sc r =>
    refine Good.bind (good_applyOpts _ _) (fun _ => Good.bind (good_setBaseHeader c) (fun _ => Good.bind (good_script c _) (fun _ => ?_)))
    split
    · exact good_close _
    · exact Good.pure _
    · exact Good.raise _
    · refine Good.bind (good_startHead c o) (fun st => Good.bind Good.get' (fun s => ?_))
      refine Good.bind (good_when (good_setHeader _ _)) (fun _ => Good.bind (good_setHeader _ _) (fun _ => ?_))
      refine Good.bind (good_responseLoop c rms) (fun go => good_ite (good_ite (good_write _ _ _ _) ?_) (Good.pure _))
      exact Good.bind (good_when (good_write _ _ _ _)) (fun _ => Good.bind (good_write _ _ _ _) (fun _ => good_close _))
  | gen ys fin e =>
    refine Good.bind (good_applyOpts _ _) (fun _ => Good.bind (good_setBaseHeader c) (fun _ => ?_))
    split
    · exact Good.bind (good_script c _) (fun _ => Good.raise _)
    · refine Good.bind (good_script c _) (fun _ => Good.bind (good_startHead c o) (fun st => Good.bind Good.get' (fun s => ?_)))
      refine Good.bind Good.headers (fun h => Good.bind (good_decideKeep _ _) (fun _ => Good.bind (good_setHeader _ _) (fun _ => ?_)))
      refine Good.bind (good_responseLoop c rms) (fun go => good_ite (good_ite (good_write _ _ _ _) ?_) (Good.pure _))
      exact Good.bind (good_when (good_write _ _ _ _)) (fun _ => Good.bind (good_genLoop _ _ _ _ _) (fun _ => good_close _))

theorem good_finally {α : Type} {m : M α} {f : Option α → M Unit} (hm : Good m) (hf : ∀ a, Good (f a)) : Good (finally_ m f) := by
  intro s
  unfold finally_
  have h := hm s
  generalize m s = x at h ⊢
  obtain ⟨x, s'⟩ := x
  cases x with
  | ok a => exact h.trans (hf _ s')
  | error e =>
    have h2 := hf none s'
    dsimp only
    generalize f none s' = y at h2 ⊢
    obtain ⟨y, s''⟩ := y
    cases y <;> exact h.trans h2

theorem good_errorResponse (c : Cfg) (eh : ErrHandler) (e) : Good (errorResponse c eh e) := by
  refine Good.get (fun s => ?_)
  split
  · exact good_close false s
  · next hn =>
    have hs : ∃ h, s.headers = some h := by
      cases hh : s.headers with
      | none => simp [headersSent, hh] at hn
      | some h => exact ⟨h, rfl⟩
    obtain ⟨h, hs⟩ := hs
    refine (R.put (h' := []) hs).trans ?_
    refine Good.bind (good_setStatus _ _) (fun _ => Good.bind (good_setContentType _) (fun _ => good_finally ?_ (fun _ => good_end _ _ _ _))) _
    refine Good.bind (good_script c _) (fun _ => ?_)
    split
    · exact Good.pure _
    · exact Good.pure _
    · exact Good.raise _

theorem good_handleException (c : Cfg) (eh : ErrHandler) (e : Exc) : Good (handleException c eh e) := by
  refine Good.get (fun s => ?_)
  split
  · exact R.silent rfl Iff.rfl id
  · next hns =>
    split
    · refine (R.quiet (s' := { s with log := s.log ++ [_] }) rfl (by simp [Quiet]) Iff.rfl id).trans (good_close true _)
    · exact good_close true s
    · exact good_errorResponse c eh _ s

theorem good_serve (c : Cfg) (a : App) : Good (serve c a) :=
  Good.bind (good_requestLoop c _) (fun _ => good_ite (good_handleResponse _ _ _ _) (Good.pure _))

theorem handleRequest_R (c : Cfg) (a : App) (s : St) : R s (handleRequest c a s) := by
  unfold handleRequest
  have h := good_serve c a s
  generalize serve c a s = x at h ⊢
  obtain ⟨x, s'⟩ := x
  cases x with
  | ok _ => exact h
  | error e => exact h.trans (good_handleException c a.err e s')

end Verif.Proofs.Response
