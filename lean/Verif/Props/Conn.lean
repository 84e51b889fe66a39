import Verif.Model.Conn
import Verif.Proofs.Head
/-!
# C52: the send task
-/
namespace Verif
open Verif.Py Verif.Model.Conn

namespace Conn

/-- Everything but the fields that the theorems on the send task are about. -/
structure Quiet (s s' : St) : Prop where
  q1 : ∃ l, s'.q1 = s.q1 ++ l ∧ s'.queued = s.queued ++ l
  sent : s'.sent = s.sent
  written : s'.written = s.written
  noWrite : s.noWrite = true → s'.noWrite = true
  done : s'.sendDone = s.sendDone
  closing : s.closing = true → s'.closing = true

theorem Quiet.refl (s : St) : Quiet s s := ⟨⟨[], by simp⟩, rfl, rfl, id, rfl, id⟩

theorem Quiet.trans {a b c : St} (h : Quiet a b) (h' : Quiet b c) : Quiet a c := by
  obtain ⟨l, h1, h2⟩ := h.q1
  obtain ⟨m, h3, h4⟩ := h'.q1
  exact ⟨⟨l ++ m, by rw [h3, h1, List.append_assoc], by rw [h4, h2, List.append_assoc]⟩, h'.sent.trans h.sent, h'.written.trans h.written,
    fun x => h'.noWrite (h.noWrite x), h'.done.trans h.done, fun x => h'.closing (h.closing x)⟩

theorem quiet_of {s s' : St} (h1 : s'.q1 = s.q1) (h2 : s'.queued = s.queued) (h3 : s'.sent = s.sent) (h4 : s'.written = s.written)
    (h5 : s.noWrite = true → s'.noWrite = true) (h6 : s'.sendDone = s.sendDone)
    (h7 : s.closing = true → s'.closing = true) : Quiet s s' :=
  ⟨⟨[], by simp [h1], by simp [h2]⟩, h3, h4, h5, h6, h7⟩

theorem quiet_put0 (x : Item) (s : St) : Quiet s (put0 x s) := quiet_of rfl rfl rfl rfl id rfl id
theorem quiet_put1 (x : Item) (s : St) : Quiet s (put1 x s) := ⟨⟨[x], rfl, rfl⟩, rfl, rfl, id, rfl, id⟩
theorem quiet_abort (s : St) : Quiet s (abort s) := quiet_of rfl rfl rfl rfl (fun _ => rfl) rfl (fun _ => rfl)
theorem quiet_close (s : St) : Quiet s (close s) := by
  unfold close; split
  · exact .refl _
  · exact quiet_of rfl rfl rfl rfl (fun _ => rfl) rfl (fun _ => rfl)
theorem quiet_setReq (k : Nat) (f : Rq → Rq) (s : St) : Quiet s (setReq k f s) := by
  unfold setReq; split
  · exact quiet_of rfl rfl rfl rfl id rfl id
  · exact .refl _

theorem quiet_account (c : Cfg) (n : Nat) (s : St) : Quiet s (account c n s) := by
  unfold account
  split
  · exact .refl _
  · split
    · exact .refl _
    · split
      · exact quiet_of rfl rfl rfl rfl id rfl id
      · dsimp only
        split
        · exact quiet_of rfl rfl rfl rfl id rfl id
        · split
          · exact quiet_of rfl rfl rfl rfl id rfl id
          · refine .trans ?_ (quiet_put1 none _)
            refine .trans (b := setReq _ noKeep _) ?_ (quiet_of rfl rfl rfl rfl id rfl id)
            refine .trans ?_ (quiet_setReq _ noKeep _)
            exact quiet_of rfl rfl rfl rfl id rfl id

theorem quiet_feed (c : Cfg) (bs : Nat) (f : Feed) (s : St) : Quiet s (feed c bs f s).1 := by
  unfold feed
  split
  · exact quiet_account c _ s
  · dsimp only
    split
    · exact .trans (quiet_put0 _ s) (quiet_abort _)
    · exact quiet_put0 _ s

theorem quiet_data (c : Cfg) (d : Bytes) (s : St) : Quiet s (dataReceived c d s) := by
  unfold dataReceived
  split
  · exact quiet_of rfl rfl rfl rfl id rfl id
  · exact quiet_of rfl rfl rfl rfl id rfl id
  · exact quiet_of rfl rfl rfl rfl (fun _ => rfl) rfl (fun _ => rfl)
  · exact quiet_of rfl rfl rfl rfl id rfl id

theorem quiet_fed {s : St} (i k : Nat) (raw : Bytes) (p : St × Option Feed) (h : Quiet s p.1) : Quiet s (fed i k raw p) := by
  obtain ⟨s', o⟩ := p
  cases o with
  | none => exact h.trans (quiet_of rfl rfl rfl rfl id rfl id)
  | some f => exact h.trans (quiet_of rfl rfl rfl rfl id rfl id)

theorem quiet_newReq (r : Model.Head.Req) (s : St) : Quiet s (newReq r s) := quiet_of rfl rfl rfl rfl id rfl id

theorem quiet_startHead (c : Cfg) (i : Nat) (data : Bytes) (n : Nat) (s : St) : Quiet s (startHead c i data n s) := by
  unfold startHead
  dsimp only
  split
  · exact .trans (b := { s with heads := s.heads.set i .done }) (quiet_of rfl rfl rfl rfl id rfl id) (quiet_put1 none _)
  · exact quiet_of rfl rfl rfl rfl id rfl id
  · split
    · exact quiet_of rfl rfl rfl rfl id rfl id
    · exact quiet_of rfl rfl rfl rfl id rfl id
  · next r _ =>
    have h1 : Quiet s (if r.hasBody = true then newReq r s else put0 (some []) (newReq r s)) := by
      split
      · exact quiet_newReq r s
      · exact (quiet_newReq r s).trans (quiet_put0 _ _)
    split
    · exact quiet_fed _ _ _ _ (h1.trans (quiet_feed c _ _ _))
    · exact quiet_fed _ _ _ _ h1

theorem quiet_headStep (c : Cfg) (i : Nat) (s : St) : Quiet s (headStep c i s) := by
  unfold headStep
  split
  · exact quiet_startHead c i _ _ s
  · exact quiet_fed _ _ _ _ (quiet_feed c _ _ _)
  · exact .refl _

theorem quiet_recvFed {s : St} (i : Nat) (p : St × Option Feed) (h : Quiet s p.1) : Quiet s (recvFed i p) := by
  obtain ⟨s', o⟩ := p
  cases o with
  | none => exact h.trans (quiet_of rfl rfl rfl rfl id rfl id)
  | some f => exact h.trans (quiet_of rfl rfl rfl rfl id rfl id)

theorem quiet_recvStep (c : Cfg) (i : Nat) (s : St) : Quiet s (recvStep c i s) := by
  unfold recvStep
  split
  · split
    · exact quiet_recvFed _ _ (quiet_feed c _ _ _)
    · exact .refl _
  · exact quiet_recvFed _ _ (quiet_feed c _ _ _)
  · exact .refl _

theorem quiet_drain (c : Cfg) : ∀ (l : List Item) (s : St), Quiet s (drain c l s)
  | [], s => .refl s
  | x :: l, s => (quiet_data c _ s).trans (quiet_drain c l _)

theorem quiet_reset (k : Nat) (s : St) : Quiet s (reset k s) :=
  (quiet_setReq k _ s).trans (quiet_of rfl rfl rfl rfl id rfl id)

theorem quiet_keep (c : Cfg) (k : Nat) (r : Rq) (s : St) : Quiet s (handleKeepalive c k r s) := by
  unfold handleKeepalive
  dsimp only
  have h0 : Quiet s { s with registered := s.registered || s.first } := quiet_of rfl rfl rfl rfl id rfl id
  split
  · exact h0.trans (quiet_close _)
  · refine .trans (b := if r.req.httpContinue = true then _ else _) (h0.trans ?_) (quiet_of rfl rfl rfl rfl id rfl id)
    split
    · exact quiet_setReq _ _ _
    · split
      · split
        · exact quiet_of rfl rfl rfl rfl id rfl id
        · exact quiet_close _
      · split
        · exact quiet_reset _ _
        · refine .trans (quiet_reset k _) (.trans ?_ (quiet_drain c _ _))
          exact quiet_of rfl rfl rfl rfl id rfl id

theorem quiet_closeResponse (k : Nat) (keep : Bool) (s : St) : Quiet s (closeResponse k keep s) := by
  unfold closeResponse
  refine .trans ?_ (quiet_put1 none _)
  split
  · exact .refl _
  · exact quiet_setReq _ _ _

theorem quiet_step (c : Cfg) (s : St) (e : Ev) (h : e ≠ .send) : Quiet s (step c s e) := by
  cases e with
  | send => exact absurd rfl h
  | data d =>
    simp only [step]; split
    · exact .trans (b := { s with rx := s.rx ++ d }) (quiet_of rfl rfl rfl rfl id rfl id) (quiet_data c d _)
    · exact .refl _
  | eof drop => exact quiet_of rfl rfl rfl rfl (fun x => by simp [step, x]) rfl (fun _ => rfl)
  | head i => exact quiet_headStep c i s
  | recv i => exact quiet_recvStep c i s
  | emit k b => exact quiet_put1 _ s
  | mark k b => exact quiet_closeResponse k b s
  | take k =>
    simp only [step]; split
    · exact quiet_of rfl rfl rfl rfl id rfl id
    · exact .refl _
  | upgrade k => exact quiet_setReq _ _ s
  | clear k => exact quiet_setReq _ _ s
  | finish k => exact quiet_of rfl rfl rfl rfl id rfl id
  | leave k b =>
    simp only [step]; split
    · exact .trans (b := finish k s) (quiet_of rfl rfl rfl rfl id rfl id) (quiet_closeResponse k b _)
    · exact .refl _
  | abort => exact quiet_abort s
  | kick => exact quiet_of rfl rfl rfl rfl id rfl id

/-- Everything that changes when the send task takes a marker. -/
theorem marker_quiet (c : Cfg) (s : St) : ∃ s', Quiet s s' ∧ (marker c s = s' ∨ (marker c s = { s' with sendDone := true } ∧ s'.noWrite = (s.noWrite || !s.closing))) := by
  have hc : ∀ s : St, (close s).noWrite = (s.noWrite || !s.closing) := by
    intro s; unfold close
    cases h : s.closing <;> simp
  unfold marker
  split
  · exact ⟨close s, quiet_close s, .inr ⟨rfl, hc s⟩⟩
  · next k _ =>
    split
    · exact ⟨s, .refl _, .inl rfl⟩
    · next r hr =>
      split
      · exact ⟨_, quiet_keep c k r s, .inl rfl⟩
      · refine ⟨close (setReq k (fun r => { r with bodySize := 0 }) s), (quiet_setReq _ _ s).trans (quiet_close _), .inr ⟨rfl, ?_⟩⟩
        rw [hc]
        have : (setReq k (fun r => { r with bodySize := 0 }) s).noWrite = s.noWrite ∧ (setReq k (fun r => { r with bodySize := 0 }) s).closing = s.closing := by
          unfold setReq; split <;> exact ⟨rfl, rfl⟩
        rw [this.1, this.2]

/-- What the send task has done so far. -/
structure Inv (s : St) : Prop where
  fifo : s.queued = s.sent ++ s.q1
  out : s.noWrite = false → s.written = s.sent.filterMap id
  pre : s.written <+: s.sent.filterMap id

theorem inv_quiet {s s' : St} (i : Inv s) (h : Quiet s s') : Inv s' := by
  obtain ⟨l, h1, h2⟩ := h.q1
  refine ⟨by rw [h1, h2, h.sent, i.fifo, List.append_assoc], fun hn => ?_, by rw [h.written, h.sent]; exact i.pre⟩
  rw [h.written, h.sent]
  refine i.out ?_
  cases hs : s.noWrite
  · rfl
  · rw [h.noWrite hs] at hn; exact absurd hn (by simp)

theorem inv_send {c : Cfg} {s : St} (i : Inv s) : Inv (sendStep c s) := by
  unfold sendStep
  split
  · exact i
  · split
    · exact i
    · next x q hq =>
      have f := i.fifo
      rw [hq] at f
      cases x with
      | some b =>
        dsimp only
        split
        · next hw =>
          refine ⟨by simp [f], ?_, ?_⟩
          · intro h; dsimp only at h; rw [hw] at h; cases h
          · dsimp only; rw [List.filterMap_append]; exact i.pre.trans (List.prefix_append _ _)
        · next hw =>
          have hw' : s.noWrite = false := by simpa using hw
          refine ⟨by simp [f], ?_, ?_⟩
          · intro _; dsimp only; rw [i.out hw', List.filterMap_append]; rfl
          · dsimp only; rw [i.out hw', List.filterMap_append]; exact List.prefix_rfl
      | none =>
        dsimp only
        have i' : Inv { s with q1 := q, sent := s.sent ++ [none] } :=
          ⟨by simp [f], fun h => by dsimp only; rw [List.filterMap_append]; simpa using i.out h, by dsimp only; rw [List.filterMap_append]; simpa using i.pre⟩
        obtain ⟨s', h1, h2 | ⟨h2, _⟩⟩ := marker_quiet c { s with q1 := q, sent := s.sent ++ [none] }
        · rw [h2]; exact inv_quiet i' h1
        · rw [h2]; have := inv_quiet i' h1; exact ⟨this.fifo, this.out, this.pre⟩

theorem inv_run (c : Cfg) (es : List Ev) : ∀ {s : St}, Inv s → Inv (run c s es) := by
  induction es with
  | nil => intro s i; exact i
  | cons e r ih =>
    intro s i
    refine ih (s := step c s e) ?_
    by_cases h : e = .send
    · subst h; exact inv_send i
    · exact inv_quiet i (quiet_step c s e h)

theorem inv_init : Inv {} := ⟨rfl, fun _ => rfl, List.prefix_rfl⟩

theorem stays_step {c : Cfg} {s : St} {e : Ev} (h : s.sendDone = true) : (step c s e).sendDone = true ∧ (step c s e).written = s.written := by
  by_cases he : e = .send
  · subst he; simp [step, sendStep, h]
  · have q := quiet_step c s e he
    exact ⟨q.done.trans h, q.written⟩

theorem closing_step {c : Cfg} {s : St} {e : Ev} (h : s.closing = true) : (step c s e).closing = true := by
  by_cases he : e = .send
  · subst he
    simp only [step]
    unfold sendStep
    split
    · exact h
    · split
      · exact h
      · next x q _ =>
        cases x with
        | some b => dsimp only; split <;> exact h
        | none =>
          dsimp only
          obtain ⟨s', h1, h2 | ⟨h2, _⟩⟩ := marker_quiet c { s with q1 := q, sent := s.sent ++ [none] }
          · rw [h2]; exact h1.closing h
          · rw [h2]; exact h1.closing h
  · exact (quiet_step c s e he).closing h

theorem stays {c : Cfg} (es : List Ev) : ∀ {s : St}, s.sendDone = true → (run c s es).written = s.written := by
  induction es with
  | nil => intro s _; rfl
  | cons e r ih => intro s h; have := stays_step (c := c) (e := e) h; exact (ih this.1).trans this.2

end Conn
open Conn

/-- **C52**: for every schedule, as long as the transport takes writes, the bytes written are those queued, in order, without
what is still in the queue; afterwards they are a beginning of them. -/
theorem C52_order (c : Cfg) (es : List Ev) :
    (run c {} es).queued = (run c {} es).sent ++ (run c {} es).q1 ∧
    ((run c {} es).noWrite = false → (run c {} es).written = (run c {} es).sent.filterMap id) ∧
    (run c {} es).written <+: (run c {} es).queued.filterMap id := by
  have i := inv_run c es inv_init
  refine ⟨i.fifo, i.out, ?_⟩
  rw [i.fifo, List.filterMap_append]
  exact i.pre.trans (List.prefix_append _ _)

/-- **C52**: when the send task takes the marker of a response that does not keep the connection, everything queued before the
marker has been written (unless the transport was closed before), and whatever happens then, nothing more is written. -/
theorem C52_close (c : Cfg) (es es' : List Ev) {q : List Item} {k : Nat} {r : Rq}
    (hd : (run c {} es).sendDone = false) (hq : (run c {} es).q1 = none :: q) (hk : (run c {} es).cur = some k) (hr : (run c {} es).reqs[k]? = some r)
    (hc : r.req.httpKeepalive = false) :
    (run c {} (es ++ .send :: es')).written = (run c {} es).written ∧ (run c {} (es ++ .send :: es')).closing = true ∧
    ((run c {} es).noWrite = false → ∃ before, (run c {} es).queued = before ++ none :: q ∧ (run c {} es).written = before.filterMap id) := by
  have i := inv_run c es inv_init
  have hrun : run c {} (es ++ .send :: es') = run c (step c (run c {} es) .send) es' := by simp [run]
  have hs : step c (run c {} es) .send =
      { (close (setReq k (fun r => { r with bodySize := 0 }) { (run c {} es) with q1 := q, sent := (run c {} es).sent ++ [none] })) with
        sendDone := true } := by
    have hcond : ¬ (r.req.httpKeepalive = true ∧ (run c {} es).hb = none) := by rw [hc]; simp
    simp only [step, sendStep]
    rw [hd, hq]
    simp only [Bool.false_eq_true, if_false]
    unfold marker
    simp only [hk, hr]
    rw [if_neg hcond]
  have hwr : (step c (run c {} es) .send).written = (run c {} es).written := by
    rw [hs]
    exact ((quiet_setReq k _ _).trans (quiet_close _)).written
  have hcl : (step c (run c {} es) .send).closing = true := by
    rw [hs]; dsimp only; unfold close; split
    · next h => exact h
    · rfl
  have closed : ∀ (es' : List Ev) (s : St), s.sendDone = true → s.closing = true → (run c s es').closing = true := by
    intro es'
    induction es' with
    | nil => intro s _ h; exact h
    | cons e t ih => intro s h1 h2; exact ih _ (stays_step h1).1 (closing_step h2)
  refine ⟨?_, ?_, ?_⟩
  · rw [hrun, stays es' (by rw [hs]), hwr]
  · rw [hrun]; exact closed es' _ (by rw [hs]) hcl
  · intro hn
    exact ⟨(run c {} es).sent, by rw [i.fifo, hq], i.out hn⟩

namespace Conn

/-- A `_handle_request` task whose handler has not started. -/
def busy : HTask → Bool
  | .new _ _ | .feeding _ _ _ | .failing _ => true
  | _ => false

def wish : Option Bytes → Nat
  | none => 0
  | some _ => 1

/-- What can lead to a handler: those running, the heads not handled yet, the markers in the send queue, and the wish for a
head. -/
def load (s : St) : Nat :=
  s.running.length + s.heads.countP busy + s.q1.countP Option.isNone + wish s.hb

def One (s : St) : Prop := s.tooLarge = true ∨ load s ≤ 1

theorem load_congr {s s' : St} (h1 : s'.running = s.running) (h2 : s'.heads = s.heads) (h3 : s'.q1 = s.q1) (h4 : s'.hb = s.hb) :
    load s' = load s := by unfold load; rw [h1, h2, h3, h4]

theorem one_congr {s s' : St} (h0 : s'.tooLarge = s.tooLarge) (h1 : s'.running = s.running) (h2 : s'.heads = s.heads) (h3 : s'.q1 = s.q1)
    (h4 : s'.hb = s.hb) (h : One s) : One s' := by unfold One; rw [h0, load_congr h1 h2 h3 h4]; exact h

theorem setReq_fields (k : Nat) (f : Rq → Rq) (s : St) : (setReq k f s).tooLarge = s.tooLarge ∧ (setReq k f s).running = s.running ∧
    (setReq k f s).heads = s.heads ∧ (setReq k f s).q1 = s.q1 ∧ (setReq k f s).hb = s.hb := by
  unfold setReq; split <;> exact ⟨rfl, rfl, rfl, rfl, rfl⟩

theorem close_fields (s : St) : (close s).tooLarge = s.tooLarge ∧ (close s).running = s.running ∧
    (close s).heads = s.heads ∧ (close s).q1 = s.q1 ∧ (close s).hb = s.hb := by
  unfold close; split <;> exact ⟨rfl, rfl, rfl, rfl, rfl⟩

/-- Queueing body data changes nothing here, unless the body is too large. -/
theorem account_fields (c : Cfg) (n : Nat) (s : St) : (account c n s).tooLarge = true ∨ ((account c n s).tooLarge = s.tooLarge ∧
    (account c n s).running = s.running ∧ (account c n s).heads = s.heads ∧ (account c n s).q1 = s.q1 ∧ (account c n s).hb = s.hb) := by
  unfold account
  split
  · exact .inr ⟨rfl, rfl, rfl, rfl, rfl⟩
  · split
    · exact .inr ⟨rfl, rfl, rfl, rfl, rfl⟩
    · split
      · exact .inr ⟨rfl, rfl, rfl, rfl, rfl⟩
      · dsimp only
        split
        · exact .inr ⟨rfl, rfl, rfl, rfl, rfl⟩
        · split
          · exact .inr ⟨rfl, rfl, rfl, rfl, rfl⟩
          · exact .inl rfl

theorem feed_fields (c : Cfg) (bs : Nat) (f : Feed) (s : St) : (feed c bs f s).1.tooLarge = true ∨ ((feed c bs f s).1.tooLarge = s.tooLarge ∧
    (feed c bs f s).1.running = s.running ∧ (feed c bs f s).1.heads = s.heads ∧ (feed c bs f s).1.q1 = s.q1 ∧ (feed c bs f s).1.hb = s.hb) := by
  unfold feed
  split
  · exact account_fields c _ s
  · dsimp only
    split <;> exact .inr ⟨rfl, rfl, rfl, rfl, rfl⟩

theorem countP_set_busy {l : List HTask} {i : Nat} {x y : HTask} (h : l[i]? = some x) (hx : busy x = true) :
    (l.set i y).countP busy + 1 = l.countP busy + (if busy y then 1 else 0) := by
  obtain ⟨hl, he⟩ := List.getElem?_eq_some_iff.1 h
  rw [List.countP_set hl, he, hx]
  have : 0 < l.countP busy := List.countP_pos_iff.2 ⟨x, List.mem_of_getElem? h, hx⟩
  simp only [if_true]
  omega

/-- The task of a head goes on. -/
theorem one_fed {s : St} {i k : Nat} {raw : Bytes} {p : St × Option Feed} {x : HTask} (hx : s.heads[i]? = some x) (hb : busy x = true)
    (hf : p.1.tooLarge = true ∨ (p.1.tooLarge = s.tooLarge ∧ p.1.running = s.running ∧ p.1.heads = s.heads ∧ p.1.q1 = s.q1 ∧ p.1.hb = s.hb))
    (h : One s) : One (fed i k raw p) := by
  obtain ⟨s', o⟩ := p
  dsimp only at hf
  have ht : (fed i k raw (s', o)).tooLarge = s'.tooLarge := by cases o <;> rfl
  rcases hf with hf | ⟨h0, h1, h2, h3, h4⟩
  · exact .inl (by rw [ht, hf])
  · rcases h with h | h
    · exact .inl (by rw [ht, h0, h])
    · right
      cases o with
      | none =>
        have := countP_set_busy (y := .handling k) hx hb
        simp only [fed, begin, load, h1, h2, h3, h4, List.length_append, List.length_singleton] at h ⊢
        simp only [busy, Bool.false_eq_true, if_false] at this
        omega
      | some f =>
        have := countP_set_busy (y := .feeding f k raw) hx hb
        simp only [fed, load, h1, h2, h3, h4] at h ⊢
        simp only [busy, if_true] at this
        omega

/-- The outcomes of `data_received`. -/
theorem data_cases (c : Cfg) (d : Bytes) (s : St) :
    (d = [] ∧ dataReceived c d s = s) ∨
    (d ≠ [] ∧ s.hb = none ∧ dataReceived c d s = { s with reading := false, recvs := s.recvs ++ [.waiting d (s.receive.getD (.fut s.gen))], receive := some (.task s.recvs.length) }) ∨
    (∃ buf, d ≠ [] ∧ s.hb = some buf ∧ (
      (∃ n, find CRLF2 (buf ++ d) = some n ∧ n + 2 ≤ c.maxHeader ∧
        dataReceived c d s = { s with hb := none, reading := false, heads := s.heads ++ [.new (buf ++ d) (n + 2)] }) ∨
      dataReceived c d s = abort { s with hb := some (buf ++ d) } ∨
      (find CRLF2 (buf ++ d) = none ∧ dataReceived c d s = { s with hb := some (buf ++ d) }))) := by
  by_cases hd : d = []
  · left; refine ⟨hd, ?_⟩; unfold dataReceived Model.Head.dataReceived; rw [if_pos hd]
  · right
    cases hb : s.hb with
    | none =>
      left; refine ⟨hd, rfl, ?_⟩
      unfold dataReceived Model.Head.dataReceived; rw [if_neg hd, hb]
    | some buf =>
      right; refine ⟨buf, hd, rfl, ?_⟩
      have e : dataReceived c d s = (match Model.Head.dataReceived c.maxHeader (some buf) d with
        | (hb, .wait) => { s with hb := hb }
        | (hb, .start data n) => { s with hb := hb, reading := false, heads := s.heads ++ [.new data n] }
        | (hb, .abort) => abort { s with hb := hb }
        | (hb, .body d) => { s with hb := hb, reading := false, recvs := s.recvs ++ [.waiting d (s.receive.getD (.fut s.gen))]
                                    receive := some (.task s.recvs.length) }) := by unfold dataReceived; rw [hb] <;> rfl
      rw [e]
      unfold Model.Head.dataReceived; rw [if_neg hd]; dsimp only
      cases hf : find CRLF2 (buf ++ d) with
      | some n =>
        dsimp only
        by_cases hm : n + 2 ≤ c.maxHeader
        · have h1 : 1 < n + 2 := by omega
          left; rw [if_pos ⟨h1, hm⟩]; exact ⟨n, rfl, hm, rfl⟩
        · have h1 : n + 2 > c.maxHeader := by omega
          right; left; rw [if_neg (fun h => hm h.2), if_pos h1]
      | none =>
        dsimp only
        right
        rw [if_neg (by omega)]
        by_cases hm : 1 > c.maxHeader
        · left; rw [if_pos hm]
        · rw [if_neg hm]
          by_cases hl : (buf ++ d).length ≤ c.maxHeader
          · right; rw [if_neg (by simp only [true_and, Classical.not_not]; exact hl)]; exact ⟨rfl, rfl⟩
          · left; rw [if_pos (by simp only [true_and]; exact hl)]

theorem one_data {c : Cfg} {d : Bytes} {s : St} (h : One s) : One (dataReceived c d s) := by
  have some_ok : ∀ (buf b : Bytes) (s' : St), s.hb = some buf → s'.tooLarge = s.tooLarge → s'.running = s.running → s'.heads = s.heads →
      s'.q1 = s.q1 → s'.hb = some b → One s' := by
    intro buf b s' hb h0 h1 h2 h3 h4
    rcases h with h | h
    · exact .inl (by rw [h0, h])
    · right; unfold load at h ⊢; rw [h1, h2, h3, h4]; rw [hb] at h; exact h
  rcases data_cases c d s with ⟨_, e⟩ | ⟨_, _, e⟩ | ⟨buf, _, hb, ⟨n, _, _, e⟩ | e | ⟨_, e⟩⟩ <;> rw [e]
  · exact h
  · exact one_congr rfl rfl rfl rfl rfl h
  · rcases h with h | h
    · exact .inl h
    · right; unfold load at h ⊢; rw [hb] at h
      simp only [List.countP_append, List.countP_singleton, busy, wish, if_true] at h ⊢
      omega
  · exact some_ok _ _ _ hb rfl rfl rfl rfl rfl
  · exact some_ok _ _ _ hb rfl rfl rfl rfl rfl

theorem one_drain {c : Cfg} : ∀ (l : List Item) {s : St}, One s → One (drain c l s)
  | [], _, h => h
  | _ :: l, _, h => one_drain l (one_data h)

/-- `One` before a marker is taken: the marker's share is given back. -/
theorem one_keep {c : Cfg} {k : Nat} {r : Rq} {s : St} (hb : s.hb = none) (h : s.tooLarge = true ∨ load s = 0) : One (handleKeepalive c k r s) := by
  have h' : One s := h.imp id (fun x => by omega)
  unfold handleKeepalive
  dsimp only
  have h0 : One { s with registered := s.registered || s.first } := one_congr rfl rfl rfl rfl rfl h'
  split
  · obtain ⟨a, b, c', d, e⟩ := close_fields { s with registered := s.registered || s.first }
    exact one_congr a b c' d e h0
  · suffices ∀ s' : St, One s' → One { s' with reading := true } by
      refine this _ ?_
      split
      · obtain ⟨a, b, c', d, e⟩ := setReq_fields k (fun r => { r with req := { r.req with httpContinue := false } }) { s with registered := s.registered || s.first }
        exact one_congr a b c' d e h0
      · split
        · split
          · exact one_congr rfl rfl rfl rfl rfl h0
          · obtain ⟨a, b, c', d, e⟩ := close_fields { s with registered := s.registered || s.first }
            exact one_congr a b c' d e h0
        · have hr : One (reset k { s with registered := s.registered || s.first }) := by
            obtain ⟨a, b, c', d, e⟩ := setReq_fields k (fun r => { r with bodySize := 0 }) { s with registered := s.registered || s.first }
            rcases h with h | h
            · exact .inl (by unfold reset; dsimp only; rw [a]; exact h)
            · right
              unfold reset load; dsimp only; rw [b, c', d]
              unfold load at h; rw [hb] at h
              dsimp only
              simp only [wish] at h ⊢
              omega
          split
          · exact hr
          · refine one_drain _ (one_congr rfl rfl rfl rfl rfl hr)
    intro s' hs'
    exact one_congr rfl rfl rfl rfl rfl hs'

theorem one_send {c : Cfg} {s : St} (h : One s) : One (sendStep c s) := by
  unfold sendStep
  split
  · exact h
  · split
    · exact h
    · next x q hq =>
      cases x with
      | some b =>
        have h' : One { s with q1 := q, sent := s.sent ++ [some b] } := by
          rcases h with h | h
          · exact .inl h
          · right; unfold load at h ⊢; rw [hq] at h; simp only [List.countP_cons, Option.isNone_some, Bool.false_eq_true, if_false] at h; exact h
        dsimp only
        split
        · exact h'
        · exact one_congr rfl rfl rfl rfl rfl h'
      | none =>
        dsimp only
        have h' : s.tooLarge = true ∨ load { s with q1 := q, sent := s.sent ++ [none] } = 0 := by
          rcases h with h | h
          · exact .inl h
          · right; unfold load at h ⊢; rw [hq] at h; simp only [List.countP_cons, Option.isNone_none, if_true] at h; dsimp only; omega
        have h1 : One { s with q1 := q, sent := s.sent ++ [none] } := h'.imp id (fun x => by omega)
        unfold marker
        dsimp only
        split
        · obtain ⟨a, b, c', d, e⟩ := close_fields { s with q1 := q, sent := s.sent ++ [none] }
          exact one_congr (s' := { (close { s with q1 := q, sent := s.sent ++ [none] }) with sendDone := true }) a b c' d e h1
        · split
          · exact h1
          · next k _ r hr =>
            split
            · next hc => exact one_keep hc.2 h'
            · next k' _ _ =>
              obtain ⟨a, b, c', d, e⟩ := close_fields (setReq k' (fun r => { r with bodySize := 0 }) { s with q1 := q, sent := s.sent ++ [none] })
              obtain ⟨a1, b1, c1, d1, e1⟩ := setReq_fields k' (fun r => { r with bodySize := 0 }) { s with q1 := q, sent := s.sent ++ [none] }
              exact one_congr (a.trans a1) (b.trans b1) (c'.trans c1) (d.trans d1) (e.trans e1) h1

theorem one_startHead {c : Cfg} {i n : Nat} {data : Bytes} {s : St} (hi : s.heads[i]? = some (.new data n)) (h : One s) :
    One (startHead c i data n s) := by
  have hbz : busy (.new data n) = true := rfl
  have drop : ∀ s' : St, s'.tooLarge = s.tooLarge → s'.running = s.running → s'.heads = s.heads.set i .done → s'.q1.countP Option.isNone ≤ s.q1.countP Option.isNone + 1 →
      s'.hb = s.hb → One s' := by
    intro s' h0 h1 h2 h3 h4
    rcases h with h | h
    · exact .inl (by rw [h0, h])
    · right
      have := countP_set_busy (y := .done) hi hbz
      simp only [busy, Bool.false_eq_true, if_false] at this
      unfold load at h ⊢; rw [h1, h2, h4]
      omega
  unfold startHead
  dsimp only
  split
  · refine drop _ rfl rfl rfl ?_ rfl
    simp [put1, List.countP_append]
  · exact drop _ rfl rfl rfl (Nat.le_succ _) rfl
  · split
    · next r _ =>
      rcases h with h | h
      · exact .inl h
      · right
        have := countP_set_busy (y := .failing s.reqs.length) hi hbz
        simp only [busy, if_true] at this
        unfold load at h ⊢
        dsimp only [newReq]
        omega
    · exact drop _ rfl rfl rfl (Nat.le_succ _) rfl
  · next r _ =>
    have base : ∀ p : St × Option Feed, (p.1.tooLarge = true ∨ (p.1.tooLarge = s.tooLarge ∧ p.1.running = s.running ∧ p.1.heads = s.heads ∧ p.1.q1 = s.q1 ∧ p.1.hb = s.hb)) →
        One (fed i s.reqs.length (data.take (n + 2)) p) := fun p hp => one_fed hi hbz hp h
    have e : ∀ x : St, x = (if r.hasBody = true then newReq r s else put0 (some []) (newReq r s)) →
        x.tooLarge = s.tooLarge ∧ x.running = s.running ∧ x.heads = s.heads ∧ x.q1 = s.q1 ∧ x.hb = s.hb := by
      intro x hx; subst hx; split <;> exact ⟨rfl, rfl, rfl, rfl, rfl⟩
    split
    · refine base _ ?_
      obtain ⟨a, b, c', d, e'⟩ := e _ rfl
      rcases feed_fields c c.firstSize { rest := data.drop (n + 2), size := (data.drop (n + 2)).length }
        (if r.hasBody = true then newReq r s else put0 (some []) (newReq r s)) with hf | ⟨f0, f1, f2, f3, f4⟩
      · exact .inl hf
      · exact .inr ⟨f0.trans a, f1.trans b, f2.trans c', f3.trans d, f4.trans e'⟩
    · exact base _ (.inr (e _ rfl))

theorem one_recvFed {i : Nat} {s : St} {p : St × Option Feed} (hf : p.1.tooLarge = true ∨ (p.1.tooLarge = s.tooLarge ∧ p.1.running = s.running ∧ p.1.heads = s.heads ∧ p.1.q1 = s.q1 ∧ p.1.hb = s.hb))
    (h : One s) : One (recvFed i p) := by
  obtain ⟨s', o⟩ := p
  have h' : One s' := by
    rcases hf with hf | ⟨a, b, c, d, e⟩
    · exact .inl hf
    · exact one_congr a b c d e h
  cases o <;> exact one_congr rfl rfl rfl rfl rfl h'

theorem finish_load (k : Nat) (s : St) : load (finish k s) ≤ load s ∧ (active k s = true → load (finish k s) + 1 ≤ load s) := by
  have h1 : (s.running.filter (· ≠ k)).length ≤ s.running.length := List.length_filter_le _ _
  have key : ∀ l : List HTask, (l.map (fun h => if h = .failing k then .done else h)).countP busy ≤ l.countP busy ∧
      (l.contains (.failing k) = true → (l.map (fun h => if h = .failing k then .done else h)).countP busy + 1 ≤ l.countP busy) := by
    intro l
    induction l with
    | nil => simp
    | cons x l ih =>
      by_cases hx : x = .failing k
      · subst hx
        simp only [List.map_cons, if_true, List.countP_cons, busy, Bool.false_eq_true, if_false]
        omega
      · simp only [List.map_cons, if_neg hx, List.countP_cons]
        refine ⟨by omega, fun hc => ?_⟩
        have : l.contains (HTask.failing k) = true := by
          simp only [List.contains_cons, Bool.or_eq_true, beq_iff_eq] at hc
          rcases hc with hc | hc
          · exact absurd hc.symm hx
          · exact hc
        have := ih.2 this
        omega
  obtain ⟨k1, k2⟩ := key s.heads
  unfold load finish
  dsimp only
  refine ⟨by omega, fun ha => ?_⟩
  unfold active at ha
  rw [Bool.or_eq_true] at ha
  rcases ha with ha | ha
  · have : (s.running.filter (· ≠ k)).length < s.running.length := by
      apply List.length_filter_lt_length_iff_exists.2
      exact ⟨k, by simpa using ha, by simp⟩
    omega
  · have := k2 ha; omega

/-- A schedule in which every handler queues its marker in its last step. -/
def Polite (es : List Ev) : Prop := ∀ k keep, .mark k keep ∉ es

theorem one_step {c : Cfg} {s : St} {e : Ev} (he : ∀ k keep, e ≠ .mark k keep) (h : One s) : One (step c s e) := by
  cases e with
  | mark k b => exact absurd rfl (he k b)
  | data d => 
    simp only [step]
    split
    · exact one_data (one_congr rfl rfl rfl rfl rfl h)
    · exact h
  | eof drop => exact one_congr rfl rfl rfl rfl rfl h
  | head i =>
    simp only [step]; unfold headStep
    split
    · next hi => exact one_startHead hi h
    · next hi => exact one_fed hi rfl (feed_fields c _ _ _) h
    · exact h
  | recv i =>
    simp only [step]; unfold recvStep
    split
    · split
      · exact one_recvFed (feed_fields c _ _ _) h
      · exact h
    · exact one_recvFed (feed_fields c _ _ _) h
    · exact h
  | send => exact one_send h
  | emit k b =>
    rcases h with h | h
    · exact .inl h
    · right; simpa [step, put1, load, List.countP_append] using h
  | take k => simp only [step]; split <;> exact one_congr rfl rfl rfl rfl rfl h
  | upgrade k => obtain ⟨a, b, c', d, e⟩ := setReq_fields k (fun r => { r with upgraded := true }) s; exact one_congr a b c' d e h
  | clear k => obtain ⟨a, b, c', d, e⟩ := setReq_fields k (fun r => { r with bodySize := 0 }) s; exact one_congr a b c' d e h
  | finish k =>
    rcases h with h | h
    · exact .inl h
    · exact .inr (Nat.le_trans (finish_load k s).1 h)
  | leave k keep =>
    simp only [step]
    split
    · next ha =>
      have hl := (finish_load k s).2 ha
      have hx : ∀ s' : St, s'.tooLarge = s.tooLarge → load s' = load (finish k s) → One (put1 none s') := by
        intro s' h0 h1
        rcases h with h | h
        · exact .inl (by unfold put1; dsimp only; rw [h0, h])
        · right
          have : load (put1 none s') = load s' + 1 := by unfold load put1; dsimp only; rw [List.countP_append]; simp; omega
          omega
      unfold closeResponse
      split
      · exact hx _ rfl rfl
      · obtain ⟨a, b, c', d, e⟩ := setReq_fields k noKeep (finish k s)
        exact hx _ a (load_congr b c' d e)
    · exact h
  | abort => exact one_congr rfl rfl rfl rfl rfl h
  | kick => exact one_congr rfl rfl rfl rfl rfl h

theorem one_run {c : Cfg} {es : List Ev} (hp : Polite es) : ∀ {s : St}, One s → One (run c s es) := by
  induction es with
  | nil => intro s h; exact h
  | cons e r ih =>
    intro s h
    exact ih (fun k b hm => hp k b (List.mem_cons_of_mem _ hm)) (one_step (fun k b he => hp k b (by simp [he])) h)

end Conn

/-- **C51** for handlers that queue the end marker in their last step, as long as no body exceeds `client_max_body_size`: in
every schedule at most one handler runs at a time; while one runs, no head is being looked for or waits to be handled, and no
end marker is in the send queue. Missing: see the refutations. -/
theorem C51_partial (c : Cfg) {es : List Ev} (hp : Polite es) (hl : (run c {} es).tooLarge = false) :
    (run c {} es).running.length ≤ 1 ∧
    ((run c {} es).running ≠ [] → (run c {} es).hb = none ∧ none ∉ (run c {} es).q1 ∧
      ∀ h ∈ (run c {} es).heads, (∃ k, h = .handling k) ∨ h = .done) := by
  have h : One (run c {} es) := one_run hp (.inr (by decide))
  rcases h with h | h
  · rw [hl] at h; cases h
  · generalize run c {} es = s at *
    unfold load at h
    refine ⟨by omega, fun hr => ?_⟩
    have h1 : 0 < s.running.length := List.length_pos_iff.2 hr
    refine ⟨?_, ?_, ?_⟩
    · cases hb : s.hb with
      | none => rfl
      | some b => rw [hb] at h; simp only [wish] at h; omega
    · intro hm
      have : 0 < s.q1.countP Option.isNone := List.countP_pos_iff.2 ⟨none, hm, rfl⟩
      omega
    · intro x hx
      have hz : s.heads.countP busy = 0 := by omega
      have := List.countP_eq_zero.1 hz x hx
      cases x with
      | new d n => exact absurd rfl this
      | feeding f k r => exact absurd rfl this
      | failing k => exact absurd rfl this
      | handling k => exact .inl ⟨k, rfl⟩
      | done => exact .inr rfl

namespace Conn

def isHandling : HTask → Bool
  | .handling _ => true
  | _ => false

/-- Heads found so far, and whether another one is looked for. -/
def found (s : St) : Nat := s.heads.length + wish s.hb

/-- No head is found, and the handlers started are those of the heads handled. -/
structure Same (s s' : St) : Prop where
  hb : s'.hb = s.hb
  heads : s'.heads = s.heads
  started : s'.started = s.started

theorem Same.refl (s : St) : Same s s := ⟨rfl, rfl, rfl⟩
theorem Same.trans {a b c : St} (h : Same a b) (h' : Same b c) : Same a c := ⟨h'.hb.trans h.hb, h'.heads.trans h.heads, h'.started.trans h.started⟩

theorem same_setReq (k : Nat) (f : Rq → Rq) (s : St) : Same s (setReq k f s) := by unfold setReq; split <;> exact ⟨rfl, rfl, rfl⟩
theorem same_close (s : St) : Same s (close s) := by unfold close; split <;> exact ⟨rfl, rfl, rfl⟩
theorem same_account (c : Cfg) (n : Nat) (s : St) : Same s (account c n s) := by
  unfold account
  split
  · exact .refl _
  · split
    · exact .refl _
    · split
      · exact ⟨rfl, rfl, rfl⟩
      · dsimp only
        split
        · exact ⟨rfl, rfl, rfl⟩
        · split
          · exact ⟨rfl, rfl, rfl⟩
          · have h : ∀ k s', Same s' (put1 none { (setReq k noKeep s') with tooLarge := true }) := by
              intro k s'
              have := same_setReq k noKeep s'
              exact ⟨this.hb, this.heads, this.started⟩
            refine .trans ?_ (h _ _)
            exact ⟨rfl, rfl, rfl⟩

theorem same_feed (c : Cfg) (bs : Nat) (f : Feed) (s : St) : Same s (feed c bs f s).1 := by
  unfold feed
  split
  · exact same_account c _ s
  · dsimp only; split <;> exact ⟨rfl, rfl, rfl⟩

/-- What the theorems below need of a step that takes no marker. -/
structure Mild (s s' : St) : Prop where
  found : found s' = found s
  hb : s.hb = none → s'.hb = none
  started : s.started.length = s.heads.countP isHandling → s'.started.length = s'.heads.countP isHandling

theorem Mild.refl (s : St) : Mild s s := ⟨rfl, id, id⟩
theorem Mild.trans {a b c : St} (h : Mild a b) (h' : Mild b c) : Mild a c := ⟨h'.found.trans h.found, fun x => h'.hb (h.hb x), fun x => h'.started (h.started x)⟩
theorem Same.mild {s s' : St} (h : Same s s') : Mild s s' :=
  ⟨by unfold Conn.found; rw [h.hb, h.heads], fun x => h.hb.trans x, fun x => by rw [h.started, h.heads]; exact x⟩

theorem mild_data (c : Cfg) (d : Bytes) (s : St) : Mild s (dataReceived c d s) := by
  rcases data_cases c d s with ⟨_, e⟩ | ⟨_, _, e⟩ | ⟨buf, _, hb, ⟨n, _, _, e⟩ | e | ⟨_, e⟩⟩ <;> rw [e]
  · exact .refl _
  · exact Same.mild ⟨rfl, rfl, rfl⟩
  · refine ⟨by simp [found, hb, wish], fun x => (by simp [hb] at x), fun x => ?_⟩
    show s.started.length = _
    simpa [List.countP_append, isHandling] using x
  · exact ⟨by simp [found, abort, hb, wish], fun x => (by simp [hb] at x), id⟩
  · exact ⟨by simp [found, hb, wish], fun x => (by simp [hb] at x), id⟩

theorem countP_set_handling {l : List HTask} {i : Nat} {x y : HTask} (h : l[i]? = some x) (hx : isHandling x = false) :
    (l.set i y).countP isHandling = l.countP isHandling + (if isHandling y then 1 else 0) := by
  obtain ⟨hl, he⟩ := List.getElem?_eq_some_iff.1 h
  rw [List.countP_set hl, he, hx]
  simp

theorem mild_fed {s : St} {i k : Nat} {raw : Bytes} {p : St × Option Feed} {x : HTask} (hx : s.heads[i]? = some x) (hb : isHandling x = false)
    (hf : Same s p.1) : Mild s (fed i k raw p) := by
  obtain ⟨s', o⟩ := p
  dsimp only at hf
  cases o with
  | none =>
    refine ⟨by simp [fed, begin, found, hf.hb, hf.heads], fun y => hf.hb.trans y, fun y => ?_⟩
    have := countP_set_handling (y := .handling k) hx hb
    have e : (fed i k raw (s', none)).started.length = s'.started.length + 1 := by simp [fed, begin, St.started, List.filterMap_append]
    rw [e, hf.started]
    simp only [fed, hf.heads]
    simp only [isHandling, if_true] at this
    omega
  | some f =>
    refine ⟨by simp [fed, found, hf.hb, hf.heads], fun y => hf.hb.trans y, fun y => ?_⟩
    have := countP_set_handling (y := .feeding f k raw) hx hb
    show s'.started.length = _
    rw [hf.started]
    simp only [fed, hf.heads]
    simp only [isHandling, Bool.false_eq_true, if_false] at this
    omega

theorem mild_startHead {c : Cfg} {i n : Nat} {data : Bytes} {s : St} (hi : s.heads[i]? = some (.new data n)) :
    Mild s (startHead c i data n s) := by
  have hbz : isHandling (.new data n) = false := rfl
  have other : ∀ (s' : St) (y : HTask), isHandling y = false → s'.hb = s.hb → s'.heads = s.heads.set i y → s'.started = s.started → Mild s s' := by
    intro s' y hy h1 h2 h3
    refine ⟨by unfold found; rw [h1, h2, List.length_set], fun x => h1.trans x, fun x => ?_⟩
    rw [h3, h2, countP_set_handling hi hbz, hy, x]; rfl
  unfold startHead
  dsimp only
  split
  · exact other _ .done rfl rfl rfl rfl
  · exact other _ .done rfl rfl rfl rfl
  · split
    · exact other _ (.failing s.reqs.length) rfl rfl rfl rfl
    · exact other _ .done rfl rfl rfl rfl
  · next r _ =>
    have e : Same s (if r.hasBody = true then newReq r s else put0 (some []) (newReq r s)) := by split <;> exact ⟨rfl, rfl, rfl⟩
    split
    · exact mild_fed hi hbz (e.trans (same_feed c _ _ _))
    · exact mild_fed hi hbz e

theorem mild_step {c : Cfg} {s : St} {e : Ev} (he : e ≠ .send) : Mild s (step c s e) := by
  cases e with
  | send => exact absurd rfl he
  | data d =>
    simp only [step]
    split
    · exact .trans (b := { s with rx := s.rx ++ d }) (Same.mild ⟨rfl, rfl, rfl⟩) (mild_data c d _)
    · exact .refl _
  | eof drop => exact Same.mild ⟨rfl, rfl, rfl⟩
  | head i =>
    simp only [step]; unfold headStep
    split
    · next hi => exact mild_startHead hi
    · next hi => exact mild_fed hi rfl (same_feed c _ _ _)
    · exact .refl _
  | recv i =>
    have hf : ∀ p : St × Option Feed, Same s p.1 → Mild s (recvFed i p) := by
      rintro ⟨s', o⟩ h
      cases o <;> exact Same.mild (h.trans ⟨rfl, rfl, rfl⟩)
    simp only [step]; unfold recvStep
    split
    · split
      · exact hf _ (same_feed c _ _ _)
      · exact .refl _
    · exact hf _ (same_feed c _ _ _)
    · exact .refl _
  | emit k b => exact Same.mild ⟨rfl, rfl, rfl⟩
  | mark k b =>
    refine Same.mild ?_
    simp only [step, closeResponse]
    refine .trans (b := if b then s else setReq k noKeep s) ?_ ⟨rfl, rfl, rfl⟩
    split
    · exact .refl _
    · exact same_setReq _ _ _
  | take k =>
    simp only [step]
    split
    · exact Same.mild ⟨rfl, rfl, by simp [St.started, List.filterMap_append]⟩
    · exact .refl _
  | upgrade k => exact Same.mild (same_setReq _ _ _)
  | clear k => exact Same.mild (same_setReq _ _ _)
  | finish k => exact mild_finish k s
  | leave k b =>
    simp only [step]
    split
    · refine (mild_finish k s).trans (Same.mild ?_)
      simp only [closeResponse]
      refine .trans (b := if b then finish k s else setReq k noKeep (finish k s)) ?_ ⟨rfl, rfl, rfl⟩
      split
      · exact .refl _
      · exact same_setReq _ _ _
    · exact .refl _
  | abort => exact Same.mild ⟨rfl, rfl, rfl⟩
  | kick => exact Same.mild ⟨rfl, rfl, rfl⟩
where
  mild_finish (k : Nat) (s : St) : Mild s (finish k s) := by
    refine ⟨by simp [finish, found], id, fun x => ?_⟩
    have : ∀ l : List HTask, (l.map (fun h => if h = .failing k then .done else h)).countP isHandling = l.countP isHandling := by
      intro l
      induction l with
      | nil => rfl
      | cons y l ih =>
        by_cases hy : y = .failing k
        · subst hy; simp only [List.map_cons, if_true, List.countP_cons, isHandling, ih, Bool.false_eq_true, if_false]
        · simp only [List.map_cons, if_neg hy, List.countP_cons, ih]
    unfold finish; dsimp only; rw [this, ← x]; rfl

theorem mild_drain {c : Cfg} : ∀ (l : List Item) (s : St), Mild s (drain c l s)
  | [], s => .refl s
  | _ :: l, _ => (mild_data c _ _).trans (mild_drain l _)

def markers (s : St) : Nat := s.sent.countP Option.isNone

theorem drain_sent (c : Cfg) (l : List Item) (s : St) : (drain c l s).sent = s.sent := (quiet_drain c l s).sent

theorem keep_send {c : Cfg} {k : Nat} {r : Rq} {s : St} : found (handleKeepalive c k r s) ≤ found s + 1 ∧
    (s.started.length = s.heads.countP isHandling → (handleKeepalive c k r s).started.length = (handleKeepalive c k r s).heads.countP isHandling) := by
  unfold handleKeepalive
  dsimp only
  have h0 : Mild s { s with registered := s.registered || s.first } := Same.mild ⟨rfl, rfl, rfl⟩
  have fin : ∀ s', Mild s s' → found s' ≤ found s + 1 ∧ (s.started.length = s.heads.countP isHandling → s'.started.length = s'.heads.countP isHandling) :=
    fun s' h => ⟨by rw [h.found]; omega, h.started⟩
  split
  · exact fin _ (h0.trans (same_close _).mild)
  · have last : ∀ s' : St, Mild s' { s' with reading := true } := fun s' => Same.mild ⟨rfl, rfl, rfl⟩
    split
    · exact fin _ ((h0.trans (same_setReq _ _ _).mild).trans (last _))
    · split
      · split
        · exact fin _ (h0.trans (Same.mild ⟨rfl, rfl, rfl⟩))
        · exact fin _ ((h0.trans (same_close _).mild).trans (last _))
      · have hs := same_setReq k (fun r => { r with bodySize := 0 }) { s with registered := s.registered || s.first }
        have hr : found (reset k { s with registered := s.registered || s.first }) ≤ found s + 1 ∧
            (s.started.length = s.heads.countP isHandling → (reset k { s with registered := s.registered || s.first }).started.length =
              (reset k { s with registered := s.registered || s.first }).heads.countP isHandling) := by
          refine ⟨?_, fun x => ?_⟩
          · simp only [reset, found, hs.heads, wish]; omega
          · simp only [reset, hs.heads]
            have := hs.started
            unfold St.started at this x ⊢
            dsimp only at this ⊢
            rw [this]; exact x
        have fin2 : ∀ s', Mild (reset k { s with registered := s.registered || s.first }) s' → found s' ≤ found s + 1 ∧ (s.started.length = s.heads.countP isHandling → s'.started.length = s'.heads.countP isHandling) :=
          fun s' h => ⟨by rw [h.found]; exact hr.1, fun x => h.started (hr.2 x)⟩
        split
        · exact fin2 _ (last _)
        · refine fin2 _ (.trans (.trans (b := { (reset k { s with registered := s.registered || s.first }) with q0 := [] }) ?_ (mild_drain _ _)) (last _))
          exact Same.mild ⟨rfl, rfl, rfl⟩

theorem send_cases (c : Cfg) (s : St) : (Mild s (sendStep c s) ∧ markers (sendStep c s) = markers s) ∨
    (markers (sendStep c s) = markers s + 1 ∧ found (sendStep c s) ≤ found s + 1 ∧
      (s.started.length = s.heads.countP isHandling → (sendStep c s).started.length = (sendStep c s).heads.countP isHandling)) := by
  unfold sendStep
  split
  · exact .inl ⟨.refl _, rfl⟩
  · split
    · exact .inl ⟨.refl _, rfl⟩
    · next x q hq =>
      cases x with
      | some b =>
        left
        dsimp only
        split
        · exact ⟨Same.mild ⟨rfl, rfl, rfl⟩, by simp [markers, List.countP_append]⟩
        · exact ⟨Same.mild ⟨rfl, rfl, rfl⟩, by simp [markers, List.countP_append]⟩
      | none =>
        right
        dsimp only
        have hm : markers (marker c { s with q1 := q, sent := s.sent ++ [none] }) = markers s + 1 := by
          obtain ⟨s', h1, h2 | ⟨h2, _⟩⟩ := marker_quiet c { s with q1 := q, sent := s.sent ++ [none] }
          · rw [h2]; unfold markers; rw [h1.sent]; simp [List.countP_append]
          · rw [h2]; unfold markers; dsimp only; rw [h1.sent]; simp [List.countP_append]
        refine ⟨hm, ?_⟩
        have h0 : Mild s { s with q1 := q, sent := s.sent ++ [none] } := Same.mild ⟨rfl, rfl, rfl⟩
        have fin : ∀ s', Mild s s' → found s' ≤ found s + 1 ∧ (s.started.length = s.heads.countP isHandling → s'.started.length = s'.heads.countP isHandling) :=
          fun s' h => ⟨by rw [h.found]; omega, h.started⟩
        unfold marker
        dsimp only
        split
        · refine fin _ (h0.trans ((same_close _).mild.trans (Same.mild ⟨rfl, rfl, rfl⟩)))
        · split
          · exact fin _ h0
          · split
            · have := keep_send (c := c) (k := ‹Nat›) (r := ‹Rq›) (s := { s with q1 := q, sent := s.sent ++ [none] })
              exact this
            · exact fin _ (h0.trans ((same_setReq _ _ _).mild.trans ((same_close _).mild.trans (Same.mild ⟨rfl, rfl, rfl⟩))))

theorem markers_step (c : Cfg) (s : St) (e : Ev) : markers s ≤ markers (step c s e) := by
  by_cases h : e = .send
  · subst h; rcases send_cases c s with ⟨_, h⟩ | ⟨h, _⟩ <;> simp only [step] <;> omega
  · unfold markers; rw [(quiet_step c s e h).sent]; exact Nat.le_refl _

theorem markers_run (c : Cfg) (es : List Ev) : ∀ s, markers s ≤ markers (run c s es) := by
  induction es with
  | nil => intro s; exact Nat.le_refl _
  | cons e r ih => intro s; exact Nat.le_trans (markers_step c s e) (ih _)

end Conn

/-- **C51**: for every schedule, the number of heads found on a connection is at most one more than the number of end markers
that the send task has taken, and every head starts at most one handler. -/
theorem C51_heads (c : Cfg) (es : List Ev) :
    (run c {} es).heads.length ≤ 1 + (run c {} es).sent.countP Option.isNone ∧ (run c {} es).started.length ≤ (run c {} es).heads.length := by
  have key : ∀ (es : List Ev) (s : St), found s ≤ 1 + markers s → s.started.length = s.heads.countP isHandling →
      found (run c s es) ≤ 1 + markers (run c s es) ∧ (run c s es).started.length = (run c s es).heads.countP isHandling := by
    intro es
    induction es with
    | nil => intro s h1 h2; exact ⟨h1, h2⟩
    | cons e r ih =>
      intro s h1 h2
      by_cases h : e = .send
      · subst h
        rcases send_cases c s with ⟨h, hm⟩ | ⟨hm, hf, hs⟩
        · exact ih (step c s .send) (by simp only [step]; rw [h.found, hm]; exact h1) (h.started h2)
        · exact ih (step c s .send) (by simp only [step]; omega) (hs h2)
      · have m := mild_step (c := c) (s := s) h
        exact ih _ (by rw [m.found]; have := markers_step c s e; omega) (m.started h2)
  have := key es {} (by decide) rfl
  refine ⟨?_, ?_⟩
  · have := this.1; unfold found markers at this; omega
  · rw [this.2]; exact List.countP_le_length

/-- **C51**: once a head has been found, no further head is looked for, whatever happens, until the send task takes an end
marker. -/
theorem C51_locked (c : Cfg) (es es' : List Ev) (h : (run c {} es).hb = none)
    (hm : (run c {} (es ++ es')).sent.countP Option.isNone = (run c {} es).sent.countP Option.isNone) :
    (run c {} (es ++ es')).hb = none ∧ (run c {} (es ++ es')).heads.length = (run c {} es).heads.length := by
  have hrun : run c {} (es ++ es') = run c (run c {} es) es' := by simp [run]
  rw [hrun] at hm ⊢
  generalize run c {} es = s at *
  have key : ∀ (es : List Ev) (s : St), s.hb = none → markers (run c s es) = markers s → (run c s es).hb = none ∧ found (run c s es) = found s := by
    intro es
    induction es with
    | nil => intro s h _; exact ⟨h, rfl⟩
    | cons e r ih =>
      intro s h hm
      have m1 := markers_step c s e
      have m2 := markers_run c r (step c s e)
      have m3 : markers (run c (step c s e) r) = markers s := hm
      have mild : Mild s (step c s e) := by
        by_cases he : e = .send
        · subst he
          rcases send_cases c s with ⟨h, _⟩ | ⟨hm', _⟩
          · exact h
          · simp only [step] at m1 m2 m3; omega
        · exact mild_step he
      obtain ⟨a, b⟩ := ih (step c s e) (mild.hb h) (by omega)
      exact ⟨a, b.trans mild.found⟩
  obtain ⟨a, b⟩ := key es' s h hm
  refine ⟨a, ?_⟩
  unfold found at b; rw [a, h] at b; simpa using b

end Verif
