import Verif.Proofs.Queue
/-!
# C37: the connection queue
-/
namespace Verif
open Verif.Model.Queue Verif.Proofs.Queue

variable {α : Type}

/-- The items that a schedule puts, in order. -/
def itemsPut (es : List (Ev α)) : List α := es.filterMap (fun e => match e with | .put x => some x | _ => none)

theorem step_put (s : St α) (e : Ev α) (h : e ≠ .clear) : (step s e).put = s.put ++ itemsPut [e] := by
  have htail : ∀ t (s : St α), (tail t s).put = s.put := by intro t s; unfold tail; split <;> rfl
  cases e with
  | put x => rfl
  | start =>
    simp only [step, itemsPut, List.filterMap_cons, List.filterMap_nil, List.append_nil]
    unfold start; dsimp only
    split
    · rw [htail]
    · split
      · rfl
      · rw [htail]
      · rfl
  | getNowait => simp only [step, itemsPut, List.filterMap_cons, List.filterMap_nil, List.append_nil]; unfold getNowait; split <;> rfl
  | resume t =>
    simp only [step, itemsPut, List.filterMap_cons, List.filterMap_nil, List.append_nil]
    unfold resume
    split
    · split
      · split
        · rfl
        · rw [htail]
      · rfl
      · rfl
    · split
      · split <;> rfl
      · rfl
      · rfl
    · rfl
  | cancel t =>
    simp only [step, itemsPut, List.filterMap_cons, List.filterMap_nil, List.append_nil]
    unfold cancel
    split
    · split <;> rfl
    · split <;> rfl
    · rfl
  | clear => exact absurd rfl h

theorem tail_must (t : Nat) (s : St α) : (tail t s).must = s.must := by unfold tail; split <;> rfl

theorem putLoop_must (x : α) : ∀ gs (s : St α), (putLoop x gs s).must = s.must
  | [], _ => rfl
  | f :: gs, s => by
    unfold putLoop; split
    · rfl
    · exact putLoop_must x gs s

theorem must_step {t : Nat} {s : St α} {e : Ev α} (h : t ∈ (step s e).must) : t ∈ s.must ∨ e = .cancel t := by
  cases e with
  | put x => left; simpa only [step, put, putLoop_must] using h
  | start =>
    left
    simp only [step] at h
    unfold start at h; dsimp only at h
    split at h
    · rwa [tail_must] at h
    · split at h
      · exact h
      · rwa [tail_must] at h
      · exact h
  | getNowait => left; simp only [step] at h; unfold getNowait at h; split at h <;> exact h
  | resume u =>
    left
    simp only [step] at h
    unfold resume at h
    split at h
    · split at h
      · split at h
        · exact h
        · rwa [tail_must] at h
      · exact h
      · exact h
    · split at h
      · split at h <;> exact h
      · exact h
      · exact h
    · exact h
  | cancel u =>
    simp only [step] at h
    unfold cancel at h
    split at h
    · split at h
      · exact .inl h
      · rcases List.mem_cons.1 h with rfl | h
        · exact .inr rfl
        · exact .inl h
    · split at h
      · exact .inl h
      · rcases List.mem_cons.1 h with rfl | h
        · exact .inr rfl
        · exact .inl h
    · exact .inl h
  | clear => exact .inl h

theorem run_put {es : List (Ev α)} (h : NoClear es) (s : St α) : (run s es).put = s.put ++ itemsPut es := by
  unfold run
  induction es generalizing s with
  | nil => simp [itemsPut]
  | cons e t ih =>
    rw [List.foldl_cons, ih (fun hm => h (List.mem_cons_of_mem _ hm)), step_put s e (fun he => h (by simp [he])), List.append_assoc]
    congr 1
    unfold itemsPut
    rw [← List.filterMap_append]; rfl

/-- **C37**, order: for every schedule of puts, gets, wake-ups and cancellations, the items handed over so far, in the order
in which they were handed over, followed by the items in the queue, are exactly the items put, in order; and nobody is
handed two items. -/
theorem C37_fifo {es : List (Ev α)} (h : NoClear es) :
    (run {} es).handed.map (·.2) ++ (run {} es).queue = itemsPut es ∧
    ∀ (i j t : Nat) (x y : α), i < j → (run {} es).handed[i]? = some (Dest.call t, x) → (run {} es).handed[j]? ≠ some (Dest.call t, y) := by
  have i := inv_run h (inv_init (α := α))
  refine ⟨by rw [i.fifo, run_put h]; simp, ?_⟩
  intro a b t x y hab ha hb
  have hn := i.once
  rw [List.nodup_iff_pairwise_ne] at hn
  have hl := lt_of_get hb
  have e1 := List.take_append_drop b (run ({} : St α) es).handed
  rw [← e1, List.filterMap_append, List.pairwise_append] at hn
  refine hn.2.2 t ?_ t ?_ rfl
  · refine List.mem_filterMap.2 ⟨(.call t, x), ?_, rfl⟩
    exact List.mem_of_getElem? (i := a) (by rw [List.getElem?_take, if_pos hab]; exact ha)
  · refine List.mem_filterMap.2 ⟨(.call t, y), ?_, rfl⟩
    exact List.mem_of_getElem? (i := 0) (by rw [List.getElem?_drop]; exact hb)

/-- **C37**, delivery: a call of `get` that returns an item was handed exactly that item. Conversely, the item handed to a call
is returned by it, or waits in its future, or the call was cancelled meanwhile. -/
theorem C37_delivered {es : List (Ev α)} (h : NoClear es) (t : Nat) (x : α) :
    ((run {} es).calls[t]? = some (Call.done (.got x)) → (.call t, x) ∈ (run {} es).handed) ∧
    ((.call t, x) ∈ (run {} es).handed → (run {} es).calls[t]? = some (Call.done (.got x)) ∨
      (∃ f : Nat, (run {} es).calls[t]? = some (Call.own f) ∧ (run {} es).futs[f]? = some (t, Fut.result x)) ∨
      (.cancel t ∈ es ∧ (run {} es).calls[t]? = some (Call.done .cancelledError))) := by
  have i := inv_run h (inv_init (α := α))
  refine ⟨i.got t x, fun hx => ?_⟩
  rcases i.to t x hx with h | h | ⟨h1, h2⟩
  · exact .inl h
  · exact .inr (.inl h)
  · refine .inr (.inr ⟨?_, h2⟩)
    have must : ∀ (es : List (Ev α)) (s : St α), t ∈ (run s es).must → t ∈ s.must ∨ .cancel t ∈ es := by
      intro es
      induction es with
      | nil => intro s hs; exact .inl hs
      | cons e r ih =>
        intro s hs
        rcases ih (step s e) hs with h | h
        · have : t ∈ s.must ∨ e = .cancel t := must_step h
          rcases this with h | h
          · exact .inl h
          · exact .inr (by simp [h])
        · exact .inr (List.mem_cons_of_mem _ h)
    rcases must es {} h1 with h | h
    · cases h
    · exact h

/-- **C37**, waiting: while a call of `get` waits for a future that is not done, the queue is empty. -/
theorem C37_waiting {es : List (Ev α)} (h : NoClear es) {t f o : Nat}
    (_hc : (run {} es).calls[t]? = some (Call.own f) ∨ (run {} es).calls[t]? = some (Call.other f))
    (hf : (run {} es).futs[f]? = some (o, Fut.pending)) : (run ({} : St α) es).queue = [] := by
  have i := inv_run h (inv_init (α := α))
  refine i.empty (fun he => ?_)
  have := (i.pend f o hf).1
  rw [he] at this
  cases this

/-- Nothing was cancelled. -/
structure Calm (s : St α) : Prop where
  must : s.must = []
  futs : ∀ (f o : Nat), s.futs[f]? ≠ some (o, Fut.cancelled)
  calls : ∀ t : Nat, s.calls[t]? ≠ some (Call.done Res.cancelledError)

theorem calm_tail {t : Nat} {s : St α} (hm : s.must = []) (hf : ∀ (f o : Nat), s.futs[f]? ≠ some (o, Fut.cancelled))
    (hc : ∀ u : Nat, u ≠ t → s.calls[u]? ≠ some (Call.done Res.cancelledError)) : Calm (tail t s) := by
  have key : ∀ (c : Call α), c ≠ Call.done Res.cancelledError → ∀ u : Nat, (s.calls.set t c)[u]? ≠ some (Call.done Res.cancelledError) := by
    intro c hcc u hu
    by_cases e : u = t
    · subst e
      have hl := lt_of_get hu
      rw [List.length_set] at hl
      rw [List.getElem?_set_self hl] at hu
      exact hcc (Option.some.inj hu)
    · rw [get_set_ne e] at hu; exact hc u e hu
  unfold tail
  split
  · exact ⟨hm, hf, key _ (by simp)⟩
  · refine ⟨hm, ?_, key _ (by simp)⟩
    intro f o h
    dsimp only at h
    rw [List.getElem?_append] at h
    split at h
    · exact hf f o h
    · rw [List.getElem?_singleton] at h; split at h <;> cases h

theorem calm_putLoop (x : α) : ∀ gs (s : St α), Calm s → Calm (putLoop x gs s)
  | [], _, c => ⟨c.must, c.futs, c.calls⟩
  | f :: gs, s, c => by
    unfold putLoop
    split
    · next t ht =>
      refine ⟨c.must, ?_, c.calls⟩
      intro g o h
      dsimp only [setFut] at h
      by_cases e : g = f
      · subst e; rw [get_set_self ht] at h; cases h
      · rw [get_set_ne e] at h; exact c.futs g o h
    · exact calm_putLoop x gs s c

theorem calm_setCall {s : St α} {t : Nat} {c : Call α} (h : Calm s) (hc : c ≠ Call.done Res.cancelledError) : Calm (setCall s t c) := by
  refine ⟨h.must, h.futs, ?_⟩
  intro u hu
  by_cases e : u = t
  · subst e
    have hl := lt_of_get hu
    dsimp only [setCall] at hl hu
    rw [List.length_set] at hl
    rw [List.getElem?_set_self hl] at hu
    exact hc (Option.some.inj hu)
  · dsimp only [setCall] at hu; rw [get_set_ne e] at hu; exact h.calls u hu

theorem calm_step {s : St α} {e : Ev α} (i : Inv s) (h : Calm s) (he : ∀ t, e ≠ .cancel t) (hcl : e ≠ .clear) : Calm (step s e) := by
  cases e with
  | put x => have := calm_putLoop x s.getters s h; exact ⟨this.must, this.futs, this.calls⟩
  | start =>
    simp only [step]
    unfold start; dsimp only
    have hc : ∀ u : Nat, u ≠ s.calls.length → (s.calls ++ [Call.done Res.cancelledError])[u]? ≠ some (Call.done Res.cancelledError) := by
      intro u hu hx
      rw [List.getElem?_append] at hx
      split at hx
      · exact h.calls u hx
      · rw [List.getElem?_eq_none (by simp; omega)] at hx; cases hx
    split
    · exact calm_tail h.must h.futs hc
    · next f hf =>
      obtain ⟨o, y, hy, -⟩ := i.getter f (List.mem_of_getLast? hf)
      rw [hy]
      cases y with
      | pending =>
        refine ⟨h.must, h.futs, ?_⟩
        intro u hu
        dsimp only [setCall] at hu
        by_cases e : u = s.calls.length
        · subst e; rw [List.getElem?_set_self (by simp)] at hu; cases hu
        · rw [get_set_ne e] at hu; exact hc u e hu
      | result x => exact calm_tail h.must h.futs hc
      | cancelled => exact absurd hy (h.futs f o)
  | getNowait => simp only [step]; unfold getNowait; split <;> exact ⟨h.must, h.futs, h.calls⟩
  | resume t =>
    simp only [step]
    unfold resume
    split
    · split
      · rw [h.must]; simp only [List.not_mem_nil, if_false]
        exact calm_tail h.must h.futs (fun u _ => h.calls u)
      · next hx => exact absurd hx (h.futs _ _)
      · exact h
    · split
      · rw [h.must]; simp only [List.not_mem_nil, if_false]
        exact calm_setCall h (by simp)
      · next hx => exact absurd hx (h.futs _ _)
      · exact h
    · exact h
  | cancel t => exact absurd rfl (he t)
  | clear => exact absurd rfl hcl

/-- **C37** without cancellation: no call of `get` fails, and every item that was handed over was returned by the call it
was handed to, or is in that call's future, so with `C37_fifo` no item is lost. What is missing: with cancellation this is
false, see the refutations below. -/
theorem C37_partial {es : List (Ev α)} (h : NoClear es) (hc : ∀ t, .cancel t ∉ es) :
    (∀ t : Nat, (run {} es).calls[t]? ≠ some (Call.done Res.cancelledError)) ∧
    (∀ (t : Nat) (x : α), (.call t, x) ∈ (run {} es).handed ↔ (run {} es).calls[t]? = some (Call.done (.got x)) ∨
      ∃ f : Nat, (run {} es).calls[t]? = some (Call.own f) ∧ (run {} es).futs[f]? = some (t, Fut.result x)) := by
  have key : ∀ (es : List (Ev α)) (s : St α), NoClear es → (∀ t, .cancel t ∉ es) → Inv s → Calm s → Calm (run s es) := by
    intro es
    induction es with
    | nil => intro s _ _ _ c; exact c
    | cons e r ih =>
      intro s hn hc i c
      have h1 : NoClear [e] := by intro hm; apply hn; simp at hm; simp [hm]
      exact ih (step s e) (fun hm => hn (List.mem_cons_of_mem _ hm)) (fun t hm => hc t (List.mem_cons_of_mem _ hm))
        (inv_run h1 i) (calm_step i c (fun t he => hc t (by simp [he])) (fun he => hn (by simp [he])))
  have c := key es {} h hc inv_init ⟨rfl, by simp, by simp⟩
  have i := inv_run h (inv_init (α := α))
  refine ⟨c.calls, fun t x => ⟨fun hx => ?_, ?_⟩⟩
  · rcases i.to t x hx with h | h | ⟨_, h2⟩
    · exact .inl h
    · exact .inr h
    · exact absurd h2 (c.calls t)
  · rintro (hx | ⟨f, _, hx⟩)
    · exact i.got t x hx
    · exact i.flight t f x hx

/-- Two getters wait, three items arrive, and everyone gets an item. -/
example : NoClear [Ev.start, .start, .put 1, .put 2, .put 3, .resume 1, .resume 0, .getNowait] ∧
    (run {} [Ev.start, .start, .put 1, .put 2, .put 3, .resume 1, .resume 0, .getNowait]).handed =
      [(.call 0, 1), (.call 1, 2), (.nowait, 3)] := by unfold NoClear; decide

example : (run ({} : St Nat) [.start, .start]).calls[1]? = some (.other 0) ∧ (run ({} : St Nat) [.start, .start]).futs[0]? = some (0, .pending) := by
  decide

/-- **C37 is false** with cancellation: an item handed to a call that is cancelled before it runs again is lost: nobody gets
it, and it is not in the queue. (`Request.recv`, http_request.py:200-223, cancels its task of `get` on a timeout.) -/
theorem C37_refuted_lost :
    let s := run {} [Ev.start, .put 7, .cancel 0, .resume 0, .start, .put 8, .resume 1]
    s.calls = [.done .cancelledError, .done (.got 8)] ∧ s.queue = [] := by decide

/-- **C37 is false**: after one call of `get` was cancelled, every further call fails with CancelledError at once, without waiting,
until the next item is put. -/
theorem C37_refuted_spurious : ∀ n, (run {} ([Ev.start, .cancel 0, .resume 0] ++ List.replicate n .start) : St Nat).calls =
    List.replicate (n + 1) (.done .cancelledError) := by
  have key : ∀ n (s : St Nat), s.getters = [0] → s.futs = [(0, Fut.cancelled)] →
      (run s (List.replicate n .start)).calls = s.calls ++ List.replicate n (.done .cancelledError) := by
    intro n
    induction n with
    | zero => intro s _ _; simp [run]
    | succ n ih =>
      intro s hg hf
      have hs : step s .start = { s with calls := s.calls ++ [.done .cancelledError] } := by
        simp [step, start, hg, hf]
      rw [List.replicate_succ, run, List.foldl_cons, ← run, hs, ih { s with calls := s.calls ++ [.done .cancelledError] } hg hf]
      simp [List.replicate_succ]
  intro n
  rw [run, List.foldl_append, ← run]
  refine (key n (run ({} : St Nat) [.start, .cancel 0, .resume 0]) (by decide) (by decide)).trans ?_
  rw [show (run ({} : St Nat) [.start, .cancel 0, .resume 0]).calls = [.done .cancelledError] from by decide]
  rfl

/-- **C37 is false**: cancelling a call that waits behind another one cancels the other one too. -/
theorem C37_refuted_kill :
    (run {} [Ev.start, .start, .cancel 1, .resume 1, .resume 0, .put 7]).calls = [.done .cancelledError, .done .cancelledError] := by
  decide

/-- **C37 is false** with `clear`: a call that waits when the queue is cleared is never woken, whatever is put afterwards. -/
theorem C37_refuted_clear (xs : List α) :
    let s := run {} ([Ev.start, .clear] ++ xs.map .put)
    s.calls = [.own 0] ∧ s.futs = [(0, .pending)] ∧ s.queue = xs := by
  have key : ∀ (xs : List α) (s : St α), s.getters = [] →
      (run s (xs.map .put)).calls = s.calls ∧ (run s (xs.map .put)).futs = s.futs ∧ (run s (xs.map .put)).queue = s.queue ++ xs := by
    intro xs
    induction xs with
    | nil => intro s _; simp [run]
    | cons x xs ih =>
      intro s hg
      have hs : step s (.put x) = { s with getters := [], queue := s.queue ++ [x], put := s.put ++ [x] } := by
        simp [step, put, hg, putLoop]
      rw [List.map_cons, run, List.foldl_cons, ← run, hs]
      obtain ⟨a, b, c⟩ := ih { s with getters := [], queue := s.queue ++ [x], put := s.put ++ [x] } rfl
      exact ⟨a, b, by rw [c]; simp⟩
  dsimp only
  rw [run, List.foldl_append, ← run]
  exact key xs (run ({} : St α) [.start, .clear]) rfl

end Verif
