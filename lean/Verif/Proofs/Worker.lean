import Verif.Model.Worker
import Verif.Proofs.Queue
import Verif.Py.Util
/-!
# Invariants of the queues that connections share
-/
namespace Verif.Proofs.Worker
open Verif.Model Verif.Model.Queue
open Verif.Proofs.Queue (get_set_self get_set_ne lt_of_get)

variable {α : Type}

/-- Whatever a queue holds, and whatever it has handed over, belongs to the connection that asks for it. `P` holds of
the connections that are attached to the queue. -/
structure I (P : Nat → Prop) (ow : List (Nat × Bool)) (q : St (Nat × α)) : Prop where
  len : ow.length = q.calls.length
  tied : ∀ y ∈ ow, y.2 = true
  own : ∀ (t f : Nat), q.calls[t]? = some (Call.own f) → ∃ x, q.futs[f]? = some (t, x)
  res : ∀ (f t : Nat) (x : Nat × α), q.futs[f]? = some (t, Fut.result x) → ow[t]? = some (x.1, true)
  got : ∀ (t : Nat) (x : Nat × α), q.calls[t]? = some (Call.done (Res.got x)) → ow[t]? = some (x.1, true)
  que : ∀ x ∈ q.queue, P x.1
  get : ∀ f ∈ q.getters, ∀ (t : Nat) (y : Fut (Nat × α)), q.futs[f]? = some (t, y) → ∃ c, ow[t]? = some (c, true) ∧ P c
  other : ∀ (t f : Nat), q.calls[t]? = some (Call.other f) →
    (∃ c, ow[t]? = some (c, true) ∧ P c) ∨ t ∈ q.must ∨ ∃ o : Nat, q.futs[f]? = some (o, Fut.cancelled)

theorem get_set_or {β : Type} {l : List β} {t u : Nat} {y z : β} (h : (l.set t z)[u]? = some y) :
    (u = t ∧ y = z) ∨ l[u]? = some y := by
  by_cases e : u = t
  · subst e
    rw [List.getElem?_set_self (by have := lt_of_get h; simpa using this)] at h
    exact .inl ⟨rfl, (Option.some.inj h).symm⟩
  · rw [get_set_ne e] at h; exact .inr h

theorem I_init (P : Nat → Prop) : I P [] ({} : St (Nat × α)) := by
  constructor <;> simp

theorem I_mono {P Q : Nat → Prop} {ow : List (Nat × Bool)} {q : St (Nat × α)} (h : ∀ c, P c → Q c) (i : I P ow q) : I Q ow q where
  len := i.len
  tied := i.tied
  own := i.own
  res := i.res
  got := i.got
  que := fun x hx => h _ (i.que x hx)
  get := fun f hf t y hy => by obtain ⟨c, h1, h2⟩ := i.get f hf t y hy; exact ⟨c, h1, h _ h2⟩
  other := fun t f hf => by
    rcases i.other t f hf with ⟨c, h1, h2⟩ | h1 | h1
    · exact .inl ⟨c, h1, h _ h2⟩
    · exact .inr (.inl h1)
    · exact .inr (.inr h1)

theorem I_putHist {P : Nat → Prop} {ow : List (Nat × Bool)} {q : St (Nat × α)} (i : I P ow q) (l : List (Nat × α)) :
    I P ow { q with put := l } := ⟨i.len, i.tied, i.own, i.res, i.got, i.que, i.get, i.other⟩

theorem I_putLoop {P : Nat → Prop} {ow : List (Nat × Bool)} (uniq : ∀ a b, P a → P b → a = b) (x : Nat × α) (hx : P x.1) :
    ∀ (gs : List Nat) (q : St (Nat × α)), I P ow { q with getters := gs } → I P ow (putLoop x gs q)
  | [], q, i => by
    unfold putLoop
    exact ⟨i.len, i.tied, i.own, i.res, i.got, fun y hy => by
      rcases List.mem_append.1 hy with h | h
      · exact i.que y h
      · rw [List.mem_singleton] at h; subst h; exact hx, i.get, i.other⟩
  | f :: gs, q, i => by
    unfold putLoop
    split
    next t hf =>
      obtain ⟨c, hc, hP⟩ := i.get f (by simp) t _ hf
      have hcx : c = x.1 := uniq _ _ hP hx
      subst hcx
      refine ⟨i.len, i.tied, ?_, ?_, i.got, i.que, ?_, ?_⟩
      · intro u g hg
        obtain ⟨y, hy⟩ := i.own u g hg
        simp only [setFut]
        by_cases hgf : g = f
        · subst hgf; rw [get_set_self hf]
          have : (t, Fut.pending) = (u, y) := Option.some.inj (hf.symm.trans hy)
          cases this; exact ⟨_, rfl⟩
        · rw [get_set_ne hgf]; exact ⟨y, hy⟩
      · intro g u y hg
        simp only [setFut] at hg
        by_cases hgf : g = f
        · subst hgf; rw [get_set_self hf] at hg
          cases hg; exact hc
        · rw [get_set_ne hgf] at hg; exact i.res g u y hg
      · intro g hg u y hy
        simp only [setFut] at hy
        by_cases hgf : g = f
        · subst hgf; rw [get_set_self hf] at hy
          cases hy; exact ⟨_, hc, hx⟩
        · rw [get_set_ne hgf] at hy; exact i.get g (List.mem_cons_of_mem _ hg) u y hy
      · intro u g hg
        rcases i.other u g hg with h | h | ⟨o, h⟩
        · exact .inl h
        · exact .inr (.inl h)
        · refine .inr (.inr ⟨o, ?_⟩)
          simp only [setFut]
          by_cases hgf : g = f
          · subst hgf; rw [show q.futs[g]? = some (t, Fut.pending) from hf] at h; cases h
          · rw [get_set_ne hgf]; exact h
    next =>
      refine I_putLoop uniq x hx gs q ⟨i.len, i.tied, i.own, i.res, i.got, i.que, ?_, i.other⟩
      exact fun g hg => i.get g (List.mem_cons_of_mem _ hg)

theorem I_put {P : Nat → Prop} {ow : List (Nat × Bool)} (uniq : ∀ a b, P a → P b → a = b) (x : Nat × α) (hx : P x.1)
    {q : St (Nat × α)} (i : I P ow q) : I P ow (put x q) := by
  unfold put
  exact I_putHist (I_putLoop uniq x hx q.getters q i) _

theorem I_done {P : Nat → Prop} {ow : List (Nat × Bool)} {q : St (Nat × α)} (i : I P ow q) {t : Nat}
    (r : Res (Nat × α)) (hr : ∀ x, r = .got x → ow[t]? = some (x.1, true)) : I P ow (setCall q t (.done r)) := by
  have key : ∀ {u : Nat} {y : Call (Nat × α)}, (q.calls.set t (.done r))[u]? = some y → (u = t ∧ y = .done r) ∨ q.calls[u]? = some y :=
    get_set_or
  refine ⟨by simpa [setCall] using i.len, i.tied, ?_, i.res, ?_, i.que, i.get, ?_⟩
  · intro u f h
    rcases key h with ⟨_, h⟩ | h
    · cases h
    · exact i.own u f h
  · intro u x h
    rcases key h with ⟨rfl, e⟩ | h
    · cases e; exact hr x rfl
    · exact i.got u x h
  · intro u f h
    rcases key h with ⟨_, h⟩ | h
    · cases h
    · exact i.other u f h

theorem I_tail {P : Nat → Prop} {ow : List (Nat × Bool)} (uniq : ∀ a b, P a → P b → a = b) {q : St (Nat × α)} (i : I P ow q) {t c : Nat}
    (hc : ow[t]? = some (c, true)) (hP : P c) : I P ow (tail t q) := by
  have ht : t < q.calls.length := by rw [← i.len]; exact lt_of_get hc
  unfold tail
  split
  next x xs hq =>
    have hx : P x.1 := i.que x (by rw [hq]; simp)
    have hxc : x.1 = c := uniq _ _ hx hP
    have j := I_done i (t := t) (.got x) (by intro y hy; cases hy; rw [hxc]; exact hc)
    exact ⟨j.len, j.tied, j.own, j.res, j.got, fun y hy => i.que y (by rw [hq]; exact List.mem_cons_of_mem _ hy), j.get, j.other⟩
  next hq =>
    dsimp only
    have old : ∀ {g : Nat} {y}, q.futs[g]? = some y → (q.futs ++ [(t, Fut.pending)])[g]? = some y := by
      intro g y h
      rw [List.getElem?_append_left (lt_of_get h)]; exact h
    have new : ∀ {g : Nat} {y}, (q.futs ++ [(t, Fut.pending)])[g]? = some y → (g = q.futs.length ∧ y = (t, .pending)) ∨ q.futs[g]? = some y := by
      intro g y h
      by_cases hg : g < q.futs.length
      · rw [List.getElem?_append_left hg] at h; exact .inr h
      · rw [List.getElem?_append_right (by omega)] at h
        have := lt_of_get h
        simp only [List.length_singleton] at this
        have h0 : g - q.futs.length = 0 := by omega
        rw [h0] at h
        simp only [List.getElem?_cons_zero, Option.some.injEq] at h
        exact .inl ⟨by omega, h.symm⟩
    have key : ∀ {u : Nat} {y : Call (Nat × α)}, (q.calls.set t (.own q.futs.length))[u]? = some y →
        (u = t ∧ y = .own q.futs.length) ∨ q.calls[u]? = some y :=
      get_set_or
    refine ⟨by simpa [setCall] using i.len, i.tied, ?_, ?_, ?_, i.que, ?_, ?_⟩
    · intro u f h
      simp only [setCall] at h ⊢
      rcases key h with ⟨rfl, e⟩ | h
      · cases e
        exact ⟨.pending, by simp⟩
      · obtain ⟨y, hy⟩ := i.own u f h
        exact ⟨y, old hy⟩
    · intro f u x h
      simp only [setCall] at h
      rcases new h with ⟨_, h⟩ | h
      · cases h
      · exact i.res f u x h
    · intro u x h
      simp only [setCall] at h
      rcases key h with ⟨_, h⟩ | h
      · cases h
      · exact i.got u x h
    · intro f hf u y h
      simp only [setCall] at h
      rcases new h with ⟨_, h⟩ | h
      · cases h; exact ⟨c, hc, hP⟩
      · rcases List.mem_append.1 hf with h1 | h1
        · exact i.get f h1 u y h
        · rw [List.mem_singleton] at h1; subst h1
          exact absurd (lt_of_get h) (Nat.lt_irrefl _)
    · intro u f h
      simp only [setCall] at h ⊢
      rcases key h with ⟨_, h⟩ | h
      · cases h
      · rcases i.other u f h with h | h | ⟨o, h⟩
        · exact .inl h
        · exact .inr (.inl h)
        · exact .inr (.inr ⟨o, old h⟩)

theorem I_start {P : Nat → Prop} {ow : List (Nat × Bool)} (uniq : ∀ a b, P a → P b → a = b) {q : St (Nat × α)} (i : I P ow q) {c : Nat}
    (hP : P c) : I P (ow ++ [(c, true)]) (start q) := by
  have key : ∀ {u : Nat} {y : Call (Nat × α)}, (q.calls ++ [.done .cancelledError])[u]? = some y → y = .done .cancelledError ∨ q.calls[u]? = some y := by
    intro u y h
    by_cases hg : u < q.calls.length
    · rw [List.getElem?_append_left hg] at h; exact .inr h
    · rw [List.getElem?_append_right (by omega)] at h
      have := lt_of_get h
      simp only [List.length_singleton] at this
      have h0 : u - q.calls.length = 0 := by omega
      rw [h0] at h
      simp only [List.getElem?_cons_zero, Option.some.injEq] at h
      exact .inl h.symm
  have keep : ∀ {u : Nat} {y}, ow[u]? = some y → (ow ++ [(c, true)])[u]? = some y := by
    intro u y h; rw [List.getElem?_append_left (lt_of_get h)]; exact h
  have i' : I P (ow ++ [(c, true)]) { q with calls := q.calls ++ [.done .cancelledError] } := by
    refine ⟨by simp [i.len], ?_, ?_, ?_, ?_, i.que, ?_, ?_⟩
    · intro y hy
      rcases List.mem_append.1 hy with h | h
      · exact i.tied y h
      · rw [List.mem_singleton] at h; subst h; rfl
    · intro t f h
      rcases key h with h | h
      · cases h
      · exact i.own t f h
    · intro f t x h; exact keep (i.res f t x h)
    · intro t x h
      rcases key h with h | h
      · cases h
      · exact keep (i.got t x h)
    · intro f hf t y h
      obtain ⟨c', h1, h2⟩ := i.get f hf t y h
      exact ⟨c', keep h1, h2⟩
    · intro t f h
      rcases key h with h | h
      · cases h
      · rcases i.other t f h with ⟨c', h1, h2⟩ | h | h
        · exact .inl ⟨c', keep h1, h2⟩
        · exact .inr (.inl h)
        · exact .inr (.inr h)
  have hc : (ow ++ [(c, true)])[q.calls.length]? = some (c, true) := by rw [← i.len]; simp
  unfold start
  dsimp only
  split
  · exact I_tail uniq i' hc hP
  next f hf =>
    split
    · -- waits for the future of another call
      have key2 : ∀ {u : Nat} {y : Call (Nat × α)}, ((q.calls ++ [Call.done Res.cancelledError]).set q.calls.length (.other f))[u]? = some y →
          (u = q.calls.length ∧ y = .other f) ∨ (q.calls ++ [.done .cancelledError])[u]? = some y :=
        get_set_or
      refine ⟨by simpa [setCall] using i'.len, i'.tied, ?_, i'.res, ?_, i'.que, i'.get, ?_⟩
      · intro u g h
        rcases key2 h with ⟨_, h⟩ | h
        · cases h
        · exact i'.own u g h
      · intro u x h
        rcases key2 h with ⟨_, h⟩ | h
        · cases h
        · exact i'.got u x h
      · intro u g h
        rcases key2 h with ⟨rfl, h⟩ | h
        · exact .inl ⟨c, hc, hP⟩
        · exact i'.other u g h
    · exact I_tail uniq i' hc hP
    · exact i'

theorem I_getNowait {P : Nat → Prop} {ow : List (Nat × Bool)} {q : St (Nat × α)} (i : I P ow q) : I P ow (getNowait q) := by
  unfold getNowait
  split
  next x xs hq =>
    exact ⟨i.len, i.tied, i.own, i.res, i.got, fun y hy => i.que y (by rw [hq]; exact List.mem_cons_of_mem _ hy), i.get, i.other⟩
  · exact i

theorem I_resume {P : Nat → Prop} {ow : List (Nat × Bool)} (uniq : ∀ a b, P a → P b → a = b) (t : Nat) {q : St (Nat × α)}
    (i : I P ow q) : I P ow (resume t q) := by
  unfold resume
  split
  next f hf =>
    split
    next o x hx =>
      split
      · exact I_done i _ (by intro x hx; cases hx)
      next hm =>
        rcases i.other t f hf with ⟨c, h1, h2⟩ | h | ⟨o', h⟩
        · exact I_tail uniq i h1 h2
        · exact absurd h hm
        · rw [hx] at h; cases h
    · exact I_done i _ (by intro x hx; cases hx)
    · exact i
  next f hf =>
    split
    next o x hx =>
      split
      · exact I_done i _ (by intro x hx; cases hx)
      · refine I_done i _ (by
          intro y hy; cases hy
          obtain ⟨z, hz⟩ := i.own t f hf
          rw [hx] at hz; cases hz
          exact i.res f t x hx)
    · exact I_done i _ (by intro x hx; cases hx)
    · exact i
  · exact i

theorem I_cancelFut {P : Nat → Prop} {ow : List (Nat × Bool)} {q : St (Nat × α)} (i : I P ow q) {f o : Nat}
    (hf : q.futs[f]? = some (o, .pending)) : I P ow (setFut q f (o, .cancelled)) := by
  refine ⟨i.len, i.tied, ?_, ?_, i.got, i.que, ?_, ?_⟩
  · intro u g hg
    obtain ⟨y, hy⟩ := i.own u g hg
    simp only [setFut]
    by_cases hgf : g = f
    · subst hgf; rw [get_set_self hf]; rw [hf] at hy; cases hy; exact ⟨_, rfl⟩
    · rw [get_set_ne hgf]; exact ⟨y, hy⟩
  · intro g u y hg
    simp only [setFut] at hg
    by_cases hgf : g = f
    · subst hgf; rw [get_set_self hf] at hg; cases hg
    · rw [get_set_ne hgf] at hg; exact i.res g u y hg
  · intro g hg u y hy
    simp only [setFut] at hy
    by_cases hgf : g = f
    · subst hgf; rw [get_set_self hf] at hy; cases hy; exact i.get g hg _ _ hf
    · rw [get_set_ne hgf] at hy; exact i.get g hg u y hy
  · intro u g hg
    rcases i.other u g hg with h | h | ⟨o', h⟩
    · exact .inl h
    · exact .inr (.inl h)
    · refine .inr (.inr ⟨o', ?_⟩)
      simp only [setFut]
      by_cases hgf : g = f
      · subst hgf; rw [hf] at h; cases h
      · rw [get_set_ne hgf]; exact h

theorem I_must {P : Nat → Prop} {ow : List (Nat × Bool)} {q : St (Nat × α)} (i : I P ow q) (t : Nat) : I P ow { q with must := t :: q.must } :=
  ⟨i.len, i.tied, i.own, i.res, i.got, i.que, i.get, fun u f h => by
    rcases i.other u f h with h | h | h
    · exact .inl h
    · exact .inr (.inl (List.mem_cons_of_mem _ h))
    · exact .inr (.inr h)⟩

theorem I_cancel {P : Nat → Prop} {ow : List (Nat × Bool)} (t : Nat) {q : St (Nat × α)} (i : I P ow q) : I P ow (cancel t q) := by
  unfold cancel
  split
  · split
    next o hf => exact I_cancelFut i hf
    · exact I_must i t
  · split
    next o hf => exact I_cancelFut i hf
    · exact I_must i t
  · exact i

/-- A call that waits for another one's future is on its way to CancelledError. -/
def Doomed (q : St (Nat × α)) (t : Nat) : Prop :=
  ∀ f, q.calls[t]? = some (Call.other f) → t ∈ q.must ∨ ∃ o : Nat, q.futs[f]? = some (o, Fut.cancelled)

theorem cancel_calls (t : Nat) (q : St (Nat × α)) : (cancel t q).calls = q.calls := by
  unfold cancel setFut; split <;> (try split) <;> rfl

theorem doomed_cancel_self {t : Nat} {q : St (Nat × α)} {ow : List (Nat × Bool)} : Doomed (cancel t q) t := by
  intro f hf
  rw [cancel_calls] at hf
  unfold cancel
  rw [hf]
  dsimp only
  split
  next o ho => exact .inr ⟨o, by simp only [setFut]; exact get_set_self ho⟩
  · exact .inl (by simp)

theorem doomed_cancel {t u : Nat} {q : St (Nat × α)} (h : Doomed q u) : Doomed (cancel t q) u := by
  intro f hf
  rw [cancel_calls] at hf
  have key : ∀ {g o : Nat}, q.futs[g]? = some (o, Fut.pending) →
      u ∈ (setFut q g (o, .cancelled)).must ∨ ∃ o' : Nat, (setFut q g (o, .cancelled)).futs[f]? = some (o', Fut.cancelled) := by
    intro g o hg
    rcases h f hf with h | ⟨o', h⟩
    · exact .inl h
    · refine .inr ⟨o', ?_⟩
      simp only [setFut]
      by_cases hfg : f = g
      · subst hfg; rw [hg] at h; cases h
      · rw [get_set_ne hfg]; exact h
  have key2 : u ∈ t :: q.must ∨ ∃ o' : Nat, q.futs[f]? = some (o', Fut.cancelled) := by
    rcases h f hf with h | h
    · exact .inl (List.mem_cons_of_mem _ h)
    · exact .inr h
  unfold cancel
  split
  · split
    next o ho => exact key ho
    · exact key2
  · split
    next o ho => exact key ho
    · exact key2
  · exact h f hf

/-- The calls of a connection are cancelled one after the other. -/
def cancels (ow : List (Nat × Bool)) (c : Nat) (ts : List Nat) (q : St (Nat × α)) : St (Nat × α) :=
  ts.foldl (fun q t => if ow[t]? = some (c, true) then Queue.cancel t q else q) q

theorem cancels_spec {P : Nat → Prop} {ow : List (Nat × Bool)} {c : Nat} : ∀ (ts : List Nat) {q : St (Nat × α)}, I P ow q →
    I P ow (cancels ow c ts q) ∧ (∀ u, Doomed q u → Doomed (cancels ow c ts q) u) ∧
    ∀ u ∈ ts, ow[u]? = some (c, true) → Doomed (cancels ow c ts q) u
  | [], q, i => ⟨i, fun _ h => h, fun u hu => by cases hu⟩
  | t :: ts, q, i => by
    unfold cancels
    rw [List.foldl_cons]
    by_cases ht : ow[t]? = some (c, true)
    · rw [if_pos ht]
      obtain ⟨h1, h2, h3⟩ := cancels_spec (c := c) ts (I_cancel t i)
      refine ⟨h1, fun u hu => h2 u (doomed_cancel hu), fun u hu hc => ?_⟩
      rcases List.mem_cons.1 hu with rfl | hu
      · exact h2 u (doomed_cancel_self (ow := ow))
      · exact h3 u hu hc
    · rw [if_neg ht]
      obtain ⟨h1, h2, h3⟩ := cancels_spec (c := c) ts i
      refine ⟨h1, h2, fun u hu hc => ?_⟩
      rcases List.mem_cons.1 hu with rfl | hu
      · exact absurd hc ht
      · exact h3 u hu hc

/-- After `connection_lost` nothing is left in the queue that any connection could see. -/
theorem I_clear {P : Nat → Prop} (uniq : ∀ a b, P a → P b → a = b) {c : Nat} (hc : P c) {o : Worker.Obj α} (i : I P o.owner o.q) :
    I (fun _ => False) (Worker.clearObj c o).owner (Worker.clearObj c o).q := by
  obtain ⟨j, _, h3⟩ := cancels_spec (c := c) (List.range o.owner.length) i
  refine ⟨j.len, j.tied, j.own, j.res, j.got, fun x hx => (by cases hx), fun f hf => (by cases hf), ?_⟩
  intro t f h
  have h : (cancels o.owner c (List.range o.owner.length) o.q).calls[t]? = some (.other f) := h
  rcases j.other t f h with ⟨c', h1, h2⟩ | h | h
  · have : c' = c := uniq _ _ h2 hc
    subst this
    rcases h3 t (List.mem_range.2 (lt_of_get h1)) h1 f h with h | h
    · exact .inr (.inl h)
    · exact .inr (.inr h)
  · exact .inr (.inl h)
  · exact .inr (.inr h)

end Verif.Proofs.Worker
