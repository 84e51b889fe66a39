import Verif.Model.Queue
/-!
# Invariants of the queue
-/
namespace Verif.Proofs.Queue
open Verif.Model.Queue

variable {α : Type}

def receiver : Dest × α → Option Nat
  | (.call t, _) => some t
  | (.nowait, _) => none

structure Inv (s : St α) : Prop where
  fifo : s.handed.map (·.2) ++ s.queue = s.put
  empty : s.getters ≠ [] → s.queue = []
  getter : ∀ f ∈ s.getters, ∃ o x, s.futs[f]? = some (o, x) ∧ ∀ y, x ≠ Fut.result y
  nodup : s.getters.Nodup
  pend : ∀ (f o : Nat), s.futs[f]? = some (o, Fut.pending) → f ∈ s.getters ∧ s.calls[o]? = some (Call.own f)
  own : ∀ (t f : Nat), s.calls[t]? = some (Call.own f) → ∃ x, s.futs[f]? = some (t, x)
  other : ∀ (t f : Nat), s.calls[t]? = some (Call.other f) → ∃ y, s.futs[f]? = some y
  to : ∀ (t : Nat) (x : α), (Dest.call t, x) ∈ s.handed → s.calls[t]? = some (Call.done (Res.got x)) ∨
    (∃ f : Nat, s.calls[t]? = some (Call.own f) ∧ s.futs[f]? = some (t, Fut.result x)) ∨ (t ∈ s.must ∧ s.calls[t]? = some (Call.done Res.cancelledError))
  got : ∀ (t : Nat) (x : α), s.calls[t]? = some (Call.done (Res.got x)) → (Dest.call t, x) ∈ s.handed
  flight : ∀ (t f : Nat) (x : α), s.futs[f]? = some (t, Fut.result x) → (Dest.call t, x) ∈ s.handed
  once : (s.handed.filterMap receiver).Nodup

theorem inv_init : Inv ({} : St α) := by
  constructor <;> simp

theorem lt_of_get {β : Type} {l : List β} {i : Nat} {x : β} (h : l[i]? = some x) : i < l.length := by
  rw [List.getElem?_eq_some_iff] at h; exact h.1

theorem get_set_self {β : Type} {l : List β} {i : Nat} {x y : β} (h : l[i]? = some x) : (l.set i y)[i]? = some y := by
  rw [List.getElem?_set_self (lt_of_get h)]

theorem get_set_ne {β : Type} {l : List β} {i j : Nat} {y : β} (h : j ≠ i) : (l.set i y)[j]? = l[j]? :=
  List.getElem?_set_ne (Ne.symm h)

/-- A receiver that is still waiting for a pending future, or has no entry, was handed nothing. -/
theorem not_receiver {l : List (Dest × α)} {t : Nat} (h : ∀ x, (Dest.call t, x) ∉ l) : t ∉ l.filterMap receiver := by
  intro hm
  obtain ⟨⟨d, x⟩, hd, hr⟩ := List.mem_filterMap.1 hm
  cases d with
  | call u => simp only [receiver, Option.some.injEq] at hr; subst hr; exact h x hd
  | nowait => cases hr

theorem once_snoc {l : List (Dest × α)} {t : Nat} {x : α} (h : (l.filterMap receiver).Nodup) (hn : ∀ x, (Dest.call t, x) ∉ l) :
    ((l ++ [(Dest.call t, x)]).filterMap receiver).Nodup := by
  rw [List.filterMap_append]
  refine List.nodup_append.2 ⟨h, by simp [receiver], ?_⟩
  intro a ha b hb
  simp only [List.filterMap_cons, receiver, List.filterMap_nil, List.mem_singleton] at hb
  subst hb
  rintro rfl
  exact not_receiver hn ha

theorem inv_putLoop (x : α) : ∀ (gs : List Nat) (s : St α), Inv { s with getters := gs } → Inv { (putLoop x gs s) with put := s.put ++ [x] } ∧
    (putLoop x gs s).put = s.put
  | [], s, i => by
    refine ⟨?_, rfl⟩
    have := i.fifo
    exact { i with
      fifo := by simp only [putLoop] at this ⊢; rw [← this]; simp
      empty := by simp [putLoop] }
  | f :: gs, s, i => by
    unfold putLoop
    split
    · next t ht =>
      refine ⟨?_, rfl⟩
      have hq : s.queue = [] := i.empty (by simp)
      have hc : s.calls[t]? = some (.own f) := (i.pend f t ht).2
      have hn : ∀ y, (Dest.call t, y) ∉ s.handed := by
        intro y hy
        rcases i.to t y hy with h | ⟨g, h, h2⟩ | ⟨_, h⟩ <;> dsimp only at h
        · rw [hc] at h; cases h
        · rw [hc] at h; cases h; dsimp only at h2; rw [ht] at h2; cases h2
        · rw [hc] at h; cases h
      have hf : f ∉ gs := (List.nodup_cons.1 i.nodup).1
      have key : ∀ g : Nat, g ≠ f → (s.futs.set f (t, Fut.result x))[g]? = s.futs[g]? := fun g hg => get_set_ne hg
      have keyf : (s.futs.set f (t, Fut.result x))[f]? = some (t, .result x) := get_set_self ht
      constructor
      · have := i.fifo; dsimp only [setFut] at this ⊢; rw [hq] at this ⊢; simp [← this]
      · intro _; exact hq
      · intro g hg
        have : g ≠ f := by rintro rfl; exact hf hg
        dsimp only [setFut]; rw [key g this]
        exact i.getter g (by simp only [List.mem_cons]; exact .inr hg)
      · exact (List.nodup_cons.1 i.nodup).2
      · intro g o hg
        dsimp only [setFut] at hg ⊢
        by_cases e : g = f
        · subst e; rw [keyf] at hg; cases hg
        · rw [key g e] at hg
          have := i.pend g o hg
          refine ⟨?_, this.2⟩
          rcases List.mem_cons.1 this.1 with h | h
          · exact absurd h e
          · exact h
      · intro u g hu
        dsimp only [setFut] at hu ⊢
        by_cases e : g = f
        · subst e
          obtain ⟨y, hy⟩ := i.own u g hu
          dsimp only at hy; rw [ht] at hy; cases hy
          exact ⟨_, keyf⟩
        · rw [key g e]; exact i.own u g hu
      · intro u g hu
        dsimp only [setFut] at hu ⊢
        by_cases e : g = f
        · subst e; exact ⟨_, keyf⟩
        · rw [key g e]; exact i.other u g hu
      · intro u y hu
        dsimp only [setFut] at hu ⊢
        rcases List.mem_append.1 hu with h | h
        · rcases i.to u y h with h | ⟨g, h, h2⟩ | h
          · exact .inl h
          · refine .inr (.inl ⟨g, h, ?_⟩)
            by_cases e : g = f
            · subst e; dsimp only at h2; rw [ht] at h2; cases h2
            · rw [key g e]; exact h2
          · exact .inr (.inr h)
        · simp only [List.mem_singleton, Prod.mk.injEq, Dest.call.injEq] at h
          obtain ⟨rfl, rfl⟩ := h
          exact .inr (.inl ⟨f, hc, keyf⟩)
      · intro u y hu
        dsimp only [setFut] at hu ⊢
        exact List.mem_append.2 (.inl (i.got u y hu))
      · intro u g y hu
        dsimp only [setFut] at hu ⊢
        by_cases e : g = f
        · subst e; rw [keyf] at hu; cases hu; simp
        · rw [key g e] at hu; exact List.mem_append.2 (.inl (i.flight u g y hu))
      · exact once_snoc i.once hn
    · next hnp =>
      refine inv_putLoop x gs s ?_
      exact { i with
        empty := fun _ => i.empty (by simp)
        getter := fun g hg => i.getter g (List.mem_cons_of_mem _ hg)
        nodup := (List.nodup_cons.1 i.nodup).2
        pend := fun g o hg => by
          have := i.pend g o hg
          refine ⟨?_, this.2⟩
          rcases List.mem_cons.1 this.1 with h | h
          · subst h; exact absurd hg (hnp o)
          · exact h }

theorem inv_put (x : α) {s : St α} (i : Inv s) : Inv (put x s) := (inv_putLoop x s.getters s i).1

/-- A call that has not been handed anything and does not own a future goes on. -/
theorem inv_tail {t : Nat} {s : St α} (i : Inv s) {c : Call α} (hc : s.calls[t]? = some c) (ho : ∀ f, c ≠ .own f) (hn : ∀ x, (Dest.call t, x) ∉ s.handed) : Inv (tail t s) := by
  have key : ∀ (y : Call α) (u : Nat), u ≠ t → (s.calls.set t y)[u]? = s.calls[u]? := fun y u hu => get_set_ne hu
  have keyt : ∀ y : Call α, (s.calls.set t y)[t]? = some y := fun y => get_set_self hc
  have hp : ∀ (f o : Nat), s.futs[f]? = some (o, Fut.pending) → o ≠ t := by
    rintro f o hf rfl
    have := (i.pend f o hf).2
    rw [hc] at this; cases this
    exact ho f rfl
  unfold tail
  split
  · next x q hq =>
    have hg : s.getters = [] := by
      rcases hgs : s.getters with _ | ⟨f, gs⟩
      · rfl
      · have := i.empty (by rw [hgs]; simp); rw [hq] at this; cases this
    constructor <;> dsimp only [setCall]
    · have := i.fifo; rw [hq] at this; simp [← this]
    · rw [hg]; simp
    · exact i.getter
    · exact i.nodup
    · intro f o hf
      have := i.pend f o hf
      rw [hg] at this; cases this.1
    · intro u f hu
      by_cases e : u = t
      · subst e; rw [keyt] at hu; cases hu
      · rw [key _ u e] at hu; exact i.own u f hu
    · intro u f hu
      by_cases e : u = t
      · subst e; rw [keyt] at hu; cases hu
      · rw [key _ u e] at hu; exact i.other u f hu
    · intro u y hu
      rcases List.mem_append.1 hu with h | h
      · have e : u ≠ t := by rintro rfl; exact hn y h
        rw [key _ u e]; exact i.to u y h
      · simp only [List.mem_singleton, Prod.mk.injEq, Dest.call.injEq] at h
        obtain ⟨rfl, rfl⟩ := h
        exact .inl (keyt _)
    · intro u y hu
      by_cases e : u = t
      · subst e; rw [keyt] at hu; cases hu; simp
      · rw [key _ u e] at hu; exact List.mem_append.2 (.inl (i.got u y hu))
    · intro u f y hu; exact List.mem_append.2 (.inl (i.flight u f y hu))
    · exact once_snoc i.once hn
  · next hq =>
    have fa : ∀ f : Nat, f ≠ s.futs.length → (s.futs ++ [(t, Fut.pending)])[f]? = s.futs[f]? := by
      intro f hf
      by_cases hl : f < s.futs.length
      · rw [List.getElem?_append_left hl]
      · rw [List.getElem?_append_right (by omega), List.getElem?_eq_none (by simp; omega), List.getElem?_eq_none (by omega)]
    have fl : (s.futs ++ [(t, Fut.pending)])[s.futs.length]? = some (t, (Fut.pending : Fut α)) := by simp
    have fm : ∀ (f : Nat) (y : Nat × Fut α), s.futs[f]? = some y → (s.futs ++ [(t, Fut.pending)])[f]? = some y := by
      intro f y hf; rw [fa f (by have := lt_of_get hf; omega)]; exact hf
    constructor <;> dsimp only [setCall]
    · exact i.fifo
    · intro _; exact hq
    · intro f hf
      rcases List.mem_append.1 hf with h | h
      · obtain ⟨o, x, h1, h2⟩ := i.getter f h
        exact ⟨o, x, fm f _ h1, h2⟩
      · simp only [List.mem_singleton] at h; subst h
        exact ⟨t, .pending, fl, by simp⟩
    · refine List.nodup_append.2 ⟨i.nodup, by simp, ?_⟩
      intro a ha b hb
      simp only [List.mem_singleton] at hb; subst hb
      rintro rfl
      obtain ⟨o, x, h1, _⟩ := i.getter _ ha
      have := lt_of_get h1; omega
    · intro f o hf
      by_cases e : f = s.futs.length
      · subst e; rw [fl] at hf; cases hf
        exact ⟨by simp, keyt _⟩
      · rw [fa f e] at hf
        have h := i.pend f o hf
        refine ⟨List.mem_append.2 (.inl h.1), ?_⟩
        rw [key _ o (hp f o hf)]; exact h.2
    · intro u f hu
      by_cases e : u = t
      · subst e; rw [keyt] at hu; cases hu; exact ⟨_, fl⟩
      · rw [key _ u e] at hu
        obtain ⟨x, hx⟩ := i.own u f hu
        exact ⟨x, fm f _ hx⟩
    · intro u f hu
      by_cases e : u = t
      · subst e; rw [keyt] at hu; cases hu
      · rw [key _ u e] at hu
        obtain ⟨x, hx⟩ := i.other u f hu
        exact ⟨x, fm f _ hx⟩
    · intro u y hu
      have e : u ≠ t := by rintro rfl; exact hn y hu
      rw [key _ u e]
      rcases i.to u y hu with h | ⟨f, h1, h2⟩ | h
      · exact .inl h
      · exact .inr (.inl ⟨f, h1, fm f _ h2⟩)
      · exact .inr (.inr h)
    · intro u y hu
      by_cases e : u = t
      · subst e; rw [keyt] at hu; cases hu
      · rw [key _ u e] at hu; exact i.got u y hu
    · intro u f y hu
      by_cases e : f = s.futs.length
      · subst e; rw [fl] at hu; cases hu
      · rw [fa f e] at hu; exact i.flight u f y hu
    · exact i.once

/-- A call gets a state that neither owns a future nor returns an item, and was not handed anything, or is cancelled. -/
theorem inv_setCall {t : Nat} {s : St α} (i : Inv s) {c : Call α} (hc : s.calls[t]? = some c) (y : Call α)
    (hy : (∃ f z, y = .other f ∧ s.futs[f]? = some z) ∨ y = .done .cancelledError)
    (hp : ∀ f : Nat, c = .own f → s.futs[f]? ≠ some (t, .pending))
    (hn : ∀ x, (Dest.call t, x) ∈ s.handed → y = .done .cancelledError ∧ t ∈ s.must) : Inv (setCall s t y) := by
  have key : ∀ u : Nat, u ≠ t → (s.calls.set t y)[u]? = s.calls[u]? := fun u hu => get_set_ne hu
  have keyt : (s.calls.set t y)[t]? = some y := get_set_self hc
  constructor <;> dsimp only [setCall]
  · exact i.fifo
  · exact i.empty
  · exact i.getter
  · exact i.nodup
  · intro f o hf
    have h := i.pend f o hf
    refine ⟨h.1, ?_⟩
    by_cases e : o = t
    · subst e; rw [hc] at h; cases h.2; exact absurd hf (hp f rfl)
    · rw [key o e]; exact h.2
  · intro u f hu
    by_cases e : u = t
    · subst e; rw [keyt] at hu; cases hu
      rcases hy with ⟨g, z, h, _⟩ | h <;> cases h
    · rw [key u e] at hu; exact i.own u f hu
  · intro u f hu
    by_cases e : u = t
    · subst e; rw [keyt] at hu; cases hu
      rcases hy with ⟨g, z, h, h2⟩ | h <;> cases h
      exact ⟨z, h2⟩
    · rw [key u e] at hu; exact i.other u f hu
  · intro u x hu
    by_cases e : u = t
    · subst e; rw [keyt]
      have := hn x hu
      rw [this.1]; exact .inr (.inr ⟨this.2, rfl⟩)
    · rw [key u e]; exact i.to u x hu
  · intro u x hu
    by_cases e : u = t
    · subst e; rw [keyt] at hu; cases hu
      rcases hy with ⟨g, z, h, _⟩ | h <;> cases h
    · rw [key u e] at hu; exact i.got u x hu
  · exact i.flight
  · exact i.once

theorem inv_start {s : St α} (i : Inv s) : Inv (start s) := by
  have hf : ∀ (u : Nat) (c : Call α), s.calls[u]? = some c → (s.calls ++ [Call.done .cancelledError])[u]? = some c := by
    intro u c h; rw [List.getElem?_append_left (lt_of_get h)]; exact h
  have hl : (s.calls ++ [Call.done (Res.cancelledError : Res α)])[s.calls.length]? = some (.done .cancelledError) := by simp
  have hne : ∀ (u : Nat) (c : Call α), (s.calls ++ [Call.done (Res.cancelledError : Res α)])[u]? = some c → s.calls[u]? = some c ∨ (u = s.calls.length ∧ c = .done .cancelledError) := by
    intro u c h
    by_cases e : u < s.calls.length
    · rw [List.getElem?_append_left e] at h; exact .inl h
    · have := lt_of_get h
      simp only [List.length_append, List.length_cons, List.length_nil] at this
      have e : u = s.calls.length := by omega
      subst e; rw [hl] at h; cases h; exact .inr ⟨rfl, rfl⟩
  have i' : Inv { s with calls := s.calls ++ [.done .cancelledError] } := by
    constructor <;> dsimp only
    · exact i.fifo
    · exact i.empty
    · exact i.getter
    · exact i.nodup
    · intro f o h; exact ⟨(i.pend f o h).1, hf _ _ (i.pend f o h).2⟩
    · intro u f h
      rcases hne u _ h with h | ⟨_, h⟩
      · exact i.own u f h
      · cases h
    · intro u f h
      rcases hne u _ h with h | ⟨_, h⟩
      · exact i.other u f h
      · cases h
    · intro u x h
      rcases i.to u x h with h | ⟨f, h1, h2⟩ | ⟨h1, h2⟩
      · exact .inl (hf _ _ h)
      · exact .inr (.inl ⟨f, hf _ _ h1, h2⟩)
      · exact .inr (.inr ⟨h1, hf _ _ h2⟩)
    · intro u x h
      rcases hne u _ h with h | ⟨_, h⟩
      · exact i.got u x h
      · cases h
    · exact i.flight
    · exact i.once
  have hn : ∀ x, (Dest.call s.calls.length, x) ∉ s.handed := by
    intro x hx
    rcases i.to _ x hx with h | ⟨f, h, _⟩ | ⟨_, h⟩ <;> have := lt_of_get h <;> omega
  unfold start
  dsimp only
  split
  · exact inv_tail i' hl (by simp) hn
  · next f hg =>
    split
    · next o ho =>
      exact inv_setCall i' hl _ (.inl ⟨f, _, rfl, ho⟩) (by simp) (fun x hx => absurd hx (hn x))
    · exact inv_tail i' hl (by simp) hn
    · exact i'

theorem inv_getNowait {s : St α} (i : Inv s) : Inv (getNowait s) := by
  unfold getNowait
  split
  · next x q hq =>
    have hg : s.getters = [] := by
      rcases hgs : s.getters with _ | ⟨f, gs⟩
      · rfl
      · have := i.empty (by rw [hgs]; simp); rw [hq] at this; cases this
    exact { i with
      fifo := by have := i.fifo; rw [hq] at this; simp [← this]
      empty := by rw [hg]; simp
      to := fun t y h => by
        rcases List.mem_append.1 h with h | h
        · exact i.to t y h
        · simp at h
      got := fun t y h => List.mem_append.2 (.inl (i.got t y h))
      flight := fun t f y h => List.mem_append.2 (.inl (i.flight t f y h))
      once := by
        rw [List.filterMap_append, show [(Dest.nowait, x)].filterMap receiver = [] from rfl, List.append_nil]; exact i.once }
  · exact i

theorem inv_resume (t : Nat) {s : St α} (i : Inv s) : Inv (resume t s) := by
  unfold resume
  split
  · next f hc =>
    have hn : ∀ x, (Dest.call t, x) ∉ s.handed := by
      intro x hx
      rcases i.to t x hx with h | ⟨g, h, _⟩ | ⟨_, h⟩ <;> rw [hc] at h <;> cases h
    split
    · split
      · exact inv_setCall i hc _ (.inr rfl) (by simp) (fun x hx => absurd hx (hn x))
      · exact inv_tail i hc (by simp) hn
    · exact inv_setCall i hc _ (.inr rfl) (by simp) (fun x hx => absurd hx (hn x))
    · exact i
  · next f hc =>
    obtain ⟨z, hz⟩ := i.own t f hc
    split
    · next o x hx =>
      rw [hx] at hz; cases hz
      split
      · next hm => exact inv_setCall i hc _ (.inr rfl) (fun g hg => by cases hg; rw [hx]; simp) (fun y _ => ⟨rfl, hm⟩)
      · have hh := i.flight t f x hx
        have key : ∀ u : Nat, u ≠ t → (s.calls.set t (Call.done (Res.got x)))[u]? = s.calls[u]? := fun u hu => get_set_ne hu
        have keyt : (s.calls.set t (Call.done (Res.got x)))[t]? = some (.done (.got x)) := get_set_self hc
        constructor <;> dsimp only [setCall]
        · exact i.fifo
        · exact i.empty
        · exact i.getter
        · exact i.nodup
        · intro g o hg
          have h := i.pend g o hg
          refine ⟨h.1, ?_⟩
          by_cases e : o = t
          · subst e; rw [hc] at h; cases h.2; rw [hx] at hg; cases hg
          · rw [key o e]; exact h.2
        · intro u g hu
          by_cases e : u = t
          · subst e; rw [keyt] at hu; cases hu
          · rw [key u e] at hu; exact i.own u g hu
        · intro u g hu
          by_cases e : u = t
          · subst e; rw [keyt] at hu; cases hu
          · rw [key u e] at hu; exact i.other u g hu
        · intro u y hu
          by_cases e : u = t
          · subst e; rw [keyt]
            rcases i.to u y hu with h | ⟨g, h, h2⟩ | ⟨_, h⟩ <;> rw [hc] at h <;> cases h
            rw [hx] at h2; cases h2; exact .inl rfl
          · rw [key u e]; exact i.to u y hu
        · intro u y hu
          by_cases e : u = t
          · subst e; rw [keyt] at hu; cases hu; exact hh
          · rw [key u e] at hu; exact i.got u y hu
        · exact i.flight
        · exact i.once
    · next o hx =>
      rw [hx] at hz; cases hz
      refine inv_setCall i hc _ (.inr rfl) (fun g hg => by cases hg; rw [hx]; simp) (fun y hy => ?_)
      rcases i.to t y hy with h | ⟨g, h, h2⟩ | ⟨_, h⟩ <;> rw [hc] at h <;> cases h
      rw [hx] at h2; cases h2
    · exact i
  · exact i

theorem inv_cancelFut {s : St α} (i : Inv s) {f o : Nat} (hf : s.futs[f]? = some (o, .pending)) : Inv (setFut s f (o, .cancelled)) := by
  have key : ∀ g : Nat, g ≠ f → (s.futs.set f (o, Fut.cancelled))[g]? = s.futs[g]? := fun g hg => get_set_ne hg
  have keyf : (s.futs.set f (o, Fut.cancelled))[f]? = some (o, .cancelled) := get_set_self hf
  constructor <;> dsimp only [setFut]
  · exact i.fifo
  · exact i.empty
  · intro g hg
    by_cases e : g = f
    · subst e; exact ⟨o, _, keyf, by simp⟩
    · rw [key g e]; exact i.getter g hg
  · exact i.nodup
  · intro g u hg
    by_cases e : g = f
    · subst e; rw [keyf] at hg; cases hg
    · rw [key g e] at hg; exact i.pend g u hg
  · intro u g hu
    by_cases e : g = f
    · subst e
      obtain ⟨x, hx⟩ := i.own u g hu
      rw [hf] at hx; cases hx; exact ⟨_, keyf⟩
    · rw [key g e]; exact i.own u g hu
  · intro u g hu
    by_cases e : g = f
    · subst e; exact ⟨_, keyf⟩
    · rw [key g e]; exact i.other u g hu
  · intro u y hu
    rcases i.to u y hu with h | ⟨g, h, h2⟩ | h
    · exact .inl h
    · refine .inr (.inl ⟨g, h, ?_⟩)
      by_cases e : g = f
      · subst e; rw [hf] at h2; cases h2
      · rw [key g e]; exact h2
    · exact .inr (.inr h)
  · exact i.got
  · intro u g y hu
    by_cases e : g = f
    · subst e; rw [keyf] at hu; cases hu
    · rw [key g e] at hu; exact i.flight u g y hu
  · exact i.once

theorem inv_cancel (t : Nat) {s : St α} (i : Inv s) : Inv (cancel t s) := by
  have hm : Inv { s with must := t :: s.must } :=
    { i with
      to := fun u x h => by
        rcases i.to u x h with h | h | ⟨h1, h2⟩
        · exact .inl h
        · exact .inr (.inl h)
        · exact .inr (.inr ⟨List.mem_cons_of_mem _ h1, h2⟩) }
  unfold cancel
  split
  · split
    · next o ho => exact inv_cancelFut i ho
    · exact hm
  · split
    · next o ho => exact inv_cancelFut i ho
    · exact hm
  · exact i

/-- No event of the schedule is a `clear`. -/
def NoClear (es : List (Ev α)) : Prop := .clear ∉ es

theorem inv_run {es : List (Ev α)} (h : NoClear es) {s : St α} (i : Inv s) : Inv (run s es) := by
  unfold run
  induction es generalizing s with
  | nil => exact i
  | cons e t ih =>
    have ht : NoClear t := fun hm => h (List.mem_cons_of_mem _ hm)
    refine ih ht ?_
    cases e with
    | put x => exact inv_put x i
    | start => exact inv_start i
    | getNowait => exact inv_getNowait i
    | resume t => exact inv_resume t i
    | cancel t => exact inv_cancel t i
    | clear => exact absurd (List.mem_cons_self ..) h

end Verif.Proofs.Queue
