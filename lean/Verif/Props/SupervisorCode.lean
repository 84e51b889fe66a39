import Verif.Props.Supervisor
/-!
# C84: with which code a worker ends
-/
namespace Verif
open Verif.Model.Supervisor Verif.Proofs.Supervisor Verif.Supervisor

namespace Supervisor
theorem parent_keeps (n : Nat) (f : Bool) {s : St} {i c : Nat} (h : worker s i = some (.stopping c)) : worker (parent n f s) i = some (.stopping c) := by
  unfold worker at *
  obtain ⟨x, hx, hc⟩ := Option.map_eq_some_iff.1 h
  have hlt : i < s.slots.length := by
    rcases Nat.lt_or_ge i s.slots.length with g | g
    · exact g
    · rw [List.getElem?_eq_none g] at hx; cases hx
  have hset : ∀ (j : Nat) (y : Slot), (∀ z, s.slots[j]? = some z → j = i → y.child = z.child) →
      ((s.slots.set j y)[i]?).map (·.child) = some (.stopping c) := by
    intro j y hy
    rw [List.getElem?_set]
    split
    · next e =>
      subst e
      rw [if_pos hlt]
      simp [hy x hx rfl, hc]
    · rw [hx]; simp [hc]
  unfold parent
  split
  · split
    · simp only [List.getElem?_append_left hlt]; exact h
    · exact h
  · split
    · exact h
    · next y hy =>
      split
      · exact h
      · exact hset _ _ (fun z hz _ => by rw [hy] at hz; cases hz; rfl)
  · split
    · exact h
    · next j y hy =>
      split
      · next he =>
        split
        · exact h
        · refine hset _ _ (fun z hz e => ?_)
          subst e
          rw [hx] at hy
          cases hy
          rw [hc] at he
          cases he
      · exact h
  · split
    · exact h
    · next y hy =>
      split
      · split <;> exact h
      · split
        · exact hset _ _ (fun z hz _ => by rw [hy] at hz; cases hz; rfl)
        · exact hset _ _ (fun z hz _ => by rw [hy] at hz; cases hz; rfl)
  · split
    · exact h
    · next y hy =>
      split
      · exact h
      · exact hset _ _ (fun z hz _ => by rw [hy] at hz; cases hz; rfl)
  · split
    · exact h
    · split <;> exact h
  · exact h
  · exact h

theorem onSlot_worker {i j : Nat} {f : Slot → Slot} {s : St} {a b : Child} (h : worker s i = some a) (hb : j = i → ∀ x, x.child = a → (f x).child = b) (hn : j ≠ i → a = b) :
    worker (onSlot j f s) i = some b := by
  by_cases e : j = i
  · subst e
    unfold worker at *
    obtain ⟨x, hx, hc⟩ := Option.map_eq_some_iff.1 h
    have hlt : j < s.slots.length := by
      rcases Nat.lt_or_ge j s.slots.length with g | g
      · exact g
      · rw [List.getElem?_eq_none g] at hx; cases hx
    unfold onSlot
    rw [hx]
    simp [List.getElem?_set, hlt, hb rfl x hc]
  · unfold worker at *
    rw [onSlot_ne e, h, hn e]

theorem stopping_step (n : Nat) {s : St} {i c : Nat} (h : worker s i = some (.stopping c)) (e : Ev) (hs : e ≠ .stopped i) (hd : ∀ k, e ≠ .die i k) :
    worker (step n s e) i = some (.stopping c) := by
  cases e with
  | parent f => exact parent_keeps n f h
  | interrupt => simp only [step]; split <;> exact h
  | pid j => exact onSlot_worker h (fun _ x hx => by simp [tellPid, hx]) (fun _ => rfl)
  | up j => exact onSlot_worker h (fun _ x hx => by simp [comeUp, hx]) (fun _ => rfl)
  | ping j => exact onSlot_worker h (fun _ x hx => by simp [sendPing, hx]) (fun _ => rfl)
  | sec j => exact onSlot_worker h (fun _ x hx => by simp [second, hx]) (fun _ => rfl)
  | recv j => exact onSlot_worker h (fun _ x hx => by simp [receive, hx]) (fun _ => rfl)
  | reload j => exact onSlot_worker h (fun _ x hx => by simp [leave, waiting, hx]) (fun _ => rfl)
  | memory j => exact onSlot_worker h (fun _ x hx => by simp [leave, waiting, hx]) (fun _ => rfl)
  | stopped j => exact onSlot_worker h (fun g => absurd (by rw [g]) hs) (fun _ => rfl)
  | die j k => exact onSlot_worker h (fun g => absurd (by rw [g]) (hd k)) (fun _ => rfl)

theorem stopping_run (n : Nat) {i c : Nat} : ∀ (es : List Ev) {s : St}, worker s i = some (.stopping c) → (.stopped i ∉ es) → (∀ k, .die i k ∉ es) →
    worker (run n s es) i = some (.stopping c)
  | [], _, h, _, _ => h
  | e :: t, s, h, hs, hd => stopping_run n t (stopping_step n h e (fun g => hs (by simp [g])) (fun k g => hd k (by simp [g])))
      (fun g => hs (List.mem_cons_of_mem _ g)) (fun k g => hd k (List.mem_cons_of_mem _ g))

theorem stopping_end (n : Nat) {i c : Nat} {s : St} (h : worker s i = some (.stopping c)) : worker (step n s (.stopped i)) i = some (.exited c) :=
  onSlot_worker h (fun _ x hx => by simp [finish, hx]) (fun g => absurd rfl g)
end Supervisor

/-- **C84 (codes).** A worker that leaves because the code was changed ends with the code 0, on which the parent reloads; one that leaves because of its memory
ends with 1, on which the parent does not. This holds whatever all the others do meanwhile, unless the worker is killed while it shuts down. -/
theorem C84_codes (n : Nat) (es es' : List Ev) (i k : Nat) (hw : worker (run n {} es) i = some (.polling k)) (hs : .stopped i ∉ es')
    (hd : ∀ code, .die i code ∉ es') :
    worker (run n {} (es ++ .reload i :: es' ++ [.stopped i])) i = some (.exited 0) ∧
    worker (run n {} (es ++ .memory i :: es' ++ [.stopped i])) i = some (.exited 1) := by
  have er : ∀ e, run n {} (es ++ e :: es' ++ [.stopped i]) = step n (run n (step n (run n {} es) e) es') (.stopped i) := fun e => by
    unfold run; simp [List.foldl_append]
  rw [er, er]
  exact ⟨Supervisor.stopping_end n (Supervisor.stopping_run n es' (Supervisor.onSlot_worker hw (fun _ x hx => by simp [leave, waiting, hx]) (fun g => absurd rfl g)) hs hd),
    Supervisor.stopping_end n (Supervisor.stopping_run n es' (Supervisor.onSlot_worker hw (fun _ x hx => by simp [leave, waiting, hx]) (fun g => absurd rfl g)) hs hd)⟩

/-- Two workers, the first of which waits for its answer; meanwhile the parent answers and is interrupted. -/
example := C84_codes 2 [.parent false, .pid 0, .parent false, .parent false, .pid 1, .parent false, .parent false, .up 0, .up 1, .ping 0, .ping 1]
  [.parent false, .parent false, .sec 0, .die 1 9, .interrupt, .parent false] 0 2 (by decide +kernel) (by decide) (by intro c; simp)

end Verif
