import Verif.Spec.Connections
import Verif.Py.Util
/-! Helper lemmas for C36. -/
set_option linter.unusedSectionVars false
namespace Verif.Proofs.Connections
open Model.Connections Spec.Connections

variable {κ ν : Type} [DecidableEq κ]

theorem run_append (t : Table κ ν) (a b : List (Op κ ν)) : run t (a ++ b) = run (run t a) b := by
  simp [run]

theorem present_iff (t : Table κ ν) (k : κ) : Present t k ↔ k ∈ t.items.map (·.1) := by
  simp [Present]

theorem mem_iff_present (t : Table κ ν) (k : κ) : mem t k = true ↔ Present t k := by
  simp only [mem, List.any_eq_true, Present, decide_eq_true_eq]
  constructor
  · rintro ⟨p, hp, rfl⟩; exact ⟨p.2, hp⟩
  · rintro ⟨v, hv⟩; exact ⟨_, hv, rfl⟩

theorem dictSet_keys (k : κ) (v : ν) (l : List (κ × ν)) :
    (dictSet k v l).map (·.1) = if k ∈ l.map (·.1) then l.map (·.1) else l.map (·.1) ++ [k] := by
  induction l with
  | nil => simp [dictSet]
  | cons p t ih =>
    obtain ⟨k', v'⟩ := p
    simp only [dictSet]
    split
    · simp_all
    · rename_i h
      have hk : k ≠ k' := fun e => h e.symm
      simp only [List.map_cons, ih, List.mem_cons, hk, false_or]
      split <;> simp

theorem dictSet_mem (k : κ) (v : ν) (l : List (κ × ν)) : (k, v) ∈ dictSet k v l := by
  induction l with
  | nil => simp [dictSet]
  | cons p t ih =>
    obtain ⟨k', v'⟩ := p
    simp only [dictSet]
    split
    · simp_all
    · exact List.mem_cons_of_mem _ ih

def Inv (t : Table κ ν) : Prop := 1 ≤ t.maxlen ∧ t.items.length ≤ t.maxlen ∧ (t.items.map (·.1)).Nodup

theorem keys_length (t : Table κ ν) : t.items.length = (t.items.map (·.1)).length := by simp

theorem inv_step (t : Table κ ν) (op : Op κ ν) (h : Inv t) : Inv (step t op) ∧ (step t op).maxlen = t.maxlen := by
  obtain ⟨h1, h2, h3⟩ := h
  cases op with
  | set k v =>
    have hk := dictSet_keys k v t.items
    have hlen : (dictSet k v t.items).length ≤ t.items.length + 1 := by
      have := congrArg List.length hk
      simp only [List.length_map] at this
      rw [this]; split <;> simp
    have hnd : ((dictSet k v t.items).map (·.1)).Nodup := by
      rw [hk]; split
      · exact h3
      · rw [List.nodup_append]
        refine ⟨h3, by simp, ?_⟩
        intro a ha b hb
        simp at hb; subst hb
        intro e; subst e; contradiction
    simp only [step, Model.Connections.set]
    split
    · refine ⟨⟨h1, ?_, ?_⟩, rfl⟩
      · simp; omega
      · simp only [List.map_tail]; exact hnd.sublist (List.tail_sublist _)
    · rename_i hle
      exact ⟨⟨h1, by simpa using hle, hnd⟩, rfl⟩
  | del k =>
    refine ⟨⟨h1, ?_, ?_⟩, rfl⟩
    · exact Nat.le_trans (List.length_filter_le _ _) h2
    · exact h3.sublist (List.Sublist.map _ (List.filter_sublist))

theorem inv_run (t : Table κ ν) (ops : List (Op κ ν)) (h : Inv t) : Inv (run t ops) ∧ (run t ops).maxlen = t.maxlen := by
  induction ops generalizing t with
  | nil => exact ⟨h, rfl⟩
  | cons op ops ih =>
    obtain ⟨hi, hm⟩ := inv_step t op h
    obtain ⟨a, b⟩ := ih _ hi
    exact ⟨a, by rw [show run t (op :: ops) = run (step t op) ops from rfl, b, hm]⟩

theorem inv_mk {maxlen : Int} {t : Table κ ν} (h : mk? maxlen = some t) :
    Inv t ∧ (t.maxlen : Int) = maxlen ∧ t.items = [] := by
  simp only [mk?] at h
  split at h
  · simp at h
  · simp at h; subst h
    refine ⟨⟨?_, ?_, ?_⟩, ?_, rfl⟩ <;> simp <;> omega

/-- what one insertion can remove: at most the first entry, only when full and the key is new -/
theorem set_removes {t : Table κ ν} (hi : Inv t) (k : κ) (v : ν) (k' : κ)
    (hp : Present t k') (hn : ¬ Present (Model.Connections.set t k v) k') :
    t.items.length = t.maxlen ∧ ¬ Present t k ∧ ∃ v' r, t.items = (k', v') :: r := by
  obtain ⟨h1, h2, h3⟩ := hi
  rw [present_iff] at hp hn ⊢
  have hk := dictSet_keys k v t.items
  simp only [Model.Connections.set] at hn
  split at hn
  · rename_i hgt
    simp only [List.map_tail, hk] at hn
    have hlen := congrArg List.length hk
    simp only [List.length_map] at hlen
    by_cases hm : k ∈ t.items.map (·.1)
    · rw [if_pos hm] at hlen; simp at hlen; omega
    · rw [if_neg hm] at hn hlen
      refine ⟨by simp at hlen; omega, hm, ?_⟩
      cases hl : t.items with
      | nil => rw [hl] at hp; simp at hp
      | cons p r =>
        obtain ⟨a, b⟩ := p
        rw [hl] at hn hp
        simp at hn hp
        rcases hp with rfl | ⟨x, hx⟩
        · exact ⟨b, r, rfl⟩
        · exact absurd hx (hn.1 x)
  · simp only [hk] at hn
    exfalso; apply hn
    split
    · exact hp
    · simp at hp ⊢; exact Or.inl hp

theorem pw_map {f : κ → Nat} {l : List (κ × ν)} (h : (l.map (fun p => p.1)).Pairwise (fun a b => f a < f b)) :
    l.Pairwise (fun p q => f p.1 < f q.1) := by
  rwa [List.pairwise_map] at h

/-- list order is birth order: earlier in the list means born earlier -/
theorem born_order {t₀ : Table κ ν} (h0 : Inv t₀) (he : t₀.items = []) (ops : List (Op κ ν)) :
    ∃ born : κ → Nat, (∀ k, Present (run t₀ ops) k → BornAt t₀ ops k (born k)) ∧
      (run t₀ ops).items.Pairwise (fun p q => born p.1 < born q.1) := by
  refine snocInd (P := fun ops => ∃ born : κ → Nat, (∀ k, Present (run t₀ ops) k → BornAt t₀ ops k (born k)) ∧
      (run t₀ ops).items.Pairwise (fun p q => born p.1 < born q.1)) ?_ ?_ ops
  · exact ⟨fun _ => 0, by simp [run, Present, he], by simp [run, he]⟩
  · intro ops op ih
    obtain ⟨born, hb, hpw⟩ := ih
    obtain ⟨hi, _⟩ := inv_run t₀ ops h0
    -- extending a birth record by one operation
    have ext : ∀ k n, BornAt t₀ ops k n → Present (run t₀ (ops ++ [op])) k → BornAt t₀ (ops ++ [op]) k n := by
      rintro k n ⟨a, b, c⟩ hp
      refine ⟨by simp; omega, ?_, ?_⟩
      · rw [List.take_append_of_le_length (by omega)]; exact b
      · intro m hm hl
        rcases Nat.lt_or_ge ops.length m with hgt | hle
        · have : (ops ++ [op]).take m = ops ++ [op] := List.take_of_length_le (by simp; omega)
          rw [this]; exact hp
        · rw [List.take_append_of_le_length hle]; exact c m hm hle
    have fresh : ∀ k, ¬ Present (run t₀ ops) k → Present (run t₀ (ops ++ [op])) k → BornAt t₀ (ops ++ [op]) k ops.length := by
      intro k hn hp
      refine ⟨by simp, by simpa using hn, ?_⟩
      intro m hm hl
      have : (ops ++ [op]).take m = ops ++ [op] := List.take_of_length_le (by simp; omega)
      rw [this]; exact hp
    cases op with
    | del k =>
      refine ⟨born, ?_, ?_⟩
      · intro k' hp
        apply ext _ _ _ hp
        apply hb
        rw [run_append] at hp
        obtain ⟨v, hv⟩ := hp
        simp [run, step, Model.Connections.del] at hv
        exact ⟨v, hv.1⟩
      · rw [run_append]
        exact List.Pairwise.sublist List.filter_sublist hpw
    | set k v =>
      have hkeys : (run t₀ (ops ++ [Op.set k v])).items.map (·.1) =
          if (dictSet k v (run t₀ ops).items).length > (run t₀ ops).maxlen
          then ((dictSet k v (run t₀ ops).items).map (·.1)).tail else (dictSet k v (run t₀ ops).items).map (·.1) := by
        rw [run_append]
        show (Model.Connections.set _ k v).items.map _ = _
        simp only [Model.Connections.set]; split <;> simp
      have hpw' : ((run t₀ ops).items.map (·.1)).Pairwise (fun a b => born a < born b) := by
        rw [List.pairwise_map]; exact hpw
      have bound : ∀ k', k' ∈ (run t₀ ops).items.map (·.1) → born k' < ops.length :=
        fun k' hk' => (hb k' ((present_iff _ _).2 hk')).1
      by_cases hm : k ∈ (run t₀ ops).items.map (·.1)
      · refine ⟨born, ?_, ?_⟩
        · intro k' hp
          apply ext _ _ _ hp
          apply hb
          rw [present_iff] at hp ⊢
          rw [hkeys, dictSet_keys, if_pos hm] at hp
          split at hp
          · exact List.mem_of_mem_tail hp
          · exact hp
        · apply pw_map; rw [hkeys, dictSet_keys, if_pos hm]
          split
          · exact hpw'.sublist (List.tail_sublist _)
          · exact hpw'
      · refine ⟨fun x => if x = k then ops.length else born x, ?_, ?_⟩
        · intro k' hp
          by_cases e : k' = k
          · subst e
            simp only [if_true]
            exact fresh _ (by rw [present_iff]; exact hm) hp
          · simp only [e, if_false]
            apply ext _ _ _ hp
            apply hb
            rw [present_iff] at hp ⊢
            rw [hkeys, dictSet_keys, if_neg hm] at hp
            have : k' ∈ (run t₀ ops).items.map (·.1) ++ [k] := by
              split at hp
              · exact List.mem_of_mem_tail hp
              · exact hp
            rcases List.mem_append.1 this with h | h
            · exact h
            · simp at h; exact absurd h e
        · apply pw_map (f := fun x => if x = k then ops.length else born x); rw [hkeys, dictSet_keys, if_neg hm]
          have hall : ((run t₀ ops).items.map (·.1) ++ [k]).Pairwise
              (fun a b => (if a = k then ops.length else born a) < (if b = k then ops.length else born b)) := by
            rw [List.pairwise_append]
            refine ⟨?_, by simp, ?_⟩
            · apply List.Pairwise.imp_of_mem _ hpw'
              intro a b ha hb hab
              have ea : a ≠ k := fun e => hm (e ▸ ha)
              have eb : b ≠ k := fun e => hm (e ▸ hb)
              simpa [ea, eb] using hab
            · intro a ha b hb
              simp at hb; subst hb
              have ea : a ≠ b := fun e => hm (e ▸ ha)
              simpa [ea] using bound a ha
          split
          · exact hall.sublist (List.tail_sublist _)
          · exact hall


end Verif.Proofs.Connections
