import Verif.Proofs.Connections
/-!
# C36  The keep-alive table is bounded and evicts the oldest
-/
namespace Verif
open Model.Connections Spec.Connections Proofs.Connections

variable {κ ν : Type} [DecidableEq κ]

/-- **C36 (bound).** After any history the table has at most `maxlen` entries and no key twice; construction is refused
for `maxlen < 1` and succeeds otherwise. -/
theorem C36_bounded (maxlen : Int) :
    (maxlen < 1 → mk? (κ := κ) (ν := ν) maxlen = none) ∧
    (1 ≤ maxlen → ∃ t, mk? (κ := κ) (ν := ν) maxlen = some t ∧ ∀ ops,
      ((run t ops).items.length : Int) ≤ maxlen ∧ ((run t ops).items.map (·.1)).Nodup) := by
  refine ⟨fun h => by simp [mk?, h], fun h => ?_⟩
  have hn : ¬ maxlen < 1 := by omega
  refine ⟨⟨maxlen.toNat, []⟩, by simp [mk?, hn], fun ops => ?_⟩
  obtain ⟨hi, hm, _⟩ := inv_mk (κ := κ) (ν := ν) (maxlen := maxlen) (t := ⟨maxlen.toNat, []⟩) (by simp [mk?, hn])
  obtain ⟨⟨a, b, c⟩, d⟩ := inv_run _ ops hi
  exact ⟨by rw [d] at b; omega, c⟩

/-- **C36 (presence).** A key that was just inserted is present with its value, whatever happened before. -/
theorem C36_present {maxlen : Int} {t : Table κ ν} (ht : mk? maxlen = some t) (ops : List (Op κ ν)) (k : κ) (v : ν) :
    (k, v) ∈ (run t (ops ++ [.set k v])).items := by
  obtain ⟨hi, _⟩ := inv_run t ops (inv_mk ht).1
  rw [run_append]
  generalize run t ops = s at hi
  show (k, v) ∈ (Model.Connections.set s k v).items
  have hmem := dictSet_mem k v s.items
  simp only [Model.Connections.set]
  split
  · rename_i hgt
    -- the first entry is dropped: the inserted key is not first, because it was new and the table was full
    obtain ⟨h1, h2, h3⟩ := hi
    have hk := dictSet_keys k v s.items
    cases hl : s.items with
    | nil => rw [hl] at hgt; simp [dictSet] at hgt; omega
    | cons p r =>
      obtain ⟨k', v'⟩ := p
      rw [hl] at hgt hmem h2 hk
      by_cases e : k' = k
      · simp [dictSet, e] at hgt; simp at h2; omega
      · simp only [dictSet, e, if_false] at hmem ⊢
        simp at hmem ⊢
        rcases hmem with ⟨rfl, rfl⟩ | h
        · exact absurd rfl e
        · exact h
  · exact hmem

/-- **C36 (eviction).** If inserting `k` makes another key `k'` disappear, then the table was full, `k` was new, and
`k'` is the key that had been in the table longest. Deletions remove only the deleted key. -/
theorem C36_evicts_oldest {maxlen : Int} {t : Table κ ν} (ht : mk? maxlen = some t) (ops : List (Op κ ν))
    (k : κ) (v : ν) (k' : κ) (hp : Present (run t ops) k') (hn : ¬ Present (run t (ops ++ [.set k v])) k') :
    ((run t ops).items.length : Int) = maxlen ∧ ¬ Present (run t ops) k ∧
    ∀ k'', Present (run t ops) k'' → k'' ≠ k' →
      ∃ n m, BornAt t ops k' n ∧ BornAt t ops k'' m ∧ n < m := by
  obtain ⟨hinv, hmax, he⟩ := inv_mk ht
  obtain ⟨hi, hm⟩ := inv_run t ops hinv
  rw [run_append] at hn
  obtain ⟨h1, h2, v', r, hr⟩ := set_removes hi k v k' hp hn
  refine ⟨by rw [h1, hm]; exact hmax, h2, ?_⟩
  intro k'' hk'' hne
  obtain ⟨born, hb, hpw⟩ := born_order hinv he ops
  refine ⟨born k', born k'', hb _ hp, hb _ hk'', ?_⟩
  rw [hr, List.pairwise_cons] at hpw
  obtain ⟨v'', hv''⟩ := hk''
  rw [hr] at hv''
  rcases List.mem_cons.1 hv'' with h | h
  · simp at h; exact absurd h.1 hne
  · exact hpw.1 _ h

/-- **C36 (deletion).** Deleting a key removes that key and nothing else. -/
theorem C36_delete {t : Table κ ν} (ops : List (Op κ ν)) (k k' : κ) :
    Present (run t (ops ++ [.del k])) k' ↔ Present (run t ops) k' ∧ k' ≠ k := by
  rw [run_append]
  show Present (Model.Connections.del _ k) k' ↔ _
  simp [Present, Model.Connections.del]

/-- **C36 (capacity).** A key disappears only by deletion or by eviction: an insertion into a table with room, or of a
key already present, keeps every key. -/
theorem C36_no_spurious_eviction {maxlen : Int} {t : Table κ ν} (ht : mk? maxlen = some t) (ops : List (Op κ ν))
    (k : κ) (v : ν) (k' : κ) (hp : Present (run t ops) k')
    (hroom : ((run t ops).items.length : Int) < maxlen ∨ Present (run t ops) k) :
    Present (run t (ops ++ [.set k v])) k' := by
  apply Classical.byContradiction
  intro hn
  obtain ⟨h1, h2, _⟩ := C36_evicts_oldest ht ops k v k' hp hn
  rcases hroom with h | h
  · omega
  · exact h2 h

-- non-vacuity: a full table of size 2 evicts the oldest key
example : ∃ t, mk? (κ := Nat) (ν := Nat) 2 = some t ∧ Present (run t [.set 1 0, .set 2 0]) 1 ∧
    ¬ Present (run t [.set 1 0, .set 2 0, .set 3 0]) 1 :=
  ⟨_, rfl, ⟨0, by decide⟩, by rintro ⟨v, hv⟩; simp [run, step, Model.Connections.set, dictSet] at hv⟩

end Verif
