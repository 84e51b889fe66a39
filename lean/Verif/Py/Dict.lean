/-!
# Python dictionaries as association lists in insertion order
-/
namespace Verif.Py

/-- A `dict`: its keys and values in the order of insertion (http_server.py:177, 294). -/
abbrev Dict (K V : Type) := List (K × V)

namespace Dict
variable {K V : Type} [DecidableEq K]

/-- `d.get(k)`; `none` models a missing key. Used at lib/http_request.py:117. -/
def get : Dict K V → K → Option V
  | [], _ => none
  | (k', v) :: t, k => if k' = k then some v else get t k

/-- `d[k] = v`: in place when the key is there, appended otherwise. Used at lib/http_request.py:271. -/
def set : Dict K V → K → V → Dict K V
  | [], k, v => [(k, v)]
  | (k', v') :: t, k, v => if k' = k then (k', v) :: t else (k', v') :: set t k v

/-- `k in d`. Used at http_server.py:92-94, 294. -/
def mem (d : Dict K V) (k : K) : Bool := (get d k).isSome

/-- `{**a, **b}` (also `dict(a, **b)`): the keys of `a` keep their place and take the value of `b` when it has one, the new
keys of `b` follow. Used at http_server.py:177. -/
def merge (a b : Dict K V) : Dict K V :=
  a.map (fun p => (p.1, (get b p.1).getD p.2)) ++ b.filter (fun p => !mem a p.1)

theorem get_set (d : Dict K V) (k k' : K) (v : V) : get (set d k v) k' = if k = k' then some v else get d k' := by
  induction d with
  | nil => simp [set, get]
  | cons p t ih =>
    obtain ⟨k0, v0⟩ := p
    unfold set
    by_cases h : k0 = k
    · subst h; rw [if_pos rfl]; unfold get; split <;> simp_all
    · simp only [if_neg h, get]
      rw [ih]
      by_cases h2 : k0 = k' <;> simp [h2]
      intro h3; exact absurd (h2.trans h3.symm) h

theorem get_append (a b : Dict K V) (k : K) : get (a ++ b) k = (get a k).or (get b k) := by
  induction a with
  | nil => simp [get]
  | cons p t ih =>
    obtain ⟨k0, v0⟩ := p
    simp only [List.cons_append, get]
    split
    · simp
    · exact ih

theorem get_map (a : Dict K V) (f : K → V → V) (k : K) :
    get (a.map (fun p => (p.1, f p.1 p.2))) k = (get a k).map (f k) := by
  induction a with
  | nil => simp [get]
  | cons p t ih =>
    obtain ⟨k0, v0⟩ := p
    simp only [List.map_cons, get]
    split
    · next h => subst h; simp
    · exact ih

theorem get_filter (b : Dict K V) (q : K → Bool) (k : K) :
    get (b.filter (fun p => q p.1)) k = if q k then get b k else none := by
  induction b with
  | nil => simp [get]
  | cons p t ih =>
    obtain ⟨k0, v0⟩ := p
    by_cases hq : q k0
    · rw [List.filter_cons_of_pos (by exact hq)]
      simp only [get, ih]
      by_cases h : k0 = k
      · subst h; simp [hq]
      · simp [h]
    · rw [List.filter_cons_of_neg (by exact hq)]
      simp only [get, ih]
      by_cases h : k0 = k
      · subst h; simp [hq]
      · simp [h]

theorem get_merge (a b : Dict K V) (k : K) : get (merge a b) k = (get b k).or (get a k) := by
  unfold merge
  rw [get_append, get_map a (fun k v => (get b k).getD v) k, get_filter b (fun k => !mem a k)]
  simp only [mem]
  by_cases ha : get a k = none
  · simp [ha]
  · obtain ⟨x, hx⟩ := Option.ne_none_iff_exists'.1 ha
    simp only [hx, Option.map_some, Option.isSome_some, Bool.not_true]
    cases get b k <;> simp

theorem mem_iff (d : Dict K V) (k : K) : mem d k = true ↔ ∃ v, (k, v) ∈ d := by
  unfold mem
  induction d with
  | nil => simp [get]
  | cons p t ih =>
    obtain ⟨k0, v0⟩ := p
    simp only [get]
    split
    · next h => subst h; exact ⟨fun _ => ⟨v0, by simp⟩, fun _ => rfl⟩
    · next h =>
      rw [ih]
      constructor
      · rintro ⟨v, hv⟩; exact ⟨v, by simp [hv]⟩
      · rintro ⟨v, hv⟩
        rcases List.mem_cons.1 hv with hv | hv
        · cases hv; exact absurd rfl h
        · exact ⟨v, hv⟩

theorem get_mem {d : Dict K V} {k : K} {v : V} (h : get d k = some v) : (k, v) ∈ d := by
  induction d with
  | nil => simp [get] at h
  | cons p t ih =>
    obtain ⟨k0, v0⟩ := p
    simp only [get] at h
    split at h
    · next h' => subst h'; cases h; simp
    · exact List.mem_cons_of_mem _ (ih h)

theorem keys_set (d : Dict K V) (k : K) (v : V) :
    (set d k v).map (·.1) = if mem d k then d.map (·.1) else d.map (·.1) ++ [k] := by
  induction d with
  | nil => simp [set, mem, get]
  | cons p t ih =>
    obtain ⟨k0, v0⟩ := p
    unfold set
    by_cases h : k0 = k
    · simp [h, mem, get]
    · simp only [if_neg h, List.map_cons, ih, mem, get]
      split <;> simp_all

end Dict
end Verif.Py
