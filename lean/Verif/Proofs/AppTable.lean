import Verif.Proofs.App
import Verif.Py.Util
/-!
# Route tables built by registrations and changed by requests
-/
namespace Verif.Proofs.App
open Verif.Py Verif.Model.App Verif.Model.Regex Verif.Spec.App

variable {F V : Type}

/-- `path` is registered as a regular expression -/
def RegexPath (path : Bytes) : Prop := path.head? = some 94 ∨ path.getLast? = some 36

theorem startsWith_byte (s : Bytes) (c : UInt8) : startsWith s [c] = true ↔ s.head? = some c := by
  cases s with
  | nil => simp [startsWith]
  | cons x s => simp [startsWith]; exact eq_comm

theorem endsWith_byte (s : Bytes) (c : UInt8) : endsWith s [c] = true ↔ s.getLast? = some c := by
  have : endsWith s [c] = startsWith s.reverse [c] := rfl
  rw [this, startsWith_byte, List.head?_reverse]

theorem isRegex_iff (path : Bytes) : (startsWith path b!"^" || endsWith path b!"$") = true ↔ RegexPath path := by
  rw [Bool.or_eq_true, startsWith_byte, endsWith_byte]; rfl

/-- the entry a registration adds under a byte key -/
def entryFor (b : Bytes) : Reg F V → Option (Entry F V)
  | .route path f o =>
    if startsWith path b!"^" || endsWith path b!"$" then none
    else if routePath path ≠ [] ∧ pathKey (routePath path) = .path b then some ⟨litPat (routePath path), f, o⟩ else none
  | .error _ _ _ => none

/-- the entry a registration adds to the regex routes -/
def rxFor : Reg F V → Option (Entry F V)
  | .route path f o => if startsWith path b!"^" || endsWith path b!"$" then some ⟨path, f, o⟩ else none
  | .error _ _ _ => none

/-- the index entry a registration sets -/
def indexFor : Reg F V → Option (Entry F V)
  | .route path f o =>
    if startsWith path b!"^" || endsWith path b!"$" then none
    else if routePath path = [] then some ⟨indexPat, f, o⟩ else none
  | .error _ _ _ => none

def lastSome {α β : Type} (g : α → Option β) (d : β) (l : List α) : β := (l.filterMap g).getLastD d

/-- the table after registrations -/
def built (t : Table F V) (regs : List (Reg F V)) : Table F V := regs.foldl register t

theorem built_snoc (t : Table F V) (regs : List (Reg F V)) (r : Reg F V) : built t (regs ++ [r]) = register (built t regs) r := by
  simp [built]

structure Fresh (t : Table F V) (ix : Entry F V) : Prop where
  keyed : t.keyed = [(.index, [ix])]
  rx : t.rx = []
  pat : ix.pat = indexPat

def orNone {α : Type} : List α → Option (List α)
  | [] => none
  | l => some l

theorem lastSome_snoc {α β : Type} (g : α → Option β) (d : β) (l : List α) (a : α) :
    lastSome g d (l ++ [a]) = (g a).getD (lastSome g d l) := by
  unfold lastSome
  rw [List.filterMap_append]
  cases h : g a <;> simp [h, List.getLastD_eq_getLast?]

theorem filterMap_snoc {α β : Type} (g : α → Option β) (l : List α) (a : α) :
    (l ++ [a]).filterMap g = l.filterMap g ++ (g a).toList := by
  rw [List.filterMap_append]
  cases h : g a <;> simp [h]

theorem built_spec {t : Table F V} {ix : Entry F V} (h0 : Fresh t ix) (regs : List (Reg F V)) :
    (∀ b, Dict.get (built t regs).keyed (.path b) = orNone (regs.filterMap (entryFor b))) ∧
    Dict.get (built t regs).keyed .index = some [lastSome indexFor ix regs] ∧
    (lastSome indexFor ix regs).pat = indexPat ∧
    (built t regs).rx = regs.filterMap rxFor := by
  induction regs using snocInd with
  | h0 => simp [built, h0.keyed, h0.rx, Dict.get, orNone, lastSome, h0.pat]
  | h1 regs r ih =>
    obtain ⟨ih1, ih2, ih3, ih4⟩ := ih
    rw [built_snoc]
    simp only [lastSome_snoc, filterMap_snoc]
    cases r with
    | error c f o =>
      refine ⟨fun b => ?_, ?_, ?_, ?_⟩
      · simpa [entryFor, register, error] using ih1 b
      · simpa [indexFor, register, error] using ih2
      · simpa [indexFor, register, error] using ih3
      · simpa [rxFor, register, error] using ih4
    | route path f o =>
      by_cases hr : (startsWith path b!"^" || endsWith path b!"$") = true
      · have h1 : ∀ b, entryFor (F := F) (V := V) b (.route path f o) = none := fun b => by simp only [entryFor]; rw [if_pos hr]
        have h2 : indexFor (F := F) (V := V) (.route path f o) = none := by simp only [indexFor]; rw [if_pos hr]
        have h3 : rxFor (F := F) (V := V) (.route path f o) = some ⟨path, f, o⟩ := by simp only [rxFor]; rw [if_pos hr]
        have h4 : register (built t regs) (.route path f o) = { built t regs with rx := (built t regs).rx ++ [⟨path, f, o⟩] } := by
          simp only [register, addRoute]; rw [if_pos hr]
        simp only [h1, h2, h3, h4, Option.toList, List.append_nil, Option.getD]
        exact ⟨ih1, ih2, ih3, by rw [ih4]⟩
      · have h3 : rxFor (F := F) (V := V) (.route path f o) = none := by simp only [rxFor]; rw [if_neg hr]
        by_cases hp : routePath path = []
        · have h1 : ∀ b, entryFor (F := F) (V := V) b (.route path f o) = none := fun b => by
            simp only [entryFor]; rw [if_neg hr, if_neg (by simp [hp])]
          have h2 : indexFor (F := F) (V := V) (.route path f o) = some ⟨indexPat, f, o⟩ := by
            simp only [indexFor]; rw [if_neg hr, if_pos hp]
          have h4 : register (built t regs) (.route path f o) =
              { built t regs with keyed := Dict.set (built t regs).keyed .index [⟨indexPat, f, o⟩] } := by
            simp only [register, addRoute]; rw [if_neg hr, if_pos hp, ih2]; simp only [ih3]
          simp only [h1, h2, h3, h4, Option.toList, List.append_nil, Option.getD, Dict.get_set]
          exact ⟨fun b => by simpa using ih1 b, by simp, trivial, ih4⟩
        · have h2 : indexFor (F := F) (V := V) (.route path f o) = none := by
            simp only [indexFor]; rw [if_neg hr, if_neg hp]
          obtain ⟨k, hk⟩ : ∃ k, pathKey (routePath path) = .path k := ⟨_, rfl⟩
          have h1 : ∀ b, entryFor (F := F) (V := V) b (.route path f o) = if k = b then some ⟨litPat (routePath path), f, o⟩ else none := fun b => by
            simp only [entryFor]; rw [if_neg hr, hk]; simp [hp]
          have h4 : register (built t regs) (.route path f o) =
              { built t regs with keyed := Dict.set (built t regs).keyed (.path k) (regs.filterMap (entryFor k) ++ [⟨litPat (routePath path), f, o⟩]) } := by
            simp only [register, addRoute]; rw [if_neg hr, if_neg hp, hk, ih1 k]
            cases regs.filterMap (entryFor k) <;> rfl
          simp only [h1, h2, h3, h4, Option.toList, List.append_nil, Option.getD, Dict.get_set]
          refine ⟨fun b => ?_, by simpa using ih2, ih3, ih4⟩
          by_cases hb : k = b
          · subst hb; simp
            cases regs.filterMap (entryFor k) <;> rfl
          · simp [hb, ih1]

/-! ## Requests -/

theorem lastMatch_some {m : Bytes → Bool} {l : List (Entry F V)} {n i : Nat} {e : Entry F V} (h : lastMatch m l n = some (i, e)) :
    i < n ∧ l[i]? = some e ∧ m e.pat = true ∧ ∀ j e', i < j → j < n → l[j]? = some e' → m e'.pat = false := by
  induction n with
  | zero => simp [lastMatch] at h
  | succ n ih =>
    unfold lastMatch at h
    split at h
    · next e0 he0 =>
      split at h
      · next hm =>
        simp at h
        obtain ⟨rfl, rfl⟩ := h
        exact ⟨by omega, he0, hm, fun j _ h1 h2 => by omega⟩
      · next hm =>
        obtain ⟨h1, h2, h3, h4⟩ := ih h
        refine ⟨by omega, h2, h3, ?_⟩
        intro j e' hj1 hj2 he'
        by_cases hjn : j = n
        · subst hjn; rw [he0] at he'; cases he'; simpa using hm
        · exact h4 j e' hj1 (by omega) he'
    · cases h

theorem lastMatch_none {m : Bytes → Bool} {l : List (Entry F V)} {n : Nat} (hn : n ≤ l.length) (h : lastMatch m l n = none) :
    ∀ j e', j < n → l[j]? = some e' → m e'.pat = false := by
  induction n with
  | zero => intro j _ hj; omega
  | succ n ih =>
    unfold lastMatch at h
    split at h
    · next e0 he0 =>
      split at h
      · cases h
      · next hm =>
        intro j e' hj he'
        by_cases hjn : j = n
        · subst hjn; rw [he0] at he'; cases he'; simpa using hm
        · exact ih (by omega) h j e' (by omega) he'
    · next hnone =>
      rw [List.getElem?_eq_none_iff] at hnone; omega

/-- A key that has routes keeps them, and the list under a key that gets its first route is one of the regex routes. -/
theorem step_keyed (rx : Bytes → Bytes → Bool) (t : Table F V) (ev : Ev) (k : Key) :
    Dict.get (step rx t ev).keyed k = Dict.get t.keyed k ∨
      (Dict.get t.keyed k = none ∧ ∃ e ∈ t.rx, Dict.get (step rx t ev).keyed k = some [e]) := by
  cases ev with
  | finish i => left; simp only [step, delRx]; split <;> rfl
  | start valid url =>
    simp only [step]
    cases hc : choose rx t valid url with
    | bad => left; rfl
    | keyed e => left; rfl
    | notFound => left; rfl
    | regex i e =>
      unfold choose at hc
      split at hc
      · cases hc
      · split at hc
        · split at hc <;> cases hc
        · next hn =>
          split at hc
          · next i' e' hl =>
            cases hc
            have he := List.mem_of_getElem? (lastMatch_some hl).2.1
            simp only [promote, hn, Dict.get_set]
            by_cases hk : urlKey url = k
            · subst hk; right; exact ⟨hn, e, he, by simp⟩
            · left; simp [hk]
          · cases hc

theorem step_rx (rx : Bytes → Bytes → Bool) (t : Table F V) (ev : Ev) : (step rx t ev).rx.Sublist t.rx := by
  cases ev with
  | finish i =>
    simp only [step, delRx]
    split
    · exact List.eraseIdx_sublist _ _
    · exact List.Sublist.refl _
  | start valid url =>
    simp only [step, promote]
    split
    · split <;> simp
    · simp

theorem step_errs (rx : Bytes → Bytes → Bool) (t : Table F V) (ev : Ev) : (step rx t ev).errs = t.errs := by
  cases ev with
  | finish i => simp only [step, delRx]; split <;> rfl
  | start valid url =>
    simp only [step, promote]
    split
    · split <;> simp
    · rfl

theorem steps_keyed (rx : Bytes → Bytes → Bool) (evs : List Ev) (t : Table F V) (k : Key) :
    Dict.get (evs.foldl (step rx) t).keyed k = Dict.get t.keyed k ∨
      (Dict.get t.keyed k = none ∧ ∃ e ∈ t.rx, Dict.get (evs.foldl (step rx) t).keyed k = some [e]) := by
  induction evs generalizing t with
  | nil => left; rfl
  | cons ev evs ih =>
    simp only [List.foldl_cons]
    rcases ih (step rx t ev) with h | ⟨h, e, he, h2⟩
    · rw [h]; exact step_keyed rx t ev k
    · rcases step_keyed rx t ev k with h3 | ⟨h3, e', he', h4⟩
      · rw [h3] at h; right; exact ⟨h, e, (step_rx rx t ev).subset he, h2⟩
      · rw [h4] at h; cases h

theorem steps_rx (rx : Bytes → Bytes → Bool) (evs : List Ev) (t : Table F V) : (evs.foldl (step rx) t).rx.Sublist t.rx := by
  induction evs generalizing t with
  | nil => simp
  | cons ev evs ih => exact (ih _).trans (step_rx rx t ev)

theorem steps_errs (rx : Bytes → Bytes → Bool) (evs : List Ev) (t : Table F V) : (evs.foldl (step rx) t).errs = t.errs := by
  induction evs generalizing t with
  | nil => rfl
  | cons ev evs ih => rw [List.foldl_cons, ih, step_errs]

end Verif.Proofs.App
