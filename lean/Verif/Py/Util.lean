/-! Small list utilities missing from core. -/
namespace Verif

theorem snocInd {α : Type _} {P : List α → Prop} (h0 : P []) (h1 : ∀ l a, P l → P (l ++ [a])) : ∀ l, P l := by
  intro l
  have : ∀ r : List α, P r.reverse := by
    intro r
    induction r with
    | nil => exact h0
    | cons a t ih => rw [List.reverse_cons]; exact h1 _ _ ih
  simpa using this l.reverse

/-- Two lists of the same length related element by element. Stands for no code in /repo; it is used in statements. -/
inductive All2 {α β : Type} (R : α → β → Prop) : List α → List β → Prop
  | nil : All2 R [] []
  | cons {a b l m} : R a b → All2 R l m → All2 R (a :: l) (b :: m)

deriving instance DecidableEq for Except

end Verif
