import Verif.Spec.Client
/-!
# What a client has read does not change when more arrives
-/
namespace Verif.Proofs.Client
open Verif.Py Verif.Spec.Client

theorem readLine_mono : ∀ {p l r : Bytes}, readLine p = some (l, r) → ∀ q, readLine (p ++ q) = some (l, r ++ q)
  | [], _, _, h, _ => by cases h
  | [_], _, _, h, _ => by cases h
  | a :: b :: t, l, r, h, q => by
    rw [readLine] at h
    show readLine (a :: b :: (t ++ q)) = _
    rw [readLine]
    split at h
    · next hc => cases h; rw [if_pos hc]
    · next hc =>
      rw [if_neg hc]
      cases hr : readLine (b :: t) with
      | none => rw [hr] at h; cases h
      | some x =>
        obtain ⟨x1, x2⟩ := x
        rw [hr] at h
        cases h
        have := readLine_mono hr q
        rw [show b :: (t ++ q) = b :: t ++ q from rfl, this]; rfl

theorem readLines_mono : ∀ {n : Nat} {p : Bytes} {ls : List Bytes} {r : Bytes}, readLines n p = some (ls, r) → ∀ {m : Nat}, n ≤ m → ∀ q, readLines m (p ++ q) = some (ls, r ++ q)
  | 0, _, _, _, h, _, _, _ => by cases h
  | n + 1, p, ls, r, h, 0, hm, _ => by omega
  | n + 1, p, ls, r, h, m + 1, hm, q => by
    rw [readLines] at h ⊢
    cases hr : readLine p with
    | none => rw [hr] at h; cases h
    | some x =>
      obtain ⟨l, x2⟩ := x
      rw [hr] at h
      rw [readLine_mono hr q]
      cases l with
      | nil => dsimp only at h ⊢; cases h; rfl
      | cons b l =>
        dsimp only at h ⊢
        cases hs : readLines n x2 with
        | none => rw [hs] at h; cases h
        | some y =>
          obtain ⟨y1, y2⟩ := y
          rw [hs] at h
          cases h
          rw [readLines_mono hs (show n ≤ m by omega) q]; rfl

theorem readChunks_mono : ∀ {n : Nat} {p d r : Bytes}, readChunks n p = some (d, r) → ∀ {m : Nat}, n ≤ m → ∀ q, readChunks m (p ++ q) = some (d, r ++ q)
  | 0, _, _, _, h, _, _, _ => by cases h
  | n + 1, p, d, r, h, 0, hm, _ => by omega
  | n + 1, p, d, r, h, m + 1, hm, q => by
    rw [readChunks] at h ⊢
    cases hr : readLine p with
    | none => rw [hr] at h; cases h
    | some x =>
      obtain ⟨l, x2⟩ := x
      rw [hr] at h
      rw [readLine_mono hr q]
      dsimp only at h ⊢
      cases hs : chunkSize (l.takeWhile (· ≠ 59)) with
      | none => rw [hs] at h; cases h
      | some k =>
        rw [hs] at h
        cases k with
        | zero =>
          dsimp only at h ⊢
          cases hl : readLines n x2 with
          | none => rw [hl] at h; cases h
          | some y =>
            obtain ⟨y1, y2⟩ := y
            rw [hl] at h
            cases h
            rw [readLines_mono hl (show n ≤ m by omega) q]; rfl
        | succ k =>
          dsimp only at h ⊢
          split at h
          · cases h
          · next hk =>
            rw [if_neg (by rw [List.length_append]; omega), List.drop_append_of_le_length (by omega), List.take_append_of_le_length (by omega)]
            split at h
            · next t ht =>
              rw [ht]
              show (readChunks m (t ++ q)).map _ = _
              cases hc : readChunks n t with
              | none => rw [hc] at h; cases h
              | some z =>
                obtain ⟨z1, z2⟩ := z
                rw [hc] at h
                cases h
                rw [readChunks_mono hc (show n ≤ m by omega) q]; rfl
            · cases h

theorem readBody_mono {m : Bytes} {st : Nat} {ls : List Bytes} {p d r : Bytes} (h : readBody false m st ls p = some (d, r)) (q : Bytes) : readBody false m st ls (p ++ q) = some (d, r ++ q) := by
  unfold readBody at h ⊢
  split at h
  · next hc => cases h; rw [if_pos hc]
  · next hc =>
    rw [if_neg hc]
    split at h
    · next v hv =>
      split at h
      · next hl => rw [if_pos hl]; exact readChunks_mono h (by rw [List.length_append]; omega) q
      · cases h
    · cases h
    · next hv =>
      split at h
      · cases h
      · next v hw =>
        split at h
        · next n hn =>
          split at h
          · cases h
          · next hk =>
            rw [if_neg (by rw [List.length_append]; omega)]
            cases h
            rw [List.drop_append_of_le_length (by omega), List.take_append_of_le_length (by omega)]
        · cases h
      · cases h

/-- A response that was read with the connection open is read from more bytes as well. -/
theorem response_mono {m p : Bytes} {x : Resp} {r : Bytes} (h : readResponse false m p = some (x, r)) (q : Bytes) : readResponse false m (p ++ q) = some (x, r ++ q) := by
  unfold readResponse at h ⊢
  cases hl : readLines (p.length + 1) p with
  | none => rw [hl] at h; cases h
  | some y =>
    obtain ⟨ls, y2⟩ := y
    rw [hl] at h
    rw [readLines_mono hl (by rw [List.length_append]; omega) q]
    cases ls with
    | nil => cases h
    | cons f ls =>
      dsimp only at h ⊢
      cases hs : statusOf f with
      | none => rw [hs] at h; cases h
      | some st =>
        rw [hs] at h
        dsimp only at h ⊢
        cases hb : readBody false m st ls y2 with
        | none => rw [hb] at h; cases h
        | some z =>
          obtain ⟨z1, z2⟩ := z
          rw [hb] at h
          cases h
          rw [readBody_mono hb q]; rfl

theorem readBody_closed {m : Bytes} {st : Nat} {ls : List Bytes} {p : Bytes} {v : Bytes × Bytes} (h : readBody true m st ls p = some v)
    (hn : values b!"transfer-encoding" ls ≠ [] ∨ values b!"content-length" ls ≠ []) : readBody false m st ls p = some v := by
  unfold readBody at h ⊢
  split at h
  · next hc => rw [if_pos hc]; exact h
  · next hc =>
    rw [if_neg hc]
    split at h
    · next v hv => exact h
    · cases h
    · next hv =>
      split at h
      · next hw => rcases hn with hn | hn
                   · exact absurd hv hn
                   · exact absurd hw hn
      · next v hw => exact h
      · cases h

/-- If a client that reads `p ++ q` finds the lines `ls`, which say how the body is framed, and finds no complete response, then a client that gets less finds none either, whether or not
the connection is closed. -/
theorem cut_read {m p q : Bytes} {ls : List Bytes} {first x : Bytes} (hl : readLines ((p ++ q).length + 1) (p ++ q) = some (first :: ls, x))
    (hn : values b!"transfer-encoding" ls ≠ [] ∨ values b!"content-length" ls ≠ []) (h : readResponse false m (p ++ q) = none) (closed : Bool) : readResponse closed m p = none := by
  cases hr : readResponse closed m p with
  | none => rfl
  | some y =>
    exfalso
    obtain ⟨y, r⟩ := y
    have key : readResponse false m p = some (y, r) := by
      cases closed with
      | false => exact hr
      | true =>
        unfold readResponse at hr ⊢
        cases hp : readLines (p.length + 1) p with
        | none => rw [hp] at hr; cases hr
        | some z =>
          obtain ⟨zs, z2⟩ := z
          have := readLines_mono hp (show p.length + 1 ≤ (p ++ q).length + 1 by rw [List.length_append]; omega) q
          rw [hl] at this
          cases this
          rw [hp] at hr
          dsimp only at hr ⊢
          cases hs : statusOf first with
          | none => rw [hs] at hr; cases hr
          | some st =>
            rw [hs] at hr
            dsimp only at hr ⊢
            cases hb : readBody true m st ls z2 with
            | none => rw [hb] at hr; cases hr
            | some w =>
              rw [hb] at hr
              rw [readBody_closed hb hn]; exact hr
    have := response_mono key q
    rw [h] at this
    cases this

end Verif.Proofs.Client
