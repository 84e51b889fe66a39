import Verif.Proofs.FilesPieces
/-!
# C115: which uploads leave the end of their body in the queue
-/
namespace Verif
open Py Model.BodyStream Model.Files Model.FilesInfo Spec.HttpParser Spec.Files Proofs.Files

/-- **C115, every cut.** However a form is cut into pieces, `files()` takes the end of the body if and only if no piece is left behind one that
was fetched for a header and completed it; else the end marker stays in the queue, alone. -/
theorem C115_exact {b : Bytes} (hb : BoundaryOk b) {ps : List Part} (hok : ∀ p ∈ ps, p.Ok b) (segs : List Bytes) (hne : ∀ d ∈ segs, d ≠ [])
    (h : segs.flatten = multipart b ps) {limit : Nat} (hl : ps.length < limit) :
    ∃ r', files b limit ⟨⟨segs, .done⟩, [], false⟩ = (ps.map yields, .finished, r') ∧ unread r' = if takesEnd b ps 0 false segs then [] else [none] := by
  have i : H (multipart b ps) ⟨⟨segs, .done⟩, [], false⟩ {} :=
    ⟨by simpa using h, rfl, fun h => (by cases h), rfl, rfl, rfl, rfl, fun h => (by cases h)⟩
  obtain ⟨F, r', hR, hloop, hsuf, _⟩ := parts_full hb ps hok limit ⟨⟨segs, .done⟩, [], false⟩ {} i
  obtain ⟨F2, r2, ys, hloop2, he⟩ := parts_track hb ps hok limit (by omega) ⟨⟨segs, .done⟩, [], false⟩ {} i (fun _ => .inr rfl)
  rw [List.take_of_length_le (by omega)] at hloop
  have hf := files_of rfl hloop (by simp)
  have hf2 := files_of rfl hloop2 (by simp)
  have hrr : r2 = r' := by
    have := hf2.symm.trans hf
    exact congrArg (fun x => x.2.2) this
  subst hrr
  refine ⟨r2, hf, ?_⟩
  have hbuf : r2.buf = closing b := by
    rcases FilesEnd.loop_finished b _ _ _ _ _ _ hloop with h | h
    · simp at h; omega
    · exact h
  have hd := hR.data
  rw [List.drop_of_length_le (by omega), hbuf, multipart] at hd
  have hp : r2.gen.pieces = [] :=
    FilesEnd.flatten_empty (fun d hd => hne d (hsuf.mem hd)) (List.append_cancel_left (hd.trans (List.append_nil _).symm))
  unfold unread
  rw [hp, he]
  simp

namespace FilesPieces

/-- With every byte at hand nothing is fetched any more. -/
theorem held_all (b : Bytes) : ∀ (ps : List Part) (k : Nat), (multipart b ps).length ≤ k → takesEnd b ps k true [] = false
  | [], _, _ => rfl
  | p :: ps, k, hk => by
    obtain ⟨w, hw⟩ := multipart_start b ps
    have e1 : (multipart b (p :: ps)).length = (p.head b).length + (p.content.length + 2 + (multipart b ps).length) := by
      simp [multipart]; omega
    have e2 : (multipart b ps).length = 2 + b.length + w.length := by rw [hw]; simp; omega
    have e3 : (p.content ++ delimiter b).length = p.content.length + (4 + b.length) := by simp [delimiter]; omega
    have e4 : (p.content ++ CRLF).length = p.content.length + 2 := by simp
    rw [takesEnd]
    have f1 : fetchFor (p.head b).length k true [] = (k, true, []) := by unfold fetchFor; rw [if_pos ⟨rfl, by omega⟩]
    rw [f1]
    dsimp only
    have f2 : fetchFor (p.content ++ delimiter b).length (k - (p.head b).length) true [] = (k - (p.head b).length, true, []) := by
      unfold fetchFor; rw [if_pos ⟨rfl, by omega⟩]
    rw [f2, if_neg (by simp)]
    dsimp only
    exact held_all b ps _ (by omega)

end FilesPieces

/-- **C115, two pieces**, as when the head comes in one segment and the form in two more: the end of the body is left in the queue if
and only if the first piece holds the header of the first part. -/
theorem C115_two {b : Bytes} (hb : BoundaryOk b) {p : Part} {ps : List Part} (hok : ∀ q ∈ p :: ps, q.Ok b) {d1 d2 : Bytes} (h1 : d1 ≠ []) (h2 : d2 ≠ [])
    (h : d1 ++ d2 = multipart b (p :: ps)) {limit : Nat} (hl : (p :: ps).length < limit) :
    ∃ r', files b limit ⟨⟨[d1, d2], .done⟩, [], false⟩ = ((p :: ps).map yields, .finished, r') ∧
      unread r' = if d1.length < (p.head b).length then [] else [none] := by
  obtain ⟨r', hr, hu⟩ := C115_exact hb hok [d1, d2] (by simp [h1, h2]) (by simpa using h) hl
  refine ⟨r', hr, hu.trans ?_⟩
  have hlen := congrArg List.length h
  have e1 : (multipart b (p :: ps)).length = (p.head b).length + (p.content.length + 2 + (multipart b ps).length) := by
    simp [multipart]; omega
  obtain ⟨w, hw⟩ := multipart_start b ps
  have e2 : (multipart b ps).length = 2 + b.length + w.length := by rw [hw]; simp; omega
  have e3 : (p.content ++ delimiter b).length = p.content.length + (4 + b.length) := by simp [delimiter]; omega
  have e4 : (p.content ++ CRLF).length = p.content.length + 2 := by simp
  rw [List.length_append, e1] at hlen
  by_cases hd : d1.length < (p.head b).length
  · have f1 : fetchFor (p.head b).length 0 false [d1, d2] = (d1.length + d2.length, false, []) := by
      simp only [fetchFor, fetchUntil, Nat.zero_add]
      rw [if_neg (by simp), if_neg (by omega), if_pos (by omega)]
    rw [if_pos hd, takesEnd, f1]
    simp
  · have f1 : fetchFor (p.head b).length 0 false [d1, d2] = (d1.length, false, [d2]) := by
      simp only [fetchFor, fetchUntil, Nat.zero_add]
      rw [if_neg (by simp), if_pos (by omega)]
    have f2 : fetchFor (p.content ++ delimiter b).length (d1.length - (p.head b).length) false [d2] = (d1.length - (p.head b).length + d2.length, false, []) := by
      simp only [fetchFor, fetchUntil]
      rw [if_neg (by simp), if_pos (by omega)]
    have f3 : takesEnd b (p :: ps) 0 false [d1, d2] = false := by
      rw [takesEnd, f1]
      dsimp only
      rw [f2, if_neg (by simp)]
      dsimp only
      exact FilesPieces.held_all b ps _ (by omega)
    rw [if_neg hd, f3]
    simp

/-! ## Cases -/

/-- Two parts in two pieces: the first piece ends in the first header, or behind it (that header has 68 bytes). -/
example := C115_exact (b := b!"b") ⟨by decide, by decide, by decide⟩ exParts_ok [(multipart b!"b" exParts).take 30, (multipart b!"b" exParts).drop 30]
  (by decide +kernel) (by decide +kernel) (limit := 5) (by decide)
example : takesEnd b!"b" exParts 0 false [(multipart b!"b" exParts).take 30, (multipart b!"b" exParts).drop 30] = true ∧
    takesEnd b!"b" exParts 0 false [(multipart b!"b" exParts).take 70, (multipart b!"b" exParts).drop 70] = false ∧
    takesEnd b!"b" exParts 0 false [multipart b!"b" exParts] = true ∧
    takesEnd b!"b" exParts 0 false ((multipart b!"b" exParts).map (fun c => [c])) = false := by decide +kernel
example : (exParts.map (fun p => (p.head b!"b").length)).head? = some 68 := by decide +kernel

end Verif
