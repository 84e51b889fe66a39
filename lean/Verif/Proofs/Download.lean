import Verif.Spec.Download
import Verif.Spec.Sendfile
import Verif.Proofs.Client
/-!
# What the client of `Spec/Download` reads
-/
namespace Verif.Proofs.Download
open Verif.Py Verif.Spec.Client Verif.Spec.Download Verif.Proofs.Client

theorem isPrefixOf_append (d r : Bytes) : d.isPrefixOf (d ++ r) = true := List.isPrefixOf_iff_prefix.2 ⟨r, rfl⟩

/-- The first occurrence. -/
theorem cut_first {d : Bytes} (hd : d ≠ []) : ∀ {a r : Bytes}, (∀ i, i < a.length → ¬ d <+: (a ++ d ++ r).drop i) → cut d (a ++ d ++ r) = some (a, r)
  | [], r, _ => by
    rw [List.nil_append]
    cases h : d ++ r with
    | nil => exact absurd (List.append_eq_nil_iff.1 h).1 hd
    | cons x t =>
      rw [cut, if_pos (by rw [← h]; exact isPrefixOf_append d r), ← h, List.drop_left]
  | x :: a, r, h => by
    rw [List.cons_append, List.cons_append, cut, if_neg]
    · rw [cut_first hd (fun i hi => h (i + 1) (by simpa using hi))]; rfl
    · intro hp
      exact h 0 (by simp) (List.isPrefixOf_iff_prefix.1 hp)

/-- One byte. -/
theorem cut_byte {x : UInt8} {a : Bytes} (h : x ∉ a) (r : Bytes) : cut [x] (a ++ [x] ++ r) = some (a, r) := by
  refine cut_first (by simp) (fun i hi hp => h ?_)
  rw [List.append_assoc, List.drop_append_of_le_length (by omega)] at hp
  cases hd : a.drop i with
  | nil => have := congrArg List.length hd; simp at this; omega
  | cons y t =>
    rw [hd, List.cons_append, List.cons_prefix_cons] at hp
    rw [hp.1]
    exact List.mem_of_mem_drop (by rw [hd]; simp)

/-- A pattern whose first byte does not come again in it, in front of a text that does not contain it. -/
theorem cut_delim {x : UInt8} {d a : Bytes} (hx : x ∉ d) (h : ¬ x :: d <:+: a) (r : Bytes) : cut (x :: d) (a ++ (x :: d) ++ r) = some (a, r) := by
  refine cut_first (by simp) (fun i hi hp => ?_)
  rw [List.append_assoc, List.drop_append_of_le_length (by omega)] at hp
  have hs : a.drop i <:+ a := List.drop_suffix i a
  have hne : a.drop i ≠ [] := by
    intro e; have := congrArg List.length e; simp at this; omega
  generalize a.drop i = b at hp hs hne
  obtain ⟨z, hz⟩ := hp
  rcases Nat.lt_or_ge b.length (x :: d).length with hl | hl
  · -- the pattern goes beyond `b`: its byte behind `b` is `x`
    cases b with
    | nil => exact hne rfl
    | cons y b =>
      simp only [List.cons_append, List.cons.injEq] at hz
      obtain ⟨_, hz⟩ := hz
      have hlen : b.length < d.length := by simpa using hl
      have e1 : (d ++ z)[b.length]? = some x := by
        rw [hz, List.getElem?_append_right (Nat.le_refl _)]; simp
      rw [List.getElem?_append_left hlen] at e1
      exact hx (List.mem_of_getElem? e1)
  · have : x :: d <+: b := by
      have h1 : x :: d <+: b ++ ((x :: d) ++ r) := ⟨z, hz⟩
      exact List.prefix_of_prefix_length_le h1 (List.prefix_append _ _) hl
    exact h (this.isInfix.trans hs.isInfix)

theorem number_read (n : Nat) : lengthOf (fmtNat n) = some n := by
  have hc := Proofs.Numeral.canonical_fmtNat n
  unfold lengthOf
  rw [if_pos ⟨hc.1, List.all_eq_true.2 (fun b hb => (digit_plain (hc.2.1 b hb)).1)⟩, Proofs.Numeral.valueOf_fmtNat]

theorem number_bytes {n : Nat} {b : UInt8} (h : b ∈ fmtNat n) : 48 ≤ b ∧ b ≤ 57 := (Proofs.Numeral.canonical_fmtNat n).2.1 b h

theorem number_not {n : Nat} {b : UInt8} (hb : ¬ (48 ≤ b ∧ b ≤ 57)) : b ∉ fmtNat n := fun h => hb (number_bytes h)

theorem range_read {p : Nat × Nat} {n : Nat} (h1 : p.1 ≤ p.2) (h2 : p.2 < n) : rangeOf (Spec.Sendfile.contentRange p n) = some (p.1, p.2, n) := by
  unfold rangeOf Spec.Sendfile.contentRange
  have e1 : b!"bytes " ++ fmtNat p.1 ++ b!"-" ++ fmtNat p.2 ++ b!"/" ++ fmtNat n = b!"bytes" ++ [32] ++ (fmtNat p.1 ++ [45] ++ (fmtNat p.2 ++ [47] ++ fmtNat n)) := by
    simp [List.append_assoc]
  rw [e1, show (b!" " : Bytes) = [32] from rfl, cut_byte (by decide)]
  dsimp only
  rw [show (b!"-" : Bytes) = [45] from rfl, cut_byte (number_not (by decide))]
  dsimp only
  rw [show (b!"/" : Bytes) = [47] from rfl, cut_byte (number_not (by decide))]
  dsimp only
  rw [number_read, number_read, number_read]
  dsimp only
  rw [if_pos ⟨by decide, h1, h2⟩]

theorem trim_range {p : Nat × Nat} {n : Nat} : trim (32 :: Spec.Sendfile.contentRange p n) = Spec.Sendfile.contentRange p n := by
  unfold Spec.Sendfile.contentRange trim
  have hne : fmtNat n ≠ [] := (Proofs.Numeral.canonical_fmtNat n).1
  obtain ⟨l, y, hl⟩ : ∃ l y, fmtNat n = l ++ [y] := ⟨_, _, (List.dropLast_concat_getLast hne).symm⟩
  have hy : ¬ (y = 32 ∨ y = 9) := by
    have := number_bytes (n := n) (b := y) (by rw [hl]; simp)
    rintro (rfl | rfl) <;> revert this <;> decide
  rw [hl]
  have e : (32 :: (b!"bytes " ++ fmtNat p.1 ++ b!"-" ++ fmtNat p.2 ++ b!"/" ++ (l ++ [y]))).dropWhile (fun b => b = 32 ∨ b = 9) =
      (b!"bytes " ++ fmtNat p.1 ++ b!"-" ++ fmtNat p.2 ++ b!"/" ++ l) ++ [y] := by
    rw [List.dropWhile_cons, if_pos (by decide)]
    simp only [List.append_assoc, List.cons_append]
    rw [List.dropWhile_cons, if_neg (by decide)]
  rw [e, List.reverse_append]
  simp only [List.reverse_cons, List.reverse_nil, List.nil_append, List.singleton_append]
  rw [List.dropWhile_cons, if_neg (by simpa using hy)]
  simp [List.append_assoc]

theorem slice_length {file : Bytes} {p : Nat × Nat} (h2 : p.2 < file.length) : (Spec.Sendfile.slice file p).length = p.2 + 1 - p.1 := by
  simp only [Spec.Sendfile.slice, List.length_take, List.length_drop]; omega

/-- Header lines with this Content-Range. -/
theorem piece_read {ls : List Bytes} {p : Nat × Nat} {file : Bytes} (h1 : p.1 ≤ p.2) (h2 : p.2 < file.length)
    (h : Spec.Response.named b!"content-range" ls = [b!"Content-Range: " ++ Spec.Sendfile.contentRange p file.length]) :
    piece ls (Spec.Sendfile.slice file p) = some ⟨p.1, p.2, file.length, Spec.Sendfile.slice file p⟩ := by
  have hv : values b!"content-range" ls = [Spec.Sendfile.contentRange p file.length] := by
    rw [values_eq, h, List.map_singleton, show b!"Content-Range: " ++ Spec.Sendfile.contentRange p file.length =
      b!"Content-Range" ++ b!": " ++ Spec.Sendfile.contentRange p file.length from rfl, value_line (by decide), trim_range]
  unfold piece
  rw [hv]
  dsimp only
  rw [range_read h1 h2]
  dsimp only
  rw [if_pos (slice_length h2)]

/-- The lines of a part. -/
def partLines (ctype : Bytes) (p : Nat × Nat) (n : Nat) : List Bytes := [b!"Content-Type: " ++ ctype, b!"Content-Range: " ++ Spec.Sendfile.contentRange p n]

theorem range_noLF (p : Nat × Nat) (n : Nat) : (10 : UInt8) ∉ Spec.Sendfile.contentRange p n := by
  unfold Spec.Sendfile.contentRange
  simp only [List.mem_append, not_or]
  exact ⟨⟨⟨⟨⟨by decide, number_not (by decide)⟩, by decide⟩, number_not (by decide)⟩, by decide⟩, number_not (by decide)⟩

/-- The parts behind a delimiter. -/
theorem parts_read {B ctype file : Bytes} (hB : (13 : UInt8) ∉ B) (hct : (10 : UInt8) ∉ ctype) : ∀ {ps : List (Nat × Nat)},
    (∀ p ∈ ps, ¬ b!"\r\n--" ++ B <:+: Spec.Sendfile.slice file p) → ∀ {n : Nat}, ps.length < n →
    readParts (b!"\r\n--" ++ B) n ((ps.map (fun p => b!"\r\nContent-Type: " ++ ctype ++ b!"\r\nContent-Range: " ++ Spec.Sendfile.contentRange p file.length ++ CRLF2 ++
      Spec.Sendfile.slice file p ++ (b!"\r\n--" ++ B))).flatten ++ b!"--\r\n") =
      some (ps.map (fun p => ⟨partLines ctype p file.length, Spec.Sendfile.slice file p⟩))
  | _, _, 0, hn => by omega
  | [], _, n + 1, _ => by
    rw [readParts]; rfl
  | p :: ps, h, n + 1, hn => by
    have ih := parts_read hB hct (ps := ps) (fun q hq => h q (by simp [hq])) (n := n) (by simpa using hn)
    rw [List.map_cons, List.flatten_cons]
    generalize hX : (ps.map (fun p => b!"\r\nContent-Type: " ++ ctype ++ b!"\r\nContent-Range: " ++ Spec.Sendfile.contentRange p file.length ++ CRLF2 ++
      Spec.Sendfile.slice file p ++ (b!"\r\n--" ++ B))).flatten ++ b!"--\r\n" = X at ih
    rw [List.append_assoc, hX]
    have e : b!"\r\nContent-Type: " ++ ctype ++ b!"\r\nContent-Range: " ++ Spec.Sendfile.contentRange p file.length ++ CRLF2 ++
        Spec.Sendfile.slice file p ++ (b!"\r\n--" ++ B) ++ X =
        [] ++ CRLF ++ ((partLines ctype p file.length).flatMap (· ++ CRLF) ++ CRLF ++ (Spec.Sendfile.slice file p ++ (b!"\r\n--" ++ B) ++ X)) := by
      simp [partLines, List.append_assoc, CRLF, CRLF2]
    rw [e, readParts, if_neg (by
      intro hp
      have := List.isPrefixOf_iff_prefix.1 hp
      obtain ⟨z, hz⟩ := this
      have := congrArg List.head? hz
      revert this
      simp [CRLF]), readLine_line (by simp)]
    dsimp only
    rw [readLines_lines (by
      intro l hl
      simp only [partLines, List.mem_cons, List.not_mem_nil, or_false] at hl
      rcases hl with rfl | rfl
      · refine ⟨?_, by simp⟩
        simp only [List.mem_append, not_or]; exact ⟨by decide, hct⟩
      · refine ⟨?_, by simp⟩
        simp only [List.mem_append, not_or]; exact ⟨by decide, range_noLF _ _⟩) (by
      have := flatMap_length (partLines ctype p file.length)
      simp only [List.length_append] at this ⊢
      omega)]
    dsimp only
    have hd : (13 : UInt8) ∉ b!"\n--" ++ B := by
      simp only [List.mem_append, not_or]; exact ⟨by decide, hB⟩
    have hc := cut_delim (x := 13) (d := b!"\n--" ++ B) hd (h p (by simp)) X
    rw [show (b!"\r\n--" ++ B : Bytes) = 13 :: (b!"\n--" ++ B) from rfl] at *
    rw [hc]
    dsimp only
    rw [ih]; rfl

theorem multipart_read {B ctype file : Bytes} (hB : (13 : UInt8) ∉ B) (hct : (10 : UInt8) ∉ ctype) {ps : List (Nat × Nat)}
    (h : ∀ p ∈ ps, ¬ b!"\r\n--" ++ B <:+: Spec.Sendfile.slice file p) :
    readMultipart B (Spec.Sendfile.multipart B ctype file ps) = some (ps.map (fun p => ⟨partLines ctype p file.length, Spec.Sendfile.slice file p⟩)) := by
  have e : CRLF ++ Spec.Sendfile.multipart B ctype file ps = [] ++ (b!"\r\n--" ++ B) ++
      ((ps.map (fun p => b!"\r\nContent-Type: " ++ ctype ++ b!"\r\nContent-Range: " ++ Spec.Sendfile.contentRange p file.length ++ CRLF2 ++
      Spec.Sendfile.slice file p ++ (b!"\r\n--" ++ B))).flatten ++ b!"--\r\n") := by
    unfold Spec.Sendfile.multipart
    clear h
    rw [List.nil_append]
    suffices hs : ∀ z : Bytes, CRLF ++ ((ps.map (fun p => b!"--" ++ B ++ b!"\r\nContent-Type: " ++ ctype ++ b!"\r\nContent-Range: " ++ Spec.Sendfile.contentRange p file.length ++ CRLF2 ++
        Spec.Sendfile.slice file p ++ CRLF)).flatten ++ (b!"--" ++ B ++ z)) = (b!"\r\n--" ++ B) ++
        ((ps.map (fun p => b!"\r\nContent-Type: " ++ ctype ++ b!"\r\nContent-Range: " ++ Spec.Sendfile.contentRange p file.length ++ CRLF2 ++
        Spec.Sendfile.slice file p ++ (b!"\r\n--" ++ B))).flatten ++ z) by
      have := hs b!"--\r\n"
      simpa [List.append_assoc] using this
    intro z
    induction ps with
    | nil => simp [CRLF]
    | cons p ps ih =>
      rw [List.map_cons, List.flatten_cons, List.map_cons, List.flatten_cons]
      have : ∀ u v w : Bytes, CRLF ++ (b!"--" ++ B ++ u ++ CRLF ++ v ++ w) = (b!"\r\n--" ++ B) ++ u ++ (CRLF ++ (v ++ w)) := by
        intro u v w; simp [List.append_assoc, CRLF]
      have := this (b!"\r\nContent-Type: " ++ ctype ++ b!"\r\nContent-Range: " ++ Spec.Sendfile.contentRange p file.length ++ CRLF2 ++ Spec.Sendfile.slice file p)
        ((ps.map (fun p => b!"--" ++ B ++ b!"\r\nContent-Type: " ++ ctype ++ b!"\r\nContent-Range: " ++ Spec.Sendfile.contentRange p file.length ++ CRLF2 ++
        Spec.Sendfile.slice file p ++ CRLF)).flatten) (b!"--" ++ B ++ z)
      rw [ih] at this
      simp only [List.append_assoc] at this ⊢
      exact this
  unfold readMultipart
  rw [e, cut_first (by simp) (fun i hi => by simp at hi)]
  dsimp only
  refine parts_read hB hct h ?_
  have : ∀ ps : List (Nat × Nat), ps.length ≤ ((ps.map (fun p => b!"\r\nContent-Type: " ++ ctype ++ b!"\r\nContent-Range: " ++ Spec.Sendfile.contentRange p file.length ++ CRLF2 ++
      Spec.Sendfile.slice file p ++ (b!"\r\n--" ++ B))).flatten).length := by
    intro ps
    induction ps with
    | nil => simp
    | cons p ps ih =>
      simp only [List.map_cons, List.flatten_cons, List.length_append, List.length_cons] at ih ⊢
      omega
  have := this ps
  simp only [List.length_append] at this ⊢
  omega

theorem pieces_read {ctype file : Bytes} : ∀ {ps : List (Nat × Nat)}, (∀ p ∈ ps, p.1 ≤ p.2 ∧ p.2 < file.length) →
    pieces (ps.map (fun p => ⟨partLines ctype p file.length, Spec.Sendfile.slice file p⟩)) =
      some (ps.map (fun p => ⟨p.1, p.2, file.length, Spec.Sendfile.slice file p⟩))
  | [], _ => rfl
  | p :: ps, h => by
    have hp := h p (by simp)
    rw [List.map_cons, pieces]
    dsimp only
    rw [pieces_read (fun q hq => h q (by simp [hq])), piece_read hp.1 hp.2]
    · rfl
    · unfold partLines Spec.Response.named
      rw [List.filter_cons, if_neg, List.filter_cons, if_pos]
      · rfl
      · rw [show b!"Content-Range: " ++ Spec.Sendfile.contentRange p file.length = b!"Content-Range" ++ 58 :: (32 :: Spec.Sendfile.contentRange p file.length) from rfl]
        unfold Spec.Response.nameOf
        rw [takeWhile_here (p := (· ≠ 58)) (by decide) (by simp)]
        decide
      · rw [show b!"Content-Type: " ++ ctype = b!"Content-Type" ++ 58 :: (32 :: ctype) from rfl]
        unfold Spec.Response.nameOf
        rw [takeWhile_here (p := (· ≠ 58)) (by decide) (by simp)]
        decide

end Verif.Proofs.Download
