import Verif.Spec.Client
import Verif.Spec.Response
import Verif.Proofs.ResponseNum
import Verif.Proofs.Numeral
/-!
# What the client of `Spec/Client` reads
-/
namespace Verif.Proofs.Client
open Verif.Py Verif.Spec.Client Verif.Spec.Response

theorem readLine_line : ∀ {l : Bytes}, (10 : UInt8) ∉ l → ∀ r, readLine (l ++ CRLF ++ r) = some (l, r)
  | [], _, r => by simp [readLine]
  | [a], h, r => by
    have ha : a ≠ 10 := fun e => h (by simp [e])
    show readLine (a :: 13 :: 10 :: r) = _
    rw [readLine, if_neg (by simp), readLine, if_pos ⟨rfl, rfl⟩]; rfl
  | a :: b :: l, h, r => by
    have hb : b ≠ 10 := fun e => h (by simp [e])
    have ih := readLine_line (l := b :: l) (fun x => h (by simp at x ⊢; exact .inr x)) r
    show readLine (a :: b :: (l ++ CRLF ++ r)) = _
    rw [readLine, if_neg (fun x => hb x.2)]
    rw [show b :: (l ++ CRLF ++ r) = (b :: l) ++ CRLF ++ r from rfl, ih]; rfl

theorem readLines_lines : ∀ {ls : List Bytes}, (∀ l ∈ ls, (10 : UInt8) ∉ l ∧ l ≠ []) → ∀ {n : Nat}, ls.length < n → ∀ r,
    readLines n (ls.flatMap (· ++ CRLF) ++ CRLF ++ r) = some (ls, r)
  | [], _, 0, hn, _ => by cases hn
  | [], _, n + 1, _, r => by
    have := readLine_line (l := []) (by simp) r
    simp only [List.nil_append] at this
    simp only [List.flatMap_nil, List.nil_append, readLines, this]
  | l :: ls, _, 0, hn, _ => by cases hn
  | l :: ls, h, n + 1, hn, r => by
    have ih := readLines_lines (ls := ls) (fun x hx => h x (by simp [hx])) (n := n) (by simpa using hn) r
    have hl := readLine_line (h l (by simp)).1 (ls.flatMap (· ++ CRLF) ++ CRLF ++ r)
    obtain ⟨b, l', rfl⟩ : ∃ b l', l = b :: l' := by
      cases l with
      | nil => exact absurd rfl (h [] (by simp)).2
      | cons b l' => exact ⟨b, l', rfl⟩
    have e : (((b :: l') :: ls).flatMap (· ++ CRLF) ++ CRLF ++ r) = (b :: l') ++ CRLF ++ (ls.flatMap (· ++ CRLF) ++ CRLF ++ r) := by
      simp [List.append_assoc]
    rw [e, readLines, hl]
    dsimp only
    rw [ih]; rfl

theorem join_lines : ∀ (f : Bytes) (ls : List Bytes), join CRLF (f :: ls) ++ CRLF2 = (f :: ls).flatMap (· ++ CRLF) ++ CRLF
  | f, [] => by simp [join]
  | f, g :: ls => by
    have ih := join_lines g ls
    simp only [join, List.append_assoc] at ih ⊢
    rw [ih]; simp [List.flatMap_cons, List.append_assoc]

theorem flatMap_length (ls : List Bytes) : ls.length ≤ (ls.flatMap (· ++ CRLF)).length := by
  induction ls with
  | nil => exact Nat.le_refl 0
  | cons l t ih => simp only [List.flatMap_cons, List.length_append, List.length_cons]; omega

/-- The head is read line by line. -/
theorem head_read {t first : Bytes} {ls : List Bytes} (h : HeadIs t first ls) (hf : first ≠ []) (x : Bytes) :
    readLines ((t ++ x).length + 1) (t ++ x) = some (first :: ls, x) := by
  obtain ⟨rfl, h1, h2⟩ := h
  rw [join_lines]
  refine readLines_lines (fun l hl => ?_) ?_ x
  · rcases List.mem_cons.1 hl with rfl | hl
    · exact ⟨h1, hf⟩
    · obtain ⟨n, v, rfl, _, hn, hv⟩ := h2 l hl
      refine ⟨?_, by simp⟩
      simp only [List.mem_append, not_or]
      exact ⟨⟨hn, by decide⟩, hv⟩
  · have := flatMap_length (first :: ls)
    simp only [List.length_append] at this ⊢
    omega

theorem dropWhile_here {p : UInt8 → Bool} {a : Bytes} {x : UInt8} (ha : ∀ b ∈ a, p b = true) (hx : p x = false) (r : Bytes) : (a ++ x :: r).dropWhile p = x :: r := by
  induction a with
  | nil => simp [List.dropWhile, hx]
  | cons b a ih => simp [ha b (by simp), ih (fun c hc => ha c (by simp [hc]))]
theorem takeWhile_here {p : UInt8 → Bool} {a : Bytes} {x : UInt8} (ha : ∀ b ∈ a, p b = true) (hx : p x = false) (r : Bytes) : (a ++ x :: r).takeWhile p = a := by
  induction a with
  | nil => simp [List.takeWhile, hx]
  | cons b a ih => simp [ha b (by simp), ih (fun c hc => ha c (by simp [hc]))]
theorem takeWhile_all {p : UInt8 → Bool} {a : Bytes} (ha : ∀ b ∈ a, p b = true) : a.takeWhile p = a := by
  induction a with
  | nil => rfl
  | cons b a ih => simp [ha b (by simp), ih (fun c hc => ha c (by simp [hc]))]

theorem three_digits : ∀ n : Fin 1000, 100 ≤ n.val → (match fmtNat n.val with
    | [a, b, c] => isDigit a && isDigit b && isDigit c && (Spec.Head.valueOf [a, b, c] == n.val)
    | _ => false) = true := by decide +kernel

theorem status_read {v : Bytes} (hv : (32 : UInt8) ∉ v) {st : Int} (h1 : 100 ≤ st) (h2 : st < 1000) (msg : Bytes) :
    statusOf (b!"HTTP/" ++ v ++ b!" " ++ fmtInt st ++ b!" " ++ msg) = some st.toNat := by
  obtain ⟨n, rfl⟩ := Int.eq_ofNat_of_zero_le (show 0 ≤ st by omega)
  have h1' : 100 ≤ n := by omega
  have h2' : n < 1000 := by omega
  have h3 := three_digits ⟨n, h2'⟩ h1'
  dsimp only at h3
  have e : fmtInt (n : Int) = fmtNat n := by
    unfold fmtInt; rw [if_neg (by omega)]; rfl
  rw [e]
  have hd : ∀ b ∈ b!"HTTP/" ++ v, decide (b ≠ 32) = true := by
    intro b hb
    rcases List.mem_append.1 hb with hb | hb
    · exact List.all_eq_true.1 (show (b!"HTTP/").all (fun b => decide (b ≠ 32)) = true by decide) b hb
    · exact decide_eq_true (fun e => hv (e ▸ hb))
  unfold statusOf
  have e2 : b!"HTTP/" ++ v ++ b!" " ++ fmtNat n ++ b!" " ++ msg = (b!"HTTP/" ++ v) ++ 32 :: (fmtNat n ++ 32 :: msg) := by simp [List.append_assoc]
  rw [e2, dropWhile_here hd (by simp)]
  revert h3
  generalize fmtNat n = d
  intro h3
  split at h3
  · next a b c =>
    simp only [Bool.and_eq_true, beq_iff_eq] at h3
    obtain ⟨⟨⟨ha, hb⟩, hc⟩, hval⟩ := h3
    simp [ha, hb, hc, hval]
  · cases h3

theorem isHexB_of {c : UInt8} (h : Spec.Body.isHex c) : isHexB c = true ∧ c ≠ 59 ∧ c ≠ 10 := by
  unfold Spec.Body.isHex at h
  unfold isHexB
  revert h
  exact forall_u8 (P := fun c => ((48 ≤ c ∧ c ≤ 57) ∨ (97 ≤ c ∧ c ≤ 102) ∨ (65 ≤ c ∧ c ≤ 70)) → ((48 ≤ c && c ≤ 57) || (97 ≤ c && c ≤ 102) || (65 ≤ c && c ≤ 70)) = true ∧ c ≠ 59 ∧ c ≠ 10) (by decide +kernel) c

theorem sizeLine_read {size ext : Bytes} {n : Nat} (h : Spec.Body.SizeLine size ext n) : chunkSize ((size ++ ext).takeWhile (· ≠ 59)) = some n ∧ (10 : UInt8) ∉ size ++ ext := by
  have hx : ∀ c ∈ size, isHexB c = true ∧ c ≠ 59 ∧ c ≠ 10 := fun c hc => isHexB_of (h.hex c hc)
  have e : (size ++ ext).takeWhile (· ≠ 59) = size := by
    rcases h.semi with rfl | ⟨e, rfl⟩
    · rw [List.append_nil]; exact takeWhile_all (fun b hb => decide_eq_true (hx b hb).2.1)
    · exact takeWhile_here (fun b hb => decide_eq_true (hx b hb).2.1) (by simp) e
  refine ⟨?_, ?_⟩
  · rw [e]; unfold chunkSize
    rw [if_pos ⟨h.ne, List.all_eq_true.2 (fun c hc => (hx c hc).1)⟩, h.val]
  · simp only [List.mem_append, not_or]
    exact ⟨fun hc => (hx 10 hc).2.2 rfl, h.lf⟩

theorem encode_append (cs : List Spec.Body.Chunk) (x y : Bytes) : Spec.Body.encode cs x ++ y = Spec.Body.encode cs (x ++ y) := by
  induction cs with
  | nil => rfl
  | cons c cs ih => simp only [Spec.Body.encode, List.append_assoc, ih]

theorem encode_length (cs : List Spec.Body.Chunk) (x : Bytes) : cs.length + x.length ≤ (Spec.Body.encode cs x).length := by
  induction cs with
  | nil => simp [Spec.Body.encode]
  | cons c cs ih => simp only [Spec.Body.encode, List.length_append, List.length_cons] at ih ⊢; omega

/-- A chunked body is read to its end and not beyond. -/
theorem chunks_read : ∀ {cs : List Spec.Body.Chunk}, (∀ c ∈ cs, c.Wf) → ∀ {n : Nat}, cs.length + 1 < n → ∀ tail,
    readChunks n (Spec.Body.encode cs (Spec.Body.lastChunk b!"0" [] CRLF ++ tail)) = some (Spec.Body.payload cs, tail)
  | [], _, n, hn, tail => by
    obtain ⟨m, rfl⟩ : ∃ m, n = m + 2 := ⟨n - 2, by simp at hn; omega⟩
    have h := readLine_line (l := b!"0") (by decide) (CRLF ++ tail)
    have hs : chunkSize ((b!"0" : Bytes).takeWhile (· ≠ 59)) = some 0 := by decide
    have h2 := readLines_lines (ls := []) (fun _ hx => by cases hx) (n := m + 1) (by simp) tail
    rw [show Spec.Body.encode [] (Spec.Body.lastChunk b!"0" [] CRLF ++ tail) = b!"0" ++ CRLF ++ (CRLF ++ tail) by
      simp [Spec.Body.encode, Spec.Body.lastChunk, List.append_assoc]]
    rw [readChunks, h]
    dsimp only
    rw [hs]
    dsimp only
    rw [show CRLF ++ tail = List.flatMap (· ++ CRLF) [] ++ CRLF ++ tail by simp, h2]
    rfl
  | c :: cs, h, 0, hn, _ => by cases hn
  | c :: cs, h, n + 1, hn, tail => by
    have ih := chunks_read (cs := cs) (fun x hx => h x (by simp [hx])) (n := n) (by simpa using hn) tail
    obtain ⟨hw, hd⟩ := h c (by simp)
    obtain ⟨h1, h2⟩ := sizeLine_read hw
    generalize hX : Spec.Body.encode cs (Spec.Body.lastChunk b!"0" [] CRLF ++ tail) = X at ih
    rw [Spec.Body.encode, hX]
    have hr := readLine_line h2 (c.data ++ CRLF ++ X)
    rw [show c.size ++ c.ext ++ CRLF ++ c.data ++ CRLF ++ X = c.size ++ c.ext ++ CRLF ++ (c.data ++ CRLF ++ X) by simp [List.append_assoc], readChunks, hr]
    dsimp only
    rw [h1]
    obtain ⟨k, hk⟩ : ∃ k, c.data.length = k + 1 := by
      cases hc : c.data with
      | nil => exact absurd hc hd
      | cons _ t => exact ⟨t.length, rfl⟩
    rw [hk]
    dsimp only
    rw [if_neg (by simp only [List.length_append]; omega), ← hk]
    rw [List.append_assoc, List.drop_left, List.take_left]
    show (readChunks n X).map _ = _
    rw [ih]; rfl

/-- The value of a line written as `name: value`. -/
theorem value_line {n v : Bytes} (hn : (58 : UInt8) ∉ n) : ((n ++ b!": " ++ v).dropWhile (· ≠ 58)).drop 1 = 32 :: v := by
  rw [show n ++ b!": " ++ v = n ++ 58 :: (32 :: v) by simp [List.append_assoc], dropWhile_here (p := (· ≠ 58)) (fun b hb => decide_eq_true (fun e => hn (e ▸ hb))) (by simp)]
  rfl

theorem dropWhile_none {p : UInt8 → Bool} {a : Bytes} (ha : ∀ b ∈ a, p b = false) : a.dropWhile p = a := by
  cases a with
  | nil => rfl
  | cons b a => simp [ha b (by simp)]

theorem trim_plain {v : Bytes} (hv : ∀ b ∈ v, b ≠ 32 ∧ b ≠ 9) : trim (32 :: v) = v := by
  unfold trim
  have h : ∀ b ∈ v, decide (b = 32 ∨ b = 9) = false := fun b hb => decide_eq_false (by have := hv b hb; rintro (h | h) <;> simp_all)
  rw [List.dropWhile_cons, if_pos (by simp), dropWhile_none h, dropWhile_none (fun b hb => h b (by simpa using hb)), List.reverse_reverse]

theorem values_eq (k : Bytes) (ls : List Bytes) : values k ls = (named k ls).map (fun x => trim ((x.dropWhile (· ≠ 58)).drop 1)) := rfl

theorem values_nil {k : Bytes} {ls : List Bytes} (h : named k ls = []) : values k ls = [] := by rw [values_eq, h]; rfl
theorem values_one {k n v : Bytes} {ls : List Bytes} (h : named k ls = [n ++ b!": " ++ v]) (hn : (58 : UInt8) ∉ n) (hv : ∀ b ∈ v, b ≠ 32 ∧ b ≠ 9) : values k ls = [v] := by
  rw [values_eq, h, List.map_singleton, value_line hn, trim_plain hv]

theorem digit_plain {b : UInt8} (h : 48 ≤ b ∧ b ≤ 57) : isDigit b = true ∧ b ≠ 32 ∧ b ≠ 9 := by
  revert h
  exact forall_u8 (P := fun b => (48 ≤ b ∧ b ≤ 57) → isDigit b = true ∧ b ≠ 32 ∧ b ≠ 9) (by decide +kernel) b

theorem length_read {v : Bytes} {n : Nat} {ls : List Bytes} (h : named b!"content-length" ls = [b!"Content-Length: " ++ v]) (hc : Spec.Head.Canonical v)
    (hv : Spec.Head.valueOf v = n) : values b!"content-length" ls = [v] ∧ lengthOf v = some n := by
  have hd : ∀ b ∈ v, isDigit b = true ∧ b ≠ 32 ∧ b ≠ 9 := fun b hb => digit_plain (hc.2.1 b hb)
  refine ⟨values_one (n := b!"Content-Length") (by rw [h]; rfl) (by decide) (fun b hb => (hd b hb).2), ?_⟩
  unfold lengthOf
  rw [if_pos ⟨hc.1, List.all_eq_true.2 (fun b hb => (hd b hb).1)⟩, hv]

/-- From the lines to the response. -/
theorem read_of {closed : Bool} {m t first : Bytes} {ls : List Bytes} (h : HeadIs t first ls) {st : Nat} (hst : statusOf first = some st) {x body tail : Bytes}
    (hb : readBody closed m st ls x = some (body, tail)) : readResponse closed m (t ++ x) = some (⟨st, ls, body⟩, tail) := by
  have hf : first ≠ [] := by rintro rfl; cases hst
  unfold readResponse
  rw [head_read h hf x]
  dsimp only
  rw [hst]
  dsimp only
  rw [hb]; rfl

theorem body_none {closed : Bool} {m : Bytes} {st : Nat} (h : m = b!"HEAD" ∨ st < 200 ∨ st = 204 ∨ st = 304) (ls : List Bytes) (x : Bytes) :
    readBody closed m st ls x = some ([], x) := by
  unfold readBody; rw [if_pos h]

theorem body_chunked {closed : Bool} {m : Bytes} {st : Nat} (h : ¬ (m = b!"HEAD" ∨ st < 200 ∨ st = 204 ∨ st = 304)) {ls : List Bytes}
    (ht : named b!"transfer-encoding" ls = [b!"Transfer-Encoding: chunked"]) {cs : List Spec.Body.Chunk} (hc : ∀ c ∈ cs, c.Wf) (tail : Bytes) :
    readBody closed m st ls (Spec.Body.encode cs (Spec.Body.lastChunk b!"0" [] CRLF) ++ tail) = some (Spec.Body.payload cs, tail) := by
  have hv : values b!"transfer-encoding" ls = [b!"chunked"] := values_one (n := b!"Transfer-Encoding") (v := b!"chunked") (by rw [ht]; rfl) (by decide)
    (fun b hb => (by
      have := List.all_eq_true.1 (show (b!"chunked").all (fun b => decide (b ≠ 32 ∧ b ≠ 9)) = true by decide) b hb
      simpa using this))
  unfold readBody
  rw [if_neg h, hv]
  dsimp only
  rw [if_pos (by decide), encode_append]
  refine chunks_read hc ?_ tail
  have := encode_length cs (Spec.Body.lastChunk b!"0" [] CRLF ++ tail)
  have h5 : (Spec.Body.lastChunk b!"0" [] CRLF).length = 5 := by decide
  simp only [List.length_append, h5] at this
  omega

theorem body_length {closed : Bool} {m : Bytes} {st : Nat} (h : ¬ (m = b!"HEAD" ∨ st < 200 ∨ st = 204 ∨ st = 304)) {ls : List Bytes}
    (ht : named b!"transfer-encoding" ls = []) {v d : Bytes} (hl : named b!"content-length" ls = [b!"Content-Length: " ++ v]) (hc : Spec.Head.Canonical v)
    (hv : Spec.Head.valueOf v = d.length) (tail : Bytes) : readBody closed m st ls (d ++ tail) = some (d, tail) := by
  obtain ⟨h1, h2⟩ := length_read hl hc hv
  unfold readBody
  rw [if_neg h, values_nil ht]
  dsimp only
  rw [h1]
  dsimp only
  rw [h2]
  dsimp only
  rw [if_neg (by simp only [List.length_append]; omega), List.take_left, List.drop_left]

theorem body_close {m : Bytes} {st : Nat} (h : ¬ (m = b!"HEAD" ∨ st < 200 ∨ st = 204 ∨ st = 304)) {ls : List Bytes}
    (ht : named b!"transfer-encoding" ls = []) (hl : named b!"content-length" ls = []) (x : Bytes) : readBody true m st ls x = some (x, []) := by
  unfold readBody
  rw [if_neg h, values_nil ht]
  dsimp only
  rw [values_nil hl]; rfl

end Verif.Proofs.Client
