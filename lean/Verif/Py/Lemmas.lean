import Verif.Py.Bytes
/-! Laws of the byte-string primitives used by the proofs. -/
namespace Verif.Py

/-- a decidable fact about bytes, checked by the kernel on all 256 of them -/
theorem forall_u8 {P : UInt8 → Prop} (h : ∀ n : Fin 256, P (UInt8.ofNat n.val)) (x : UInt8) : P x := by
  have := h ⟨x.toNat, x.toNat_lt⟩
  simpa using this

theorem isPrefixOf_iff {p s : Bytes} : p.isPrefixOf s = true ↔ p <+: s := List.isPrefixOf_iff_prefix

/-! ### find -/

theorem find_some {pat : Bytes} : ∀ {s : Bytes} {n : Nat}, find pat s = some n →
    n ≤ s.length ∧ pat <+: s.drop n ∧ ∀ m, m < n → ¬ pat <+: s.drop m
  | [], n, h => by
    simp only [find] at h
    split at h
    · simp at h; subst h; simp_all
    · simp at h
  | c :: t, n, h => by
    simp only [find] at h
    split at h
    · rename_i hp
      simp at h; subst h
      exact ⟨by simp, by simpa [isPrefixOf_iff] using hp, by simp⟩
    · rename_i hp
      simp only [Option.map_eq_some_iff] at h
      obtain ⟨k, hk, rfl⟩ := h
      obtain ⟨h1, h2, h3⟩ := find_some hk
      refine ⟨by simp; omega, by simpa using h2, ?_⟩
      intro m hm
      cases m with
      | zero => simpa [isPrefixOf_iff] using hp
      | succ m => simpa using h3 m (by omega)

theorem find_none {pat : Bytes} : ∀ {s : Bytes}, find pat s = none → ∀ m, m ≤ s.length → ¬ pat <+: s.drop m
  | [], h, m, hm => by
    simp only [find] at h
    split at h
    · simp at h
    · rename_i hp; simp; intro hc; exact hp (by simpa using hc)
  | c :: t, h, m, hm => by
    simp only [find] at h
    split at h
    · simp at h
    · rename_i hp
      simp at h
      cases m with
      | zero => simpa [isPrefixOf_iff] using hp
      | succ m => simpa using find_none h m (by simpa using hm)

theorem find_eq_some_iff {pat s : Bytes} {n : Nat} : find pat s = some n ↔
    n ≤ s.length ∧ pat <+: s.drop n ∧ ∀ m, m < n → ¬ pat <+: s.drop m := by
  constructor
  · exact find_some
  · rintro ⟨h1, h2, h3⟩
    cases h : find pat s with
    | none => exact absurd h2 (find_none h n h1)
    | some k =>
      obtain ⟨k1, k2, k3⟩ := find_some h
      have : k = n := by
        rcases Nat.lt_trichotomy k n with hlt | heq | hgt
        · exact absurd k2 (h3 k hlt)
        · exact heq
        · exact absurd h2 (k3 n hgt)
      rw [this]

theorem find_eq_none_iff {pat s : Bytes} : find pat s = none ↔ ∀ m, m ≤ s.length → ¬ pat <+: s.drop m := by
  constructor
  · exact find_none
  · intro h
    cases hf : find pat s with
    | none => rfl
    | some k => exact absurd (find_some hf).2.1 (h k (find_some hf).1)

theorem find_eq_none_iff' {pat s : Bytes} : find pat s = none ↔ ¬ pat <:+: s := by
  rw [find_eq_none_iff]
  constructor
  · rintro h ⟨a, b, rfl⟩
    exact h a.length (by simp) (by simp)
  · rintro h m _ ⟨r, hr⟩
    exact h ⟨s.take m, r, by rw [List.append_assoc, hr, List.take_append_drop]⟩

theorem contains_iff {pat s : Bytes} : contains pat s = true ↔ pat <:+: s := by
  unfold contains
  cases h : find pat s with
  | none => simp; exact find_eq_none_iff'.1 h
  | some n =>
    simp
    obtain ⟨_, ⟨r, hr⟩, _⟩ := find_some h
    exact ⟨s.take n, r, by rw [List.append_assoc, hr, List.take_append_drop]⟩

theorem contains_false_iff {pat s : Bytes} : contains pat s = false ↔ ¬ pat <:+: s := by
  rw [← contains_iff]; simp

theorem find_split {pat s : Bytes} {n : Nat} (h : find pat s = some n) :
    s = s.take n ++ pat ++ s.drop (n + pat.length) := by
  obtain ⟨_, ⟨r, hr⟩, _⟩ := find_some h
  have : s.drop (n + pat.length) = r := by
    rw [← List.drop_drop, ← hr]; simp
  rw [this, List.append_assoc, hr, List.take_append_drop]

theorem find_some_length {pat s : Bytes} {n : Nat} (h : find pat s = some n) : n + pat.length ≤ s.length := by
  obtain ⟨h1, ⟨r, hr⟩, _⟩ := find_some h
  have := congrArg List.length hr
  simp at this; omega

/-- more input never changes the first occurrence -/
theorem find_append {pat s t : Bytes} {n : Nat} (h : find pat s = some n) : find pat (s ++ t) = some n := by
  have hl := find_some_length h
  obtain ⟨h1, h2, h3⟩ := find_some h
  rw [find_eq_some_iff]
  refine ⟨by simp; omega, ?_, ?_⟩
  · rw [List.drop_append_of_le_length h1]
    exact h2.trans (List.prefix_append _ _)
  · intro m hm hc
    apply h3 m hm
    rw [List.drop_append_of_le_length (by omega)] at hc
    obtain ⟨r, hr⟩ := hc
    have hlen : pat.length ≤ (s.drop m).length := by simp; omega
    exact List.prefix_of_prefix_length_le ⟨r, hr⟩ (List.prefix_append _ _) hlen

/-- an occurrence in `s ++ t` that fits in `s` is an occurrence in `s` -/
theorem find_of_append {pat s t : Bytes} {n : Nat} (h : find pat (s ++ t) = some n) (hl : n + pat.length ≤ s.length) :
    find pat s = some n := by
  obtain ⟨h1, h2, h3⟩ := find_some h
  rw [find_eq_some_iff]
  refine ⟨by omega, ?_, ?_⟩
  · rw [List.drop_append_of_le_length (by omega)] at h2
    exact List.prefix_of_prefix_length_le h2 (List.prefix_append _ _) (by simp; omega)
  · intro m hm hc
    apply h3 m hm
    rw [List.drop_append_of_le_length (by omega)]
    exact hc.trans (List.prefix_append _ _)

theorem find_singleton_none {c : UInt8} {s : Bytes} : find [c] s = none ↔ c ∉ s := by
  rw [find_eq_none_iff']
  constructor
  · intro h hc
    obtain ⟨a, b, rfl⟩ := List.append_of_mem hc
    exact h ⟨a, b, by simp⟩
  · rintro h ⟨a, b, rfl⟩
    simp at h

theorem contains_singleton {c : UInt8} {s : Bytes} : contains [c] s = true ↔ c ∈ s := by
  rw [contains_iff]
  constructor
  · rintro ⟨a, b, rfl⟩; simp
  · intro hc
    obtain ⟨a, b, rfl⟩ := List.append_of_mem hc
    exact ⟨a, b, by simp⟩

theorem contains_singleton_false {c : UInt8} {s : Bytes} : contains [c] s = false ↔ c ∉ s := by
  rw [← contains_singleton (c := c)]; simp

/-- first occurrence of a byte: everything before it is free of it -/
theorem find_byte_append {c : UInt8} {a r : Bytes} (h : c ∉ a) : find [c] (a ++ c :: r) = some a.length := by
  rw [find_eq_some_iff]
  refine ⟨by simp, by simp, ?_⟩
  intro m hm hc
  rw [List.drop_append_of_le_length (by omega)] at hc
  have hd : a.drop m ≠ [] := by simp; omega
  obtain ⟨x, t, hx⟩ := List.exists_cons_of_ne_nil hd
  rw [hx] at hc
  simp at hc
  subst hc
  have : c ∈ a.drop m := by rw [hx]; simp
  exact h (List.mem_of_mem_drop this)

theorem find_byte_some {c : UInt8} {s : Bytes} {n : Nat} (h : find [c] s = some n) :
    c ∉ s.take n ∧ s = s.take n ++ c :: s.drop (n + 1) := by
  have hs := find_split h
  obtain ⟨h1, h2, h3⟩ := find_some h
  refine ⟨?_, by simpa using hs⟩
  intro hc
  rw [List.mem_take_iff_getElem] at hc
  obtain ⟨i, hi, rfl⟩ := hc
  apply h3 i (by omega)
  have hd := List.drop_eq_getElem_cons (l := s) (i := i) (by omega)
  rw [hd]
  exact ⟨_, rfl⟩

/-! ### CRLF search: a CR-free (or LF-free) line followed by CRLF -/

theorem not_crlf_prefix_of_no_lf {s : Bytes} (h : (10 : UInt8) ∉ s) : ¬ CRLF <:+: s := by
  rintro ⟨a, b, rfl⟩; simp [CRLF] at h

theorem find_crlf_append {a r : Bytes} (h : (10 : UInt8) ∉ a) : find CRLF (a ++ CRLF ++ r) = some a.length := by
  rw [find_eq_some_iff]
  refine ⟨by simp, by simp, ?_⟩
  rintro m hm ⟨t, ht⟩
  simp only [List.append_assoc] at ht
  rw [List.drop_append_of_le_length (by omega)] at ht
  have hd : a.drop m ≠ [] := by simp; omega
  obtain ⟨x, t', hx⟩ := List.exists_cons_of_ne_nil hd
  have hmem : ∀ y ∈ a.drop m, y ≠ 10 := fun y hy hy10 => h (hy10 ▸ List.mem_of_mem_drop hy)
  rw [hx] at ht hmem
  simp [CRLF] at ht
  obtain ⟨rfl, ht⟩ := ht
  cases t' with
  | nil => simp at ht
  | cons y t' =>
    simp at ht
    exact hmem y (by simp) ht.1.symm

/-! ### digits -/

theorem digitB_dec {d : Nat} (h : d < 10) : decDigit? (digitB d) = some d := by
  have : d = 0 ∨ d = 1 ∨ d = 2 ∨ d = 3 ∨ d = 4 ∨ d = 5 ∨ d = 6 ∨ d = 7 ∨ d = 8 ∨ d = 9 := by omega
  rcases this with rfl | rfl | rfl | rfl | rfl | rfl | rfl | rfl | rfl | rfl <;> decide

theorem digitB_hex {d : Nat} (h : d < 16) : hexDigit? (digitB d) = some d := by
  have : d = 0 ∨ d = 1 ∨ d = 2 ∨ d = 3 ∨ d = 4 ∨ d = 5 ∨ d = 6 ∨ d = 7 ∨ d = 8 ∨ d = 9 ∨
    d = 10 ∨ d = 11 ∨ d = 12 ∨ d = 13 ∨ d = 14 ∨ d = 15 := by omega
  rcases this with rfl | rfl | rfl | rfl | rfl | rfl | rfl | rfl | rfl | rfl | rfl | rfl | rfl | rfl | rfl | rfl <;> decide

/-- reading back digits produced by `toDigitsAux` -/
theorem digitsAux_toDigits {dig : UInt8 → Option Nat} {base : Nat} (hb : 2 ≤ base)
    (hd : ∀ d, d < base → dig (digitB d) = some d) :
    ∀ (fuel n : Nat) (acc : Bytes) (a : Nat) (prev : Bool), n < fuel →
      ∃ k, digitsAux dig base a prev (toDigitsAux base fuel n acc) = digitsAux dig base (a * base ^ k + n) true acc := by
  intro fuel
  induction fuel with
  | zero => intro n acc a prev h; omega
  | succ fuel ih =>
    intro n acc a prev h
    simp only [toDigitsAux]
    split
    · rename_i h0
      refine ⟨1, ?_⟩
      have hn : n < base := by
        rcases Nat.lt_or_ge n base with h | h
        · exact h
        · have := Nat.div_pos h (by omega); omega
      have : n % base = n := Nat.mod_eq_of_lt hn
      simp [digitsAux, this, hd n hn]
    · rename_i h0
      have hlt : n / base < fuel := by
        have : n / base < n := Nat.div_lt_self (Nat.pos_of_ne_zero (fun h => h0 (by simp [h]))) (by omega)
        omega
      obtain ⟨k, hk⟩ := ih (n / base) (digitB (n % base) :: acc) a prev hlt
      refine ⟨k + 1, ?_⟩
      rw [hk]
      have hm : n % base < base := Nat.mod_lt _ (by omega)
      simp only [digitsAux, hd _ hm]
      congr 1
      rw [Nat.add_mul, Nat.mul_assoc, ← Nat.pow_succ, Nat.add_assoc]
      congr 1
      rw [Nat.mul_comm]; exact Nat.div_add_mod n base

theorem decBody_fmtNat (n : Nat) : decBody (fmtNat n) = some n := by
  obtain ⟨k, hk⟩ := digitsAux_toDigits (dig := decDigit?) (base := 10) (by omega) (fun d h => digitB_dec h)
    (n + 1) n [] 0 false (by omega)
  unfold decBody fmtNat
  rw [hk]; simp [digitsAux]

/-- predicates on every byte of a number -/
theorem toDigits_forall {P : UInt8 → Prop} {base : Nat} (hb : 0 < base) (hd : ∀ d, d < base → P (digitB d)) :
    ∀ (fuel n : Nat) (acc : Bytes), (∀ x ∈ acc, P x) → ∀ x ∈ toDigitsAux base fuel n acc, P x := by
  intro fuel
  induction fuel with
  | zero => intro n acc h; simpa [toDigitsAux] using h
  | succ fuel ih =>
    intro n acc h
    have hcons : ∀ x ∈ digitB (n % base) :: acc, P x := by
      intro x hx
      rcases List.mem_cons.1 hx with rfl | hx
      · exact hd _ (Nat.mod_lt _ hb)
      · exact h x hx
    simp only [toDigitsAux]
    split
    · exact hcons
    · exact ih _ _ hcons

theorem toDigits_ne_nil {base : Nat} : ∀ (fuel n : Nat) (acc : Bytes), acc ≠ [] → toDigitsAux base fuel n acc ≠ [] := by
  intro fuel
  induction fuel with
  | zero => intro n acc h; simpa [toDigitsAux] using h
  | succ fuel ih =>
    intro n acc h
    simp only [toDigitsAux]
    split
    · simp
    · exact ih _ _ (by simp)

theorem fmtNat_ne_nil (n : Nat) : fmtNat n ≠ [] := by
  unfold fmtNat; simp only [toDigitsAux]
  split
  · simp
  · exact toDigits_ne_nil _ _ _ (by simp)

theorem fmtHex_ne_nil (n : Nat) : fmtHex n ≠ [] := by
  unfold fmtHex; simp only [toDigitsAux]
  split
  · simp
  · exact toDigits_ne_nil _ _ _ (by simp)

theorem digitB_isDec {d : Nat} (h : d < 10) : 48 ≤ digitB d ∧ digitB d ≤ 57 := by
  have : d = 0 ∨ d = 1 ∨ d = 2 ∨ d = 3 ∨ d = 4 ∨ d = 5 ∨ d = 6 ∨ d = 7 ∨ d = 8 ∨ d = 9 := by omega
  rcases this with rfl | rfl | rfl | rfl | rfl | rfl | rfl | rfl | rfl | rfl <;> decide

theorem fmtNat_digits (n : Nat) : ∀ x ∈ fmtNat n, 48 ≤ x ∧ x ≤ 57 :=
  toDigits_forall (by omega) (fun _ h => digitB_isDec h) _ _ _ (by simp)

theorem fmtHex_digits (n : Nat) : ∀ x ∈ fmtHex n, (hexDigit? x).isSome :=
  toDigits_forall (by omega) (fun _ h => by rw [digitB_hex h]; rfl) _ _ _ (by simp)

theorem hexDigit_not {x : UInt8} (h : (hexDigit? x).isSome) : isSpace x = false ∧ x ≠ 95 ∧ x ≠ 13 ∧ x ≠ 10 ∧ x ≠ 59 := by
  exact forall_u8 (P := fun x => (hexDigit? x).isSome → isSpace x = false ∧ x ≠ 95 ∧ x ≠ 13 ∧ x ≠ 10 ∧ x ≠ 59)
    (by decide +kernel) x h

theorem decDigit_not {x : UInt8} (h : 48 ≤ x ∧ x ≤ 57) :
    isSpace x = false ∧ x ≠ 95 ∧ x ≠ 13 ∧ x ≠ 10 ∧ x ≠ 43 ∧ x ≠ 45 := by
  exact forall_u8 (P := fun x => 48 ≤ x ∧ x ≤ 57 → isSpace x = false ∧ x ≠ 95 ∧ x ≠ 13 ∧ x ≠ 10 ∧ x ≠ 43 ∧ x ≠ 45)
    (by decide +kernel) x h

theorem dropWhile_eq_self {p : UInt8 → Bool} {s : Bytes} (h : ∀ x ∈ s, p x = false) : s.dropWhile p = s := by
  cases s with
  | nil => rfl
  | cons a t => simp [List.dropWhile, h a (by simp)]

theorem rstrip_eq_self {s : Bytes} (h : ∀ x ∈ s, isSpace x = false) : rstrip s = s := by
  unfold rstrip
  rw [dropWhile_eq_self (by simpa using h)]; simp

theorem strip_eq_self {s : Bytes} (h : ∀ x ∈ s, isSpace x = false) : strip s = s := by
  unfold strip lstrip
  rw [dropWhile_eq_self h, rstrip_eq_self h]

theorem intHex0x_fmtHex (n : Nat) : intHex0x (fmtHex n) = some n := by
  have hsp : rstrip (fmtHex n) = fmtHex n :=
    rstrip_eq_self (fun x hx => (hexDigit_not (fmtHex_digits n x hx)).1)
  obtain ⟨k, hk⟩ := digitsAux_toDigits (dig := hexDigit?) (base := 16) (by omega) (fun d h => digitB_hex h)
    (n + 1) n [] 0 false (by omega)
  have key : digitsAux hexDigit? 16 0 false (fmtHex n) = some n := by
    unfold fmtHex; rw [hk]; simp [digitsAux]
  unfold intHex0x
  rw [hsp]
  cases hf : fmtHex n with
  | nil => exact absurd hf (fmtHex_ne_nil n)
  | cons c t =>
    have : c ≠ 95 := (hexDigit_not (fmtHex_digits n c (by rw [hf]; simp))).2.1
    rw [hf] at key
    split
    · rename_i t' heq; simp at heq; exact absurd heq.1 this
    · exact key

theorem intDec_plus_fmtNat (n : Nat) : intDec (43 :: fmtNat n) = some (n : Int) := by
  have : strip (43 :: fmtNat n) = 43 :: fmtNat n := by
    apply strip_eq_self
    intro x hx
    rcases List.mem_cons.1 hx with rfl | hx
    · decide
    · exact (decDigit_not (fmtNat_digits n x hx)).1
  unfold intDec; rw [this]; simp [decBody_fmtNat]

theorem intDec_fmtNat (n : Nat) : intDec (fmtNat n) = some (n : Int) := by
  have : strip (fmtNat n) = fmtNat n :=
    strip_eq_self (fun x hx => (decDigit_not (fmtNat_digits n x hx)).1)
  unfold intDec; rw [this]
  cases hf : fmtNat n with
  | nil => exact absurd hf (fmtNat_ne_nil n)
  | cons c t =>
    have hc := decDigit_not (fmtNat_digits n c (by rw [hf]; simp))
    have hd := decBody_fmtNat n
    rw [hf] at hd
    simp [hc, hd]

theorem fmtNat_inj {m n : Nat} (h : fmtNat m = fmtNat n) : m = n := by
  have := decBody_fmtNat m
  rw [h, decBody_fmtNat] at this
  exact (Option.some.inj this).symm

/-! ### big endian -/

theorem toBE_length (k n : Nat) : (toBE k n).length = k := by
  induction k generalizing n with
  | zero => rfl
  | succ k ih => simp [toBE, ih]

theorem fromBE_append (a : Bytes) (c : UInt8) : fromBE (a ++ [c]) = fromBE a * 256 + c.toNat := by
  simp [fromBE]

theorem fromBE_toBE (k n : Nat) (h : n < 256 ^ k) : fromBE (toBE k n) = n := by
  induction k generalizing n with
  | zero => simp at h; subst h; rfl
  | succ k ih =>
    rw [toBE, fromBE_append, ih (n / 256) (by rw [Nat.div_lt_iff_lt_mul (by omega), ← Nat.pow_succ]; exact h)]
    have : (UInt8.ofNat (n % 256)).toNat = n % 256 := by simp
    rw [this]; omega

end Verif.Py
