import Verif.Model.Dates
import Verif.Spec.Dates
import Verif.Py.Lemmas
import Verif.Proofs.Numeral
namespace Verif.Proofs.Dates
open Verif.Py Verif.Model.Dates Verif.Spec.Dates

theorem isLeap_eq (y : Int) : isLeap y = leap y := rfl

theorem daysBefore_succ (y : Int) : daysBefore (y + 1) = daysBefore y + yearLen y := by
  unfold daysBefore yearLen isLeap
  by_cases h4 : y % 4 = 0 <;> by_cases h1 : y % 100 = 0 <;> by_cases h400 : y % 400 = 0 <;> simp [h4, h1, h400] <;> omega

theorem daysBefore_era (y e : Int) : daysBefore (y + 400 * e) = daysBefore y + 146097 * e := by
  unfold daysBefore; omega

theorem leap_era (y e : Int) : leap (y + 400 * e) = leap y := by
  unfold leap
  rw [show (y + 400 * e) % 4 = y % 4 by omega, show (y + 400 * e) % 100 = y % 100 by omega, show (y + 400 * e) % 400 = y % 400 by omega]

theorem daysBefore_le {y z : Int} (h : y ≤ z) : daysBefore y ≤ daysBefore z := by
  unfold daysBefore; omega

theorem yearLen_pos (y : Int) : 365 ≤ yearLen y := by unfold yearLen; split <;> omega

theorem yearOf_spec : ∀ (fuel n : Nat) (y : Int), n < 365 * fuel + 365 → daysBefore (yearOf fuel n y).1 + (yearOf fuel n y).2 = daysBefore y + n
  | 0, _, _, _ => rfl
  | fuel + 1, n, y, h => by
    rw [yearOf]
    split
    · rfl
    · have := yearLen_pos y
      rw [yearOf_spec fuel _ _ (by omega), daysBefore_succ]; omega

theorem yearOf_lt : ∀ (fuel n : Nat) (y : Int), n < 365 * fuel + 365 → (yearOf fuel n y).2 < yearLen (yearOf fuel n y).1
  | 0, n, y, h => by have := yearLen_pos y; simp only [yearOf]; omega
  | fuel + 1, n, y, h => by
    rw [yearOf]
    split
    · assumption
    · have := yearLen_pos y
      exact yearOf_lt fuel _ _ (by omega)

theorem month_spec : ∀ (l : Bool) (n : Fin 366), (n.1 < if l then 366 else 365) →
    let p := monthOf (lens l) 1 n.1
    1 ≤ p.1 ∧ p.1 ≤ 12 ∧ 1 ≤ p.2 ∧ p.2 ≤ monthLen l p.1 ∧ cum l p.1 + p.2 = n.1 + 1 := by decide +kernel

theorem month_inv : ∀ (l : Bool) (m : Fin 13) (d : Fin 32), 1 ≤ m.1 → 1 ≤ d.1 → d.1 ≤ monthLen l m.1 →
    monthOf (lens l) 1 (cum l m.1 + d.1 - 1) = (m.1, d.1) ∧ cum l m.1 + d.1 ≤ if l then 366 else 365 := by decide +kernel

/-- What `gmtime` says, as a civil date. -/
def civil (t : Int) : Civil :=
  let x := gmtime t
  ⟨x.year, x.mon, x.mday, x.hour, x.min, x.sec⟩

theorem civil_spec (t : Int) : (civil t).Valid ∧ (civil t).seconds = t ∧ (civil t).days = t / 86400 := by
  have hn : 0 ≤ (t / 86400) % 146097 := Int.emod_nonneg _ (by decide)
  have hn2 : (t / 86400) % 146097 < 146097 := Int.emod_lt_of_pos _ (by decide)
  have hf : ((t / 86400) % 146097).toNat < 365 * 400 + 365 := by omega
  have h1 := yearOf_spec 400 _ 1970 hf
  have h2 := yearOf_lt 400 _ 1970 hf
  have hb : daysBefore 1970 = 0 := by decide
  have hr : 0 ≤ t % 86400 := Int.emod_nonneg _ (by decide)
  have hr2 : t % 86400 < 86400 := Int.emod_lt_of_pos _ (by decide)
  generalize hy : yearOf 400 ((t / 86400) % 146097).toNat 1970 = y at h1 h2
  have hl : leap (y.1 + 400 * (t / 86400 / 146097)) = leap y.1 := leap_era _ _
  have h3 := month_spec (leap y.1) ⟨y.2, by unfold yearLen at h2; split at h2 <;> omega⟩ (by unfold yearLen at h2; rwa [isLeap_eq] at h2)
  dsimp only at h3
  have hd : (civil t).days = t / 86400 := by
    unfold civil gmtime Civil.days
    dsimp only
    rw [hy, isLeap_eq, hl, daysBefore_era]
    obtain ⟨_, _, _, _, h⟩ := h3
    omega
  refine ⟨?_, ?_, hd⟩
  · unfold civil gmtime Civil.Valid
    dsimp only
    rw [hy, isLeap_eq, hl]
    obtain ⟨a, b, c, d, _⟩ := h3
    exact ⟨a, b, c, d, by omega, by omega, by omega⟩
  · unfold Civil.seconds
    rw [hd]
    unfold civil gmtime
    dsimp only
    omega

theorem doy_lt {x : Civil} (h : x.Valid) : cum (leap x.year) x.month + x.day ≤ yearLen x.year := by
  obtain ⟨h1, h2, h3, h4, _⟩ := h
  have hm : x.day ≤ 31 := by
    refine Nat.le_trans h4 ?_
    unfold monthLen
    split <;> (try split) <;> omega
  exact (month_inv (leap x.year) ⟨x.month, by omega⟩ ⟨x.day, by omega⟩ h1 h3 h4).2

/-- Different dates are different instants. -/
theorem seconds_inj {x y : Civil} (hx : x.Valid) (hy : y.Valid) (h : x.seconds = y.seconds) : x = y := by
  have hx' := hx
  have hy' := hy
  obtain ⟨x1, x2, x3, x4, x5, x6, x7⟩ := hx
  obtain ⟨y1, y2, y3, y4, y5, y6, y7⟩ := hy
  have lx := doy_lt hx'
  have ly := doy_lt hy'
  have hd : x.days = y.days := by unfold Civil.seconds at h; omega
  have ht : x.hour = y.hour ∧ x.minute = y.minute ∧ x.second = y.second := by
    unfold Civil.seconds at h
    rw [hd] at h
    omega
  have key : ∀ {a b : Civil}, 1 ≤ a.day → 1 ≤ b.day → cum (leap a.year) a.month + a.day ≤ yearLen a.year → a.days = b.days → ¬ a.year < b.year := by
    intro a b ha hb la he hlt
    have h1 : daysBefore (a.year + 1) ≤ daysBefore b.year := daysBefore_le (by omega)
    rw [daysBefore_succ] at h1
    unfold Civil.days at he
    omega
  have hyear : x.year = y.year := by
    have k1 := key x3 y3 lx hd
    have k2 := key y3 x3 ly hd.symm
    omega
  have m31 : ∀ l m, monthLen l m ≤ 31 := by
    intro l m
    unfold monthLen
    split <;> (try split) <;> omega
  have hdoy : cum (leap y.year) x.month + x.day = cum (leap y.year) y.month + y.day := by
    unfold Civil.days at hd
    rw [hyear] at hd
    omega
  rw [hyear] at x4
  have ix := (month_inv (leap y.year) ⟨x.month, by omega⟩ ⟨x.day, by have := m31 (leap y.year) x.month; omega⟩ x1 x3 x4).1
  have iy := (month_inv (leap y.year) ⟨y.month, by omega⟩ ⟨y.day, by have := m31 (leap y.year) y.month; omega⟩ y1 y3 y4).1
  dsimp only at ix iy
  rw [hdoy] at ix
  have := ix.symm.trans iy
  have hm := congrArg Prod.fst this
  have hdd := congrArg Prod.snd this
  dsimp only at hm hdd
  obtain ⟨a, b, c⟩ := ht
  cases x; cases y
  simp_all

/-! ## The text -/

theorem pad2_two {n : Nat} (h : n < 100) : pad2 n = two n := by
  have : ∀ n : Fin 100, pad2 n.1 = two n.1 := by decide +kernel
  exact this ⟨n, h⟩

theorem digit_eq (n : Nat) : digit n = digitB (n % 10) := by
  have : ∀ k : Fin 10, (48 : UInt8) + UInt8.ofNat k.1 = digitB k.1 := by decide
  exact this ⟨n % 10, Nat.mod_lt _ (by decide)⟩

theorem fmt_four {n : Nat} (h1 : 1000 ≤ n) (h2 : n ≤ 9999) : fmtNat n = four n := by
  rw [Numeral.fmtNat_step (by omega), Numeral.fmtNat_step (by omega), Numeral.fmtNat_step (by omega), Numeral.fmtNat_small (by omega)]
  unfold four
  simp only [digit_eq, List.cons_append, List.nil_append]
  rw [show n / 10 / 10 / 10 = n / 1000 % 10 by omega, show n / 10 / 10 % 10 = n / 100 % 10 by omega]

theorem name_day (d : Int) : abbrDay.getD ((d + 3) % 7).toNat [] = dayName d := rfl
theorem name_month {m : Nat} (h1 : 1 ≤ m) (h2 : m ≤ 12) : abbrMonth.getD (m - 1) [] = monthName m := by
  have : ∀ m : Fin 13, 1 ≤ m.1 → abbrMonth.getD (m.1 - 1) [] = monthName m.1 := by decide +kernel
  exact this ⟨m, by omega⟩ h1

theorem httpDate_text {t : Int} (h1 : 1000 ≤ (gmtime t).year) (h2 : (gmtime t).year ≤ 9999) : httpDate t = (civil t).text := by
  obtain ⟨⟨v1, v2, v3, v4, v5, v6, v7⟩, _, hd⟩ := civil_spec t
  have v4 : (gmtime t).mday < 100 := by
    have : monthLen (leap (civil t).year) (civil t).month ≤ 31 := by
      unfold monthLen
      split <;> (try split) <;> omega
    have : (civil t).day < 100 := by omega
    exact this
  have v5 : (gmtime t).hour < 100 := by have : (civil t).hour < 100 := by omega
                                        exact this
  have v6 : (gmtime t).min < 100 := by have : (civil t).minute < 100 := by omega
                                       exact this
  have v7 : (gmtime t).sec < 100 := by have : (civil t).second < 100 := by omega
                                       exact this
  unfold httpDate Civil.text
  rw [hd]
  dsimp only
  rw [pad2_two v4, pad2_two v5, pad2_two v6, pad2_two v7, name_month (m := (gmtime t).mon) v1 v2]
  have hy : fmtInt (gmtime t).year = four (civil t).year.toNat := by
    unfold fmtInt
    rw [if_neg (by omega), show (gmtime t).year.natAbs = (civil t).year.toNat from by show (gmtime t).year.natAbs = (gmtime t).year.toNat; omega]
    exact fmt_four (by show 1000 ≤ (gmtime t).year.toNat; omega) (by show (gmtime t).year.toNat ≤ 9999; omega)
  rw [hy]
  rfl

theorem two_inj {m n : Nat} (hm : m < 100) (hn : n < 100) (h : two m = two n) : m = n := by
  have : ∀ m n : Fin 100, two m.1 = two n.1 → m = n := by decide +kernel
  exact congrArg Fin.val (this ⟨m, hm⟩ ⟨n, hn⟩ h)

theorem digit_inj {m n : Nat} (h : digit m = digit n) : m % 10 = n % 10 := by
  rw [digit_eq, digit_eq] at h
  have h1 := Numeral.digitB_toNat (d := m % 10) (Nat.mod_lt _ (by decide))
  have h2 := Numeral.digitB_toNat (d := n % 10) (Nat.mod_lt _ (by decide))
  rw [h] at h1; omega

theorem four_inj {m n : Nat} (hm : m ≤ 9999) (hn : n ≤ 9999) (h : four m = four n) : m = n := by
  unfold four at h
  simp only [List.cons.injEq, and_true] at h
  obtain ⟨a, b, c, d⟩ := h
  have := digit_inj a; have := digit_inj b; have := digit_inj c; have := digit_inj d
  omega

theorem dayName_len (d : Int) : (dayName d).length = 3 := by
  have h1 : 0 ≤ (d + 3) % 7 := Int.emod_nonneg _ (by decide)
  have h2 : (d + 3) % 7 < 7 := Int.emod_lt_of_pos _ (by decide)
  have : ∀ k : Fin 7, ([b!"Mon", b!"Tue", b!"Wed", b!"Thu", b!"Fri", b!"Sat", b!"Sun"].getD k.1 []).length = 3 := by decide +kernel
  exact this ⟨((d + 3) % 7).toNat, by omega⟩

theorem monthName_len {m : Nat} (h1 : 1 ≤ m) (h2 : m ≤ 12) : (monthName m).length = 3 := by
  have : ∀ m : Fin 13, 1 ≤ m.1 → (monthName m.1).length = 3 := by decide +kernel
  exact this ⟨m, by omega⟩ h1

theorem monthName_inj {m n : Nat} (h1 : m ≤ 12) (h2 : n ≤ 12) (h : monthName m = monthName n) : m = n := by
  have : ∀ m n : Fin 13, monthName m.1 = monthName n.1 → m = n := by decide +kernel
  exact congrArg Fin.val (this ⟨m, by omega⟩ ⟨n, by omega⟩ h)

theorem text_len {x : Civil} (h : x.Valid) : x.text.length = 29 := by
  unfold Civil.text two four
  simp only [List.length_append, dayName_len, monthName_len h.1 h.2.1]
  rfl

theorem day_lt {x : Civil} (h : x.Valid) : x.day < 100 := by
  obtain ⟨_, _, _, h4, _⟩ := h
  have : monthLen (leap x.year) x.month ≤ 31 := by
    unfold monthLen
    split <;> (try split) <;> omega
  omega

/-- A text is that of one date only. -/
theorem text_inj {x y : Civil} (hx : x.Valid) (hy : y.Valid) (x0 : 0 ≤ x.year) (x9 : x.year ≤ 9999) (y0 : 0 ≤ y.year) (y9 : y.year ≤ 9999) (h : x.text = y.text) : x = y := by
  have dx := day_lt hx
  have dy := day_lt hy
  obtain ⟨x1, x2, x3, x4, x5, x6, x7⟩ := hx
  obtain ⟨y1, y2, y3, y4, y5, y6, y7⟩ := hy
  have l2 : ∀ m n, (two m).length = (two n).length := fun _ _ => rfl
  have l4 : ∀ m n, (four m).length = (four n).length := fun _ _ => rfl
  unfold Civil.text at h
  simp only [List.append_assoc] at h
  obtain ⟨_, h⟩ := List.append_inj h (by rw [dayName_len, dayName_len])
  obtain ⟨_, h⟩ := List.append_inj h rfl
  obtain ⟨a, h⟩ := List.append_inj h (l2 _ _)
  obtain ⟨_, h⟩ := List.append_inj h rfl
  obtain ⟨b, h⟩ := List.append_inj h (by rw [monthName_len x1 x2, monthName_len y1 y2])
  obtain ⟨_, h⟩ := List.append_inj h rfl
  obtain ⟨c, h⟩ := List.append_inj h (l4 _ _)
  obtain ⟨_, h⟩ := List.append_inj h rfl
  obtain ⟨d, h⟩ := List.append_inj h (l2 _ _)
  obtain ⟨_, h⟩ := List.append_inj h rfl
  obtain ⟨e, h⟩ := List.append_inj h (l2 _ _)
  obtain ⟨_, h⟩ := List.append_inj h rfl
  obtain ⟨f, _⟩ := List.append_inj h (l2 _ _)
  have a := two_inj dx dy a
  have b := monthName_inj x2 y2 b
  have c := four_inj (by omega) (by omega) c
  have c : x.year = y.year := by omega
  have d := two_inj (by omega) (by omega) d
  have e := two_inj (by omega) (by omega) e
  have f := two_inj (by omega) (by omega) f
  cases x; cases y
  simp_all

/-- No byte of it ends a line. -/
theorem text_clean {x : Civil} (h : x.Valid) : ∀ b ∈ x.text, 32 ≤ b ∧ b < 127 := by
  have hd : ∀ n, 32 ≤ digit n ∧ digit n < 127 := by
    intro n
    have : ∀ k : Fin 10, (32 : UInt8) ≤ 48 + UInt8.ofNat k.1 ∧ (48 : UInt8) + UInt8.ofNat k.1 < 127 := by decide
    exact this ⟨n % 10, Nat.mod_lt _ (by decide)⟩
  have h2 : ∀ n, ∀ b ∈ two n, 32 ≤ b ∧ b < 127 := by
    intro n b hb
    simp only [two, List.mem_cons, List.not_mem_nil, or_false] at hb
    rcases hb with rfl | rfl <;> exact hd _
  have h4 : ∀ n, ∀ b ∈ four n, 32 ≤ b ∧ b < 127 := by
    intro n b hb
    simp only [four, List.mem_cons, List.not_mem_nil, or_false] at hb
    rcases hb with rfl | rfl | rfl | rfl <;> exact hd _
  have hm : ∀ b ∈ monthName x.month, 32 ≤ b ∧ b < 127 := by
    have : ∀ m : Fin 13, ∀ b ∈ monthName m.1, 32 ≤ b ∧ b < 127 := by decide +kernel
    exact this ⟨x.month, by have := h.2.1; omega⟩
  have hw : ∀ b ∈ dayName x.days, 32 ≤ b ∧ b < 127 := by
    have h1 : 0 ≤ (x.days + 3) % 7 := Int.emod_nonneg _ (by decide)
    have h2 : (x.days + 3) % 7 < 7 := Int.emod_lt_of_pos _ (by decide)
    have : ∀ k : Fin 7, ∀ b ∈ [b!"Mon", b!"Tue", b!"Wed", b!"Thu", b!"Fri", b!"Sat", b!"Sun"].getD k.1 [], 32 ≤ b ∧ b < 127 := by decide +kernel
    exact this ⟨((x.days + 3) % 7).toNat, by omega⟩
  intro b hb
  unfold Civil.text at hb
  simp only [List.mem_append] at hb
  have c1 : ∀ b ∈ b!", ", 32 ≤ b ∧ b < 127 := by decide
  have c2 : ∀ b ∈ b!" ", 32 ≤ b ∧ b < 127 := by decide
  have c3 : ∀ b ∈ b!":", 32 ≤ b ∧ b < 127 := by decide
  have c4 : ∀ b ∈ b!" GMT", 32 ≤ b ∧ b < 127 := by decide
  rcases hb with ((((((((((((hb | hb) | hb) | hb) | hb) | hb) | hb) | hb) | hb) | hb) | hb) | hb) | hb) | hb
  · exact hw b hb
  · exact c1 b hb
  · exact h2 _ b hb
  · exact c2 b hb
  · exact hm b hb
  · exact c2 b hb
  · exact h4 _ b hb
  · exact c2 b hb
  · exact h2 _ b hb
  · exact c3 b hb
  · exact h2 _ b hb
  · exact c3 b hb
  · exact h2 _ b hb
  · exact c4 b hb

end Verif.Proofs.Dates
