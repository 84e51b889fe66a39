import Verif.Model.Clock
import Verif.Py.Lemmas
import Verif.Py.Util
/-!
# C120: the date of the responses, and the memory limit
-/
namespace Verif
open Py Model.Clock

/-- Times: a sleep of one second is over at most `late` after that, `recv` takes at most `wait`, and nothing happens before what it
follows. -/
def Timed (limit : Int) (late wait : Nat) : St → List Ev → Prop
  | _, [] => True
  | s, e :: es =>
    (match e with
      | .wake now _ _ _ => s.since + 1000 ≤ now ∧ now ≤ s.since + 1000 + late
      | .answer now _ _ => s.since ≤ now ∧ now ≤ s.since + wait
      | .respond now => s.since ≤ now ∧ (match s.pc with | .sleep _ => now ≤ s.since + 1000 + late | _ => True)) ∧
    Timed limit late wait (step limit s e) es

namespace Clock

structure Fresh (late wait : Nat) (s : St) : Prop where
  le : 1000 * s.date ≤ s.since
  ge : s.since < 1000 * s.date + 1000 + (match s.pc with | .sleep _ => wait | _ => 0) ∨ ∃ w, s.pc = .ended w
  old : ∀ x ∈ s.out, 1000 * x.2.1 ≤ x.1
  new : ∀ x ∈ s.out, x.2.2 = false → x.1 < 1000 * x.2.1 + 2000 + late + wait

theorem fresh_step {limit : Int} {late wait : Nat} {s : St} {e : Ev} (h : Fresh late wait s) (t : Timed limit late wait s [e]) :
    Fresh late wait (step limit s e) := by
  obtain ⟨t, -⟩ := t
  obtain ⟨pc, since, date, out⟩ := s
  obtain ⟨h1, h2, h3, h4⟩ := h
  cases e with
  | wake now ch m po =>
    cases pc with
    | sleep left =>
      dsimp only [step] at t ⊢
      refine ⟨by dsimp only; omega, .inl ?_, h3, h4⟩
      dsimp only
      split <;> omega
    | recv => exact ⟨h1, h2, h3, h4⟩
    | ended w => exact ⟨h1, h2, h3, h4⟩
  | answer now num sent =>
    cases pc with
    | sleep left => exact ⟨h1, h2, h3, h4⟩
    | recv =>
      dsimp only [step] at t h1 h2 ⊢
      have h2' := h2.resolve_right (fun ⟨w, hw⟩ => by cases hw)
      refine ⟨by dsimp only; omega, ?_, h3, h4⟩
      dsimp only
      rcases num with _ | _ | n
      · exact .inr ⟨_, rfl⟩
      · exact .inr ⟨_, rfl⟩
      · cases sent with
        | true => left; show now < 1000 * date + 1000 + wait; omega
        | false => exact .inr ⟨_, rfl⟩
    | ended w => exact ⟨h1, h2, h3, h4⟩
  | respond now =>
    cases pc with
    | sleep left =>
      dsimp only [step] at t h1 h2 ⊢
      have h2' := h2.resolve_right (fun ⟨w, hw⟩ => by cases hw)
      refine ⟨h1, h2, fun x hx => ?_, fun x hx hb => ?_⟩
      · rcases List.mem_append.1 hx with hx | hx
        · exact h3 x hx
        · rw [List.mem_singleton] at hx; subst hx; dsimp only; omega
      · rcases List.mem_append.1 hx with hx | hx
        · exact h4 x hx hb
        · rw [List.mem_singleton] at hx; subst hx; dsimp only; omega
    | recv => exact ⟨h1, h2, h3, h4⟩
    | ended w =>
      dsimp only [step] at t h1 h2 ⊢
      refine ⟨h1, h2, fun x hx => ?_, fun x hx hb => ?_⟩
      · rcases List.mem_append.1 hx with hx | hx
        · exact h3 x hx
        · rw [List.mem_singleton] at hx; subst hx; dsimp only; omega
      · rcases List.mem_append.1 hx with hx | hx
        · exact h4 x hx hb
        · rw [List.mem_singleton] at hx; subst hx; cases hb

theorem fresh_run {limit : Int} {late wait : Nat} : ∀ (es : List Ev) {s : St}, Fresh late wait s → Timed limit late wait s es →
    Fresh late wait (run limit s es)
  | [], _, h, _ => h
  | _ :: es, _, h, t => fresh_run es (fresh_step h ⟨t.1, trivial⟩) t.2

theorem fresh_start (late wait now : Nat) : Fresh late wait (start now) := by
  refine ⟨?_, .inl ?_, ?_, ?_⟩
  · simp only [start]; omega
  · simp only [start]; omega
  · simp [start]
  · simp [start]

theorem ended_stays {limit : Int} (es : List Ev) : ∀ {s : St} {w : End}, s.pc = .ended w → (run limit s es).pc = .ended w := by
  induction es with
  | nil => exact fun h => h
  | cons e es ih =>
    intro s w h
    apply ih
    cases e <;> simp only [step, h]

theorem run_snoc (limit : Int) (s : St) (es : List Ev) (e : Ev) : run limit s (es ++ [e]) = step limit (run limit s es) e := by simp [run]

theorem run_append (limit : Int) (s : St) (a b : List Ev) : run limit s (a ++ b) = run limit (run limit s a) b := by simp [run]

theorem memory_step {limit : Int} {s : St} {e : Ev} (h : (step limit s e).pc = .ended .memory) :
    s.pc = .ended .memory ∨ ∃ now mem polled left, e = .wake now false mem polled ∧ s.pc = .sleep left ∧ 0 < limit ∧ limit < mem := by
  cases e with
  | wake now ch m po =>
    simp only [step] at h
    split at h
    · next left hp =>
      dsimp only at h
      split at h
      · cases h
      · next hc =>
        split at h
        · next hm => exact .inr ⟨now, m, po, left, by simp at hc; rw [hc], hp, hm.1, hm.2⟩
        · split at h <;> cases h
    · exact .inl h
  | answer now num sent =>
    simp only [step] at h
    split at h
    · dsimp only at h
      split at h
      · cases h
      · cases h
      · split at h <;> cases h
    · exact .inl h
  | respond now =>
    simp only [step] at h
    split at h
    · next hp => simp only [hp] at h; cases h
    · exact .inl h
    · exact .inl h

end Clock
open Clock

/-- The `Date` of a response is never later than the response. While the worker serves it is less than two seconds older, apart from
the time by which the event loop is late and the time it stood still in `recv`. -/
theorem C120_date_partial {limit : Int} {late wait now : Nat} (es : List Ev) (t : Timed limit late wait (start now) es) :
    ∀ x ∈ (run limit (start now) es).out, 1000 * x.2.1 ≤ x.1 ∧ (x.2.2 = false → x.1 < 1000 * x.2.1 + 2000 + late + wait) :=
  fun x hx => ⟨(fresh_run es (fresh_start late wait now) t).old x hx, (fresh_run es (fresh_start late wait now) t).new x hx⟩

/-- A worker that has stood still in `recv` gives old dates for up to a second after that, as old as that took. -/
theorem C120_refuted_recv (b : Nat) : ∃ (wait : Nat) (es : List Ev), Timed 0 0 wait (start 0) es ∧ ∃ x ∈ (run 0 (start 0) es).out, x.2.2 = false ∧ b ≤ x.1 - 1000 * x.2.1 := by
  refine ⟨b, [.wake 1000 false 0 false, .wake 2000 false 0 false, .answer (2000 + b) (some 1) true, .respond (2000 + b)], ?_, (2000 + b, 2, false), ?_, rfl, ?_⟩
  · simp [Timed, start, step]
  · simp [run, start, step]
  · dsimp only; omega

/-- When the loop has ended the date is set no more; a response that is made while `wait_closed` or the stop hooks wait has a `Date` as old
as they have waited. -/
theorem C120_refuted_closing (b : Nat) : ∃ (es : List Ev), Timed 0 0 0 (start 0) es ∧ ∃ x ∈ (run 0 (start 0) es).out, b ≤ x.1 - 1000 * x.2.1 := by
  refine ⟨[.wake 1000 false 0 true, .answer 1000 (some 0) true, .respond (1000 + b)], ?_, (1000 + b, 1, true), ?_, ?_⟩
  · simp [Timed, start, step]
  · simp [run, start, step]
  · dsimp only; omega

/-- A worker ends because of the memory limit exactly if there is a limit, and a sample that is taken in a second in which the code has not
changed is above it. -/
theorem C120_memory {limit : Int} {now : Nat} (es : List Ev) : (run limit (start now) es).pc = .ended .memory ↔
    ∃ a b t mem polled left, es = a ++ .wake t false mem polled :: b ∧ (run limit (start now) a).pc = .sleep left ∧ 0 < limit ∧ limit < mem := by
  constructor
  · induction es using snocInd with
    | h0 => intro h; simp [run, start] at h
    | h1 l e ih =>
      intro h
      rw [run_snoc] at h
      rcases memory_step h with h | ⟨t, mem, po, left, rfl, hp, h1, h2⟩
      · obtain ⟨a, b, t, mem, po, left, h0, h⟩ := ih h
        exact ⟨a, b ++ [e], t, mem, po, left, by rw [h0]; simp, h⟩
      · exact ⟨l, [], t, mem, po, left, rfl, hp, h1, h2⟩
  · rintro ⟨a, b, t, mem, po, left, rfl, hp, h1, h2⟩
    rw [run_append]
    show (run limit (step limit (run limit (start now) a) _) b).pc = _
    apply ended_stays
    simp only [step, hp]
    rw [if_neg (by decide), if_pos ⟨h1, h2⟩]

/-- While a worker with a limit serves, no sample was above it. -/
theorem C120_within {limit : Int} {now : Nat} (hl : 0 < limit) (a b : List Ev) {t : Nat} {ch : Bool} {mem : Int} {po : Bool} {left left' : Nat}
    (h : (run limit (start now) a).pc = .sleep left) (h' : (run limit (start now) (a ++ .wake t ch mem po :: b)).pc = .sleep left') : mem ≤ limit := by
  refine Decidable.byContradiction (fun hm => ?_)
  rw [run_append] at h'
  have : ∃ w, (step limit (run limit (start now) a) (.wake t ch mem po)).pc = .ended w := by
    simp only [step, h]
    split
    · exact ⟨_, rfl⟩
    · rw [if_pos ⟨hl, by omega⟩]; exact ⟨_, rfl⟩
  obtain ⟨w, hw⟩ := this
  have : (run limit (step limit (run limit (start now) a) (.wake t ch mem po)) b).pc = .ended w := ended_stays b hw
  rw [show run limit (run limit (start now) a) (.wake t ch mem po :: b) = run limit (step limit (run limit (start now) a) (.wake t ch mem po)) b from rfl, this] at h'
  cases h'

namespace Clock

theorem drop_digits (n : Nat) (r : Bytes) : (fmtNat n ++ r).dropWhile isSpace = fmtNat n ++ r ∧
    (fmtNat n ++ 32 :: r).dropWhile (fun c => !isSpace c) = 32 :: r ∧ (fmtNat n ++ 32 :: r).takeWhile (fun c => !isSpace c) = fmtNat n := by
  have hd : ∀ x ∈ fmtNat n, isSpace x = false := fun x hx => by
    have h := fmtNat_digits n x hx
    have h1 : 48 ≤ x.toNat := UInt8.le_iff_toNat_le.1 h.1
    cases hs : isSpace x with
    | false => rfl
    | true =>
      simp only [isSpace, Bool.or_eq_true, beq_iff_eq, Bool.and_eq_true, decide_eq_true_eq] at hs
      rcases hs with rfl | ⟨-, hs⟩
      · simp at h1
      · have : x.toNat ≤ 13 := UInt8.le_iff_toNat_le.1 hs
        omega
  have hs : isSpace 32 = true := by decide
  have gen : ∀ l : Bytes, (∀ x ∈ l, isSpace x = false) → (l ++ 32 :: r).dropWhile (fun c => !isSpace c) = 32 :: r ∧ (l ++ 32 :: r).takeWhile (fun c => !isSpace c) = l := by
    intro l
    induction l with
    | nil => intro _; simp [hs]
    | cons a l ih =>
      intro h
      have ha := h a (by simp)
      obtain ⟨i1, i2⟩ := ih (fun x hx => h x (by simp [hx]))
      exact ⟨by simp only [List.cons_append]; rw [List.dropWhile_cons_of_pos (by simp [ha])]; exact i1,
        by simp only [List.cons_append]; rw [List.takeWhile_cons_of_pos (by simp [ha]), i2]⟩
  refine ⟨?_, gen _ hd⟩
  cases hf : fmtNat n with
  | nil => exact absurd hf (fmtNat_ne_nil n)
  | cons a l =>
    have := hd a (by rw [hf]; simp)
    simp only [List.cons_append]
    rw [List.dropWhile_cons_of_neg (by simp [this])]

end Clock

/-- What is compared with the limit is the resident set, in KiB: the second number of `/proc/<pid>/statm` is in pages. -/
theorem C120_usage (page a b : Nat) (rest : Bytes) :
    memoryUsage page (some (fmtNat a ++ b!" " ++ fmtNat b ++ b!" " ++ rest)) = some ((b * page / 1024 : Nat) : Int) := by
  have e : fmtNat a ++ b!" " ++ fmtNat b ++ b!" " ++ rest = fmtNat a ++ 32 :: (fmtNat b ++ 32 :: rest) := by
    simp only [List.append_assoc]; rfl
  rw [e]
  unfold memoryUsage second
  dsimp only
  rw [(drop_digits a _).1, (drop_digits a _).2.1, List.dropWhile_cons_of_pos (by decide), (drop_digits b _).1]
  rw [if_neg (by simp), (drop_digits b _).2.2, Option.bind_some, intDec_fmtNat, Option.map_some]
  congr 1

/-- Without the file (on other systems) the limit has no effect. -/
theorem C120_other_systems (page : Nat) (limit : Int) (h : 0 < limit) : ∃ m, memoryUsage page none = some m ∧ ¬ limit < m :=
  ⟨-1, rfl, by omega⟩

/-- A worker with 5 MB in use, as Linux shows it. -/
example : memoryUsage 4096 (some b!"40000 1280 700 1 0 900 0\n") = some 5120 := by decide +kernel

/-- Two quiet seconds and one above the limit. -/
example : (run 5000 (start 0) [.wake 1000 false 4000 false, .wake 2001 false 4100 false, .answer 2001 (some 2) true, .wake 3001 false 5120 false]).pc = .ended .memory := by decide +kernel

/-- Dates of responses at 0.9 s, 1.5 s and 1.999 s of the clock. -/
example : (run 0 (start 0) [.respond 900, .wake 1000 false 0 true, .answer 1001 (some 1) true, .respond 1500, .respond 1999]).out = [(900, 0, false), (1500, 1, false), (1999, 1, false)] ∧
    Timed 0 5 3 (start 0) [.respond 900, .wake 1000 false 0 true, .answer 1001 (some 1) true, .respond 1500, .respond 1999] := by
  refine ⟨by decide +kernel, ?_⟩
  simp [Timed, start, step]

end Verif
