import Verif.Model.App
import Verif.Spec.App
import Verif.Py.Lemmas
import Verif.Proofs.HttpParser
/-!
# Lemmas about route patterns, keys and tables
-/
namespace Verif.Proofs.App
open Verif.Py Verif.Model.App Verif.Model.Regex Verif.Spec.App

/-! ## Regular expressions -/

theorem mem_manyRests {p : UInt8 → Bool} {s t : Bytes} : t ∈ manyRests p s ↔ ∃ a, s = a ++ t ∧ ∀ x ∈ a, p x = true := by
  induction s with
  | nil =>
    simp only [manyRests, List.mem_singleton]
    constructor
    · rintro rfl; exact ⟨[], by simp⟩
    · rintro ⟨a, h, -⟩; simp at h; exact h.2
  | cons c s ih =>
    simp only [manyRests, List.mem_cons]
    constructor
    · rintro (rfl | h)
      · exact ⟨[], by simp⟩
      · split at h
        · next hc =>
          obtain ⟨a, rfl, ha⟩ := ih.1 h
          exact ⟨c :: a, by simp, by simpa [hc] using ha⟩
        · simp at h
    · rintro ⟨a, h, ha⟩
      cases a with
      | nil => left; exact h.symm
      | cons x a =>
        right
        simp only [List.cons_append, List.cons.injEq] at h
        obtain ⟨rfl, rfl⟩ := h
        rw [if_pos (ha c (by simp))]
        exact ih.2 ⟨a, rfl, fun y hy => ha y (by simp [hy])⟩

def seqL : List Re → Re
  | [] => .eps
  | r :: l => .seq r (seqL l)

theorem seqL_foldr (l : List Re) : seqL l = l.foldr (fun r acc => Re.seq r acc) .eps := by
  induction l with
  | nil => rfl
  | cons r l ih => simp [seqL, ih]

theorem seqRev_eq (l : List Re) : seqRev l = seqL l.reverse := by
  rw [seqL_foldr, List.foldr_reverse]; rfl

theorem mem_run_cons {n : Nat} {r : Re} {l : List Re} {s t : Bytes} :
    t ∈ run n (seqL (r :: l)) s ↔ ∃ u, u ∈ run n r s ∧ t ∈ run n (seqL l) u := by
  simp [seqL, run, List.mem_flatMap]

theorem mem_run_lits {n : Nat} {p : Bytes} {l : List Re} {s t : Bytes} :
    t ∈ run n (seqL (p.map (fun c => .chr (.lit c)) ++ l)) s ↔ ∃ u, s = p ++ u ∧ t ∈ run n (seqL l) u := by
  induction p generalizing s with
  | nil => simp
  | cons c p ih =>
    rw [List.map_cons, List.cons_append, mem_run_cons]
    constructor
    · rintro ⟨u, hu, ht⟩
      obtain ⟨w, rfl, hw⟩ := ih.1 ht
      cases s with
      | nil => simp [run] at hu
      | cons x s =>
        simp only [run, Cls.ok] at hu
        by_cases h : x = c
        · subst h; simp at hu; exact ⟨w, by simp [hu], hw⟩
        · simp [h] at hu
    · rintro ⟨u, rfl, hu⟩
      refine ⟨p ++ u, ?_, ih.2 ⟨u, rfl, hu⟩⟩
      simp [run, Cls.ok]

/-- the parsed form of `litPat p` -/
def litAtoms (p : Bytes) : List Re :=
  .bol :: .many1 (.lit 47) :: (p.map (fun c => .chr (.lit c)) ++
    [.opt (seqL [.many1 (.lit 47)]), .opt (seqL [.chr (.lit 63), .many .any]), .eol])

theorem parseAux_lit {c : UInt8} (hm : metaB c = false) (t : Bytes) (g : List Re) (st : List (List Re)) (q : Bool) :
    parseAux (c :: t) (g :: st) q = parseAux t ((.chr (.lit c) :: g) :: st) true := by
  have hb : ∀ c : UInt8, metaB c = false → c ≠ 40 ∧ c ≠ 92 ∧ c ≠ 41 ∧ c ≠ 46 ∧ c ≠ 94 ∧ c ≠ 36 ∧ c ≠ 42 ∧ c ≠ 43 ∧ c ≠ 63 :=
    forall_u8 (by decide +kernel)
  obtain ⟨h40, h92, h41, h46, h94, h36, h42, h43, h63⟩ := hb c hm
  rw [parseAux.eq_def]
  split
  · simp_all
  · simp_all
  · simp_all
  · simp_all
  · next heq _ => simp at heq; rename_i h1 h2 h3; obtain ⟨rfl, rfl⟩ := heq; simp_all

theorem parseAux_lits {p : Bytes} (hp : ∀ c ∈ p, metaB c = false) (t : Bytes) (g : List Re) (st : List (List Re)) (q : Bool)
    (hq : p = [] → q = true) :
    parseAux (p ++ t) (g :: st) q = parseAux t (((p.map (fun c => Re.chr (.lit c))).reverse ++ g) :: st) true := by
  induction p generalizing g q with
  | nil => simp [hq rfl]
  | cons c p ih =>
    rw [List.cons_append, parseAux_lit (hp c (by simp)), ih (fun c hc => hp c (by simp [hc])) _ _ (fun _ => rfl)]
    simp

theorem parse_litPat {p : Bytes} (hp : ∀ c ∈ p, metaB c = false) (hne : p ≠ []) : parse (litPat p) = some (seqL (litAtoms p)) := by
  have h1 : parse (litPat p) = parseAux (p ++ b!"(?:/+)?(?:\\?.*)?$") [[.many1 (.lit 47), .bol]] false := rfl
  rw [h1, parseAux_lits hp _ _ _ _ (fun h => absurd h hne)]
  generalize hA : (p.map (fun c => Re.chr (.lit c))).reverse ++ [.many1 (.lit 47), .bol] = A
  have h2 : parseAux b!"(?:/+)?(?:\\?.*)?$" [A] true =
      some (seqRev (.eol :: .opt (seqRev [.many .any, .chr (.lit 63)]) :: .opt (seqRev [.many1 (.lit 47)]) :: A)) := rfl
  rw [h2, ← hA, seqRev_eq, seqRev_eq, seqRev_eq]
  simp [litAtoms]

theorem mem_run_many1 {n : Nat} {c : UInt8} {s t : Bytes} :
    t ∈ run n (.many1 (.lit c)) s ↔ ∃ k, s = List.replicate (k + 1) c ++ t := by
  cases s with
  | nil => simp [run, List.replicate_succ]
  | cons x s =>
    by_cases h : x = c
    · subst h
      simp only [run, Cls.ok, beq_self_eq_true, if_true, mem_manyRests]
      constructor
      · rintro ⟨a, rfl, ha⟩
        refine ⟨a.length, ?_⟩
        have h2 : a = List.replicate a.length x := List.eq_replicate_iff.2 ⟨rfl, fun y hy => by simpa using ha y hy⟩
        rw [List.replicate_succ, List.cons_append, ← h2]
      · rintro ⟨k, hk⟩
        rw [List.replicate_succ, List.cons_append, List.cons.injEq] at hk
        exact ⟨_, hk.2, fun y hy => by simpa using (List.mem_replicate.1 hy).2⟩
    · simp only [run, Cls.ok, beq_eq_false_iff_ne.2 h, Bool.false_eq_true, if_false, List.not_mem_nil, false_iff]
      rintro ⟨k, hk⟩
      rw [List.replicate_succ, List.cons_append, List.cons.injEq] at hk
      exact h hk.1

theorem mem_run_opt {n : Nat} {r : Re} {s t : Bytes} : t ∈ run n (.opt r) s ↔ t = s ∨ t ∈ run n r s := by simp [run]

theorem mem_run_nil {n : Nat} {s t : Bytes} : t ∈ run n (seqL []) s ↔ t = s := by simp [seqL, run]

theorem mem_run_eol {n : Nat} {s t : Bytes} : t ∈ run n .eol s ↔ t = s ∧ (s = [] ∨ s = [10]) := by
  unfold run; split <;> simp_all

theorem mem_run_lit {n : Nat} {c : UInt8} {s t : Bytes} : t ∈ run n (.chr (.lit c)) s ↔ s = c :: t := by
  cases s with
  | nil => simp [run]
  | cons x s => 
    by_cases h : x = c
    · subst h; simp [run, Cls.ok]; exact eq_comm
    · simp [run, Cls.ok, h]

theorem mem_run_many_any {n : Nat} {s t : Bytes} : t ∈ run n (.many .any) s ↔ ∃ a, s = a ++ t ∧ (10 : UInt8) ∉ a := by
  simp only [run, mem_manyRests, Cls.ok]
  constructor
  · rintro ⟨a, h, ha⟩; exact ⟨a, h, fun hm => by simpa using ha 10 hm⟩
  · rintro ⟨a, h, ha⟩; exact ⟨a, h, fun x hx => by simp; rintro rfl; exact ha hx⟩

/-- What may follow the slashes of a matched URL: nothing or a query string without newline, then at most one newline
(`$` also matches before a final newline). -/
def TailOk (tail : Bytes) : Prop := ∃ q e, tail = q ++ e ∧ (q = [] ∨ ∃ q', q = 63 :: q' ∧ (10 : UInt8) ∉ q') ∧ (e = [] ∨ e = [10])

theorem mem_run_lit_tail {n : Nat} {s : Bytes} :
    (∃ t, t ∈ run n (seqL [.opt (seqL [.chr (.lit 63), .many .any]), .eol]) s) ↔ TailOk s := by
  simp only [mem_run_cons, mem_run_nil, mem_run_opt, mem_run_eol, mem_run_lit, mem_run_many_any]
  constructor
  · rintro ⟨t, u, hu, v, ⟨rfl, hv⟩, rfl⟩
    rcases hu with rfl | ⟨w, rfl, x, ⟨a, rfl, ha⟩, rfl⟩
    · exact ⟨[], t, by simp, Or.inl rfl, hv⟩
    · exact ⟨63 :: a, t, by simp, Or.inr ⟨a, rfl, ha⟩, hv⟩
  · rintro ⟨q, e, rfl, hq, he⟩
    rcases hq with rfl | ⟨q', rfl, hq'⟩
    · exact ⟨e, e, Or.inl (by simp), e, ⟨rfl, he⟩, rfl⟩
    · exact ⟨e, e, Or.inr ⟨q' ++ e, by simp, e, ⟨q', rfl, hq'⟩, rfl⟩, e, ⟨rfl, he⟩, rfl⟩

theorem tails_iff {s t : Bytes} : t ∈ tails s ↔ ∃ a, s = a ++ t := by
  induction s with
  | nil => simp [tails, eq_comm]
  | cons c s ih =>
    simp only [tails, List.mem_cons, ih]
    constructor
    · rintro (rfl | ⟨a, rfl⟩)
      · exact ⟨[], rfl⟩
      · exact ⟨c :: a, rfl⟩
    · rintro ⟨a, h⟩
      cases a with
      | nil => left; exact h.symm
      | cons x a => right; simp at h; exact ⟨a, h.2⟩

theorem search_iff {r : Re} {s : Bytes} : search r s = true ↔ ∃ a t, s = a ++ t ∧ ∃ u, u ∈ run s.length r t := by
  simp only [search, List.any_eq_true, tails_iff]
  constructor
  · rintro ⟨t, ⟨a, h⟩, h2⟩
    refine ⟨a, t, h, ?_⟩
    cases h3 : run s.length r t with
    | nil => simp [h3] at h2
    | cons u l => exact ⟨u, by simp⟩
  · rintro ⟨a, t, h, u, hu⟩
    refine ⟨t, ⟨a, h⟩, ?_⟩
    cases h3 : run s.length r t with
    | nil => simp [h3] at hu
    | cons u l => simp

theorem search_bol {l : List Re} {s : Bytes} : search (seqL (.bol :: l)) s = true ↔ ∃ u, u ∈ run s.length (seqL l) s := by
  rw [search_iff]
  constructor
  · rintro ⟨a, t, h, u, hu⟩
    rw [mem_run_cons] at hu
    obtain ⟨v, hv, hu⟩ := hu
    simp only [run] at hv
    split at hv
    · next hl =>
      have ha : a = [] := by
        have := congrArg List.length h
        simp at this
        exact List.eq_nil_of_length_eq_zero (by omega)
      subst ha
      simp at hv h
      subst hv; subst h
      exact ⟨u, hu⟩
    · simp at hv
  · rintro ⟨u, hu⟩
    exact ⟨[], s, rfl, u, mem_run_cons.2 ⟨s, by simp [run], hu⟩⟩

theorem search_lit {p url : Bytes} : search (seqL (litAtoms p)) url = true ↔
    ∃ n m tail, url = List.replicate (n + 1) 47 ++ p ++ List.replicate m 47 ++ tail ∧ TailOk tail := by
  unfold litAtoms
  rw [search_bol]
  constructor
  · rintro ⟨u, hu⟩
    obtain ⟨v, hv, hu⟩ := mem_run_cons.1 hu
    obtain ⟨n, hn⟩ := mem_run_many1.1 hv
    obtain ⟨w, rfl, hu2⟩ := mem_run_lits.1 hu
    obtain ⟨x, hx, hu3⟩ := mem_run_cons.1 hu2
    have ht := mem_run_lit_tail.1 ⟨_, hu3⟩
    rcases mem_run_opt.1 hx with rfl | hx
    · exact ⟨n, 0, x, by simp [hn], ht⟩
    · obtain ⟨y, hy, hx⟩ := mem_run_cons.1 hx
      rw [mem_run_nil] at hx; subst hx
      obtain ⟨m, rfl⟩ := mem_run_many1.1 hy
      exact ⟨n, m + 1, x, by simp [hn], ht⟩
  · rintro ⟨n, m, tail, h, ht⟩
    obtain ⟨u, hu⟩ := mem_run_lit_tail (n := url.length) |>.2 ht
    refine ⟨u, mem_run_cons.2 ⟨p ++ (List.replicate m 47 ++ tail), mem_run_many1.2 ⟨n, by simp [h]⟩, mem_run_lits.2 ⟨_, rfl, mem_run_cons.2 ⟨tail, ?_, hu⟩⟩⟩⟩
    rw [mem_run_opt]
    cases m with
    | zero => left; simp
    | succ m => right; exact mem_run_cons.2 ⟨tail, mem_run_many1.2 ⟨m, rfl⟩, mem_run_nil.2 rfl⟩

theorem tailOk_of_noLF {tail : Bytes} (h : (10 : UInt8) ∉ tail) : TailOk tail ↔ (tail = [] ∨ ∃ q, tail = 63 :: q) := by
  constructor
  · rintro ⟨q, e, rfl, hq, rfl | rfl⟩
    · rcases hq with rfl | ⟨q', rfl, -⟩
      · left; simp
      · right; exact ⟨q', by simp⟩
    · simp at h
  · rintro (rfl | ⟨q, rfl⟩)
    · exact ⟨[], [], by simp⟩
    · exact ⟨63 :: q, [], by simp, Or.inr ⟨q, rfl, fun hm => h (by simp [hm])⟩, Or.inl rfl⟩

theorem metaB_false_of_literal {p : Bytes} (hp : Literal p) : ∀ c ∈ p, metaB c = false := by
  intro c hc
  simp only [metaB, List.contains_eq_mem, decide_eq_false_iff_not]
  exact hp c hc

/-- The pattern built for a literal path matches exactly its spellings. -/
theorem matchPat_lit {rx : Bytes → Bytes → Bool} {p url : Bytes} (hp : Literal p) (hne : p ≠ []) (hu : (10 : UInt8) ∉ url) :
    matchPat rx (litPat p) url = true ↔ Spelling p url := by
  unfold matchPat
  rw [parse_litPat (metaB_false_of_literal hp) hne]
  simp only [search_lit, Spelling]
  constructor
  · rintro ⟨n, m, tail, h, ht⟩
    exact ⟨n, m, tail, h, (tailOk_of_noLF (fun hm => hu (by rw [h]; simp [hm]))).1 ht⟩
  · rintro ⟨n, m, tail, h, ht⟩
    exact ⟨n, m, tail, h, (tailOk_of_noLF (fun hm => hu (by rw [h]; simp [hm]))).2 ht⟩

theorem parse_indexPat : parse indexPat = some (seqL [.bol, .many1 (.lit 47), .opt (seqL [.chr (.lit 63), .many .any]), .eol]) := by
  decide +kernel

theorem matchPat_index {rx : Bytes → Bytes → Bool} {url : Bytes} (hu : (10 : UInt8) ∉ url) :
    matchPat rx indexPat url = true ↔ Spelling [] url := by
  unfold matchPat
  rw [parse_indexPat]
  simp only
  rw [search_bol]
  constructor
  · rintro ⟨u, hu'⟩
    obtain ⟨v, hv, hu'⟩ := mem_run_cons.1 hu'
    obtain ⟨n, hn⟩ := mem_run_many1.1 hv
    have ht := mem_run_lit_tail.1 ⟨_, hu'⟩
    exact ⟨n, 0, v, by simp [hn], (tailOk_of_noLF (fun hm => hu (by rw [hn]; simp [hm]))).1 ht⟩
  · rintro ⟨n, m, tail, h, ht⟩
    have ht := (tailOk_of_noLF (fun hm => hu (by rw [h]; simp [hm]))).2 ht
    obtain ⟨u, hu'⟩ := mem_run_lit_tail (n := url.length) |>.2 ht
    refine ⟨u, mem_run_cons.2 ⟨tail, mem_run_many1.2 ⟨n + m, ?_⟩, hu'⟩⟩
    rw [h, List.append_nil, List.replicate_append_replicate]
    congr 2; omega

/-! ## Paths and keys -/

theorem dropWhile_replicate_append (p : UInt8 → Bool) {c : UInt8} (hc : p c = true) (n : Nat) (s : Bytes) :
    (List.replicate n c ++ s).dropWhile p = s.dropWhile p := by
  induction n with
  | zero => simp
  | succ n ih => rw [List.replicate_succ, List.cons_append, List.dropWhile_cons_of_pos hc, ih]

theorem dropWhile_head {p : UInt8 → Bool} {s : Bytes} (h : ∀ c, s.head? = some c → p c = false) : s.dropWhile p = s := by
  cases s with
  | nil => rfl
  | cons c s => rw [List.dropWhile_cons_of_neg]; simp [h c rfl]

theorem stripSlash_spelled {p : Bytes} (h1 : p.head? ≠ some 47) (h2 : p.getLast? ≠ some 47) (n m : Nat) :
    stripSlash (List.replicate n 47 ++ p ++ List.replicate m 47) = p := by
  unfold stripSlash stripBy
  rw [List.append_assoc, dropWhile_replicate_append _ (by rfl)]
  cases p with
  | nil =>
    rw [List.nil_append, ← List.append_nil (List.replicate m (47 : UInt8)), dropWhile_replicate_append _ (by rfl)]
    rfl
  | cons c p =>
    rw [dropWhile_head (s := c :: p ++ _) (by
      intro x hx; simp at hx; subst hx; simp at h1; simpa using h1)]
    rw [List.reverse_append, List.reverse_replicate, dropWhile_replicate_append _ (by rfl)]
    rw [dropWhile_head (by
      intro x hx
      rw [List.head?_reverse] at hx
      rw [hx] at h2
      simp at h2; simpa using h2)]
    simp

theorem partition1_fst {c : UInt8} {a t : Bytes} (ha : c ∉ a) (ht : t = [] ∨ ∃ q, t = c :: q) : (partition1 c (a ++ t)).1 = a := by
  induction a with
  | nil => rcases ht with rfl | ⟨q, rfl⟩ <;> simp [partition1]
  | cons x a ih =>
    simp only [List.mem_cons, not_or] at ha
    simp only [List.cons_append, partition1, if_neg (Ne.symm ha.1)]
    rw [ih ha.2]

theorem splitByte_fst {c : UInt8} {a t : Bytes} (ha : c ∉ a) (ht : t = [] ∨ ∃ q, t = c :: q) :
    (splitByte c 1 (a ++ t)).headD [] = a := by
  induction a with
  | nil => rcases ht with rfl | ⟨q, rfl⟩ <;> simp [splitByte]
  | cons x a ih =>
    simp only [List.mem_cons, not_or] at ha
    simp only [List.cons_append, splitByte, if_neg (Ne.symm ha.1)]
    have := ih ha.2
    split
    · next h => rw [h] at this; simp at this; simp [← this]
    · next h => rw [h] at this; simp at this; simp [this]

theorem not_mem_replicate_append {n m : Nat} {p : Bytes} (hp : (63 : UInt8) ∉ p) :
    (63 : UInt8) ∉ List.replicate n 47 ++ p ++ List.replicate m 47 := by
  simp only [List.mem_append, List.mem_replicate, not_or]
  refine ⟨⟨?_, hp⟩, ?_⟩ <;> (intro h; exact absurd h.2 (by decide))

theorem urlKey_spelling {p url : Bytes} (hs : Spelling p url) (h1 : p.head? ≠ some 47) (h2 : p.getLast? ≠ some 47)
    (h3 : (63 : UInt8) ∉ p) : urlKey url = keyOf p := by
  obtain ⟨n, m, tail, rfl, ht⟩ := hs
  unfold urlKey urlPath
  rw [partition1_fst (not_mem_replicate_append h3) ht, stripSlash_spelled h1 h2]

theorem routePath_of_stripped {path p : Bytes} (h : Stripped path p) : routePath path = p := by
  obtain ⟨n, m, tail, rfl, ht, h1, h2, h3⟩ := h
  unfold routePath
  rw [splitByte_fst (not_mem_replicate_append h3) ht, stripSlash_spelled h1 h2]

theorem dropWhile_slash (s : Bytes) : ∃ a, s = List.replicate a 47 ++ s.dropWhile (· == 47) ∧ (s.dropWhile (· == 47)).head? ≠ some 47 := by
  induction s with
  | nil => exact ⟨0, by simp⟩
  | cons c s ih =>
    by_cases h : c = 47
    · subst h
      obtain ⟨a, h1, h2⟩ := ih
      rw [List.dropWhile_cons_of_pos (by simp)]
      exact ⟨a + 1, by rw [List.replicate_succ, List.cons_append, ← h1], h2⟩
    · rw [List.dropWhile_cons_of_neg (by simpa using h)]
      exact ⟨0, by simp, by simpa using h⟩

theorem split_first (c : UInt8) (s : Bytes) : ∃ a t, s = a ++ t ∧ c ∉ a ∧ (t = [] ∨ ∃ q, t = c :: q) := by
  induction s with
  | nil => exact ⟨[], [], by simp⟩
  | cons x s ih =>
    by_cases h : x = c
    · subst h; exact ⟨[], x :: s, by simp⟩
    · obtain ⟨a, t, h1, h2, h3⟩ := ih
      exact ⟨x :: a, t, by simp [h1], by simp [h2, Ne.symm h], h3⟩

/-- Every path text has exactly one stripped form, the one the code computes. -/
theorem stripped_routePath (path : Bytes) : Stripped path (routePath path) := by
  obtain ⟨a, t, rfl, ha, ht⟩ := split_first 63 path
  have hr : routePath (a ++ t) = stripSlash a := by unfold routePath; rw [splitByte_fst ha ht]
  rw [hr]
  obtain ⟨n, h1, h1'⟩ := dropWhile_slash a
  obtain ⟨m, h2, h2'⟩ := dropWhile_slash (a.dropWhile (· == 47)).reverse
  have h3 : stripSlash a = ((a.dropWhile (· == 47)).reverse.dropWhile (· == 47)).reverse := rfl
  have h4 : a.dropWhile (· == 47) = stripSlash a ++ List.replicate m 47 := by
    rw [h3]
    have := congrArg List.reverse h2
    rw [List.reverse_reverse, List.reverse_append, List.reverse_replicate] at this
    exact this
  refine ⟨n, m, t, ?_, ht, ?_, ?_, ?_⟩
  · rw [List.append_assoc (List.replicate n _), ← h4, ← h1]
  · intro hc
    cases hs : stripSlash a with
    | nil => rw [hs] at hc; simp at hc
    | cons x s =>
      rw [h4, hs] at h1'
      rw [hs] at hc
      simp at hc h1'
      exact h1' hc
  · rw [h3, List.getLast?_reverse]; exact h2'
  · intro hm
    apply ha
    rw [h1, h4]
    simp [hm]

end Verif.Proofs.App
