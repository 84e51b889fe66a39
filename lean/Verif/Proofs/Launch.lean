import Verif.Model.Launch
import Verif.Spec.Launch
import Verif.Proofs.Params
import Verif.Props.Args
/-! Lemmas on paths and on the options of `run`. -/
namespace Verif.Proofs.Launch
open Verif.Py Verif.Model.Launch Verif.Spec.Launch

theorem comps_ne (s : Bytes) : comps s ≠ [] := by
  cases s with
  | nil => simp [comps]
  | cons c t =>
    unfold comps
    split
    · simp
    · cases comps t <;> simp

theorem split_comps : ∀ (s : Bytes) (n : Nat), s.length ≤ n → splitByte 47 n s = comps s
  | [], n, _ => by cases n <;> rfl
  | c :: t, 0, h => by simp at h
  | c :: t, n + 1, h => by
    have h1 : t.length ≤ n := by simpa using h
    unfold splitByte comps
    by_cases hc : c = 47
    · rw [if_pos hc, if_pos hc, split_comps t n h1]
    · rw [if_neg hc, if_neg hc, split_comps t (n + 1) (by omega)]
      cases comps t <;> rfl

theorem comps_slash (a b : Bytes) : comps (a ++ 47 :: b) = comps a ++ comps b := by
  induction a with
  | nil => simp [comps]
  | cons c t ih =>
    simp only [List.cons_append, comps]
    by_cases hc : c = 47
    · simp [hc, ih]
    · rw [if_neg hc, if_neg hc, ih]
      have := comps_ne t
      cases h : comps t with
      | nil => exact absurd h this
      | cons x r => simp

theorem comps_noslash {s : Bytes} (h : (47 : UInt8) ∉ s) : comps s = [s] := by
  induction s with
  | nil => rfl
  | cons c t ih =>
    have hc : c ≠ 47 := fun e => h (by simp [e])
    unfold comps
    rw [if_neg hc, ih (fun e => h (by simp [e]))]

theorem comps_mem {s : Bytes} : ∀ x ∈ comps s, (47 : UInt8) ∉ x := by
  induction s with
  | nil => simp [comps]
  | cons c t ih =>
    unfold comps
    by_cases hc : c = 47
    · rw [if_pos hc]; intro x hx; rcases List.mem_cons.1 hx with rfl | hx
      · simp
      · exact ih x hx
    · rw [if_neg hc]
      cases h : comps t with
      | nil => exact absurd h (comps_ne t)
      | cons a r =>
        rw [h] at ih
        intro x hx
        rcases List.mem_cons.1 hx with rfl | hx
        · intro hm
          rcases List.mem_cons.1 hm with e | hm
          · exact hc e.symm
          · exact ih a (by simp) hm
        · exact ih x (by simp [hx])

theorem comps_join : ∀ {l : List Bytes}, l ≠ [] → (∀ x ∈ l, (47 : UInt8) ∉ x) → comps (join b!"/" l) = l
  | [a], _, h => by simpa [join] using comps_noslash (h a (by simp))
  | a :: b :: r, _, h => by
    show comps (a ++ b!"/" ++ join b!"/" (b :: r)) = _
    rw [List.append_assoc]
    show comps (a ++ 47 :: join b!"/" (b :: r)) = _
    rw [comps_slash, comps_noslash (h a (by simp)), comps_join (by simp) (fun x hx => h x (List.mem_cons_of_mem _ hx))]
    rfl

/-! ### walk -/

/-- A name that `walk` goes into. -/
def Name (c : Bytes) : Prop := c ≠ [] ∧ c ≠ b!"." ∧ c ≠ b!".."

theorem walk_append (d a b : List Bytes) : walk d (a ++ b) = walk (walk d a) b := by
  induction a generalizing d with
  | nil => rfl
  | cons c t ih => simp only [List.cons_append, walk, ih]

theorem walk_names : ∀ (l d : List Bytes), (∀ x ∈ l, Name x) → walk d l = l.reverse ++ d
  | [], d, _ => rfl
  | c :: t, d, h => by
    obtain ⟨h1, h2, h3⟩ := h c (by simp)
    unfold walk
    rw [if_neg (by simp [h1, h2]), if_neg h3, walk_names t _ (fun x hx => h x (by simp [hx]))]
    simp

theorem walk_name {d : List Bytes} (hd : ∀ x ∈ d, Name x) : ∀ l : List Bytes, ∀ x ∈ walk d l, Name x := by
  intro l
  induction l generalizing d with
  | nil => exact hd
  | cons c t ih =>
    unfold walk
    apply ih
    split
    · exact hd
    · split
      · intro x hx; exact hd x (List.mem_of_mem_tail hx)
      · rename_i h1 h2
        intro x hx
        rcases List.mem_cons.1 hx with rfl | hx
        · exact ⟨fun e => h1 (.inl e), fun e => h1 (.inr e), h2⟩
        · exact hd x hx

theorem walk_sub {P : Bytes → Prop} {d : List Bytes} (hd : ∀ x ∈ d, P x) {l : List Bytes} (hl : ∀ x ∈ l, P x) : ∀ x ∈ walk d l, P x := by
  induction l generalizing d with
  | nil => exact hd
  | cons c t ih =>
    unfold walk
    refine ih ?_ (fun x hx => hl x (by simp [hx]))
    split
    · exact hd
    · split
      · intro x hx; exact hd x (List.mem_of_mem_tail hx)
      · intro x hx
        rcases List.mem_cons.1 hx with rfl | hx
        · exact hl x (by simp)
        · exact hd x hx

theorem normLoop_walk : ∀ (l acc : List Bytes), (∀ x ∈ acc, Name x) → normLoop true l acc = walk acc l
  | [], acc, _ => rfl
  | c :: t, acc, h => by
    unfold normLoop walk
    by_cases h1 : c = [] ∨ c = b!"."
    · rw [if_pos h1, if_pos h1, normLoop_walk t acc h]
    · rw [if_neg h1, if_neg h1]
      by_cases h2 : c = b!".."
      · have h3 : ¬ (c ≠ b!".." ∨ (true = false ∧ acc = []) ∨ acc.head? = some b!"..") := by
          rintro (h3 | h3 | h3)
          · exact h3 h2
          · cases h3.1
          · cases acc with
            | nil => cases h3
            | cons a r => cases h3; exact (h _ (by simp)).2.2 rfl
        rw [if_neg h3, if_pos h2, normLoop_walk t _ (fun x hx => h x (List.mem_of_mem_tail hx))]
      · rw [if_pos (.inl h2), if_neg h2, normLoop_walk t _ ?_]
        intro x hx
        rcases List.mem_cons.1 hx with rfl | hx
        · exact ⟨fun e => h1 (.inl e), fun e => h1 (.inr e), h2⟩
        · exact h x hx

theorem sw_slash (p : Bytes) : startsWith p b!"/" = true ↔ p.head? = some 47 := by
  cases p with
  | nil => simp [startsWith]
  | cons c t => simp [startsWith]; exact eq_comm

/-- An absolute path, normalised: one or two slashes and the names. -/
theorem normpath_abs {p : Bytes} (h : p.head? = some 47) :
    ∃ sl, (sl = b!"/" ∨ sl = b!"//") ∧ normpath p = sl ++ join b!"/" (walk [] (comps p)).reverse := by
  have hs := (sw_slash p).2 h
  unfold normpath
  rw [if_neg (by intro e; rw [e] at h; cases h)]
  simp only [hs, if_true, split_comps p p.length (Nat.le_refl _)]
  rw [normLoop_walk _ _ (by simp)]
  by_cases h2 : (startsWith p b!"//" && !startsWith p b!"///") = true
  · rw [if_pos h2]
    exact ⟨_, .inr rfl, by rw [if_neg (by simp)]⟩
  · rw [if_neg h2]
    exact ⟨_, .inl rfl, by rw [if_neg (by simp)]⟩

theorem joinPath_walk {cwd p : Bytes} (hc : cwd.head? = some 47) (hp : p.head? ≠ some 47) :
    (joinPath cwd p).head? = some 47 ∧ walk [] (comps (joinPath cwd p)) = walk (walk [] (comps cwd)) (comps p) := by
  have hs : startsWith p b!"/" = false := by
    cases h : startsWith p b!"/" with
    | false => rfl
    | true => exact absurd ((sw_slash p).1 h) hp
  unfold joinPath
  rw [hs]
  obtain ⟨t, rfl⟩ : ∃ t, cwd = 47 :: t := by
    cases cwd with
    | nil => cases hc
    | cons c t => cases hc; exact ⟨t, rfl⟩
  simp only [Bool.false_eq_true, if_false]
  split
  · rename_i he
    rcases he with he | he
    · cases he
    · refine ⟨rfl, ?_⟩
      obtain ⟨u, hu⟩ : ∃ u, (47 : UInt8) :: t = u ++ [47] := by
        unfold endsWith at he
        rw [List.isPrefixOf_iff_prefix] at he
        obtain ⟨r, hr⟩ := he
        refine ⟨r.reverse, ?_⟩
        rw [← List.reverse_inj, ← hr]; simp
      rw [hu, List.append_assoc, show ([47] : Bytes) ++ p = 47 :: p from rfl, comps_slash, comps_slash, walk_append, walk_append]
      rfl
  · refine ⟨rfl, ?_⟩
    rw [List.append_assoc, show b!"/" ++ p = 47 :: p from rfl, comps_slash, walk_append]

theorem abspath_eq {cwd : Bytes} (hc : cwd.head? = some 47) (p : Bytes) :
    ∃ sl, (sl = b!"/" ∨ sl = b!"//") ∧ abspath cwd p = sl ++ join b!"/" (locate cwd p).reverse := by
  unfold abspath locate
  by_cases h : p.head? = some 47
  · rw [if_pos ((sw_slash p).2 h), if_pos h]; exact normpath_abs h
  · rw [if_neg (by rw [sw_slash]; exact h), if_neg h]
    obtain ⟨h1, h2⟩ := joinPath_walk hc h
    rw [← h2]; exact normpath_abs h1

theorem locate_name {cwd p : Bytes} : ∀ x ∈ locate cwd p, Name x := by
  unfold locate
  split
  · exact walk_name (by simp) _
  · exact walk_name (walk_name (by simp) _) _

theorem locate_noslash {cwd p : Bytes} : ∀ x ∈ locate cwd p, (47 : UInt8) ∉ x := by
  unfold locate
  split
  · exact walk_sub (by simp) comps_mem
  · exact walk_sub (walk_sub (by simp) comps_mem) comps_mem

/-- A path that starts with slashes and goes on with names. -/
theorem locate_abs {cwd sl : Bytes} (hs : sl = b!"/" ∨ sl = b!"//") {l : List Bytes} (hl : ∀ x ∈ l, Name x ∧ (47 : UInt8) ∉ x) :
    locate cwd (sl ++ join b!"/" l) = l.reverse := by
  have hw : walk [] (comps (join b!"/" l)) = l.reverse := by
    cases l with
    | nil => rfl
    | cons a r => rw [comps_join (by simp) (fun x hx => (hl x hx).2), walk_names _ _ (fun x hx => (hl x hx).1)]; simp
  unfold locate
  rcases hs with rfl | rfl
  · rw [if_pos (by rfl)]
    show walk [] (comps ([] ++ 47 :: join b!"/" l)) = _
    rw [comps_slash, walk_append]; exact hw
  · rw [if_pos (by rfl)]
    show walk [] (comps ([47] ++ 47 :: join b!"/" l)) = _
    rw [comps_slash, walk_append]; exact hw

theorem rfind_slash {a b : Bytes} (h : (47 : UInt8) ∉ b) : rfind b!"/" (a ++ 47 :: b) = some a.length :=
  Verif.Proofs.Args.rfind_byte h

theorem join_snoc {l : List Bytes} (h : l ≠ []) (b : Bytes) : join b!"/" (l ++ [b]) = join b!"/" l ++ 47 :: b := by
  rw [Verif.Proofs.Params.join_append h (by simp)]
  simp [join]

theorem join_last {l : List Bytes} (h : l ≠ []) (hn : ∀ x ∈ l, Name x ∧ (47 : UInt8) ∉ x) :
    ∃ u c, join b!"/" l = u ++ [c] ∧ c ≠ 47 := by
  obtain ⟨i, z, rfl⟩ : ∃ i z, l = i ++ [z] := ⟨l.dropLast, l.getLast h, (List.dropLast_concat_getLast h).symm⟩
  obtain ⟨⟨hz, _⟩, hz2⟩ := hn z (by simp)
  obtain ⟨v, c, rfl⟩ : ∃ v c, z = v ++ [c] := ⟨z.dropLast, z.getLast hz, (List.dropLast_concat_getLast hz).symm⟩
  have hc : c ≠ 47 := fun e => hz2 (by simp [e])
  cases i with
  | nil => exact ⟨v, c, rfl, hc⟩
  | cons a r => exact ⟨join b!"/" (a :: r) ++ 47 :: v, c, by rw [join_snoc (by simp)]; simp, hc⟩

/-- `os.path.split` of an absolute normal path. -/
theorem splitPath_abs {sl : Bytes} (hs : sl = b!"/" ∨ sl = b!"//") {l : List Bytes} (hl : ∀ x ∈ l, Name x ∧ (47 : UInt8) ∉ x) {b : Bytes}
    (hb : (47 : UInt8) ∉ b) : splitPath (sl ++ join b!"/" (l ++ [b])) = (sl ++ join b!"/" l, b) := by
  cases l with
  | nil =>
    have hr : rfind b!"/" (sl ++ b) = some (sl.length - 1) := by
      rcases hs with rfl | rfl
      · exact rfind_slash (a := []) hb
      · exact rfind_slash (a := b!"/") hb
    unfold splitPath
    show (_, _) = _
    simp only [List.nil_append, join, hr, List.append_nil]
    rcases hs with rfl | rfl <;> simp
  | cons a r =>
    rw [join_snoc (by simp)]
    obtain ⟨u, c, hu, hc⟩ := join_last (l := a :: r) (by simp) hl
    have hr : rfind b!"/" (sl ++ (join b!"/" (a :: r) ++ 47 :: b)) = some (sl ++ join b!"/" (a :: r)).length := by
      rw [← List.append_assoc]; exact rfind_slash hb
    unfold splitPath
    show (_, _) = _
    simp only [hr]
    have ht : (sl ++ (join b!"/" (a :: r) ++ 47 :: b)).take ((sl ++ join b!"/" (a :: r)).length + 1) = sl ++ join b!"/" (a :: r) ++ [47] := by
      rw [← List.append_assoc, show ∀ x : Bytes, x ++ 47 :: b = (x ++ [47]) ++ b by simp, List.take_left' (by simp; omega)]
    have hd : (sl ++ (join b!"/" (a :: r) ++ 47 :: b)).drop ((sl ++ join b!"/" (a :: r)).length + 1) = b := by
      rw [← List.append_assoc, List.drop_append]; simp
    rw [ht, hd, hu]
    rw [if_pos ?_]
    · simp [hc]
    · refine ⟨by simp, ?_⟩
      simp [hc]

theorem stem_ext {a e : Bytes} (ha : a ≠ []) (hd : (46 : UInt8) ∉ a) (he : (46 : UInt8) ∉ e) : stemOf (a ++ 46 :: e) = a := by
  unfold stemOf
  rw [show rfind b!"." (a ++ 46 :: e) = some a.length from Verif.Proofs.Args.rfind_byte he]
  simp only [List.take_left']
  rw [if_neg]
  obtain ⟨c, t, rfl⟩ := List.exists_cons_of_ne_nil ha
  have : c ≠ 46 := fun e => hd (by simp [e])
  simp [this]

theorem rfind_byte_none {c : UInt8} {s : Bytes} (h : c ∉ s) : rfind [c] s = none := by
  induction s with
  | nil => rfl
  | cons x t ih =>
    unfold rfind
    rw [ih (fun e => h (by simp [e]))]
    have hx : ([c] : Bytes).isPrefixOf (x :: t) = false := by
      have : c ≠ x := fun e => h (by simp [e])
      simp [List.isPrefixOf, this]
    simp [hx]

theorem stem_plain {a : Bytes} (hd : (46 : UInt8) ∉ a) : stemOf a = a := by
  unfold stemOf
  rw [show rfind b!"." a = none from rfind_byte_none hd]

end Verif.Proofs.Launch

namespace Verif.Proofs.Launch
open Verif.Py Verif.Model.Launch Verif.Spec.Launch Verif.Model.Args

/-- The directory of a path. -/
theorem locate_dir {cwd d : Bytes} (hd : d = [] ∨ d.getLast? = some 47) :
    ∃ L, (∀ x ∈ L, Name x ∧ (47 : UInt8) ∉ x) ∧ ∀ b, Name b → (47 : UInt8) ∉ b → locate cwd (d ++ b) = b :: L := by
  have key : ∀ (L : List Bytes), (∀ b, Name b → (47 : UInt8) ∉ b → locate cwd (d ++ b) = b :: L) →
      ∃ L, (∀ x ∈ L, Name x ∧ (47 : UInt8) ∉ x) ∧ ∀ b, Name b → (47 : UInt8) ∉ b → locate cwd (d ++ b) = b :: L := by
    intro L h
    refine ⟨L, ?_, h⟩
    intro x hx
    have h1 := h b!"x" (by unfold Name; decide) (by decide)
    have hm : x ∈ locate cwd (d ++ b!"x") := by rw [h1]; simp [hx]
    exact ⟨locate_name x hm, locate_noslash x hm⟩
  rcases hd with rfl | hd
  · refine key (walk [] (comps cwd)) ?_
    intro b hb hs
    have h1 : (([] : Bytes) ++ b).head? ≠ some 47 := by
      cases b with
      | nil => simp
      | cons c t => intro e; exact hs (by simp at e; simp [e])
    unfold locate
    rw [if_neg h1, List.nil_append, comps_noslash hs, walk_names _ _ (by intro x hx; simp at hx; rw [hx]; exact hb)]
    rfl
  · obtain ⟨u, rfl⟩ : ∃ u, d = u ++ [47] := by
      rw [List.getLast?_eq_some_iff] at hd; exact hd
    have h2 : ∀ (D : List Bytes) (b : Bytes), Name b → (47 : UInt8) ∉ b → walk D (comps (u ++ [47] ++ b)) = b :: walk D (comps u) := by
      intro D b hb hs
      rw [List.append_assoc, show ([47] : Bytes) ++ b = 47 :: b from rfl, comps_slash, walk_append, comps_noslash hs,
        walk_names _ _ (by intro x hx; simp at hx; rw [hx]; exact hb)]
      rfl
    have h3 : ∀ b : Bytes, (u ++ [47] ++ b).head? = (u ++ [47]).head? := by
      intro b; cases u <;> rfl
    by_cases h : (u ++ [47]).head? = some 47
    · exact key _ (by intro b hb hs; unfold locate; rw [h3, if_pos h, h2 _ _ hb hs])
    · exact key _ (by intro b hb hs; unfold locate; rw [h3, if_neg h, h2 _ _ hb hs])

theorem count1_append (c : UInt8) (a b : Bytes) : count1 c (a ++ b) = count1 c a + count1 c b := by simp [count1]

theorem count1_zero {c : UInt8} {a : Bytes} (h : count1 c a = 0) : c ∉ a := by
  unfold count1 at h
  rw [List.countP_eq_zero] at h
  intro hm
  exact h c hm (by simp)

theorem takeWhile_stop {c : UInt8} {a b : Bytes} (h : c ∉ a) : (a ++ c :: b).takeWhile (· != c) = a := by
  induction a with
  | nil => simp
  | cons x t ih =>
    have : x ≠ c := fun e => h (by simp [e])
    simp [this, ih (fun e => h (by simp [e]))]

/-- The text of an application with an attribute is taken as it is. -/
theorem app_kept {x attr : Bytes} (ha : ∀ c ∈ attr, c ≠ 58 ∧ c ≠ 92) :
    ¬ ((contains b!":\\" (x ++ 58 :: attr) = true ∧ count1 58 (x ++ 58 :: attr) < 2) ∨ ¬ contains b!":" (x ++ 58 :: attr) = true) := by
  rintro (⟨h1, h2⟩ | h)
  · rw [contains_iff] at h1
    obtain ⟨s, t, h⟩ := h1
    have h3 : (58 : UInt8) ∉ x := by
      apply count1_zero
      rw [count1_append, show (58 : UInt8) :: attr = [58] ++ attr from rfl, count1_append, show count1 58 [58] = 1 from rfl] at h2
      omega
    have h4 : (58 : UInt8) ∉ s := by
      apply count1_zero
      rw [← h, count1_append, count1_append, show count1 58 b!":\\" = 1 from rfl] at h2
      omega
    have h' : s ++ 58 :: (92 :: t) = x ++ 58 :: attr := by rw [← h]; simp
    have e : s = x := by rw [← takeWhile_stop (b := 92 :: t) h4, h', takeWhile_stop h3]
    rw [e] at h'
    have := List.append_cancel_left h'
    injection this with _ h5
    exact (ha 92 (by rw [← h5]; simp)).2 rfl
  · apply h
    rw [contains_singleton]; simp

theorem rsplit_colon {x attr : Bytes} (ha : (58 : UInt8) ∉ attr) : rsplitColon (x ++ 58 :: attr) = (x, attr) := by
  unfold rsplitColon
  rw [show rfind b!":" (x ++ 58 :: attr) = some x.length from Verif.Proofs.Args.rfind_byte ha]
  simp only
  rw [List.take_left, ← List.drop_drop, List.drop_left]
  rfl

theorem locate_under {cwd sl : Bytes} (hs : sl = b!"/" ∨ sl = b!"//") {L : List Bytes} (hl : ∀ x ∈ L, Name x ∧ (47 : UInt8) ∉ x) {b : Bytes}
    (hb : Name b) (hn : (47 : UInt8) ∉ b) : locate cwd (sl ++ join b!"/" L.reverse ++ b!"/" ++ b) = b :: L := by
  have h1 := locate_abs (cwd := cwd) hs (l := L.reverse) (by intro x hx; exact hl x (by simpa using hx))
  have hh : ∀ r, (sl ++ join b!"/" L.reverse ++ r).head? = some 47 := by
    intro r; rcases hs with rfl | rfl <;> rfl
  unfold locate at h1 ⊢
  rw [show (sl ++ join b!"/" L.reverse).head? = some 47 by simpa using hh []] at h1
  rw [List.append_assoc _ b!"/" b, hh, if_pos rfl]
  rw [if_pos rfl] at h1
  rw [show b!"/" ++ b = 47 :: b from rfl, comps_slash, walk_append, h1, comps_noslash hn,
    walk_names _ _ (by intro x hx; simp at hx; rw [hx]; exact hb)]
  simp

/-- Directory and module of a path whose last component is a name with or without an extension. -/
theorem split_target {cwd d stem ext : Bytes} (hc : cwd.head? = some 47) (hd : d = [] ∨ d.getLast? = some 47) (hs : stem ≠ [])
    (h47 : (47 : UInt8) ∉ stem) (h46 : (46 : UInt8) ∉ stem) (he : ext = [] ∨ ext = b!".py") :
    ∃ dir, (splitPath (abspath cwd (d ++ stem ++ ext))).1 = dir ∧ stemOf (splitPath (abspath cwd (d ++ stem ++ ext))).2 = stem ∧
      dir.head? = some 47 ∧ locate cwd (dir ++ b!"/" ++ stem ++ b!".py") = locate cwd (d ++ stem ++ b!".py") := by
  have hname : ∀ e, (47 : UInt8) ∉ e → Name (stem ++ e) ∧ (47 : UInt8) ∉ stem ++ e := by
    intro e h
    refine ⟨⟨by simp [hs], ?_, ?_⟩, by simp [h47, h]⟩ <;>
    · obtain ⟨c, t, rfl⟩ := List.exists_cons_of_ne_nil hs
      have : c ≠ 46 := fun e => h46 (by simp [e])
      simp [this]
  obtain ⟨L, hL, hl⟩ := locate_dir (cwd := cwd) hd
  have hext : (47 : UInt8) ∉ ext := by rcases he with rfl | rfl <;> decide
  obtain ⟨sl, hsl, ha⟩ := abspath_eq hc (d ++ stem ++ ext)
  obtain ⟨n1, n2⟩ := hname ext hext
  rw [List.append_assoc, hl _ n1 n2, List.reverse_cons] at ha
  rw [List.append_assoc, ha, splitPath_abs hsl (by intro x hx; exact hL x (by simpa using hx)) n2]
  refine ⟨_, rfl, ?_, ?_, ?_⟩
  · show stemOf (stem ++ ext) = stem
    rcases he with rfl | rfl
    · rw [List.append_nil]; exact stem_plain h46
    · exact stem_ext hs h46 (by decide)
  · rcases hsl with rfl | rfl <;> rfl
  · obtain ⟨m1, m2⟩ := hname b!".py" (by decide)
    rw [List.append_assoc _ stem, List.append_assoc d, locate_under hsl hL m1 m2, hl _ m1 m2]

theorem loopOf_some {o : Verif.Model.App.Opts Val} {t m c : Bytes} (h : Dict.get o b!"loop" = some (.v (.str t))) (hl : Spec.Launch.Loop t m c) :
    loopOf o = some (m, c) := by
  unfold loopOf
  rw [h]
  simp only [Option.getD_some]
  cases hl with
  | named _ _ hm hc hd =>
    have h1 : m ++ b!"." ++ c = m ++ 46 :: c := by simp
    have h2 : contains b!"." (m ++ 46 :: c) = true := by
      rw [contains_iff]; exact ⟨m, c, by simp⟩
    rw [h1, if_pos h2, show rfind b!"." (m ++ 46 :: c) = some m.length from Verif.Proofs.Args.rfind_byte hd]
    simp only [Option.getD_some]
    rw [List.take_left, ← List.drop_drop, List.drop_left]
    simp [hm, hc]
  | plain _ hm hd =>
    have h2 : ¬ contains b!"." t = true := by
      rw [contains_iff]
      rintro ⟨a, b, h⟩
      exact hd (by rw [← h]; simp)
    rw [if_neg h2, show rfind b!"." (t ++ b!".") = some t.length from Verif.Proofs.Args.rfind_byte (by simp)]
    simp only [Option.getD_some]
    rw [List.take_left, ← List.drop_drop, List.drop_left]
    simp [hm]

theorem loopOf_none {o : Verif.Model.App.Opts Val} (h : Dict.get o b!"loop" = none) : loopOf o = some (b!"asyncio", b!"new_event_loop") := by
  unfold loopOf
  rw [h]
  decide

end Verif.Proofs.Launch
