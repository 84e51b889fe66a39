import Verif.Model.Cleanup
import Verif.Py.Util
/-!
# C96: when a connection is lost, what it has started is stopped
-/
namespace Verif
open Model.Cleanup

namespace Proofs.Cleanup

/-- A task is alive: it was created, and if `create_task` made it, it is not done. -/
def Alive : List Ev → Nat → Prop
  | es, k => ∃ pre w post, es = pre ++ .create w :: post ∧ (pre.filter (fun | .create _ => true | _ => false)).length = k ∧
      (w = true → .finish k ∉ post)

def creates (es : List Ev) : Nat := (es.filter (fun | .create _ => true | _ => false)).length

@[simp] theorem creates_append (a b : List Ev) : creates (a ++ b) = creates a + creates b := by simp [creates]

theorem run_snoc (es : List Ev) (e : Ev) : run (es ++ [e]) = step (run es) e := by simp [run]

theorem mem_add {x y : Item} {l : List Item} : x ∈ add y l ↔ x = y ∨ x ∈ l := by
  unfold add
  split
  · next h => exact ⟨.inr, fun hx => hx.elim (fun e => e ▸ h) id⟩
  · simp

theorem nodup_add {y : Item} {l : List Item} (h : l.Nodup) : (add y l).Nodup := by
  unfold add
  split
  · exact h
  · next hn => exact List.nodup_cons.2 ⟨hn, h⟩

/-- What is known of the set. -/
structure Inv (es : List Ev) (s : St) : Prop where
  nodup : s.tasks.Nodup
  created : s.created = creates es
  watched : ∀ k, k ∈ s.watched ↔ ∃ pre post, es = pre ++ .create true :: post ∧ creates pre = k
  below : ∀ k, .task k ∈ s.tasks → k < s.created
  task : ∀ k, .task k ∈ s.tasks ↔ Alive es k
  func : ∀ f, .func f ∈ s.tasks ↔ .add f ∈ es

theorem alive_snoc (es : List Ev) (e : Ev) (k : Nat) :
    Alive (es ++ [e]) k ↔ (Alive es k ∧ (e = .finish k → ∃ pre post, es = pre ++ .create false :: post ∧ creates pre = k)) ∨
      (∃ w, e = .create w ∧ creates es = k) := by
  constructor
  · rintro ⟨pre, w, post, he, hk, hf⟩
    rcases List.eq_nil_or_concat post with rfl | ⟨p, z, rfl⟩
    · obtain ⟨rfl, e2⟩ := List.append_inj' he rfl
      cases e2
      exact .inr ⟨w, rfl, hk⟩
    · rw [List.concat_eq_append, ← List.cons_append, ← List.append_assoc] at he
      obtain ⟨rfl, e2⟩ := List.append_inj' he rfl
      cases e2
      refine .inl ⟨⟨pre, w, p, rfl, hk, fun hw hm => hf hw (by simp [hm])⟩, ?_⟩
      rintro rfl
      cases w with
      | true => exact absurd (by simp) (hf rfl)
      | false => exact ⟨pre, p, rfl, hk⟩
  · rintro (⟨⟨pre, w, post, rfl, hk, hf⟩, hfin⟩ | ⟨w, rfl, hk⟩)
    · by_cases he : e = .finish k
      · obtain ⟨pre', post', e', hk'⟩ := hfin he
        exact ⟨pre', false, post' ++ [e], by rw [e']; simp, hk', fun h => by cases h⟩
      · refine ⟨pre, w, post ++ [e], by simp, hk, fun hw hm => ?_⟩
        rcases List.mem_append.1 hm with hm | hm
        · exact hf hw hm
        · exact he (List.mem_singleton.1 hm).symm
    · exact ⟨es, w, [], rfl, hk, fun _ => by simp⟩

/-- A number belongs to one task. -/
theorem creates_inj {a b c d : List Ev} {v w : Bool} (h : a ++ .create v :: b = c ++ .create w :: d) (hk : creates a = creates c) : v = w := by
  rcases List.append_eq_append_iff.1 h with ⟨m, rfl, h2⟩ | ⟨m, rfl, h2⟩
  · cases m with
    | nil => simp at h2; exact h2.1
    | cons x m =>
      simp at h2
      rw [← h2.1] at hk
      simp [creates] at hk
  · cases m with
    | nil => simp at h2; exact h2.1.symm
    | cons x m =>
      simp at h2
      rw [← h2.1] at hk
      simp [creates] at hk

theorem inv_run (es : List Ev) : Inv es (run es) := by
  induction es using snocInd with
  | h0 => exact ⟨by simp [run], rfl, by simp [run], by simp [run], fun k => by simp [run, Alive], by simp [run]⟩
  | h1 es e ih =>
    rw [run_snoc]
    cases e with
    | create w =>
      refine ⟨nodup_add ih.nodup, by simp [step, ih.created, creates], fun k => ?_, fun k hk => ?_, fun k => ?_, fun f => ?_⟩
      · have : k ∈ (step (run es) (.create w)).watched ↔ (w = true ∧ k = (run es).created) ∨ k ∈ (run es).watched := by
          simp only [step]; cases w <;> simp
        rw [this, ih.watched, ih.created]
        constructor
        · rintro (⟨rfl, rfl⟩ | ⟨pre, post, rfl, hk⟩)
          · exact ⟨es, [], rfl, rfl⟩
          · exact ⟨pre, post ++ [.create w], by simp, hk⟩
        · rintro ⟨pre, post, he, hk⟩
          rcases List.eq_nil_or_concat post with rfl | ⟨p, z, rfl⟩
          · obtain ⟨rfl, e2⟩ := List.append_inj' he rfl
            cases e2; exact .inl ⟨rfl, hk.symm⟩
          · rw [List.concat_eq_append, ← List.cons_append, ← List.append_assoc] at he
            obtain ⟨rfl, -⟩ := List.append_inj' he rfl
            exact .inr ⟨pre, p, rfl, hk⟩
      · rcases mem_add.1 hk with e | hk
        · cases e; exact Nat.lt_succ_self _
        · exact Nat.lt_succ_of_lt (ih.below k hk)
      · rw [alive_snoc, ← ih.task]
        show Item.task k ∈ add _ _ ↔ _
        rw [mem_add, ih.created]
        constructor
        · rintro (h | h)
          · cases h; exact .inr ⟨w, rfl, rfl⟩
          · exact .inl ⟨h, fun h => by cases h⟩
        · rintro (⟨h, -⟩ | ⟨w', he, rfl⟩)
          · exact .inr h
          · exact .inl rfl
      · show Item.func f ∈ add _ _ ↔ _
        rw [mem_add, ih.func]; simp
    | finish k =>
      simp only [step]
      have hw := ih.watched k
      by_cases hk : k ∈ (run es).watched
      · rw [if_pos hk]
        obtain ⟨pre, post, he, hc⟩ := hw.1 hk
        refine ⟨ih.nodup.filter _, by simp [ih.created, creates], fun j => ?_, fun j hj => ih.below j (List.mem_filter.1 hj).1, fun j => ?_, fun f => ?_⟩
        · rw [ih.watched]
          constructor
          · rintro ⟨pre, post, rfl, hj⟩; exact ⟨pre, post ++ [.finish k], by simp, hj⟩
          · rintro ⟨pre, post, he, hj⟩
            rcases List.eq_nil_or_concat post with rfl | ⟨p, z, rfl⟩
            · obtain ⟨-, e2⟩ := List.append_inj' he rfl
              cases e2
            · rw [List.concat_eq_append, ← List.cons_append, ← List.append_assoc] at he
              obtain ⟨rfl, -⟩ := List.append_inj' he rfl
              exact ⟨pre, p, rfl, hj⟩
        · rw [alive_snoc, List.mem_filter, ih.task]
          constructor
          · rintro ⟨h1, h2⟩
            exact .inl ⟨h1, fun h => by cases h; simp at h2⟩
          · rintro (⟨h1, h2⟩ | ⟨w, h, -⟩)
            · refine ⟨h1, ?_⟩
              by_cases hjk : j = k
              · subst hjk
                obtain ⟨pre', post', he', hc'⟩ := h2 rfl
                rw [he] at he'
                have := creates_inj he' (hc.trans hc'.symm)
                cases this
              · simp [hjk]
            · cases h
        · rw [List.mem_filter, ih.func]; simp
      · rw [if_neg hk]
        refine ⟨ih.nodup, by simp [ih.created, creates], fun j => ?_, ih.below, fun j => ?_, fun f => ?_⟩
        · rw [ih.watched]
          constructor
          · rintro ⟨pre, post, rfl, hj⟩; exact ⟨pre, post ++ [.finish k], by simp, hj⟩
          · rintro ⟨pre, post, he, hj⟩
            rcases List.eq_nil_or_concat post with rfl | ⟨p, z, rfl⟩
            · obtain ⟨-, e2⟩ := List.append_inj' he rfl
              cases e2
            · rw [List.concat_eq_append, ← List.cons_append, ← List.append_assoc] at he
              obtain ⟨rfl, -⟩ := List.append_inj' he rfl
              exact ⟨pre, p, rfl, hj⟩
        · rw [alive_snoc, ih.task]
          constructor
          · intro h1
            refine .inl ⟨h1, fun h => ?_⟩
            cases h
            obtain ⟨pre, w, post, he, hc, -⟩ := h1
            cases w with
            | true => exact absurd (hw.2 ⟨pre, post, he, hc⟩) hk
            | false => exact ⟨pre, post, he, hc⟩
          · rintro (⟨h1, -⟩ | ⟨w, h, -⟩)
            · exact h1
            · cases h
        · rw [ih.func]; simp
    | add f =>
      refine ⟨nodup_add ih.nodup, by simp [step, ih.created, creates], fun j => ?_, fun j hj => ?_, fun j => ?_, fun g => ?_⟩
      · show j ∈ (run es).watched ↔ _
        rw [ih.watched]
        constructor
        · rintro ⟨pre, post, rfl, hj⟩; exact ⟨pre, post ++ [.add f], by simp, hj⟩
        · rintro ⟨pre, post, he, hj⟩
          rcases List.eq_nil_or_concat post with rfl | ⟨p, z, rfl⟩
          · obtain ⟨-, e2⟩ := List.append_inj' he rfl
            cases e2
          · rw [List.concat_eq_append, ← List.cons_append, ← List.append_assoc] at he
            obtain ⟨rfl, -⟩ := List.append_inj' he rfl
            exact ⟨pre, p, rfl, hj⟩
      · rcases mem_add.1 hj with e | hj
        · cases e
        · exact ih.below j hj
      · rw [alive_snoc, ← ih.task]
        show Item.task j ∈ add _ _ ↔ _
        rw [mem_add]
        constructor
        · rintro (h | h)
          · cases h
          · exact .inl ⟨h, fun h => by cases h⟩
        · rintro (⟨h, -⟩ | ⟨w', he, -⟩)
          · exact .inr h
          · cases he
      · show Item.func g ∈ add _ _ ↔ _
        rw [mem_add, ih.func]; simp
        exact ⟨fun h => h.symm, fun h => h.symm⟩

/-- What is done with an element. -/
def actOf : Item → Act
  | .task k => .cancel k
  | .func f => .call f

theorem actOf_inj {x y : Item} (h : actOf x = actOf y) : x = y := by
  cases x <;> cases y <;> simp [actOf] at h <;> simp [h]

theorem mem_foldr_add {x : Item} {a l : List Item} : x ∈ a.foldr add l ↔ x ∈ a ∨ x ∈ l := by
  induction a with
  | nil => simp
  | cons y a ih => simp [mem_add, ih, or_assoc]

/-- A loop that ends has dealt with everything. -/
theorem loop_all {adds : Nat → List Item} {l : List Item} {as : List Act} (h : Loop adds l as) : ∀ x ∈ l, actOf x ∈ as := by
  induction h with
  | done => simp
  | @cancel l k as hm _ ih =>
    intro x hx
    by_cases hk : x = .task k
    · subst hk; simp [actOf]
    · exact List.mem_cons_of_mem _ (ih x (List.mem_filter.2 ⟨hx, by simp [hk]⟩))
  | @call l f as hm _ ih =>
    intro x hx
    by_cases hk : x = .func f
    · subst hk; simp [actOf]
    · exact List.mem_cons_of_mem _ (ih x (mem_foldr_add.2 (.inr (List.mem_filter.2 ⟨hx, by simp [hk]⟩))))

/-- Without additions, each element is dealt with once. -/
theorem loop_once {l : List Item} {as : List Act} (h : Loop (fun _ => []) l as) : as.Nodup ∧ ∀ a ∈ as, ∃ x ∈ l, a = actOf x := by
  induction h with
  | done => simp
  | @cancel l k as hm _ ih =>
    refine ⟨List.nodup_cons.2 ⟨fun hk => ?_, ih.1⟩, fun a ha => ?_⟩
    · obtain ⟨x, hx, e⟩ := ih.2 _ hk
      have : x = .task k := actOf_inj e.symm
      subst this
      simp at hx
    · rcases List.mem_cons.1 ha with rfl | ha
      · exact ⟨.task k, hm, rfl⟩
      · obtain ⟨x, hx, e⟩ := ih.2 _ ha
        exact ⟨x, (List.mem_filter.1 hx).1, e⟩
  | @call l f as hm _ ih =>
    refine ⟨List.nodup_cons.2 ⟨fun hk => ?_, ih.1⟩, fun a ha => ?_⟩
    · obtain ⟨x, hx, e⟩ := ih.2 _ hk
      have : x = .func f := actOf_inj e.symm
      subst this
      simp at hx
    · rcases List.mem_cons.1 ha with rfl | ha
      · exact ⟨.func f, hm, rfl⟩
      · obtain ⟨x, hx, e⟩ := ih.2 _ ha
        exact ⟨x, (List.mem_filter.1 (show x ∈ l.filter (fun y => y ≠ .func f) from hx)).1, e⟩

theorem filter_length {x : Item} {l : List Item} (h : x ∈ l) : (l.filter (fun y => y ≠ x)).length < l.length := by
  induction l with
  | nil => cases h
  | cons y l ih =>
    by_cases hy : y = x
    · rw [List.filter_cons_of_neg (by simp [hy])]
      exact Nat.lt_succ_of_le (List.length_filter_le _ _)
    · rw [List.filter_cons_of_pos (by simp [hy])]
      have hx : x ∈ l := (List.mem_cons.1 h).resolve_left (fun e => hy e.symm)
      have := ih hx
      simp only [List.length_cons]
      omega

/-- Whatever is popped first, the loop comes to an end. -/
theorem loop_ends : ∀ (n : Nat) (l : List Item), l.length ≤ n → ∃ as, Loop (fun _ => []) l as
  | _, [], _ => ⟨[], .done⟩
  | 0, _ :: _, h => by simp at h
  | n + 1, x :: l, h => by
    have hl := filter_length (x := x) (l := x :: l) (by simp)
    obtain ⟨as, ha⟩ := loop_ends n ((x :: l).filter (fun y => y ≠ x)) (by simp only [List.length_cons] at hl h ⊢; omega)
    cases x with
    | task k => exact ⟨_, .cancel (by simp) ha⟩
    | func f => exact ⟨_, .call (by simp) ha⟩

end Proofs.Cleanup
open Proofs.Cleanup

/-- **C96 (everything is stopped).** When a connection is lost, every task that it has created and that is not done is cancelled, and every
callable that was put into `context.tasks` is called, each exactly once; no task that is done is cancelled, except that of
`_send_data`, for which this does nothing. This holds if the callables put nothing into the set themselves, whatever the order of the set,
and then the loop ends. -/
theorem C96_stopped (es : List Ev) :
    (∃ as, Loop (fun _ => []) (run es).tasks as) ∧
    ∀ as, Loop (fun _ => []) (run es).tasks as →
      as.Nodup ∧ (∀ k, .cancel k ∈ as ↔ Alive es k) ∧ (∀ f, .call f ∈ as ↔ .add f ∈ es) := by
  have hi := inv_run es
  refine ⟨loop_ends _ _ (Nat.le_refl _), fun as h => ⟨(loop_once h).1, fun k => ?_, fun f => ?_⟩⟩
  · rw [← hi.task]
    constructor
    · intro hm
      obtain ⟨x, hx, e⟩ := (loop_once h).2 _ hm
      have : x = .task k := actOf_inj e.symm
      exact this ▸ hx
    · intro hm; exact loop_all h _ hm
  · rw [← hi.func]
    constructor
    · intro hm
      obtain ⟨x, hx, e⟩ := (loop_once h).2 _ hm
      have : x = .func f := actOf_inj e.symm
      exact this ▸ hx
    · intro hm; exact loop_all h _ hm

/-- **C96 (partial: the loop ends).** The same with callables that put more into the set: if the loop ends, everything was cancelled or called, and also
what was added. -/
theorem C96_all_partial (es : List Ev) (adds : Nat → List Item) {as : List Act} (h : Loop adds (run es).tasks as) :
    (∀ k, Alive es k → .cancel k ∈ as) ∧ (∀ f, .add f ∈ es → .call f ∈ as) ∧
    (∀ f, .call f ∈ as → (∀ k, .task k ∈ adds f → .cancel k ∈ as) ∧ ∀ g, .func g ∈ adds f → .call g ∈ as) := by
  have hi := inv_run es
  refine ⟨fun k hk => loop_all h _ ((hi.task k).2 hk), fun f hf => loop_all h _ ((hi.func f).2 hf), ?_⟩
  generalize (run es).tasks = l at h
  induction h with
  | done => simp
  | cancel _ _ ih =>
    intro f hf
    obtain ⟨h1, h2⟩ := ih f (by simpa using hf)
    exact ⟨fun k hk => List.mem_cons_of_mem _ (h1 k hk), fun g hg => List.mem_cons_of_mem _ (h2 g hg)⟩
  | @call l f' as _ hl ih =>
    intro f hf
    rcases List.mem_cons.1 hf with e | hf
    · cases e
      have := loop_all hl
      exact ⟨fun k hk => List.mem_cons_of_mem _ (this (.task k) (mem_foldr_add.2 (.inl hk))),
        fun g hg => List.mem_cons_of_mem _ (this (.func g) (mem_foldr_add.2 (.inl hg)))⟩
    · obtain ⟨h1, h2⟩ := ih f hf
      exact ⟨fun k hk => List.mem_cons_of_mem _ (h1 k hk), fun g hg => List.mem_cons_of_mem _ (h2 g hg)⟩

/-- The task of `_send_data` (0), two others of which one is done, and the `close` of a file. -/
example : (run [.create false, .create true, .add 7, .create true, .add 7, .finish 1]).tasks = [.task 2, .func 7, .task 0] ∧
    Alive [.create false, .create true, .add 7, .create true, .add 7, .finish 1] 2 :=
  ⟨by decide, [.create false, .create true, .add 7], true, [.add 7, .finish 1], rfl, by decide, by simp⟩

/-- **C96 refuted: the loop does not end** if a callable puts itself into the set again. -/
theorem C96_refuted_loop (as : List Act) : ¬ Loop (fun _ => [.func 0]) (run [.add 0]).tasks as := by
  suffices h : ∀ l as, Loop (fun _ => [.func 0]) l as → l ≠ [.func 0] from fun hl => h _ _ hl (by decide)
  intro l as h
  induction h with
  | done => simp
  | cancel hm _ _ => rintro rfl; simp at hm
  | call hm _ ih =>
    rintro rfl
    simp at hm
    subst hm
    exact ih (by decide)

end Verif
