import Verif.Props.RebindCases
/-!
# C103: which of several server objects is taken over, and what has no method
-/
namespace Verif
open Verif.Py Verif.Model.Rebind Verif.Spec.Rebind
open Proofs.Rebind

namespace Rebind
/-- Under the name `n` the module has the server object `i`, which is not the running one, of a class that the reload looks for. -/
def Taken (me : Self) (q : Mod) (n : Bytes) (i : Nat) : Prop :=
  ¬ b!"__" <+: n ∧ ∃ c, Dict.get q.attrs n = some (.app c i) ∧ (me.cls = 0 ∨ c = me.cls) ∧ i ≠ me.id

theorem le_iff : ∀ a b : Bytes, le a b = true ↔ a ≤ b
  | [], b => by simp [le]
  | x :: a, [] => by simp [le]
  | x :: a, y :: b => by
    rw [List.cons_le_cons_iff, ← le_iff a b]
    simp [le]

theorem le_total' (a b : Bytes) (h : le a b = false) : le b a = true := by
  rw [le_iff]
  rcases List.le_total a b with g | g
  · rw [← le_iff, h] at g; cases g
  · exact g

theorem sorted_insert (x : Bytes) : ∀ l : List Bytes, l.Pairwise (· ≤ ·) → (insertName x l).Pairwise (· ≤ ·)
  | [], _ => by simp [insertName]
  | y :: t, h => by
    have h' := List.pairwise_cons.1 h
    unfold insertName
    split
    · next g =>
      rw [le_iff] at g
      refine List.pairwise_cons.2 ⟨fun z hz => ?_, h⟩
      rcases List.mem_cons.1 hz with rfl | hz
      · exact g
      · exact List.le_trans g (h'.1 z hz)
    · next g =>
      refine List.pairwise_cons.2 ⟨fun z hz => ?_, sorted_insert x t h'.2⟩
      rcases (mem_insertName x z t).1 hz with rfl | hz
      · exact (le_iff _ _).1 (le_total' _ _ (by simpa using g))
      · exact h'.1 z hz

theorem sorted_dir (q : Mod) : (dir q).Pairwise (· ≤ ·) := by
  unfold dir
  induction q.attrs.map (·.1) with
  | nil => simp
  | cons x t ih => exact sorted_insert x _ ih

theorem rebind_cons {me : Self} {q : Mod} {n : Bytes} {t : List Bytes} {r : Nat} :
    (∃ i, Taken me q n i ∧ rebind me q (n :: t) r = rebind me q t i) ∨ ((∀ i, ¬ Taken me q n i) ∧ rebind me q (n :: t) r = rebind me q t r) := by
  rw [rebind]
  by_cases hs : startsWith n b!"__" = true
  · rw [if_pos hs]
    refine .inr ⟨fun i h => h.1 ?_, rfl⟩
    exact List.isPrefixOf_iff_prefix.1 hs
  · rw [if_neg hs]
    have hs' : ¬ b!"__" <+: n := fun g => hs (List.isPrefixOf_iff_prefix.2 g)
    split
    · next c i hc =>
      by_cases g : (me.cls = 0 ∨ c = me.cls) ∧ i ≠ me.id
      · rw [if_pos g]
        exact .inl ⟨i, ⟨hs', c, hc, g⟩, rfl⟩
      · rw [if_neg g]
        refine .inr ⟨?_, rfl⟩
        rintro j ⟨-, c', h1, h2⟩
        rw [hc] at h1
        cases h1
        exact g h2
    · next hn =>
      refine .inr ⟨?_, rfl⟩
      rintro j ⟨-, c', h1, -⟩
      exact hn _ _ h1

theorem Taken.unique {me : Self} {q : Mod} {n : Bytes} {i j : Nat} (h : Taken me q n i) (g : Taken me q n j) : i = j := by
  obtain ⟨-, c, h1, -⟩ := h
  obtain ⟨-, c', h2, -⟩ := g
  rw [h1] at h2
  cases h2
  rfl

theorem rebind_none {me : Self} {q : Mod} (h : ∀ n i, ¬ Taken me q n i) : ∀ (l : List Bytes) (r : Nat), rebind me q l r = r
  | [], _ => rfl
  | n :: t, r => by
    rcases rebind_cons (me := me) (q := q) (n := n) (t := t) (r := r) with ⟨i, hi, -⟩ | ⟨-, e⟩
    · exact absurd hi (h n i)
    · rw [e, rebind_none h t r]

theorem rebind_last {me : Self} {q : Mod} {n : Bytes} {i : Nat} (hn : Taken me q n i) (hm : ∀ m j, Taken me q m j → m ≤ n) :
    ∀ (l : List Bytes) (r : Nat), l.Pairwise (· ≤ ·) → (n ∈ l ∨ r = i ∧ ∀ m ∈ l, n ≤ m) → rebind me q l r = i
  | [], r, _, h => by
    rcases h with h | h
    · cases h
    · exact h.1
  | m :: t, r, hp, h => by
    have hp' := List.pairwise_cons.1 hp
    have next : ∀ r', (n = m → r' = i) → (r = i → n ≤ m → r' = i) → rebind me q t r' = i := by
      intro r' h1 h2
      refine rebind_last hn hm t r' hp'.2 ?_
      rcases h with h | h
      · rcases List.mem_cons.1 h with h | h
        · exact .inr ⟨h1 h, fun z hz => h ▸ hp'.1 z hz⟩
        · exact .inl h
      · exact .inr ⟨h2 h.1 (h.2 m List.mem_cons_self), fun z hz => h.2 z (List.mem_cons_of_mem _ hz)⟩
    rcases rebind_cons (me := me) (q := q) (n := m) (t := t) (r := r) with ⟨j, hj, e⟩ | ⟨hj, e⟩
    · rw [e]
      refine next j ?_ ?_
      · intro g
        subst g
        exact hj.unique hn
      · intro _ g
        have : n = m := List.le_antisymm g (hm m j hj)
        subst this
        exact hj.unique hn
    · rw [e]
      refine next r ?_ (fun g _ => g)
      intro g
      subst g
      exact absurd hn (hj i)
end Rebind

open Rebind

/-- **C103 (which object).** Of all the server objects that the main module has after a reload, the new workers are given the
registrations of the one whose name comes last in the alphabetical order of the names, whatever the order in the text; if there
is none, they are given those as before. -/
theorem C103_last {d : Disk} {fuel : Nat} {appDir main : Bytes} {s s' : St} {me me' : Self} {q : Mod}
    (h : onReload d fuel appDir main s me = .ok (s', me')) (hq : Dict.get s'.mods main = some q) :
    (∀ n i, Taken me q n i → (∀ m j, Taken me q m j → m ≤ n) → me'.routes = i) ∧ ((∀ n i, ¬ Taken me q n i) → me'.routes = me.routes) := by
  unfold onReload at h
  split at h
  · cases h
  · split at h
    · cases h
    · cases h
      rw [hq]
      refine ⟨fun n i hn hm => ?_, fun hn => rebind_none hn _ _⟩
      refine rebind_last hn hm _ _ (sorted_dir q) (.inl ?_)
      obtain ⟨-, c, h1, -⟩ := hn
      exact mem_dir.2 (by simp [Dict.mem, h1])

/-- **C103 (methods).** A route or a middleware can be added to an application object by a method of it; the handler of an error or a hook cannot, the text
ends with an exception there. -/
theorem C103_methods (imp : Bytes → St → Except Err St) (m a h : Bytes) (s : St) (p : Place) (rest : List Stmt) (c i : Nat) (o : Obj)
    (ha : attr s m a = some (.app c i)) (hh : attr s m h = some o) :
    ((∃ pat, p = .path pat) ∨ (∃ w, p = .mw w) → exec imp m [.route a p h] s = .ok { s with heap := Dict.set s.heap i ((Dict.get s.heap i).getD [] ++ [(p, o)]) }) ∧
    ((∃ code, p = .err code) ∨ (∃ w, p = .hook w) → exec imp m (.route a p h :: rest) s = .error .raised) := by
  constructor
  · rintro (⟨_, rfl⟩ | ⟨_, rfl⟩) <;> simp [exec, step, ha, hh, Place.added, addRoute]
  · rintro (⟨_, rfl⟩ | ⟨_, rfl⟩) <;> simp [exec, step, ha, hh, Place.added]

namespace RebindOrder
def q : Mod := ⟨some b!"/app/main.py", [(b!"test", .app 0 7), (b!"__z", .app 0 9), (b!"pp", .app 0 8), (b!"f", .fn b!"main" b!"f" 3)]⟩
def s : St := ⟨[(b!"main", q)], [(7, []), (8, []), (9, [])], 10⟩
/-- No file has a text, so that the reload finds the objects as they are. -/
def d : Disk := ⟨fun _ => none, fun _ => none⟩

/-- `test` comes after `pp`, and `__z` does not count. -/
example : (7 : Nat) = 7 :=
  (C103_last (d := d) (fuel := 0) (appDir := b!"/app") (main := b!"main") (s := s) (s' := s) (me := ⟨0, 1, 1⟩) (me' := ⟨0, 1, 7⟩) (q := q) (by rfl) (by decide +kernel)).1
    b!"test" 7 ⟨by decide, 0, by decide +kernel, .inl rfl, by decide⟩ (by
      rintro m j ⟨h1, c, h2, -⟩
      have hm := mem_dir.2 (show Dict.mem q.attrs m = true by simp [Dict.mem, h2])
      have e : dir q = [b!"__z", b!"f", b!"pp", b!"test"] := by decide +kernel
      rw [e] at hm
      simp only [List.mem_cons, List.not_mem_nil, or_false] at hm
      rcases hm with rfl | rfl | rfl | rfl <;> first | exact absurd (by decide) h1 | decide)

example : exec (load d 0) b!"main" [.route b!"test" (.err 404) b!"f", .defn b!"g" []] s = .error .raised :=
  (C103_methods (load d 0) b!"main" b!"test" b!"f" s (.err 404) _ 0 7 (.fn b!"main" b!"f" 3) (by decide +kernel) (by decide +kernel)).2 (.inl ⟨_, rfl⟩)
end RebindOrder

end Verif
