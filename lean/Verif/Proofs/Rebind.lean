import Verif.Spec.Rebind
/-! Lemmas on running module texts. -/
namespace Verif.Proofs.Rebind
open Verif.Py Verif.Model.Rebind Verif.Spec.Rebind

abbrev keys (s : St) : List Bytes := s.mods.map (·.1)

theorem mem_keys {s : St} {m : Bytes} : m ∈ keys s ↔ Dict.mem s.mods m = true := by
  rw [Dict.mem_iff]
  simp [keys]

theorem get_assign {s : St} {m x : Bytes} {o : Obj} {q : Mod} (h : Dict.get s.mods m = some q) (m' : Bytes) :
    Dict.get (assign s m x o).mods m' = if m = m' then some { q with attrs := Dict.set q.attrs x o } else Dict.get s.mods m' := by
  unfold assign
  rw [h]
  exact Dict.get_set _ _ _ _

theorem attr_assign {s : St} {m x : Bytes} {o : Obj} {q : Mod} (h : Dict.get s.mods m = some q) (m' x' : Bytes) :
    attr (assign s m x o) m' x' = if m = m' ∧ x = x' then some o else attr s m' x' := by
  unfold attr
  rw [get_assign h]
  by_cases e : m = m'
  · subst e
    simp [h, Dict.get_set]
  · simp [e]

theorem keys_assign (s : St) (m x : Bytes) (o : Obj) : keys (assign s m x o) = keys s := by
  unfold assign
  cases h : Dict.get s.mods m with
  | none => rfl
  | some q =>
    show (Dict.set s.mods m _).map (·.1) = _
    rw [Dict.keys_set, if_pos (by simp [Dict.mem, h])]

theorem heap_assign (s : St) (m x : Bytes) (o : Obj) : (assign s m x o).heap = s.heap := by
  unfold assign; split <;> rfl

theorem next_assign (s : St) (m x : Bytes) (o : Obj) : (assign s m x o).next = s.next := by
  unfold assign; split <;> rfl

/-- The text defines functions and nothing else. -/
def Defs (t : List Stmt) : Prop := ∀ c ∈ t, ∃ n, c = .defn n []

theorem exec_defs (imp : Bytes → St → Except Err St) (m : Bytes) : ∀ (t : List Stmt) (s : St) (q : Mod), Defs t → Dict.get s.mods m = some q →
    ∃ s' q', exec imp m t s = .ok s' ∧ keys s' = keys s ∧ (∀ m', m' ≠ m → Dict.get s'.mods m' = Dict.get s.mods m') ∧ s'.heap = s.heap ∧
      s.next ≤ s'.next ∧ Dict.get s'.mods m = some q' ∧ q'.file = q.file ∧ (∀ x, .defn x [] ∈ t → ∃ i, attr s' m x = some (.fn m x i)) ∧
      (∀ x, .defn x [] ∉ t → attr s' m x = attr s m x)
  | [], s, q, _, h => ⟨s, q, rfl, rfl, fun _ _ => rfl, rfl, Nat.le_refl _, h, rfl, by simp, fun _ _ => rfl⟩
  | c :: t, s, q, hd, h => by
    obtain ⟨n, rfl⟩ := hd c (by simp)
    have h0 : Dict.get ({ s with next := s.next + 1 } : St).mods m = some q := h
    obtain ⟨s', q', e1, e2, e3, e4, e5, e6, e7, e8, e9⟩ := exec_defs imp m t (assign { s with next := s.next + 1 } m n (.fn m n s.next)) _
      (fun c hc => hd c (by simp [hc])) (by rw [get_assign h0, if_pos rfl])
    refine ⟨s', q', e1, e2.trans (keys_assign _ _ _ _), ?_, e4.trans (heap_assign _ _ _ _), ?_, e6, e7, ?_, ?_⟩
    · intro m' hm
      rw [e3 m' hm, get_assign h0, if_neg (Ne.symm hm)]
    · rw [next_assign] at e5
      exact Nat.le_trans (Nat.le_succ _) e5
    · intro x hx
      by_cases ht : .defn x [] ∈ t
      · exact e8 x ht
      · have : x = n := by
          rcases List.mem_cons.1 hx with hx | hx
          · cases hx; rfl
          · exact absurd hx ht
        subst this
        refine ⟨s.next, ?_⟩
        rw [e9 x ht, attr_assign h0, if_pos ⟨rfl, rfl⟩]
    · intro x hx
      have h1 : x ≠ n := by rintro rfl; exact hx (by simp)
      rw [e9 x (fun h => hx (by simp [h])), attr_assign h0, if_neg (by rintro ⟨_, h⟩; exact h1 h.symm)]
      rfl

/-- The module has the functions that its file defines. -/
def Current (d : Disk) (q : Bytes) (s : St) : Prop :=
  ∀ p t, d.path q = some p → d.text p = some t → ∀ x, .defn x [] ∈ t → ∃ i, attr s q x = some (.fn q x i)

/-- What is asked of the text of the main module. -/
structure Text (a : Bytes) (src : List Stmt) : Prop where
  nodup : (bound src).Nodup
  app : .newApp a none ∈ src
  one : ∀ n c, .newApp n c ∈ src → n = a ∧ c = none
  used : ∀ pre b p h post, src = pre ++ .route b p h :: post → ((∃ pat, p = .path pat) ∨ ∃ m, p = .mw m) ∧ b = a ∧ a ∈ bound pre ∧ h ∈ bound pre ∧
    ((∃ ds, .defn h ds ∈ src) ∨ ∃ m n, .imp m n h ∈ src)
  deco : ∀ pre n ds post, src = pre ++ .defn n ds :: post → ds = [] ∨ (∃ p, ds = [(a, p)]) ∧ a ∈ bound pre

theorem bound_append (a b : List Stmt) : bound (a ++ b) = bound a ++ bound b := by
  induction a with
  | nil => rfl
  | cons c t ih => cases c <;> simp [bound, ih]

theorem routes_append (a b : List Stmt) : routes (a ++ b) = routes a ++ routes b := by
  induction a with
  | nil => rfl
  | cons c t ih => cases c <;> simp [routes, ih]

/-- What holds behind a part of the text. -/
structure Inv (d : Disk) (main a : Bytes) (src : List Stmt) (s0 : St) (done : List Stmt) (s : St) : Prop where
  mod : ∃ q0 q, Dict.get s0.mods main = some q0 ∧ Dict.get s.mods main = some q ∧ q.file = q0.file
  keys : ∃ new, keys s = keys s0 ++ new ∧ ∀ q ∈ new, ∃ x y, .imp q x y ∈ src
  old : ∀ q, q ≠ main → q ∈ Rebind.keys s0 → Dict.get s.mods q = Dict.get s0.mods q
  fresh : ∀ q, q ∉ Rebind.keys s0 → q ∈ Rebind.keys s → Current d q s ∧ ∃ r, Dict.get s.mods q = some r ∧ r.file = d.path q
  fns : ∀ h ds, .defn h ds ∈ done → ∃ i, attr s main h = some (.fn main h i)
  imps : ∀ q x y, .imp q x y ∈ done → ∃ i, attr s main y = some (.fn q x i) ∧ attr s q x = some (.fn q x i)
  app : a ∈ bound done → ∃ i t, s0.next ≤ i ∧ attr s main a = some (.app 0 i) ∧ Dict.get s.heap i = some t ∧
    All2 (fun r e => e.1 = r.1 ∧ attr s main r.2 = some e.2) (routes done) t
  noapp : a ∉ bound done → routes done = []
  rbound : ∀ r ∈ routes done, r.2 ∈ bound done
  has : ∀ x ∈ bound done, ∃ o, attr s main x = some o
  rest : ∀ x, x ∉ bound done → attr s main x = attr s0 main x
  apps : ∀ x c i, attr s main x = some (.app c i) → x = a ∨ attr s0 main x = some (.app c i)
  next : s0.next ≤ s.next
  nd : (Rebind.keys s0).Nodup → (Rebind.keys s).Nodup
  lt : a ∈ bound done → ∀ c i, attr s main a = some (.app c i) → i < s.next

theorem All2.imp {α β : Type} {R S : α → β → Prop} : ∀ {l : List α} {m : List β}, All2 R l m → (∀ a ∈ l, ∀ b, R a b → S a b) → All2 S l m
  | _, _, .nil, _ => .nil
  | _, _, .cons h t, hs => .cons (hs _ (by simp) _ h) (All2.imp t (fun a ha => hs a (by simp [ha])))

theorem All2.append {α β : Type} {R : α → β → Prop} : ∀ {l : List α} {m : List β}, All2 R l m → ∀ {l' m'}, All2 R l' m' → All2 R (l ++ l') (m ++ m')
  | _, _, .nil, _, _, h => h
  | _, _, .cons h t, _, _, h' => .cons h (All2.append t h')

theorem attr_mods {s s' : St} {m x : Bytes} (h : Dict.get s'.mods m = Dict.get s.mods m) : attr s' m x = attr s m x := by
  unfold attr; rw [h]

/-- Running the text of a module that was not there. -/
theorem load_inv {d : Disk} {main a : Bytes} {src done : List Stmt} {s0 s : St} {q p : Bytes} {t : List Stmt} {n : Nat}
    (hi : Inv d main a src s0 done s) (hsrc : ∃ x y, .imp q x y ∈ src) (hq : q ≠ main) (hk : q ∉ keys s) (hp : d.path q = some p)
    (ht : d.text p = some t) (hd : Defs t) (hne : ∀ q x y, .imp q x y ∈ done → q ∈ keys s) :
    ∃ s', load d (n + 1) q s = .ok s' ∧ Inv d main a src s0 done s' ∧ q ∈ keys s' ∧ (∀ k ∈ keys s, k ∈ keys s') := by
  have hm : Dict.mem s.mods q = false := by
    cases h : Dict.mem s.mods q
    · rfl
    · exact absurd (mem_keys.2 h) hk
  obtain ⟨s', q', e1, e2, e3, e4, e5, e6, e7, e8, e9⟩ := exec_defs (load d n) q t { s with mods := Dict.set s.mods q ⟨some p, []⟩ } ⟨some p, []⟩ hd
    (by show Dict.get (Dict.set s.mods q _) q = _; rw [Dict.get_set, if_pos rfl])
  have hget : ∀ m', m' ≠ q → Dict.get s'.mods m' = Dict.get s.mods m' := by
    intro m' h
    rw [e3 m' h]
    show Dict.get (Dict.set s.mods q _) m' = _
    rw [Dict.get_set, if_neg (Ne.symm h)]
  have hkeys : keys s' = keys s ++ [q] := by
    rw [e2]
    show (Dict.set s.mods q _).map (·.1) = _
    rw [Dict.keys_set, hm]; rfl
  have hattr : ∀ m' x, m' ≠ q → attr s' m' x = attr s m' x := fun m' x h => attr_mods (hget m' h)
  have hmain : ∀ x, attr s' main x = attr s main x := fun x => hattr main x (Ne.symm hq)
  have hk0 : q ∉ keys s0 := by
    obtain ⟨new, h1, _⟩ := hi.keys
    intro h; exact hk (by rw [h1]; simp [h])
  refine ⟨s', ?_, ?_, by rw [hkeys]; simp, by intro k hk; rw [hkeys]; simp [hk]⟩
  · rw [load, hm, if_neg (by simp)]
    simp only [hp, ht]
    exact e1
  · constructor
    · obtain ⟨q0, r, h1, h2, h3⟩ := hi.mod
      exact ⟨q0, r, h1, by rw [hget main (Ne.symm hq), h2], h3⟩
    · obtain ⟨new, h1, h2⟩ := hi.keys
      refine ⟨new ++ [q], by rw [hkeys, h1, List.append_assoc], ?_⟩
      intro k hk
      rcases List.mem_append.1 hk with hk | hk
      · exact h2 k hk
      · simp at hk; subst hk; exact hsrc
    · intro k hk1 hk2
      rw [hget k (by rintro rfl; exact hk0 hk2)]
      exact hi.old k hk1 hk2
    · intro k hk1 hk2
      by_cases hkq : k = q
      · subst hkq
        refine ⟨?_, q', e6, by rw [e7, hp]⟩
        intro p1 t1 h1 h2 x hx
        rw [hp] at h1; cases h1
        rw [ht] at h2; cases h2
        exact e8 x hx
      · rw [hkeys] at hk2
        have hk3 : k ∈ keys s := by simpa [hkq] using hk2
        obtain ⟨h1, r, h2, h3⟩ := hi.fresh k hk1 hk3
        refine ⟨?_, r, by rw [hget k hkq, h2], h3⟩
        intro p1 t1 h4 h5 x hx
        rw [hattr k x hkq]
        exact h1 p1 t1 h4 h5 x hx
    · intro h ds hh
      rw [hmain]; exact hi.fns h ds hh
    · intro k x y hh
      rw [hmain, hattr k x (by rintro rfl; exact hk (hne _ _ _ hh))]
      exact hi.imps k x y hh
    · intro ha
      obtain ⟨i, tt, h1, h2, h3, h4⟩ := hi.app ha
      refine ⟨i, tt, h1, by rw [hmain, h2], by rw [e4]; exact h3, ?_⟩
      refine All2.imp h4 ?_
      intro r _ e h5
      rw [hmain]; exact h5
    · exact hi.noapp
    · exact hi.rbound
    · intro x hx; rw [hmain]; exact hi.has x hx
    · intro x hx; rw [hmain]; exact hi.rest x hx
    · intro x c i h; rw [hmain] at h; exact hi.apps x c i h
    · exact Nat.le_trans hi.next e5
    · intro h
      rw [hkeys, List.nodup_append]
      refine ⟨hi.nd h, by simp, ?_⟩
      intro x hx y hy
      simp at hy
      subst hy
      rintro rfl
      exact hk hx
    · intro ha c i h
      rw [hmain] at h
      exact Nat.lt_of_lt_of_le (hi.lt ha c i h) e5

/-- Binding a new name. -/
theorem assign_inv {d : Disk} {main a n : Bytes} {src done : List Stmt} {c : Stmt} {o : Obj} {s0 s s1 : St}
    (hi : Inv d main a src s0 done s) (hmods : s1.mods = s.mods) (hnext : s.next ≤ s1.next) (hb : bound [c] = [n]) (hn : n ∉ bound done)
    (hfn : ∀ h ds, c = .defn h ds → h = n ∧ ∃ i, o = .fn main h i)
    (himp : ∀ q x y, c = .imp q x y → y = n ∧ q ≠ main ∧ ∃ i, o = .fn q x i ∧ attr s q x = some (.fn q x i))
    (hne : ∀ q x y, .imp q x y ∈ done → q ≠ main)
    (hobj : ∀ k i, o = .app k i → n = a ∧ i < s1.next)
    (happ : a ∈ bound (done ++ [c]) → ∃ i t, s0.next ≤ i ∧ attr (assign s1 main n o) main a = some (.app 0 i) ∧
      Dict.get (assign s1 main n o).heap i = some t ∧
      All2 (fun r e => e.1 = r.1 ∧ attr (assign s1 main n o) main r.2 = some e.2) (routes (done ++ [c])) t)
    (hno : a ∉ bound (done ++ [c]) → routes [c] = []) (hr : ∀ r ∈ routes [c], r.2 = n) :
    Inv d main a src s0 (done ++ [c]) (assign s1 main n o) := by
  obtain ⟨q0, q, h1, h2, h3⟩ := hi.mod
  have hq : Dict.get s1.mods main = some q := by rw [hmods]; exact h2
  have hget : ∀ m', m' ≠ main → Dict.get (assign s1 main n o).mods m' = Dict.get s.mods m' := by
    intro m' h
    rw [get_assign hq, if_neg (Ne.symm h), hmods]
  have hother : ∀ m' x, m' ≠ main → attr (assign s1 main n o) m' x = attr s m' x := fun m' x h => attr_mods (hget m' h)
  have hmain : ∀ x, x ≠ n → attr (assign s1 main n o) main x = attr s main x := by
    intro x h
    rw [attr_assign hq, if_neg (by rintro ⟨_, h'⟩; exact h h'.symm)]
    exact attr_mods (by rw [hmods])
  have hself : attr (assign s1 main n o) main n = some o := by rw [attr_assign hq, if_pos ⟨rfl, rfl⟩]
  have hks : keys (assign s1 main n o) = keys s := by rw [keys_assign]; show s1.mods.map _ = s.mods.map _; rw [hmods]
  have hfin : ∀ h ds, .defn h ds ∈ done → h ∈ bound done := by
    intro h ds hh
    obtain ⟨u, v, rfl⟩ := List.append_of_mem hh
    rw [bound_append]; simp [bound]
  have hiin : ∀ q x y, .imp q x y ∈ done → y ∈ bound done := by
    intro q x y hh
    obtain ⟨u, v, rfl⟩ := List.append_of_mem hh
    rw [bound_append]; simp [bound]
  constructor
  · exact ⟨q0, { q with attrs := Dict.set q.attrs n o }, h1, by rw [get_assign hq, if_pos rfl], h3⟩
  · rw [hks]; exact hi.keys
  · intro k hk1 hk2
    rw [hget k hk1]; exact hi.old k hk1 hk2
  · intro k hk1 hk2
    rw [hks] at hk2
    have hkm : k ≠ main := by
      rintro rfl
      exact hk1 (mem_keys.2 (by simp [Dict.mem, h1]))
    obtain ⟨h4, r, h5, h6⟩ := hi.fresh k hk1 hk2
    refine ⟨?_, r, by rw [hget k hkm, h5], h6⟩
    intro p t h7 h8 x hx
    rw [hother k x hkm]
    exact h4 p t h7 h8 x hx
  · intro h ds hh
    rcases List.mem_append.1 hh with hh | hh
    · rw [hmain h (by rintro rfl; exact hn (hfin _ _ hh))]
      exact hi.fns h ds hh
    · simp at hh
      obtain ⟨rfl, i, rfl⟩ := hfn h ds hh.symm
      exact ⟨i, hself⟩
  · intro k x y hh
    rcases List.mem_append.1 hh with hh | hh
    · rw [hmain y (by rintro rfl; exact hn (hiin _ _ _ hh)), hother k x (hne _ _ _ hh)]
      exact hi.imps k x y hh
    · simp at hh
      obtain ⟨rfl, h4, i, rfl, h5⟩ := himp k x y hh.symm
      exact ⟨i, hself, by rw [hother k x h4]; exact h5⟩
  · exact happ
  · intro h
    rw [routes_append, hno h, hi.noapp (fun h' => h (by rw [bound_append]; simp [h']))]
    rfl
  · intro r hr'
    rw [routes_append] at hr'
    rw [bound_append]
    rcases List.mem_append.1 hr' with h | h
    · exact List.mem_append_left _ (hi.rbound r h)
    · rw [hr r h, hb]; simp
  · intro x hx
    by_cases e : x = n
    · subst e; exact ⟨o, hself⟩
    · rw [bound_append, hb] at hx
      rw [hmain x e]
      exact hi.has x (by simpa [e] using hx)
  · intro x hx
    rw [bound_append, hb] at hx
    simp at hx
    rw [hmain x hx.2]
    exact hi.rest x hx.1
  · intro x k i h
    by_cases hx : x = n
    · subst hx
      rw [hself] at h
      cases h
      exact .inl (hobj k i rfl).1
    · rw [hmain x hx] at h
      exact hi.apps x k i h
  · rw [next_assign]; exact Nat.le_trans hi.next hnext
  · rw [hks]; exact hi.nd
  · intro ha k i h
    rw [next_assign]
    by_cases hx : a = n
    · subst hx
      rw [hself] at h
      cases h
      exact (hobj k i rfl).2
    · rw [hmain a hx] at h
      rw [bound_append, hb] at ha
      exact Nat.lt_of_lt_of_le (hi.lt (by simpa [hx] using ha) k i h) hnext

/-- What is asked of an import: the module is there with the function, or its file defines it. -/
def Ready (d : Disk) (s0 : St) (main q x : Bytes) : Prop :=
  q ≠ main ∧ (q ∈ keys s0 → ∃ i, attr s0 q x = some (.fn q x i)) ∧
    (q ∉ keys s0 → ∃ p t, d.path q = some p ∧ d.text p = some t ∧ Defs t ∧ .defn x [] ∈ t)

theorem step_inv {d : Disk} {main a : Bytes} {src done rest : List Stmt} {c : Stmt} {s0 s : St} {n : Nat}
    (ht : Text a src) (hsrc : src = done ++ c :: rest) (hready : ∀ q x y, .imp q x y ∈ src → Ready d s0 main q x)
    (hi : Inv d main a src s0 done s) (hin : ∀ q x y, .imp q x y ∈ done → q ∈ keys s) :
    ∃ s', step (load d (n + 1)) main s c = .ok s' ∧ Inv d main a src s0 (done ++ [c]) s' ∧ (∀ q x y, .imp q x y ∈ done ++ [c] → q ∈ keys s') := by
  have hnd : (bound done ++ bound [c]).Nodup := by
    have h := ht.nodup
    rw [hsrc, show done ++ c :: rest = (done ++ [c]) ++ rest by simp, bound_append, bound_append] at h
    exact (List.nodup_append.1 h).1
  have hnew : ∀ n, bound [c] = [n] → n ∉ bound done := by
    intro n h h'
    rw [h] at hnd
    exact (List.nodup_append.1 hnd).2.2 n h' n (by simp) rfl
  have hmemc : c ∈ src := by rw [hsrc]; simp
  have hne : ∀ q x y, .imp q x y ∈ done → q ≠ main := by
    intro q x y h
    exact (hready q x y (by rw [hsrc]; simp [h])).1
  obtain ⟨q0, qm, hm1, hm2, hm3⟩ := hi.mod
  -- the routes stay
  have hkeep : ∀ (s1 : St) (nm : Bytes) (o : Obj), s1.mods = s.mods → nm ∉ bound done → ∀ (t : List (Place × Obj)),
      All2 (fun r e => e.1 = r.1 ∧ attr s main r.2 = some e.2) (routes done) t →
      All2 (fun r e => e.1 = r.1 ∧ attr (assign s1 main nm o) main r.2 = some e.2) (routes done) t := by
    intro s1 nm o h1 h2 t h3
    refine All2.imp h3 ?_
    intro r hr e h4
    rw [attr_assign (q := qm) (by rw [h1]; exact hm2), if_neg (by rintro ⟨_, h5⟩; exact h2 (h5 ▸ hi.rbound r hr))]
    rw [attr_mods (s := s) (by rw [h1])]
    exact h4
  have hattr : ∀ (s1 : St) (nm : Bytes) (o : Obj), s1.mods = s.mods → ∀ x, x ≠ nm → attr (assign s1 main nm o) main x = attr s main x := by
    intro s1 nm o h1 x h2
    rw [attr_assign (q := qm) (by rw [h1]; exact hm2), if_neg (by rintro ⟨_, h5⟩; exact h2 h5.symm)]
    exact attr_mods (by rw [h1])
  have hks : ∀ (s1 : St) (nm : Bytes) (o : Obj), s1.mods = s.mods → keys (assign s1 main nm o) = keys s := by
    intro s1 nm o h; rw [keys_assign]; show s1.mods.map _ = s.mods.map _; rw [h]
  have happ : ∀ nm, bound [c] = [nm] → (∀ k, c ≠ .newApp nm k) → a ≠ nm := by
    intro nm hb hk e
    subst e
    have h3 := ht.nodup
    have h4 : Stmt.newApp a none ∈ done ++ rest := by
      have := ht.app
      rw [hsrc] at this
      rcases List.mem_append.1 this with h | h
      · simp [h]
      · rcases List.mem_cons.1 h with h | h
        · exact absurd h.symm (hk none)
        · simp [h]
    rw [hsrc, show done ++ c :: rest = done ++ ([c] ++ rest) from rfl, bound_append, bound_append, hb] at h3
    rcases List.mem_append.1 h4 with h5 | h5
    · obtain ⟨u, v, rfl⟩ := List.append_of_mem h5
      refine (List.nodup_append.1 h3).2.2 a ?_ a (by simp) rfl
      rw [bound_append]; simp [bound]
    · obtain ⟨u, v, rfl⟩ := List.append_of_mem h5
      have h6 := (List.nodup_append.1 h3).2.1
      rw [List.singleton_append, List.nodup_cons, bound_append] at h6
      exact h6.1 (by simp [bound])
  -- a name that is not `a`, with no route
  have hplain : ∀ (s1 : St) (nm : Bytes) (o : Obj), s1.mods = s.mods → s1.heap = s.heap → nm ∉ bound done → bound [c] = [nm] → a ≠ nm →
      routes [c] = [] → a ∈ bound (done ++ [c]) → ∃ i t, s0.next ≤ i ∧ attr (assign s1 main nm o) main a = some (.app 0 i) ∧
      Dict.get (assign s1 main nm o).heap i = some t ∧
      All2 (fun r e => e.1 = r.1 ∧ attr (assign s1 main nm o) main r.2 = some e.2) (routes (done ++ [c])) t := by
    intro s1 nm o h1 h2 h3 h4 h5 h6 h7
    rw [bound_append, h4] at h7
    have ha : a ∈ bound done := by simpa [h5] using h7
    obtain ⟨i, t, e1, e2, e3, e4⟩ := hi.app ha
    refine ⟨i, t, e1, ?_, ?_, ?_⟩
    · rw [hattr _ _ _ h1 _ h5]; exact e2
    · rw [heap_assign, h2]; exact e3
    · rw [routes_append, h6, List.append_nil]
      exact hkeep _ _ _ h1 h3 t e4
  cases c with
  | defn nm ds =>
    have hnm := hnew nm rfl
    have hanm := happ nm rfl (by intro k h; cases h)
    rcases ht.deco done nm ds rest hsrc with rfl | ⟨⟨p, rfl⟩, ha⟩
    · obtain ⟨s1, hs1, hmods, hheap, hnext⟩ : ∃ s1 : St, { s with next := s.next + 1 } = s1 ∧ s1.mods = s.mods ∧ s1.heap = s.heap ∧ s.next ≤ s1.next :=
        ⟨_, rfl, rfl, rfl, Nat.le_succ _⟩
      refine ⟨assign s1 main nm (.fn main nm s.next), by rw [← hs1]; rfl, ?_, ?_⟩
      · refine assign_inv hi hmods hnext rfl hnm ?_ ?_ hne ?_ (hplain _ _ _ hmods hheap hnm rfl hanm rfl) ?_ ?_
        · rintro h ds ⟨⟩; exact ⟨rfl, _, rfl⟩
        · rintro q x y ⟨⟩
        · rintro k i ⟨⟩
        · intro _; rfl
        · simp [routes]
      · intro q x y h
        rw [hks _ _ _ hmods]
        simp at h
        exact hin q x y h
    · obtain ⟨i, t, h1, h2, h3, h4⟩ := hi.app ha
      obtain ⟨s1, hs1, hmods, hheap, hnext⟩ : ∃ s1 : St,
          { addRoute { s with next := s.next + 1 } i p (.fn main nm (s.next + 1)) with next := s.next + 1 + 1 } = s1 ∧ s1.mods = s.mods ∧
          s1.heap = Dict.set s.heap i ((Dict.get s.heap i).getD [] ++ [(p, .fn main nm (s.next + 1))]) ∧ s.next ≤ s1.next :=
        ⟨_, rfl, rfl, rfl, by show s.next ≤ s.next + 1 + 1; omega⟩
      have hst : step (load d (n + 1)) main s (.defn nm [(a, p)]) = .ok (assign s1 main nm (.fn main nm (s.next + 1))) := by
        show decorate main nm [(a, p)] { s with next := s.next + 1 } (.fn main nm s.next) = _
        unfold decorate
        rw [attr_mods (s := s) (s' := { s with next := s.next + 1 }) rfl, h2, ← hs1]
        rfl
      refine ⟨_, hst, ?_, ?_⟩
      · refine assign_inv hi hmods hnext rfl hnm ?_ ?_ hne ?_ ?_ ?_ ?_
        · rintro h ds ⟨⟩; exact ⟨rfl, _, rfl⟩
        · rintro q x y ⟨⟩
        · rintro k i ⟨⟩
        · intro _
          refine ⟨i, t ++ [(p, .fn main nm (s.next + 1))], h1, ?_, ?_, ?_⟩
          · rw [hattr _ _ _ hmods _ hanm]; exact h2
          · rw [heap_assign, hheap, Dict.get_set, if_pos rfl, h3]; rfl
          · rw [routes_append]
            refine All2.append (hkeep _ _ _ hmods hnm t h4) (.cons ⟨rfl, ?_⟩ .nil)
            rw [attr_assign (q := qm) (by rw [hmods]; exact hm2), if_pos ⟨rfl, rfl⟩]
        · intro h; exact absurd (by rw [bound_append]; simp [ha]) h
        · simp [routes]
      · intro q x y h
        rw [hks _ _ _ hmods]
        simp at h
        exact hin q x y h
  | subclass nm =>
    have hnm := hnew nm rfl
    have hanm := happ nm rfl (by intro k h; cases h)
    obtain ⟨s1, hs1, hmods, hheap, hnext⟩ : ∃ s1 : St, { s with next := s.next + 1 } = s1 ∧ s1.mods = s.mods ∧ s1.heap = s.heap ∧ s.next ≤ s1.next :=
      ⟨_, rfl, rfl, rfl, Nat.le_succ _⟩
    refine ⟨assign s1 main nm (.cls s.next), by rw [← hs1]; rfl, ?_, ?_⟩
    · refine assign_inv hi hmods hnext rfl hnm ?_ ?_ hne ?_ (hplain _ _ _ hmods hheap hnm rfl hanm rfl) ?_ ?_
      · rintro h ds ⟨⟩
      · rintro q x y ⟨⟩
      · rintro k i ⟨⟩
      · intro _; rfl
      · simp [routes]
    · intro q x y h
      rw [hks _ _ _ hmods]
      simp at h
      exact hin q x y h
  | newApp nm k =>
    have hnm := hnew nm rfl
    obtain ⟨rfl, rfl⟩ := ht.one nm k hmemc
    obtain ⟨s1, hs1, hmods, hheap, hnext⟩ : ∃ s1 : St, { s with next := s.next + 1, heap := Dict.set s.heap s.next [] } = s1 ∧ s1.mods = s.mods ∧
        s1.heap = Dict.set s.heap s.next [] ∧ s.next < s1.next := ⟨_, rfl, rfl, rfl, Nat.lt_succ_self _⟩
    refine ⟨assign s1 main nm (.app 0 s.next), by rw [← hs1]; rfl, ?_, ?_⟩
    · refine assign_inv hi hmods (Nat.le_of_lt hnext) rfl hnm ?_ ?_ hne ?_ ?_ ?_ ?_
      · rintro h ds ⟨⟩
      · rintro q x y ⟨⟩
      · rintro _ _ ⟨⟩; exact ⟨rfl, hnext⟩
      · intro _
        refine ⟨s.next, [], hi.next, ?_, ?_, ?_⟩
        · rw [attr_assign (q := qm) (by rw [hmods]; exact hm2), if_pos ⟨rfl, rfl⟩]
        · rw [heap_assign, hheap, Dict.get_set, if_pos rfl]
        · rw [routes_append, hi.noapp hnm]; exact .nil
      · intro _; rfl
      · simp [routes]
    · intro q x y h
      rw [hks _ _ _ hmods]
      simp at h
      exact hin q x y h
  | imp q x y =>
    have hnm := hnew y rfl
    have hanm := happ y rfl (by intro k h; cases h)
    obtain ⟨hqm, hr1, hr2⟩ := hready q x y hmemc
    have hload : ∃ s', load d (n + 1) q s = .ok s' ∧ Inv d main a src s0 done s' ∧ q ∈ keys s' ∧ (∀ k ∈ keys s, k ∈ keys s') := by
      by_cases hk : q ∈ keys s
      · refine ⟨s, ?_, hi, hk, fun _ h => h⟩
        rw [load, if_pos (mem_keys.1 hk)]
      · obtain ⟨new, hk1, -⟩ := hi.keys
        obtain ⟨p, t, h1, h2, h3, -⟩ := hr2 (fun h => hk (by rw [hk1]; simp [h]))
        exact load_inv hi ⟨x, y, hmemc⟩ hqm hk h1 h2 h3 hin
    obtain ⟨s', hl, hi', hk, hmono⟩ := hload
    have hx : ∃ i, attr s' q x = some (.fn q x i) := by
      by_cases hk0 : q ∈ keys s0
      · obtain ⟨i, h⟩ := hr1 hk0
        exact ⟨i, by rw [attr_mods (hi'.old q hqm hk0), h]⟩
      · obtain ⟨p, t, h1, h2, -, h4⟩ := hr2 hk0
        exact (hi'.fresh q hk0 hk).1 p t h1 h2 x h4
    obtain ⟨i, hx⟩ := hx
    obtain ⟨q0', qm', hm1', hm2', hm3'⟩ := hi'.mod
    refine ⟨assign s' main y (.fn q x i), by simp only [step, hl, hx], ?_, ?_⟩
    · refine assign_inv hi' rfl (Nat.le_refl _) rfl hnm ?_ ?_ hne ?_ ?_ ?_ ?_
      · rintro h ds ⟨⟩
      · rintro _ _ _ ⟨⟩; exact ⟨rfl, hqm, i, rfl, hx⟩
      · rintro k i ⟨⟩
      · intro h7
        rw [bound_append] at h7
        have ha : a ∈ bound done := by simpa [bound, hanm] using h7
        obtain ⟨j, t, e1, e2, e3, e4⟩ := hi'.app ha
        refine ⟨j, t, e1, ?_, by rw [heap_assign]; exact e3, ?_⟩
        · rw [attr_assign hm2', if_neg (by rintro ⟨_, h⟩; exact hanm h.symm)]; exact e2
        · rw [routes_append]
          simp only [routes, List.append_nil]
          refine All2.imp e4 ?_
          intro r hr e h4
          rw [attr_assign hm2', if_neg (by rintro ⟨_, h5⟩; exact hnm (h5 ▸ hi'.rbound r hr))]
          exact h4
      · intro _; rfl
      · simp [routes]
    · intro q' x' y' h
      rw [keys_assign]
      rcases List.mem_append.1 h with h | h
      · exact hmono _ (hin q' x' y' h)
      · simp at h; rw [h.1]; exact hk
  | route b p h =>
    obtain ⟨hp, rfl, ha, hh, -⟩ := ht.used done b p h rest hsrc
    obtain ⟨i, t, h1, h2, h3, h4⟩ := hi.app ha
    obtain ⟨o, ho⟩ := hi.has h hh
    have hp : p.added = true := by rcases hp with ⟨_, rfl⟩ | ⟨_, rfl⟩ <;> rfl
    refine ⟨addRoute s i p o, by simp only [step, h2, ho, hp, if_true], ?_, ?_⟩
    · have hb : bound (done ++ [.route b p h]) = bound done := by rw [bound_append]; simp [bound]
      have hat : ∀ m x, attr (addRoute s i p o) m x = attr s m x := fun _ _ => rfl
      constructor
      · exact hi.mod
      · exact hi.keys
      · exact hi.old
      · exact hi.fresh
      · intro f ds hf; simp at hf; exact hi.fns f ds hf
      · intro q x y hf; simp at hf; exact hi.imps q x y hf
      · intro _
        refine ⟨i, t ++ [(p, o)], h1, h2, ?_, ?_⟩
        · show Dict.get (Dict.set s.heap i _) i = _
          rw [Dict.get_set, if_pos rfl, h3]; rfl
        · rw [routes_append]
          exact All2.append h4 (.cons ⟨rfl, ho⟩ .nil)
      · intro hn; rw [hb] at hn; exact absurd ha hn
      · intro r hr
        rw [hb]
        rw [routes_append] at hr
        rcases List.mem_append.1 hr with hr | hr
        · exact hi.rbound r hr
        · simp [routes] at hr; rw [hr]; exact hh
      · intro x hx; rw [hb] at hx; exact hi.has x hx
      · intro x hx; rw [hb] at hx; exact hi.rest x hx
      · exact hi.apps
      · exact hi.next
      · exact hi.nd
      · intro h; rw [hb] at h; exact hi.lt h
    · intro q x y hq
      simp at hq
      exact hin q x y hq

theorem exec_inv {d : Disk} {main a : Bytes} {src : List Stmt} {s0 : St} {n : Nat} (ht : Text a src)
    (hready : ∀ q x y, .imp q x y ∈ src → Ready d s0 main q x) : ∀ (rest done : List Stmt) (s : St), src = done ++ rest →
    Inv d main a src s0 done s → (∀ q x y, .imp q x y ∈ done → q ∈ keys s) →
    ∃ s', exec (load d (n + 1)) main rest s = .ok s' ∧ Inv d main a src s0 src s' ∧ (∀ q x y, .imp q x y ∈ src → q ∈ keys s')
  | [], done, s, hsrc, hi, hin => by
    rw [List.append_nil] at hsrc
    subst hsrc
    exact ⟨s, rfl, hi, hin⟩
  | c :: rest, done, s, hsrc, hi, hin => by
    obtain ⟨s1, h1, h2, h3⟩ := step_inv (n := n) ht hsrc hready hi hin
    obtain ⟨s2, h4, h5, h6⟩ := exec_inv ht hready rest (done ++ [c]) s1 (by simp [hsrc]) h2 h3
    refine ⟨s2, ?_, h5, h6⟩
    unfold exec
    rw [h1]
    exact h4

/-- Running the whole text of the main module. -/
theorem exec_main {d : Disk} {main a : Bytes} {src : List Stmt} {s0 : St} (n : Nat) {q0 : Mod} (ht : Text a src)
    (hready : ∀ q x y, .imp q x y ∈ src → Ready d s0 main q x) (hm : Dict.get s0.mods main = some q0) :
    ∃ s', exec (load d (n + 1)) main src s0 = .ok s' ∧ Inv d main a src s0 src s' ∧ (∀ q x y, .imp q x y ∈ src → q ∈ keys s') := by
  refine exec_inv ht hready src [] s0 rfl ?_ (by simp)
  exact ⟨⟨q0, q0, hm, hm, rfl⟩, ⟨[], by simp, by simp⟩, fun _ _ _ => rfl, fun q h1 h2 => absurd h2 h1, by simp, by simp, by simp [bound],
    fun _ => rfl, by simp [routes], by simp [bound], fun _ _ => rfl, fun x c i h => .inr h, Nat.le_refl _, id, by simp [bound]⟩

theorem routes_mem {r : Place × Bytes} : ∀ {src : List Stmt}, r ∈ routes src →
    (∃ pre b post, src = pre ++ .route b r.1 r.2 :: post) ∨ ∃ ds, .defn r.2 ds ∈ src
  | [], h => by simp [routes] at h
  | c :: t, h => by
    have ih : r ∈ routes t → (∃ pre b post, c :: t = pre ++ .route b r.1 r.2 :: post) ∨ ∃ ds, .defn r.2 ds ∈ c :: t := by
      intro h'
      rcases routes_mem h' with ⟨pre, b, post, rfl⟩ | ⟨ds, h1⟩
      · exact .inl ⟨c :: pre, b, post, rfl⟩
      · exact .inr ⟨ds, by simp [h1]⟩
    cases c with
    | route b p h' =>
      rcases List.mem_cons.1 h with h | h
      · exact .inl ⟨[], b, t, by simp [h]⟩
      · exact ih h
    | defn n ds =>
      rcases List.mem_append.1 h with h | h
      · obtain ⟨e, _, rfl⟩ := List.mem_map.1 h
        exact .inr ⟨ds, by simp⟩
      · exact ih h
    | subclass n => exact ih h
    | newApp n k => exact ih h
    | imp q x y => exact ih h

/-- The routes of the application `i`, as the text has them, with functions that can be pickled. -/
def Good (main : Bytes) (src : List Stmt) (i : Nat) (s : St) : Prop :=
  ∃ t, Dict.get s.heap i = some t ∧ All2 (fun r e => e.1 = r.1 ∧ ∃ m n j, Denotes main src r.2 m n ∧ e.2 = .fn m n j ∧ attr s m n = some e.2)
    (routes src) t

theorem inv_good {d : Disk} {main a : Bytes} {src : List Stmt} {s0 s : St} (ht : Text a src) (hi : Inv d main a src s0 src s) :
    ∃ i, s0.next ≤ i ∧ attr s main a = some (.app 0 i) ∧ Good main src i s := by
  have ha : a ∈ bound src := by
    obtain ⟨u, v, h⟩ := List.append_of_mem ht.app
    rw [h, bound_append]; simp [bound]
  obtain ⟨i, t, h1, h2, h3, h4⟩ := hi.app ha
  refine ⟨i, h1, h2, t, h3, All2.imp h4 ?_⟩
  rintro r hr e ⟨h5, h6⟩
  refine ⟨h5, ?_⟩
  have hden : (∃ ds, .defn r.2 ds ∈ src) ∨ ∃ m n, .imp m n r.2 ∈ src := by
    rcases routes_mem hr with ⟨pre, b, post, h⟩ | h
    · exact (ht.used pre b r.1 r.2 post h).2.2.2.2
    · exact .inl h
  rcases hden with ⟨ds, h⟩ | ⟨m, n, h⟩
  · obtain ⟨j, hj⟩ := hi.fns r.2 ds h
    rw [hj] at h6
    exact ⟨main, r.2, j, .inl ⟨⟨ds, h⟩, rfl, rfl⟩, (Option.some.inj h6).symm, by rw [hj, h6]⟩
  · obtain ⟨j, hj1, hj2⟩ := hi.imps m n r.2 h
    rw [hj1] at h6
    exact ⟨m, n, j, .inr h, (Option.some.inj h6).symm, by rw [hj2, h6]⟩

theorem good_handed {main : Bytes} {src : List Stmt} {s : St} {me : Self} (h : Good main src me.routes s) :
    ∃ l, handed s me = some l ∧ Table main src l := by
  obtain ⟨t, h1, h2⟩ := h
  unfold handed Table
  rw [h1]
  simp only [Option.getD_some]
  clear h1
  generalize routes src = rs at h2
  induction h2 with
  | nil => exact ⟨[], rfl, .nil⟩
  | @cons r e l m hd tl ih =>
    obtain ⟨l', h3, h4⟩ := ih
    obtain ⟨h5, q, n, j, h6, h7, h8⟩ := hd
    refine ⟨(e.1, q, n) :: l', ?_, .cons ⟨h5, h6⟩ h4⟩
    rw [List.mapM_cons, h3]
    unfold pickle
    rw [h7] at h8 ⊢
    simp [h8]

/-! ## Reloading -/

/-- The application's surroundings: its directory, the name and the file of its main module, the name of the server object, and the
modules that belong to it. -/
structure Env where
  dir : Bytes
  main : Bytes
  script : Bytes
  a : Bytes
  helper : Bytes → Prop
  path : Bytes → Bytes

/-- a name that `_reload_module` passes over -/
def Special (m : Bytes) : Prop := m = b!"__main__" ∨ m = b!"__mp_main__" ∨ m = b!"tremolo" ∨ startsWith m b!"tremolo." = true

structure Env.Ok (E : Env) : Prop where
  main : ¬ Special E.main
  script : startsWith E.script E.dir = true
  helper : ∀ q, E.helper q → q ≠ E.main ∧ ¬ Special q ∧ startsWith (E.path q) E.dir = true
  a : startsWith E.a b!"__" = false

/-- The text imports from the module. -/
def Imports (src : List Stmt) (q : Bytes) : Prop := ∃ x y, .imp q x y ∈ src

/-- The files at a moment: the main module has the text `src`, which imports functions that are there. -/
structure Program (E : Env) (d : Disk) (src : List Stmt) : Prop where
  found : d.path E.main = some E.script
  text : d.text E.script = some src
  ok : Text E.a src
  imports : ∀ q x y, .imp q x y ∈ src → E.helper q ∧ d.path q = some (E.path q) ∧ ∃ t, d.text (E.path q) = some t ∧ .defn x [] ∈ t
  helpers : ∀ q t, E.helper q → d.text (E.path q) = some t → Defs t

/-- What a loaded module may be: foreign (and not under the directory), a helper, or the main module. -/
inductive Kind (E : Env) (q : Bytes) (f : Option Bytes) : Prop
  | foreign : ¬ E.helper q → q ≠ E.main → Special q ∨ f = none ∨ (∃ p, f = some p ∧ startsWith p E.dir = false) → Kind E q f
  | helper : E.helper q → f = some (E.path q) → Kind E q f
  | main : q = E.main → f = some E.script → Kind E q f

def Files (E : Env) (s : St) : Prop := ∀ q r, Dict.get s.mods q = some r → Kind E q r.file

theorem again_foreign {E : Env} {d : Disk} {s : St} {q : Bytes} (h : ∀ r, Dict.get s.mods q = some r → Special q ∨ r.file = none ∨
    ∃ p, r.file = some p ∧ startsWith p E.dir = false) : again d E.dir s q = none := by
  unfold again
  cases hg : Dict.get s.mods q with
  | none => rfl
  | some r =>
    obtain ⟨f, as⟩ := r
    cases f with
    | none => rfl
    | some f =>
      simp only
      apply if_neg
      rintro ⟨h1, h2, h3, h4, h5⟩
      rcases h _ hg with hs | hs | ⟨p, hp, hs⟩
      · rcases hs with hs | hs | hs | hs
        · exact h1 hs
        · exact h2 hs
        · exact h3 hs
        · rw [h4] at hs; cases hs
      · cases hs
      · cases hp; rw [h5] at hs; cases hs

theorem again_own {E : Env} {d : Disk} {s : St} {q p : Bytes} {r : Mod} (h : Dict.get s.mods q = some r) (hf : r.file = some p)
    (hs : ¬ Special q) (hp : startsWith p E.dir = true) : again d E.dir s q = d.text p := by
  unfold again
  obtain ⟨f, as⟩ := r
  cases hf
  rw [h]
  simp only
  rw [if_pos]
  refine ⟨fun e => hs (.inl e), fun e => hs (.inr (.inl e)), fun e => hs (.inr (.inr (.inl e))), ?_, hp⟩
  cases e : startsWith q b!"tremolo."
  · rfl
  · exact absurd (.inr (.inr (.inr e))) hs

theorem reloadAll_append (d : Disk) (fuel : Nat) (dir : Bytes) (l2 : List Bytes) : ∀ (l1 : List Bytes) (s : St),
    reloadAll d fuel dir (l1 ++ l2) s = match reloadAll d fuel dir l1 s with
      | .error e => .error e
      | .ok s' => reloadAll d fuel dir l2 s'
  | [], s => rfl
  | m :: t, s => by
    simp only [List.cons_append, reloadAll]
    cases again d dir s m with
    | none => exact reloadAll_append d fuel dir l2 t s
    | some src =>
      simp only
      cases exec (load d fuel) m src s with
      | error e => rfl
      | ok s' => exact reloadAll_append d fuel dir l2 t s'

/-- The part of the loop that does not meet the main module. -/
theorem reload_helpers {E : Env} {d : Disk} {src : List Stmt} (hE : E.Ok) (hP : Program E d src) (fuel : Nat) : ∀ (l : List Bytes) (s : St),
    E.main ∉ l → Files E s →
    ∃ s', reloadAll d fuel E.dir l s = .ok s' ∧ keys s' = keys s ∧ s'.heap = s.heap ∧ s.next ≤ s'.next ∧ Files E s' ∧
      (∀ q, q ∉ l → Dict.get s'.mods q = Dict.get s.mods q) ∧
      (∀ q ∈ l, q ∈ keys s → E.helper q → ∀ t, d.text (E.path q) = some t → ∀ x, .defn x [] ∈ t → ∃ i, attr s' q x = some (.fn q x i))
  | [], s, _, hf => ⟨s, rfl, rfl, rfl, Nat.le_refl _, hf, fun _ _ => rfl, by simp⟩
  | m :: l, s, hm, hf => by
    have hml : E.main ∉ l := fun h => hm (by simp [h])
    have hmm : m ≠ E.main := fun h => hm (by simp [h])
    unfold reloadAll
    by_cases hh : E.helper m ∧ m ∈ keys s ∧ (d.text (E.path m)).isSome
    · obtain ⟨hh, hk, ht⟩ := hh
      obtain ⟨t, ht⟩ := Option.isSome_iff_exists.1 ht
      obtain ⟨r, hr⟩ : ∃ r, Dict.get s.mods m = some r := by
        have := mem_keys.1 hk
        unfold Dict.mem at this
        exact Option.isSome_iff_exists.1 this
      have hfile : r.file = some (E.path m) := by
        cases hf m r hr with
        | foreign h _ _ => exact absurd hh h
        | helper _ h => exact h
        | main h _ => exact absurd h hmm
      obtain ⟨-, h1, h2⟩ := hE.helper m hh
      rw [again_own hr hfile h1 h2, ht]
      obtain ⟨s1, q', e1, e2, e3, e4, e5, e6, e7, e8, e9⟩ := exec_defs (load d fuel) m t s r (hP.helpers m t hh ht) hr
      simp only [e1]
      have hf1 : Files E s1 := by
        intro q r' hr'
        by_cases hq : q = m
        · subst hq
          rw [e6] at hr'; cases hr'
          rw [e7]; exact hf q r hr
        · rw [e3 q hq] at hr'; exact hf q r' hr'
      obtain ⟨s2, g1, g2, g3, g4, g5, g6, g7⟩ := reload_helpers hE hP fuel l s1 hml hf1
      refine ⟨s2, g1, g2.trans e2, g3.trans e4, Nat.le_trans e5 g4, g5, ?_, ?_⟩
      · intro q hq
        simp at hq
        rw [g6 q hq.2, e3 q hq.1]
      · intro q hq hk2 hh2 t2 ht2 x hx
        by_cases hql : q ∈ l
        · exact g7 q hql (by rw [e2]; exact hk2) hh2 t2 ht2 x hx
        · have : q = m := by simpa [hql] using hq
          subst this
          rw [ht] at ht2; cases ht2
          obtain ⟨i, hi⟩ := e8 x hx
          exact ⟨i, by rw [attr_mods (g6 q hql)]; exact hi⟩
    · have hn : again d E.dir s m = none := by
        by_cases hhm : E.helper m
        · cases hg : Dict.get s.mods m with
          | none => unfold again; rw [hg]
          | some r =>
            have hfile : r.file = some (E.path m) := by
              cases hf m r hg with
              | foreign h _ _ => exact absurd hhm h
              | helper _ h => exact h
              | main h _ => exact absurd h hmm
            obtain ⟨-, h1, h2⟩ := hE.helper m hhm
            rw [again_own hg hfile h1 h2]
            cases ht : d.text (E.path m) with
            | none => rfl
            | some t => exact absurd ⟨hhm, mem_keys.2 (by simp [Dict.mem, hg]), by simp [ht]⟩ hh
        · apply again_foreign
          intro r hr
          cases hf m r hr with
          | foreign _ _ h => exact h
          | helper h _ => exact absurd h hhm
          | main h _ => exact absurd h hmm
      rw [hn]
      obtain ⟨s2, g1, g2, g3, g4, g5, g6, g7⟩ := reload_helpers hE hP fuel l s hml hf
      refine ⟨s2, g1, g2, g3, g4, g5, ?_, ?_⟩
      · intro q hq
        simp at hq
        exact g6 q hq.2
      · intro q hq hk2 hh2 t2 ht2 x hx
        by_cases hql : q ∈ l
        · exact g7 q hql hk2 hh2 t2 ht2 x hx
        · have : q = m := by simpa [hql] using hq
          subst this
          exact absurd ⟨hh2, hk2, by simp [ht2]⟩ hh

theorem mem_insertName (x y : Bytes) : ∀ (l : List Bytes), y ∈ insertName x l ↔ y = x ∨ y ∈ l
  | [] => by simp [insertName]
  | z :: t => by
    unfold insertName
    split
    · simp
    · simp [mem_insertName x y t]
      constructor
      · rintro (h | h | h) <;> simp [h]
      · rintro (h | h | h) <;> simp [h]

theorem mem_dir {q : Mod} {x : Bytes} : x ∈ dir q ↔ Dict.mem q.attrs x = true := by
  rw [Dict.mem_iff]
  unfold dir
  have : ∀ l : List Bytes, x ∈ l.foldr insertName [] ↔ x ∈ l := by
    intro l
    induction l with
    | nil => simp
    | cons y t ih => simp only [List.foldr_cons, mem_insertName, ih, List.mem_cons]
  rw [this]
  simp

/-- Of one application object under a name that does not begin with underscores, the routes are taken over. -/
theorem rebind_one {me : Self} {q : Mod} {a : Bytes} {i : Nat} (hc : me.cls = 0) (hid : i ≠ me.id) (ha : startsWith a b!"__" = false)
    (hq : Dict.get q.attrs a = some (.app 0 i)) (ho : ∀ x c j, Dict.get q.attrs x = some (.app c j) → x = a) :
    ∀ (l : List Bytes) (r : Nat), a ∈ l ∨ r = i → rebind me q l r = i
  | [], r, h => by
    rcases h with h | h
    · cases h
    · exact h
  | x :: t, r, h => by
    unfold rebind
    by_cases hx : x = a
    · subst hx
      rw [ha, hq]
      simp only [hc, true_or, true_and, ne_eq, hid, not_false_eq_true, if_true]
      exact rebind_one hc hid ha hq ho t i (.inr rfl)
    · have h' : a ∈ t ∨ r = i := by
        rcases h with h | h
        · rcases List.mem_cons.1 h with h | h
          · exact absurd h.symm hx
          · exact .inl h
        · exact .inr h
      split
      · exact rebind_one hc hid ha hq ho t r h'
      · split
        · next c j h2 => exact absurd (ho x c j h2) hx
        · exact rebind_one hc hid ha hq ho t r h'

theorem split_unique {x : Bytes} : ∀ {l1 l2 m1 m2 : List Bytes}, (l1 ++ x :: l2).Nodup → l1 ++ x :: l2 = m1 ++ x :: m2 → l1 = m1 ∧ l2 = m2
  | [], l2, [], m2, _, h => ⟨rfl, by simpa using h⟩
  | [], l2, b :: m1, m2, hn, h => by
    simp at h hn
    exact absurd (by rw [h.2]; simp) hn.1
  | a :: l1, l2, [], m2, hn, h => by
    simp at h hn
    exact absurd h.1 hn.1.2.1
  | a :: l1, l2, b :: m1, m2, hn, h => by
    simp only [List.cons_append, List.nodup_cons, List.cons.injEq] at h hn
    obtain ⟨h1, h2⟩ := split_unique hn.2 h.2
    exact ⟨by rw [h.1, h1], h2⟩

/-- The module was first loaded after the main module. -/
def After (E : Env) (s : St) (q : Bytes) : Prop := ∃ l1 l2, keys s = l1 ++ E.main :: l2 ∧ q ∈ l2

/-- What holds between reloads. -/
structure Held (E : Env) (s : St) (me : Self) : Prop where
  files : Files E s
  nodup : (keys s).Nodup
  apps : ∀ x c i, attr s E.main x = some (.app c i) → x = E.a
  cls : me.cls = 0
  id : me.id < s.next

/-- Files behind a run of the main text. -/
theorem inv_files {E : Env} {d : Disk} {main : Bytes} {src : List Stmt} {s0 s : St} (hP : Program E d src)
    (hi : Inv d main E.a src s0 src s) (hf : Files E s0) : Files E s := by
  intro q r hr
  by_cases hq : q = main
  · subst hq
    obtain ⟨q0, qm, h1, h2, h3⟩ := hi.mod
    rw [h2] at hr; cases hr
    rw [h3]; exact hf q q0 h1
  · by_cases hk : q ∈ keys s0
    · rw [hi.old q hq hk] at hr
      exact hf q r hr
    · have hks : q ∈ keys s := mem_keys.2 (by simp [Dict.mem, hr])
      obtain ⟨-, r', h1, h2⟩ := hi.fresh q hk hks
      rw [h1] at hr; cases hr
      obtain ⟨new, h3, h4⟩ := hi.keys
      rw [h3] at hks
      obtain ⟨x, y, h5⟩ := h4 q (by simpa [hk] using hks)
      obtain ⟨h6, h7, -⟩ := hP.imports q x y h5
      exact .helper h6 (by rw [h2, h7])

/-- The last part: the routes of the one application object are taken over. -/
theorem onReload_end {E : Env} {d : Disk} {s s1 s' : St} {me : Self} {fuel i : Nat} (hE : E.Ok)
    (h1 : reloadAll d fuel E.dir (keys s) s = .ok s1) (h2 : load d fuel E.main s1 = .ok s') (hc : me.cls = 0) (hid : me.id < i)
    (ha : attr s' E.main E.a = some (.app 0 i)) (ho : ∀ x c j, attr s' E.main x = some (.app c j) → x = E.a) :
    onReload d fuel E.dir E.main s me = .ok (s', { me with routes := i }) := by
  unfold onReload
  rw [h1]
  simp only [h2]
  cases hq : Dict.get s'.mods E.main with
  | none => unfold attr at ha; rw [hq] at ha; cases ha
  | some q =>
    have hat : ∀ x, attr s' E.main x = Dict.get q.attrs x := by
      intro x; unfold attr; rw [hq]; rfl
    rw [hat] at ha
    simp only
    rw [rebind_one hc (by omega) hE.a ha (fun x c j h => ho x c j (by rw [hat]; exact h)) (dir q) me.routes
      (.inl (mem_dir.2 (by simp [Dict.mem, ha])))]

theorem good_mods {main : Bytes} {src : List Stmt} {i : Nat} {s s' : St} (hg : Good main src i s) (hh : s'.heap = s.heap)
    (hm : Dict.get s'.mods main = Dict.get s.mods main) (hi : ∀ q, Imports src q → Dict.get s'.mods q = Dict.get s.mods q) :
    Good main src i s' := by
  obtain ⟨t, h1, h2⟩ := hg
  refine ⟨t, by rw [hh]; exact h1, All2.imp h2 ?_⟩
  rintro r _ e ⟨h3, m, n, j, h4, h5, h6⟩
  refine ⟨h3, m, n, j, h4, h5, ?_⟩
  rcases h4 with ⟨-, rfl, -⟩ | h
  · rw [attr_mods hm]; exact h6
  · rw [attr_mods (hi m ⟨n, r.2, h⟩)]; exact h6

/-- One reload. -/
theorem reload_once {E : Env} {d : Disk} {src : List Stmt} {s : St} {me : Self} (n : Nat) (hE : E.Ok) (hP : Program E d src) (h : Held E s me)
    (hn : ∀ q, Imports src q → ¬ After E s q) :
    ∃ s' me', onReload d (n + 2) E.dir E.main s me = .ok (s', me') ∧ Good E.main src me'.routes s' ∧ Held E s' me' ∧
      (∀ q ∈ keys s, q ∈ keys s') ∧ (∀ q, After E s' q → After E s q ∨ Imports src q ∧ q ∉ keys s) := by
  by_cases hk : E.main ∈ keys s
  · -- it is there already
    obtain ⟨l1, l2, hl⟩ := List.append_of_mem hk
    have hnd : (l1 ++ E.main :: l2).Nodup := hl ▸ h.nodup
    have hm1 : E.main ∉ l1 := by
      intro hh; exact (List.nodup_append.1 hnd).2.2 _ hh _ (by simp) rfl
    have hm2 : E.main ∉ l2 := (List.nodup_cons.1 (List.nodup_append.1 hnd).2.1).1
    obtain ⟨s1, a1, a2, a3, a4, a5, a6, a7⟩ := reload_helpers hE hP (n + 2) l1 s hm1 h.files
    obtain ⟨r, hr⟩ : ∃ r, Dict.get s.mods E.main = some r := Option.isSome_iff_exists.1 (mem_keys.1 hk)
    have hr1 : Dict.get s1.mods E.main = some r := by rw [a6 _ hm1, hr]
    have hfile : r.file = some E.script := by
      cases h.files _ _ hr with
      | foreign _ h _ => exact absurd rfl h
      | helper h _ => exact absurd rfl (hE.helper _ h).1
      | main _ h => exact h
    have hready : ∀ q x y, .imp q x y ∈ src → Ready d s1 E.main q x := by
      intro q x y hq
      obtain ⟨b1, b2, t, b3, b4⟩ := hP.imports q x y hq
      refine ⟨(hE.helper q b1).1, ?_, ?_⟩
      · intro hq1
        rw [a2] at hq1
        refine a7 q ?_ hq1 b1 t b3 x b4
        have h2 : q ∉ l2 := fun h2 => hn q ⟨x, y, hq⟩ ⟨l1, l2, hl, h2⟩
        rw [hl] at hq1
        simpa [(hE.helper q b1).1, h2] using hq1
      · intro _
        exact ⟨E.path q, t, b2, b3, hP.helpers q t b1 b3, b4⟩
    obtain ⟨s2, c1, c2, c3⟩ := exec_main (n + 1) hP.ok hready hr1
    obtain ⟨i, g1, g2, g3⟩ := inv_good hP.ok c2
    obtain ⟨s3, e1, e2, e3, e4, e5, e6, e7⟩ := reload_helpers hE hP (n + 2) l2 s2 hm2 (inv_files hP c2 a5)
    have hmain3 : ∀ x, attr s3 E.main x = attr s2 E.main x := fun x => attr_mods (e6 _ hm2)
    have happs : ∀ x c j, attr s3 E.main x = some (.app c j) → x = E.a := by
      intro x c j hx
      rw [hmain3] at hx
      rcases c2.apps x c j hx with h1 | h1
      · exact h1
      · rw [attr_mods (a6 _ hm1)] at h1
        exact h.apps x c j h1
    have hall : reloadAll d (n + 2) E.dir (keys s) s = .ok s3 := by
      rw [hl, reloadAll_append, a1]
      simp only
      rw [reloadAll, again_own hr1 hfile hE.main hE.script, hP.text]
      simp only [c1]
      exact e1
    obtain ⟨new, k1, k2⟩ := c2.keys
    have hk3 : keys s3 = l1 ++ E.main :: (l2 ++ new) := by rw [e2, k1, a2, hl]; simp
    have hnd3 : (keys s3).Nodup := by rw [e2]; exact c2.nd (by rw [a2]; exact h.nodup)
    refine ⟨s3, { me with routes := i }, ?_, ?_, ?_, ?_, ?_⟩
    · refine onReload_end hE hall ?_ h.cls (Nat.lt_of_lt_of_le h.id (Nat.le_trans a4 g1)) (by rw [hmain3]; exact g2) happs
      rw [load, if_pos (mem_keys.1 (by rw [hk3]; simp))]
    · refine good_mods g3 e3 (e6 _ hm2) ?_
      intro q hq
      exact e6 q (fun h2 => hn q hq ⟨l1, l2, hl, h2⟩)
    · exact ⟨e5, hnd3, happs, h.cls, Nat.lt_of_lt_of_le h.id (Nat.le_trans a4 (Nat.le_trans c2.next e4))⟩
    · intro q hq
      rw [hl] at hq
      rw [hk3]
      simp at hq ⊢
      rcases hq with hq | hq | hq <;> simp [hq]
    · rintro q ⟨m1, m2, hm, hq⟩
      have hu := split_unique (l1 := l1) (l2 := l2 ++ new) (m1 := m1) (m2 := m2) (by rw [← hk3]; exact hnd3) (by rw [← hk3, hm])
      rw [← hu.2] at hq
      rcases List.mem_append.1 hq with hq | hq
      · exact .inl ⟨l1, l2, hl, hq⟩
      · refine .inr ⟨k2 q hq, ?_⟩
        intro hqs
        have := hnd3
        rw [e2, k1, a2] at this
        exact (List.nodup_append.1 this).2.2 q hqs q hq rfl
  · -- it is imported
    obtain ⟨s1, a1, a2, a3, a4, a5, a6, a7⟩ := reload_helpers hE hP (n + 2) (keys s) s hk h.files
    have hk1 : Dict.mem s1.mods E.main = false := by
      cases hc : Dict.mem s1.mods E.main
      · rfl
      · exact absurd (a2 ▸ mem_keys.2 hc) hk
    obtain ⟨s0, hs0, hmods, hheap, hnext⟩ : ∃ s0 : St, { s1 with mods := Dict.set s1.mods E.main ⟨some E.script, []⟩ } = s0 ∧
        s0.mods = Dict.set s1.mods E.main ⟨some E.script, []⟩ ∧ s0.heap = s1.heap ∧ s0.next = s1.next := ⟨_, rfl, rfl, rfl, rfl⟩
    have hkeys0 : keys s0 = keys s ++ [E.main] := by
      show s0.mods.map (·.1) = _
      rw [hmods, Dict.keys_set, hk1]
      show keys s1 ++ [E.main] = _
      rw [a2]
    have hget0 : ∀ q, q ≠ E.main → Dict.get s0.mods q = Dict.get s1.mods q := by
      intro q hq
      rw [hmods, Dict.get_set, if_neg (Ne.symm hq)]
    have hget0m : Dict.get s0.mods E.main = some ⟨some E.script, []⟩ := by rw [hmods, Dict.get_set, if_pos rfl]
    have hf0 : Files E s0 := by
      intro q r hr
      by_cases hq : q = E.main
      · subst hq
        rw [hget0m] at hr; cases hr
        exact .main rfl rfl
      · rw [hget0 q hq] at hr
        exact a5 q r hr
    have hready : ∀ q x y, .imp q x y ∈ src → Ready d s0 E.main q x := by
      intro q x y hq
      obtain ⟨b1, b2, t, b3, b4⟩ := hP.imports q x y hq
      have hqm := (hE.helper q b1).1
      refine ⟨hqm, ?_, ?_⟩
      · intro hq1
        have hqs : q ∈ keys s := by rw [hkeys0] at hq1; simpa [hqm] using hq1
        obtain ⟨i, hi⟩ := a7 q hqs hqs b1 t b3 x b4
        exact ⟨i, by rw [attr_mods (hget0 q hqm)]; exact hi⟩
      · intro _
        exact ⟨E.path q, t, b2, b3, hP.helpers q t b1 b3, b4⟩
    obtain ⟨s2, c1, c2, c3⟩ := exec_main n hP.ok hready hget0m
    obtain ⟨i, g1, g2, g3⟩ := inv_good hP.ok c2
    have happs : ∀ x c j, attr s2 E.main x = some (.app c j) → x = E.a := by
      intro x c j hx
      rcases c2.apps x c j hx with h1 | h1
      · exact h1
      · unfold attr at h1
        rw [hget0m] at h1
        cases h1
    have hnd0 : (keys s0).Nodup := by
      rw [hkeys0, List.nodup_append]
      refine ⟨h.nodup, by simp, ?_⟩
      intro x hx y hy
      simp at hy
      subst hy
      rintro rfl
      exact hk hx
    obtain ⟨new, k1, k2⟩ := c2.keys
    have hk3 : keys s2 = keys s ++ E.main :: new := by rw [k1, hkeys0]; simp
    have hnd3 : (keys s2).Nodup := c2.nd hnd0
    refine ⟨s2, { me with routes := i }, ?_, g3, ?_, ?_, ?_⟩
    · refine onReload_end hE a1 ?_ h.cls (Nat.lt_of_lt_of_le h.id (Nat.le_trans a4 (by rw [← hnext]; exact g1))) g2 happs
      rw [load, hk1, if_neg (by simp)]
      simp only [hP.found, hP.text]
      rw [hs0]
      exact c1
    · exact ⟨inv_files hP c2 hf0, hnd3, happs, h.cls, Nat.lt_of_lt_of_le h.id (Nat.le_trans a4 (by rw [← hnext]; exact c2.next))⟩
    · intro q hq
      rw [hk3]; simp [hq]
    · rintro q ⟨m1, m2, hm, hq⟩
      have hu := split_unique (l1 := keys s) (l2 := new) (m1 := m1) (m2 := m2) (by rw [← hk3]; exact hnd3) (by rw [← hk3, hm])
      rw [← hu.2] at hq
      refine .inr ⟨k2 q hq, ?_⟩
      intro hqs
      rw [hk3] at hnd3
      exact (List.nodup_append.1 hnd3).2.2 q hqs q (by simp [hq]) rfl

end Verif.Proofs.Rebind
