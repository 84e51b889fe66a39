import Verif.Spec.Register
import Verif.Proofs.Rebind
import Verif.Props.AppMore
/-!
# Lemmas on registration
-/
namespace Verif.Proofs.Register
open Verif.Py Verif.Model.App Verif.Model.Register Verif.Spec.Register
open Verif.Proofs.Rebind (All2.append)

variable {V : Type}

/-- As Python requires, the names of the parameters differ. -/
def Named : Fn V → Prop
  | .user _ s => (s.named.map (·.1)).Nodup
  | .obj _ => True
  | .wrap f => Named f

theorem options_spec {f : Fn V} (h : Named f) {o : Opts V} (ho : options f = .ok o) (k : Bytes) : Dict.get o k = stated f k := by
  match f, h, ho with
  | .user _ s, h, ho =>
    cases ho
    exact C43_getoptions s.plain s.named h k
  | .wrap f, _, ho => cases ho; rfl

theorem orOptions_spec {kw : Opts V} {f : Fn V} (h : Named f) {o : Opts V} (ho : orOptions kw f = .ok o) (k : Bytes) : Dict.get o k = given kw f k := by
  unfold orOptions at ho
  split at ho
  · unfold given; rw [if_pos rfl]; exact options_spec h ho k
  · cases ho
    unfold given; rw [if_neg (by simp)]

/-- The keys of the application object never change. -/
structure Shape (a : AppSt V) : Prop where
  mws : ∀ n, (Dict.get a.mws n).isSome = true ↔ Known (.middleware n)
  events : ∀ n, (Dict.get a.events n).isSome = true ↔ Known (.event n)
  errs : a.table.errs.map (·.1) = [400, 404, 500]

/-- An entry of the application object is that of a registration. -/
def Fits (e : Fn V × Opts V) (r : Registration V) : Prop := root e.1 = r.func ∧ ∀ k, Dict.get e.2 k = r.opts k

/-- What was added from `a` to `b` fits the registrations `rs`. -/
structure Adds (a b : AppSt V) (rs : List (Registration V)) : Prop where
  mws : ∀ n l, Dict.get a.mws n = some l → ∃ m, Dict.get b.mws n = some (l ++ m) ∧ All2 Fits m (rs.filter (fun r => r.place == .middleware n))
  events : ∀ n l, Dict.get a.events n = some l → ∃ m, Dict.get b.events n = some (l ++ m) ∧
    All2 (fun f r => root f = r.func) m (rs.filter (fun r => r.place == .event n))
  table : ∃ m, b.table = m.foldl register a.table ∧
    All2 (fun e r => ∃ f o, Fits (f, o) r ∧ ((∃ p, r.place = .route p ∧ e = .route p f o) ∨ ∃ c, r.place = .error c ∧ e = .error c f o))
      m (rs.filter (fun r => match r.place with | .route _ | .error _ => true | _ => false))

theorem Adds.refl (a : AppSt V) : Adds a a [] :=
  ⟨fun n l h => ⟨[], by simp [h], .nil⟩, fun n l h => ⟨[], by simp [h], .nil⟩, [], rfl, .nil⟩

theorem Adds.trans {a b c : AppSt V} {r s : List (Registration V)} (h : Adds a b r) (g : Adds b c s) : Adds a c (r ++ s) := by
  refine ⟨fun n l hl => ?_, fun n l hl => ?_, ?_⟩
  · obtain ⟨m, h1, h2⟩ := h.mws n l hl
    obtain ⟨m', g1, g2⟩ := g.mws n _ h1
    exact ⟨m ++ m', by rw [g1, List.append_assoc], by rw [List.filter_append]; exact All2.append h2 g2⟩
  · obtain ⟨m, h1, h2⟩ := h.events n l hl
    obtain ⟨m', g1, g2⟩ := g.events n _ h1
    exact ⟨m ++ m', by rw [g1, List.append_assoc], by rw [List.filter_append]; exact All2.append h2 g2⟩
  · obtain ⟨m, h1, h2⟩ := h.table
    obtain ⟨m', g1, g2⟩ := g.table
    exact ⟨m ++ m', by rw [g1, h1, List.foldl_append], by rw [List.filter_append]; exact All2.append h2 g2⟩

theorem fits_wrap {f : Fn V} {o : Opts V} {r : Registration V} (h1 : root f = r.func) (h2 : ∀ k, Dict.get o k = r.opts k) : Fits (.wrap f, o) r := ⟨h1, h2⟩

theorem addMiddleware_adds {a b : AppSt V} {f : Fn V} {n : Bytes} {kw : Opts V} (hf : Named f) (h : addMiddleware a f n kw = .ok b) :
    Adds a b [⟨.middleware n, root f, given kw f⟩] := by
  unfold addMiddleware at h
  split at h
  · cases h
  · rename_i l hl
    split at h
    · cases h
    · rename_i o ho
      cases h
      refine ⟨fun k l' hl' => ?_, fun k l' hl' => ⟨[], by simpa using hl', .nil⟩, [], rfl, .nil⟩
      dsimp only
      rw [Dict.get_set]
      by_cases hk : n = k
      · subst hk
        rw [hl] at hl'
        cases hl'
        rw [if_pos rfl]
        refine ⟨[(f, o)], rfl, ?_⟩
        rw [List.filter_cons_of_pos (by simp)]
        exact .cons ⟨rfl, orOptions_spec hf ho⟩ .nil
      · rw [if_neg hk]
        refine ⟨[], by simpa using hl', ?_⟩
        rw [List.filter_cons_of_neg (by simpa using hk)]
        exact .nil

theorem addRouteKw_adds {a b : AppSt V} {f : Fn V} {p : Bytes} {kw : Opts V} (hf : Named f) (h : addRouteKw a f p kw = .ok b) :
    Adds a b [⟨.route p, root f, given kw f⟩] := by
  unfold addRouteKw at h
  split at h
  · cases h
  · rename_i o ho
    cases h
    exact ⟨fun k l hl => ⟨[], by simpa using hl, .nil⟩, fun k l hl => ⟨[], by simpa using hl, .nil⟩,
      [.route p f o], rfl, .cons ⟨f, o, ⟨rfl, orOptions_spec hf ho⟩, .inl ⟨p, rfl, rfl⟩⟩ .nil⟩

theorem given_wrap {f : Fn V} {o : Opts V} (h : Named f) (ho : options f = .ok o) : given o (.wrap f) = stated f := by
  funext k
  unfold given
  split
  · rename_i he
    subst he
    rw [← options_spec h ho k]; rfl
  · exact options_spec h ho k

theorem setErr_none {F : Type} {c : Nat} {f : F} {o : Opts V} : ∀ {l : List (Nat × F × Opts V)}, l.any (fun h => h.1 == c) = false → setErr c f o l = l
  | [], _ => rfl
  | h :: t, hl => by
    simp only [List.any_cons, Bool.or_eq_false_iff] at hl
    unfold setErr
    rw [if_neg (fun e => by have := hl.1; simp [e] at this), setErr_none hl.2]

theorem map_ok {α β ε : Type} {x : Except ε α} {g : α → β} {b : β} (h : x.map g = .ok b) : ∃ a, x = .ok a ∧ g a = b := by
  match x, h with
  | .ok a, h => cases h; exact ⟨a, rfl, rfl⟩

theorem decorate_adds {a : AppSt V} {d : Deco} {f : Fn V} (hf : Named f) {r : AppSt V × Fn V} (h : decorate a d f = .ok r) :
    r.2 = .wrap f ∧ Adds a r.1 [⟨d, root f, stated f⟩] := by
  match d, h with
  | .route p, h =>
    simp only [decorate] at h
    split at h
    · cases h
    · rename_i o ho
      obtain ⟨b, hb, rfl⟩ := map_ok h
      have := addRouteKw_adds (f := .wrap f) hf hb
      rw [given_wrap hf ho] at this
      exact ⟨rfl, this⟩
  | .error c, h =>
    simp only [decorate] at h
    split at h
    · split at h
      · cases h
      · rename_i o ho
        cases h
        exact ⟨rfl, fun k l hl => ⟨[], by simpa using hl, .nil⟩, fun k l hl => ⟨[], by simpa using hl, .nil⟩,
          [.error c (.wrap f) o], rfl, .cons ⟨.wrap f, o, ⟨rfl, options_spec hf ho⟩, .inr ⟨c, rfl, rfl⟩⟩ .nil⟩
    · rename_i hn
      cases h
      have hn : a.table.errs.any (fun h => h.1 == c) = false := Bool.eq_false_iff.2 hn
      -- the options do not matter: nothing is changed
      have hopt : ∃ o : Opts V, ∀ k, Dict.get o k = stated f k := by
        match f, hf with
        | .user i s, hf => exact ⟨_, options_spec (f := .user i s) hf rfl⟩
        | .obj _, _ => exact ⟨[], fun _ => rfl⟩
        | .wrap _, _ => exact ⟨[], fun _ => rfl⟩
      obtain ⟨o, ho⟩ := hopt
      refine ⟨rfl, fun k l hl => ⟨[], by simpa using hl, .nil⟩, fun k l hl => ⟨[], by simpa using hl, .nil⟩,
          [.error c (.wrap f) o], ?_, .cons ⟨.wrap f, o, ⟨rfl, ho⟩, .inr ⟨c, rfl, rfl⟩⟩ .nil⟩
      show a.table = Model.App.error a.table c (.wrap f) o
      unfold Model.App.error
      rw [setErr_none hn]
  | .event n, h =>
    simp only [decorate] at h
    split at h
    · cases h
    · rename_i l hl
      cases h
      refine ⟨rfl, fun k l hl => ⟨[], by simpa using hl, .nil⟩, fun k l' hl' => ?_, [], rfl, .nil⟩
      dsimp only
      rw [Dict.get_set]
      by_cases hk : n = k
      · subst hk
        rw [hl] at hl'
        cases hl'
        rw [if_pos rfl]
        refine ⟨[.wrap f], rfl, ?_⟩
        rw [List.filter_cons_of_pos (by simp)]
        exact .cons rfl .nil
      · rw [if_neg hk]
        refine ⟨[], by simpa using hl', ?_⟩
        rw [List.filter_cons_of_neg (by simpa using hk)]
        exact .nil
  | .middleware n, h =>
    simp only [decorate] at h
    split at h
    · cases h
    · rename_i o ho
      obtain ⟨b, hb, rfl⟩ := map_ok h
      have := addMiddleware_adds (f := .wrap f) hf hb
      rw [given_wrap hf ho] at this
      exact ⟨rfl, this⟩

theorem place_hook (h : Hook) : place (.bare h : Use V) = hookDeco h := by cases h <;> rfl
theorem place_called (h : Hook) (args : List (Option (Fn V))) : place (.called h args) = hookDeco h := by cases h <;> rfl

/-- A hook without a callable argument: a decorator. -/
theorem onHook_other {a : AppSt V} {h : Hook} {args : List (Option (Fn V))} (hn : ∀ g, args ≠ [some g]) : onHook a h args = .ok (.inr (hookDeco h)) := by
  unfold onHook
  split
  · exact absurd rfl (hn _)
  · rfl

theorem use_bare (a : AppSt V) (f : Fn V) (h : Hook) : use a f (.bare h) = decorate a (hookDeco h) f := by
  simp only [use, onHook]
  match decorate a (hookDeco h) f with
  | .ok r => rfl
  | .error e => rfl

/-- Every use is its decorator, unless it is called with a function. -/
theorem use_eq {a : AppSt V} {f : Fn V} {u : Use V} (hn : ∀ h g, u ≠ .called h [some g]) : use a f u = decorate a (place u) f := by
  match u, hn with
  | .deco d, _ => rfl
  | .bare h, _ => rw [use_bare, place_hook]
  | .called h args, hn =>
    rw [place_called]
    simp only [use, onHook_other (a := a) (h := h) (args := args) (fun g e => hn h g (by rw [e]))]

theorem use_called {a : AppSt V} {f g : Fn V} {h : Hook} : ∃ e, use a f (.called h [some g]) = .error e := by
  simp only [use, onHook]
  match decorate a (hookDeco h) g with
  | .ok r => exact ⟨_, rfl⟩
  | .error e => exact ⟨_, rfl⟩

theorem use_adds {a : AppSt V} {f : Fn V} (hf : Named f) {u : Use V} {r : AppSt V × Fn V} (h : use a f u = .ok r) :
    r.2 = .wrap f ∧ Adds a r.1 [⟨place u, root f, stated f⟩] := by
  have hn : ∀ k g, u ≠ .called k [some g] := by
    rintro k g rfl
    obtain ⟨e, he⟩ := use_called (a := a) (f := f) (g := g) (h := k)
    rw [he] at h; cases h
  rw [use_eq hn] at h
  exact decorate_adds hf h

theorem uses_wrapped : ∀ {us : List (Use V)} {a : AppSt V} {f : Fn V}, Named f → ∀ {r : AppSt V × Fn V}, uses a (.wrap f) us = .ok r →
    Adds a r.1 (us.map (fun u => ⟨place u, root f, fun _ => none⟩))
  | [], a, f, _, r, h => by cases h; exact Adds.refl a
  | u :: us, a, f, hf, r, h => by
    unfold uses at h
    split at h
    · cases h
    · rename_i b g hg
      obtain ⟨e, h1⟩ := use_adds (f := .wrap f) hf hg
      cases e
      have h2 := uses_wrapped (f := .wrap f) hf h
      exact Adds.trans h1 h2

theorem uses_adds {us : List (Use V)} {a : AppSt V} {f : Fn V} (hf : Named f) {r : AppSt V × Fn V} (h : uses a f us = .ok r) :
    Adds a r.1 (happens (.define f us)) := by
  match us, h with
  | [], h => cases h; exact Adds.refl a
  | u :: us, h =>
    unfold uses at h
    split at h
    · cases h
    · rename_i b g hg
      obtain ⟨e, h1⟩ := use_adds hf hg
      cases e
      have h2 := Adds.trans h1 (uses_wrapped hf h)
      exact h2

/-- The functions of a statement have parameters with different names. -/
def StmtNamed : Stmt V → Prop
  | .define f _ => Named f
  | .addRoute f _ _ => Named f
  | .addMiddleware f _ _ => Named f

theorem exec_adds {a b : AppSt V} {s : Stmt V} (hs : StmtNamed s) (h : exec a s = .ok b) : Adds a b (happens s) := by
  match s, hs, h with
  | .define f us, hs, h =>
    obtain ⟨r, hr, rfl⟩ := map_ok h
    exact uses_adds hs hr
  | .addRoute f p kw, hs, h => exact addRouteKw_adds hs h
  | .addMiddleware f n kw, hs, h => exact addMiddleware_adds hs h

theorem run_adds : ∀ {prog : List (Stmt V)} {a b : AppSt V}, (∀ s ∈ prog, StmtNamed s) → run a prog = .ok b → Adds a b (prog.flatMap happens)
  | [], a, b, _, h => by cases h; exact Adds.refl a
  | s :: ss, a, b, hp, h => by
    unfold run at h
    split at h
    · cases h
    · rename_i c hc
      rw [List.flatMap_cons]
      exact Adds.trans (exec_adds (hp s (by simp)) hc) (run_adds (fun x hx => hp x (by simp [hx])) h)

/-! ## Exceptions -/

theorem options_ok {f : Fn V} : (∃ o, options f = .ok o) ↔ Readable f := by
  match f with
  | .user i s => exact ⟨fun _ => trivial, fun _ => ⟨_, rfl⟩⟩
  | .obj i => exact ⟨fun ⟨o, h⟩ => (by cases h), fun h => h.elim⟩
  | .wrap f => exact ⟨fun _ => trivial, fun _ => ⟨_, rfl⟩⟩

theorem orOptions_ok {f : Fn V} {kw : Opts V} : (∃ o, orOptions kw f = .ok o) ↔ kw ≠ [] ∨ Readable f := by
  match kw with
  | [] => exact options_ok.trans ⟨.inr, fun h => h.elim (fun h => absurd rfl h) id⟩
  | p :: t => exact ⟨fun _ => .inl (by simp), fun _ => ⟨_, rfl⟩⟩

theorem set_keys {K W : Type} [DecidableEq K] {d : Dict K W} {k n : K} {w : W} (h : (Dict.get d k).isSome = true) :
    (Dict.get (Dict.set d k w) n).isSome = (Dict.get d n).isSome := by
  rw [Dict.get_set]
  split
  · rename_i e; subst e; rw [h]; rfl
  · rfl

theorem addMiddleware_ok {a : AppSt V} (s : Shape a) {f : Fn V} {n : Bytes} {kw : Opts V} :
    ((∃ b, addMiddleware a f n kw = .ok b) ↔ Known (.middleware n) ∧ (kw ≠ [] ∨ Readable f)) ∧ ∀ b, addMiddleware a f n kw = .ok b → Shape b := by
  unfold addMiddleware
  split
  · rename_i hn
    refine ⟨⟨fun ⟨b, h⟩ => (by cases h), fun h => ?_⟩, fun b h => by cases h⟩
    have := (s.mws n).2 h.1
    rw [hn] at this; cases this
  · rename_i l hl
    have hk := (s.mws n).1 (by rw [hl]; rfl)
    split
    · rename_i e he
      refine ⟨⟨fun ⟨b, h⟩ => (by cases h), fun h => ?_⟩, fun b h => by cases h⟩
      obtain ⟨o, ho⟩ := orOptions_ok.2 h.2
      rw [ho] at he; cases he
    · rename_i o ho
      refine ⟨⟨fun _ => ⟨hk, orOptions_ok.1 ⟨o, ho⟩⟩, fun _ => ⟨_, rfl⟩⟩, fun b h => ?_⟩
      cases h
      exact ⟨fun k => by dsimp only; rw [set_keys (by rw [hl]; rfl)]; exact s.mws k, s.events, s.errs⟩

theorem addRoute_errs {F : Type} (t : Table F V) (p : Bytes) (f : F) (o : Opts V) : (Model.App.addRoute t p f o).errs = t.errs := by
  unfold Model.App.addRoute
  dsimp only
  split
  · rfl
  · split
    · rfl
    · split <;> rfl

theorem addRouteKw_ok {a : AppSt V} (s : Shape a) {f : Fn V} {p : Bytes} {kw : Opts V} :
    ((∃ b, addRouteKw a f p kw = .ok b) ↔ kw ≠ [] ∨ Readable f) ∧ ∀ b, addRouteKw a f p kw = .ok b → Shape b := by
  unfold addRouteKw
  split
  · rename_i e he
    refine ⟨⟨fun ⟨b, h⟩ => (by cases h), fun h => ?_⟩, fun b h => by cases h⟩
    obtain ⟨o, ho⟩ := orOptions_ok.2 h
    rw [ho] at he; cases he
  · rename_i o ho
    refine ⟨⟨fun _ => orOptions_ok.1 ⟨o, ho⟩, fun _ => ⟨_, rfl⟩⟩, fun b h => ?_⟩
    cases h
    exact ⟨s.mws, s.events, by dsimp only; rw [addRoute_errs]; exact s.errs⟩

theorem setErr_codes {F : Type} (c : Nat) (f : F) (o : Opts V) : ∀ l : List (Nat × F × Opts V), (setErr c f o l).map (·.1) = l.map (·.1)
  | [] => rfl
  | h :: t => by
    unfold setErr
    split
    · rfl
    · rw [List.map_cons, setErr_codes c f o t]; rfl

/-- When a decorator raises nothing. -/
def Takes (d : Deco) (f : Fn V) : Prop := Known d ∧ (Readable f ∨ (∃ n, d = .event n) ∨ ∃ c, d = .error c ∧ c ≠ 400 ∧ c ≠ 404 ∧ c ≠ 500)

theorem any_code {F : Type} {l : List (Nat × F × Opts V)} {c : Nat} (h : l.map (·.1) = [400, 404, 500]) :
    l.any (fun x => x.1 == c) = true ↔ c = 400 ∨ c = 404 ∨ c = 500 := by
  have : l.any (fun x => x.1 == c) = (l.map (·.1)).any (· == c) := by rw [List.any_map]; rfl
  rw [this, h]
  simp only [List.any_cons, List.any_nil, Bool.or_false, Bool.or_eq_true, beq_iff_eq]
  omega

theorem map_isOk {α β ε : Type} {x : Except ε α} {g : α → β} : (∃ b, x.map g = .ok b) ↔ ∃ a, x = .ok a := by
  match x with
  | .ok a => exact ⟨fun _ => ⟨a, rfl⟩, fun _ => ⟨_, rfl⟩⟩
  | .error e => exact ⟨fun ⟨b, h⟩ => (by cases h), fun ⟨b, h⟩ => by cases h⟩

theorem decorate_ok {a : AppSt V} (s : Shape a) {d : Deco} {f : Fn V} :
    ((∃ r, decorate a d f = .ok r) ↔ Takes d f) ∧ ∀ r, decorate a d f = .ok r → Shape r.1 := by
  match d with
  | .route p =>
    simp only [decorate]
    split
    · rename_i e he
      refine ⟨⟨fun ⟨b, h⟩ => (by cases h), fun ⟨_, h⟩ => ?_⟩, fun b h => by cases h⟩
      rcases h with h | ⟨n, h⟩ | ⟨c, h, _⟩
      · obtain ⟨o, ho⟩ := options_ok.2 h
        rw [ho] at he; cases he
      · cases h
      · cases h
    · rename_i o ho
      have k := addRouteKw_ok s (f := .wrap f) (p := p) (kw := o)
      refine ⟨⟨fun _ => ⟨trivial, .inl (options_ok.1 ⟨o, ho⟩)⟩, fun _ => map_isOk.2 (k.1.2 (.inr trivial))⟩, fun r h => ?_⟩
      obtain ⟨b, hb, rfl⟩ := map_ok h
      exact k.2 b hb
  | .error c =>
    simp only [decorate]
    split
    · rename_i hc
      have hc := (any_code s.errs).1 hc
      split
      · rename_i e he
        refine ⟨⟨fun ⟨b, h⟩ => (by cases h), fun ⟨_, h⟩ => ?_⟩, fun b h => by cases h⟩
        rcases h with h | ⟨n, h⟩ | ⟨c', h, h1⟩
        · obtain ⟨o, ho⟩ := options_ok.2 h
          rw [ho] at he; cases he
        · cases h
        · cases h; omega
      · rename_i o ho
        refine ⟨⟨fun _ => ⟨trivial, .inl (options_ok.1 ⟨o, ho⟩)⟩, fun _ => ⟨_, rfl⟩⟩, fun r h => ?_⟩
        cases h
        exact ⟨s.mws, s.events, by dsimp only [Model.App.error]; rw [setErr_codes]; exact s.errs⟩
    · rename_i hc
      rw [any_code s.errs] at hc
      refine ⟨⟨fun _ => ⟨trivial, .inr (.inr ⟨c, rfl, by omega⟩)⟩, fun _ => ⟨_, rfl⟩⟩, fun r h => ?_⟩
      cases h; exact s
  | .event n =>
    simp only [decorate]
    split
    · rename_i hn
      refine ⟨⟨fun ⟨b, h⟩ => (by cases h), fun h => ?_⟩, fun b h => by cases h⟩
      have := (s.events n).2 h.1
      rw [hn] at this; cases this
    · rename_i l hl
      refine ⟨⟨fun _ => ⟨(s.events n).1 (by rw [hl]; rfl), .inr (.inl ⟨n, rfl⟩)⟩, fun _ => ⟨_, rfl⟩⟩, fun r h => ?_⟩
      cases h
      exact ⟨s.mws, fun k => by dsimp only; rw [set_keys (by rw [hl]; rfl)]; exact s.events k, s.errs⟩
  | .middleware n =>
    simp only [decorate]
    split
    · rename_i e he
      refine ⟨⟨fun ⟨b, h⟩ => (by cases h), fun ⟨_, h⟩ => ?_⟩, fun b h => by cases h⟩
      rcases h with h | ⟨n, h⟩ | ⟨c, h, _⟩
      · obtain ⟨o, ho⟩ := options_ok.2 h
        rw [ho] at he; cases he
      · cases h
      · cases h
    · rename_i o ho
      have k := addMiddleware_ok s (f := .wrap f) (n := n) (kw := o)
      refine ⟨⟨fun h => ⟨(k.1.1 (map_isOk.1 h)).1, .inl (options_ok.1 ⟨o, ho⟩)⟩, fun h => map_isOk.2 (k.1.2 ⟨h.1, .inr trivial⟩)⟩, fun r h => ?_⟩
      obtain ⟨b, hb, rfl⟩ := map_ok h
      exact k.2 b hb

theorem use_ok {a : AppSt V} (s : Shape a) {u : Use V} {f : Fn V} :
    ((∃ r, use a f u = .ok r) ↔ Takes (place u) f ∧ ∀ h g, u ≠ .called h [some g]) ∧ ∀ r, use a f u = .ok r → Shape r.1 := by
  by_cases hn : ∀ h g, u ≠ .called h [some g]
  · rw [use_eq hn]
    exact ⟨(decorate_ok s).1.trans ⟨fun h => ⟨h, hn⟩, fun h => h.1⟩, (decorate_ok s).2⟩
  · have : ∃ e, use a f u = .error e := by
      simp only [ne_eq, Classical.not_forall, Classical.not_not] at hn
      obtain ⟨h, g, rfl⟩ := hn
      exact use_called
    obtain ⟨e, he⟩ := this
    rw [he]
    exact ⟨⟨fun ⟨r, h⟩ => (by cases h), fun h => absurd h.2 hn⟩, fun r h => by cases h⟩

theorem uses_ok : ∀ {us : List (Use V)} {a : AppSt V}, Shape a → ∀ {f : Fn V},
    ((∃ r, uses a f us = .ok r) ↔ (∀ u ∈ us, Known (place u) ∧ ∀ h g, u ≠ .called h [some g]) ∧ (∀ u, us.head? = some u → Takes (place u) f)) ∧
    ∀ r, uses a f us = .ok r → Shape r.1
  | [], a, s, f => ⟨⟨fun _ => ⟨fun u hu => (by cases hu), fun u hu => by cases hu⟩, fun _ => ⟨_, rfl⟩⟩, fun r h => by cases h; exact s⟩
  | u :: us, a, s, f => by
    have k := use_ok s (u := u) (f := f)
    unfold uses
    split
    · rename_i e he
      refine ⟨⟨fun ⟨b, h⟩ => (by cases h), fun ⟨h1, h2⟩ => ?_⟩, fun b h => by cases h⟩
      obtain ⟨r, hr⟩ := k.1.2 ⟨h2 u rfl, (h1 u (by simp)).2⟩
      rw [hr] at he; cases he
    · rename_i b g hg
      have hk := k.1.1 ⟨_, hg⟩
      have hs := k.2 _ hg
      have hw : g = .wrap f := by
        rw [use_eq hk.2] at hg
        revert hg
        generalize place u = d
        intro hg
        match d, hg with
        | .route p, hg =>
          simp only [decorate] at hg
          split at hg
          · cases hg
          · obtain ⟨b, _, e⟩ := map_ok hg; cases e; rfl
        | .error c, hg =>
          simp only [decorate] at hg
          split at hg
          · split at hg
            · cases hg
            · cases hg; rfl
          · cases hg; rfl
        | .event n, hg =>
          simp only [decorate] at hg
          split at hg
          · cases hg
          · cases hg; rfl
        | .middleware n, hg =>
          simp only [decorate] at hg
          split at hg
          · cases hg
          · obtain ⟨b, _, e⟩ := map_ok hg; cases e; rfl
      subst hw
      have ih := uses_ok (us := us) hs (f := .wrap f)
      refine ⟨ih.1.trans ⟨fun ⟨h1, h2⟩ => ⟨fun v hv => ?_, fun v hv => (by cases hv; exact hk.1)⟩,
        fun ⟨h1, h2⟩ => ⟨fun v hv => h1 v (by simp [hv]), fun v hv => ⟨(h1 v (by simp [List.mem_of_mem_head? hv])).1, .inl trivial⟩⟩⟩, ih.2⟩
      rcases List.mem_cons.1 hv with rfl | hv
      · exact ⟨hk.1.1, hk.2⟩
      · exact h1 v hv

theorem exec_ok {a : AppSt V} (s : Shape a) {x : Stmt V} : ((∃ b, exec a x = .ok b) ↔ Accepted x) ∧ ∀ b, exec a x = .ok b → Shape b := by
  match x with
  | .define f us =>
    have k := uses_ok s (us := us) (f := f)
    refine ⟨map_isOk.trans (k.1.trans ⟨fun ⟨h1, h2⟩ => ⟨h1, fun u hu => (h2 u hu).2⟩, fun ⟨h1, h2⟩ => ⟨h1, fun u hu => ⟨(h1 u (List.mem_of_mem_head? hu)).1, h2 u hu⟩⟩⟩), fun b h => ?_⟩
    obtain ⟨r, hr, rfl⟩ := map_ok h
    exact k.2 r hr
  | .addRoute f p kw => exact addRouteKw_ok s
  | .addMiddleware f n kw => exact addMiddleware_ok s

theorem run_ok : ∀ {prog : List (Stmt V)} {a : AppSt V}, Shape a → ((∃ b, run a prog = .ok b) ↔ ∀ x ∈ prog, Accepted x)
  | [], a, _ => ⟨fun _ x hx => (by cases hx), fun _ => ⟨a, rfl⟩⟩
  | x :: xs, a, s => by
    have k := exec_ok s (x := x)
    unfold run
    split
    · rename_i e he
      refine ⟨fun ⟨b, h⟩ => (by cases h), fun h => ?_⟩
      obtain ⟨b, hb⟩ := k.1.2 (h x (by simp))
      rw [hb] at he; cases he
    · rename_i b hb
      exact (run_ok (k.2 b hb)).trans ⟨fun h y hy => (List.mem_cons.1 hy).elim (fun e => e ▸ k.1.1 ⟨b, hb⟩) (h y), fun h y hy => h y (by simp [hy])⟩

/-- `Tremolo()` (tremolo.py:39-65). -/
theorem shape_init {t : Table (Fn V) V} (h : t.errs.map (·.1) = [400, 404, 500]) : Shape { table := t } := by
  refine ⟨fun n => ?_, fun n => ?_, h⟩
  · simp only [Dict.get, Known]
    constructor
    · intro hx
      repeat' split at hx
      all_goals simp_all
    · rintro (rfl | rfl | rfl | rfl) <;> rfl
  · simp only [Dict.get, Known]
    constructor
    · intro hx
      repeat' split at hx
      all_goals simp_all
    · rintro (rfl | rfl) <;> rfl

end Verif.Proofs.Register
