import Verif.Props.Rebind
/-!
# C103: programs for which it fails, and a case
-/
namespace Verif
open Verif.Py Verif.Model.Rebind Verif.Spec.Rebind
open Proofs.Rebind Rebind

/-! ## What goes wrong otherwise -/

namespace Rebind
/-- A directory with the given modules. -/
def disk (l : Dict Bytes (List Stmt)) : Disk where
  path m := if Dict.mem l m then some (b!"/app/" ++ m ++ b!".py") else none
  text p := (l.find? (fun e => b!"/app/" ++ e.1 ++ b!".py" == p)).map (·.2)

/-- The routes given to the first worker and to those after each reload; `none`: the parent ends with an exception. -/
def trace (base : Dict Bytes Mod) (ds : List (Dict Bytes (List Stmt))) : List (Option (List (Place × Bytes × Bytes))) :=
  match ds with
  | [] => []
  | d :: t => match boot (disk d) 9 base b!"/app/main.py" b!"app" with
    | .error _ => [none]
    | .ok (s, me) => handed s me :: reloads 9 b!"/app" b!"main" (t.map disk) s me
end Rebind

/-- `main` takes a function from `a`, which takes it from `b`: a reload runs `a` before `b`, the old function cannot be pickled, and the
parent ends with an exception, although nothing was changed. -/
theorem C103_refuted_nested :
    let p := [(b!"main", [.newApp b!"app" none, .imp b!"a" b!"g" b!"g", .route b!"app" (.path b!"/") b!"g"]), (b!"a", [.imp b!"b" b!"g" b!"g"]),
      (b!"b", [.defn b!"g" []])]
    trace [] [p, p] = [some [(.path b!"/", b!"b", b!"g")], none] := by decide +kernel

/-- A module that came into use by a reload: the next reload ends the parent. -/
theorem C103_refuted_added :
    let p := [(b!"main", [.newApp b!"app" none, .imp b!"a" b!"g" b!"g", .route b!"app" (.path b!"/") b!"g"]), (b!"a", [.defn b!"g" []])]
    trace [] [[(b!"main", [.newApp b!"app" none])], p, p] = [some [], some [(.path b!"/", b!"a", b!"g")], none] := by decide +kernel

/-- A server object of a subclass that the main module defines: its routes are never renewed. -/
theorem C103_refuted_subclass :
    let p := fun pat => [(b!"main", [.subclass b!"My", .newApp b!"app" (some b!"My"), .defn b!"f" [(b!"app", pat)]])]
    trace [] [p (.path b!"/old"), p (.path b!"/new")] = [some [(.path b!"/old", b!"__main__", b!"f")], some [(.path b!"/old", b!"__main__", b!"f")]] := by decide +kernel

/-- Two server objects: after a reload the routes are those of the last name in the alphabet, whichever object is running. -/
theorem C103_refuted_two :
    let p := [(b!"main", [.newApp b!"app" none, .newApp b!"test" none, .defn b!"f" [(b!"app", .path b!"/")], .defn b!"g" [(b!"test", .path b!"/test")]])]
    trace [] [p, p] = [some [(.path b!"/", b!"__main__", b!"f")], some [(.path b!"/test", b!"main", b!"g")]] := by decide +kernel

/-- A main module that is named like a loaded module: its routes are never renewed. -/
theorem C103_refuted_loaded :
    let p := fun pat => [(b!"main", [.newApp b!"app" none, .defn b!"f" [(b!"app", pat)]])]
    trace [(b!"main", ⟨some b!"/usr/lib/main.py", []⟩)] [p (.path b!"/old"), p (.path b!"/new")] =
      [some [(.path b!"/old", b!"__main__", b!"f")], some [(.path b!"/old", b!"__main__", b!"f")]] := by decide +kernel

/-- Two decorators on a function: the server does not even start. -/
theorem C103_refuted_stacked :
    trace [] [[(b!"main", [.newApp b!"app" none, .defn b!"f" [(b!"app", .path b!"/a"), (b!"app", .path b!"/b")]])]] = [none] := by decide +kernel

/-- A module of another directory whose name begins alike is run again too. -/
theorem C103_refuted_prefix :
    again ⟨fun _ => none, fun _ => some []⟩ b!"/app" ⟨[(b!"lib", ⟨some b!"/app-data/lib.py", []⟩)], [], 1⟩ b!"lib" = some [] := by decide +kernel

/-! ## A case -/

namespace Rebind
def src0 : List Stmt := [.newApp b!"app" none, .imp b!"h" b!"g" b!"g", .defn b!"f" [(b!"app", .path b!"/")], .route b!"app" (.mw .request) b!"g"]
def src1 : List Stmt := [.imp b!"h" b!"g" b!"x", .newApp b!"app" none, .defn b!"f" [(b!"app", .mw .response)], .route b!"app" (.path b!"/x") b!"x",
  .defn b!"missing" [(b!"app", .err 404)], .defn b!"begin" [(b!"app", .hook .start)]]
def p0 : Dict Bytes (List Stmt) := [(b!"main", src0), (b!"h", [.defn b!"g" []])]
def p1 : Dict Bytes (List Stmt) := [(b!"main", src1), (b!"h", [.defn b!"k" [], .defn b!"g" []])]
def env : Env := ⟨b!"/app", b!"main", b!"/app/main.py", b!"app", fun q => q = b!"h", fun q => b!"/app/" ++ q ++ b!".py"⟩
def base : Dict Bytes Mod := [(b!"json", ⟨some b!"/usr/lib/json.py", []⟩), (b!"tremolo", ⟨some b!"/app/tremolo.py", []⟩)]
end Rebind

/-- A route and a middleware; after a reload the function of the route is a middleware, with a handler of an error and a hook besides, and back. -/
example : trace [] [p0, p1, p0] = [some [(.path b!"/", b!"__main__", b!"f"), (.mw .request, b!"h", b!"g")],
    some [(.mw .response, b!"main", b!"f"), (.path b!"/x", b!"h", b!"g"), (.err 404, b!"main", b!"missing"), (.hook .start, b!"main", b!"begin")],
    some [(.path b!"/", b!"main", b!"f"), (.mw .request, b!"h", b!"g")]] := by decide +kernel

namespace Rebind
theorem env_ok : env.Ok := ⟨by unfold Special; decide, by decide, by rintro q rfl; exact ⟨by decide, by unfold Special; decide, by decide⟩, by decide⟩

theorem base_ok : Base env base :=
  ⟨by decide, by
    intro q r h
    have := Dict.get_mem h
    simp only [base, List.mem_cons, List.not_mem_nil, or_false, Prod.mk.injEq] at this
    rcases this with ⟨rfl, rfl⟩ | ⟨rfl, rfl⟩
    · exact ⟨by show ¬ (_ : Bytes) = _; decide, by decide, .inr (.inr ⟨_, rfl, by decide⟩)⟩
    · exact ⟨by show ¬ (_ : Bytes) = _; decide, by decide, .inl (by unfold Special; decide)⟩⟩

theorem program1 : Program env (disk p1) src1 where
  found := by decide +kernel
  text := by decide +kernel
  ok := {
    nodup := by decide
    app := by simp [env, src1]
    one := by intro n c h; simp [src1] at h; exact ⟨h.1, h.2⟩
    used := by
      intro pre b p h post e
      rcases pre with _ | ⟨c1, _ | ⟨c2, _ | ⟨c3, _ | ⟨c4, _ | ⟨c5, _ | ⟨c6, pre⟩⟩⟩⟩⟩⟩ <;> simp [src1] at e
      obtain ⟨rfl, rfl, rfl, ⟨rfl, rfl, rfl⟩, rfl⟩ := e
      exact ⟨by simp, rfl, by decide, by decide, .inr ⟨b!"h", b!"g", by simp [src1]⟩⟩
    deco := by
      intro pre n ds post e
      rcases pre with _ | ⟨c1, _ | ⟨c2, _ | ⟨c3, _ | ⟨c4, _ | ⟨c5, _ | ⟨c6, pre⟩⟩⟩⟩⟩⟩ <;> simp [src1] at e
      · obtain ⟨rfl, rfl, ⟨rfl, rfl⟩, rfl⟩ := e
        exact .inr ⟨⟨_, rfl⟩, by decide⟩
      · obtain ⟨rfl, rfl, rfl, rfl, ⟨rfl, rfl⟩, rfl⟩ := e
        exact .inr ⟨⟨_, rfl⟩, by decide⟩
      · obtain ⟨rfl, rfl, rfl, rfl, rfl, ⟨rfl, rfl⟩, rfl⟩ := e
        exact .inr ⟨⟨_, rfl⟩, by decide⟩ }
  imports := by
    intro q x y h
    simp [src1] at h
    obtain ⟨rfl, rfl, rfl⟩ := h
    exact ⟨rfl, by decide +kernel, [.defn b!"k" [], .defn b!"g" []], by decide +kernel, by simp⟩
  helpers := by
    rintro q t rfl h
    rw [show (disk p1).text (env.path b!"h") = some [.defn b!"k" [], .defn b!"g" []] by decide +kernel] at h
    cases h
    intro c hc
    simp at hc
    rcases hc with rfl | rfl <;> exact ⟨_, rfl⟩

theorem program0 : Program env (disk p0) src0 where
  found := by decide +kernel
  text := by decide +kernel
  ok := {
    nodup := by decide
    app := by simp [env, src0]
    one := by intro n c h; simp [src0] at h; exact ⟨h.1, h.2⟩
    used := by
      intro pre b p h post e
      rcases pre with _ | ⟨c1, _ | ⟨c2, _ | ⟨c3, _ | ⟨c4, pre⟩⟩⟩⟩ <;> simp [src0] at e
      obtain ⟨rfl, rfl, rfl, ⟨rfl, rfl, rfl⟩, rfl⟩ := e
      exact ⟨by simp, rfl, by decide, by decide, .inr ⟨b!"h", b!"g", by simp [src0]⟩⟩
    deco := by
      intro pre n ds post e
      rcases pre with _ | ⟨c1, _ | ⟨c2, _ | ⟨c3, _ | ⟨c4, pre⟩⟩⟩⟩ <;> simp [src0] at e
      obtain ⟨rfl, rfl, ⟨rfl, rfl⟩, rfl⟩ := e
      exact .inr ⟨⟨_, rfl⟩, by decide⟩ }
  imports := by
    intro q x y h
    simp [src0] at h
    obtain ⟨rfl, rfl, rfl⟩ := h
    exact ⟨rfl, by decide +kernel, [.defn b!"g" []], by decide +kernel, by simp⟩
  helpers := by
    rintro q t rfl h
    rw [show (disk p0).text (env.path b!"h") = some [.defn b!"g" []] by decide +kernel] at h
    cases h
    intro c hc
    simp at hc
    subst hc
    exact ⟨_, rfl⟩
end Rebind

/-- A hook that is also the handler of an error: no start either. -/
example : trace [] [[(b!"main", [.newApp b!"app" none, .defn b!"f" [(b!"app", .err 404), (b!"app", .hook .stop)]])]] = [none] := by decide +kernel

/-- `app.add_error` is no method. -/
example : trace [] [[(b!"main", [.newApp b!"app" none, .defn b!"f" [], .route b!"app" (.err 404) b!"f"])]] = [none] := by decide +kernel

/-- A function that is a route and a middleware is not found under its name as the route has it. -/
example : trace [] [[(b!"main", [.newApp b!"app" none, .defn b!"f" [(b!"app", .path b!"/"), (b!"app", .mw .request)]])]] = [none] := by decide +kernel

/-- C103 for three reloads of it. -/
example := C103_partial 0 env_ok base_ok program0 [(disk p1, src1), (disk p0, src0), (disk p1, src1)]
  (by
    intro e he
    simp only [List.mem_cons, List.not_mem_nil, or_false] at he
    rcases he with rfl | rfl | rfl
    · exact program1
    · exact program0
    · exact program1)
  (by
    have key : ∀ q, Imports src1 q → Imports src0 q := by
      rintro q ⟨x, y, h⟩
      simp [src1] at h
      obtain ⟨rfl, rfl, rfl⟩ := h
      exact ⟨b!"g", b!"g", by simp [src0]⟩
    simp only [List.pairwise_cons, List.mem_cons, List.not_mem_nil, or_false, forall_eq_or_imp, forall_eq]
    exact ⟨⟨fun q h _ => key q h, fun q h _ => key q h⟩, fun q h _ => h, by simp, .nil⟩)

end Verif
