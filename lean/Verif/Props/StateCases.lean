import Verif.Props.Register
import Verif.Props.Pool
import Verif.Props.WsTimer
import Verif.Props.Context
import Verif.Props.Stall
import Verif.Props.Session
/-!
# Cases that meet the hypotheses of C88, C94, C104, C109, C114 and C119
-/
namespace Verif
open Verif.Py

namespace StateCases
section
open Model.Register Spec.Register Register
theorem named : ∀ s ∈ prog, Proofs.Register.StmtNamed s := by
  simp [prog, Proofs.Register.StmtNamed, Proofs.Register.Named, ws]
theorem once : ∀ s ∈ prog, Once s := by
  simp [prog, Once, ws, root]
  rfl

/-- C109 for a program of four statements. -/
example : ∃ a, run start prog = .ok a := (C109_runs ..).2 (by
  simp [prog, Accepted, Known, place, Readable, ws])
example := C109_middlewares (a := _) named (rfl : run (fresh (.obj 400) (.obj 404) (.obj 500) (.obj 0) [] []) prog = .ok _) (n := b!"request") (.inr (.inr (.inl rfl)))
example := C109_events (a := _) named (rfl : run (fresh (.obj 400) (.obj 404) (.obj 500) (.obj 0) [] []) prog = .ok _) (n := b!"worker_start") (.inl rfl)
example := C109_routes (a := _) named (rfl : run (fresh (.obj 400) (.obj 404) (.obj 500) (.obj 0) [] []) prog = .ok _)
example := C109_order (a := _) named (rfl : run (fresh (.obj 400) (.obj 404) (.obj 500) (.obj 0) [] []) prog = .ok _)
example : prog.flatMap happens = prog.flatMap meant := C109_meant_partial once
/-- C109 for a function with parameters of every kind. -/
example := C109_bound 1 ({ plain := [b!"request"], named := [(b!"rate", 5)], kwonly := [(b!"x", none)], rest := false } : Sig Nat) [(b!"request", 0), (b!"x", 1)] (by decide +kernel)
end

section
open Model.Pool Pool
/-- C119 for two clients of a worker that keeps one connection. -/
example := C119_view (c := {}) (n := 1) (by decide) (visits 2) (i := 0) (rfl : _ = some _)
example := C119_bounded (c := {}) (n := 1) (by decide) (visits 2)
theorem visits_last : ∃ e, visits 2 = (visits 2).dropLast ++ [e] ∧ e ≠ .lost 0 := ⟨(visits 2).getLast (by decide +kernel), by decide +kernel, by decide +kernel⟩
example : ∃ (j : Nat) (e' : Model.Conn.Ev) (l : List Nat) (e : Ev), e = .on j e' ∧ kept (run {} (init 1) (visits 2).dropLast) = 0 :: l ∧ kept (run {} (init 1) (visits 2)) = l ++ [j] ∧ l.length + 1 = 1 := by
  obtain ⟨e, he, hn⟩ := visits_last
  obtain ⟨j, e', l, h1, h2, h3, _, h5⟩ := C119_kicked (c := {}) (n := 1) (by decide) (visits 2).dropLast (e := e) (i := 0) (by decide +kernel) (by rw [← he]; decide +kernel) hn
  exact ⟨j, e', l, e, h1, h2, by rw [he]; exact h3, h5⟩
end

section
open Model.WsTimer
/-- C88: a silent client, one that answers, and one that is awaited. -/
example := C88_expired_partial (c := { half := 2 }) (by decide) [.call, .tick, .tick, .tick, .pingTimer, .tick, .tick, .tick, .getTimer] (x := 4) (by decide +kernel)
example : (run { half := 2 } [.call, .tick, .tick, .pingTimer, .tick, .data [0x8A, 0], .tick, .tick, .pingTimer, .tick, .data [0x81, 1, 65]]).expired = none :=
  C88_responsive (by decide) _ (by decide +kernel) (by decide +kernel) (by decide +kernel)
example := C88_bound (c := { half := 2 }) (by decide) [.call, .tick, .tick, .pingTimer, .tick, .data [0x8A, 0], .tick] (by decide +kernel)
example := C88_spaced (c := { half := 2 }) (by decide) [.call, .tick, .tick, .pingTimer, .tick, .data [0x8A, 0], .tick, .tick, .pingTimer]
example := C88_waiting (c := { half := 2 }) [.tick, .tick, .tick] (.data [0x81, 1, 65]) (by decide +kernel) (by decide)
end

section
open Model.Context Spec.Context Context
theorem since : Since 1 story (story.drop 1) := ⟨[], rfl, by simp [story]⟩
theorem stored : Stored (opsOf 1 (story.drop 1)) b!"user" 5 := by
  refine ⟨[], .setattr b!"user" 5, [.getattr b!"user"], rfl, Or.inl rfl, ?_⟩
  intro x hx
  simp at hx
  subst hx
  rintro (⟨v, h | h⟩ | h) <;> cases h
/-- C114 for two connections that store under the same name. -/
example : ask story 1 (.getitem b!"user") = .val (.val 5) := ((C114_found story _ 1 since b!"user" (by decide) (by decide)).1 5 stored).1
example : ask story 1 (.setattr b!"options" 7) = .raises .attributeError := ((C114_kept story _ 1 since b!"options" 7).1 (.inl rfl)).2.2.1
example := C114_own_partial story _ 1 since [(b!"rate", 3)] b!"rate" 3 rfl
end

section
open Model.Stall Spec.Stall Stall
def stalled : List Ev := [.put (some b!"ab"), .read, .wake, .run, .tick, .read, .wake, .tick, .tick, .tick, .tick, .fire, .wake, .run]
theorem prompt : Prompt 4 stalled := prompt_sound (by decide +kernel)
theorem outs : (run 4 stalled).outs = (run 4 stalled).outs.take 1 ++ (((run 4 stalled).outs.drop 1).head (by decide +kernel)) :: [] := by decide +kernel
/-- C104 for a client that sends one piece and then nothing. -/
example := C104_early 4 stalled outs (by decide +kernel)
example := C104_delivered 4 (es := stalled) (by decide)
example := C104_prompt prompt (r := ((run 4 stalled).outs.drop 1).head (by decide +kernel)) (by decide +kernel)
example := C104_stalled prompt (by decide) (by decide) outs (by decide +kernel) (by decide +kernel)
example := C104_ends 4 [.read, .wake, .tick, .tick, .tick, .tick] (t := 0) (p := 0) (.inr ⟨_, rfl⟩) (by decide +kernel)
example := C104_sized 4 [.piece b!"cd"] (s := { buf := b!"abcdef", dead := true }) rfl
end
end StateCases
end Verif
