import Verif.Props.Lifespan
import Verif.Props.Launch
import Verif.Props.ReadApi
import Verif.Props.Sockets
import Verif.Props.Queue
import Verif.Props.Connections
import Verif.Props.SendLoop
/-!
# Cases that meet the hypotheses of C36, C37, C47, C82, C83, C99, C101, C102 and C113
-/
namespace Verif
open Verif.Py

namespace StartCases
section
open Model.Lifespan Spec.Lifespan
/-- C47 for applications that fail, that are silent, and that are ready. -/
example := C47_reported [.receive] [.timer] "no database" (by decide) (by decide +kernel)
example := C47_tolerated [.receive, .timer] (by decide +kernel) ⟨.timer, by decide, rfl⟩ (by intro o h; simp at h)
example := C47_complete [.receive] [.timer] (.send .startupComplete) rfl (by decide) (by decide +kernel)
example := C47_decided [.receive, .timer] (by decide) (by decide +kernel)
example := C47_failed (run init (Lifespan.failing ++ [.resume])) (some (.lifespan "lifespan.startup.failed: no database")) (by decide +kernel) [.receive, .stop]
example := C47_shutdown_no_wait [.receive, .timer] [.send .startupComplete] .timer (by decide +kernel) (by decide +kernel) rfl (by decide +kernel)
end

section
open Model.Launch Spec.Launch Launch
/-- C102 for `a/web.py:other` and `a/web`. -/
theorem offers : Offers world b!"/srv" b!"a/" b!"web" 1 := ⟨by decide, by decide, by
    intro dir _ h
    unfold world
    simp only
    rw [if_pos (h.trans (by decide))]⟩
theorem webNamed : Named b!"a/" b!"web" b!".py" b!"other" := ⟨by decide, by decide, by decide, by decide⟩
example := C102_named (cwd := b!"/srv") rfl webNamed
example := C102_default (cwd := b!"/srv") (d := b!"a/") (stem := b!"web") (ext := b!"") rfl ⟨by decide, by decide, by decide, by decide⟩ (by decide)
example : loadApp world b!"/srv" b!"a/web.py:other" = .ok 101 := (C102_served rfl webNamed offers).1
/-- C101 for two addresses with options of their own. -/
def ports : Dict Model.App.Addr (Model.App.Opts Val) := [((some b!"::", some 81), [(b!"buffer_size", .v (.int 5))])]
def args : RunArgs := { host := some b!"127.0.0.1", port := 80, workerNum := 3, kw := [(b!"buffer_size", .v (.int 7))] }
example : ∃ l, run (O := Nat) (· == ·) (fun _ => true) ⟨none, []⟩ 4 ports .none args = .ok l :=
  (C101_starts (O := Nat) (· == ·) (fun _ => true) ⟨none, []⟩ 4 ports .none args rfl (by decide +kernel) (by decide +kernel) (by
    intro e he v hv; simp [ports] at he; subst he; simp [Dict.get] at hv)).1 (.inl (by decide)) (by decide)
example := C101_options (O := Nat) (· == ·) (fun _ => true) ⟨none, []⟩ 4 ports .none args _ rfl rfl
example := C101_workers_partial (O := Nat) (· == ·) (fun _ => true) ⟨none, []⟩ 4 ports .none args _ rfl (by decide) (by
    intro e he; simp [ports] at he; subst he; rfl) rfl
end

section
open Model.ReadApi
/-- C113 for a body of nine bytes in three pieces, and one in a single piece. -/
example := C113_once (c := { cl := 9 }) rfl (b := b!"abcdefghi") rfl (by decide) (ps := [b!"abc", b!"def", b!"ghi"]) rfl [.recv (some 2) false, .body true]
example := C113_order_partial (c := { cl := 9 }) rfl (b := b!"abcdefghi") rfl (by decide) (ps := [b!"abc", b!"def", b!"ghi"]) rfl
  [.recv (some 2) false, .recv (some 1) true, .recv none false, .body false]
  ⟨fun h => absurd rfl (h _ _), fun h => absurd rfl (h _ _), fun _ => rfl, fun _ => rfl, trivial⟩
example := C113_skips (c := { cl := 9 }) rfl (p := b!"abc") (d := b!"def") (ps := [b!"ghi"]) rfl (by decide) (n := 2) (by decide) (by decide) false false
example := C113_leaves_out (c := { cl := 6 }) rfl (b := b!"abcdef") rfl (by decide) (n := 4) (m := 4) (by decide) (by decide) (by decide) false false false
example := C113_end (c := { cl := 9 }) rfl (b := b!"abcdefghi") rfl (by decide) (ps := [b!"abc", b!"def", b!"ghi"]) rfl false
end

section
open Model.Sockets C99
/-- C99: two workers on TCP, three on a path. -/
example := (C99_tcp (r := true) (n := 2) (.inl rfl) [.parent, .parent, .parent]).2 0 1 _ rfl
example := C99_tcp_stays (r := true) (n := 2) (es := [.parent, .parent, .parent, .worker 0, .parent, .worker 0]) (fs := [.worker 1, .die 1 false]) (i := 0)
  ⟨1, by decide +kernel, by decide +kernel, fun h => (by cases h)⟩ (by intro b; cases b <;> decide)
example : ∀ i, Reached .unix (run .unix (init 3 .absent) (oneByOne 3)) i → i = 2 := fun _ h =>
  C99_unix_one (by intro id h; cases h) _ h ((C99_refuted_workers (by decide) (by decide)).2.2 rfl)
end

section
open Model.Queue
/-- C37 for two calls that wait. -/
example := C37_fifo (es := [.start, .start, .put 1, .put 2, .put 3, .resume 1, .resume 0]) (by unfold Proofs.Queue.NoClear; decide)
example := (C37_delivered (es := [.start, .start, .put 1, .put 2, .put 3, .resume 1, .resume 0]) (by unfold Proofs.Queue.NoClear; decide) 1 2).1 rfl
end

section
open Model.Connections Spec.Connections
/-- C36 for a table of two. -/
example := C36_present (κ := Nat) (ν := Nat) (maxlen := 2) rfl [.set 1 0, .set 2 0] 3 0
example := C36_evicts_oldest (κ := Nat) (ν := Nat) (maxlen := 2) rfl [.set 1 0, .set 2 0] 3 0 1 ⟨0, by decide⟩
  (by rintro ⟨v, hv⟩; simp [run, step, Model.Connections.set, dictSet] at hv)
end

section
open Model.SendLoop SendLoop
/-- C82 and C83 for a client that reads slowly. -/
example := C82_bounded {} 65536 10 (by decide) (by decide) smallEs (by intro x hx; simp [smallEs] at hx; rcases hx with rfl | rfl | rfl <;> decide) (by intro h l hx; simp [smallEs] at hx; omega)
example := C83_deadline { timeout := 2 } (smallEs.take 9) (t0 := 0) (by decide +kernel) (by decide +kernel) (by decide +kernel) 0
end
end StartCases
end Verif
