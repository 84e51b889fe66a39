import Verif.Props.ReadEnd
import Verif.Props.ChunkEnd
import Verif.Props.FormApi
import Verif.Props.Prompt
import Verif.Props.Asgi
import Verif.Props.App
/-!
# Cases for C10, C11, C39, C46, C113, C116, C117 and C118

Each theorem is applied to values that meet its hypotheses.
-/
namespace Verif

namespace ReadCases
section
open Verif.Py Verif.Model.Upload Verif.Model.ReadApi
open Proofs.ReadApi ReadApi

/-- Nine bytes in three pieces, of which six have been read. -/
def ks : List Call := [.recv (some 2) false, .recv (some 1) true, .recv none false]
def ps : List Bytes := [b!"abc", b!"def", b!"ghi"]
theorem tidy : Tidy { cl := 9 } { q := ps.map some ++ [none] } ks :=
  ⟨fun h => absurd rfl (h _ _), fun h => absurd rfl (h _ _), fun _ => rfl, trivial⟩

/-- Four more are asked for, three are left. -/
example := C113_sized_partial (c := { cl := 9 }) rfl (b := b!"abcdefghi") rfl (by decide) (ps := ps) rfl ks 4 false tidy
example := C116_eof (c := { cl := 9 }) rfl (b := b!"abcdefghi") rfl (by decide) (ps := ps) rfl ks tidy
example := C116_body (c := { cl := 9 }) rfl (b := b!"abcdefghi") rfl (by decide) (ps := ps) rfl ks false tidy rfl
example := C116_left (c := { cl := 9 }) rfl (b := b!"abcdefghi") rfl (by decide) (ps := ps) rfl [2, 3, 4] false (by decide)
/-- The body is read by its first chunks only: the end of the line behind the last chunk is left. -/
example : ∃ u, [some b!"3\r\nabc\r\n0\r\n", some b!"\r\n"] = u ++ [some b!"\r\n"] ∧ Spec.Body.Complete (rest u) b!"abc" :=
  C116_taken (c := { chunked := true }) rfl (s := (call { chunked := true } { q := [some b!"3\r\nabc\r\n0\r\n", some b!"\r\n"] } (.body false)).2) rfl
/-- A form that is read as a whole. -/
example := C117_exact (c := { cl := 7 }) rfl (b := b!"a=1&b=2") rfl (by decide) (ps := [b!"a=1&", b!"b=2"]) rfl [] trivial { isForm := true, size := 7, limit := 100 } rfl (by decide) (by decide)
end

section
open Verif.Py Verif.Model.Upload Verif.Model.BodyStream Verif.Spec.Body
example : Complete (recvPieces [some b!"3\r\nab", some b!"c\r\n0\r\n\r\n", none]).1.flatten b!"abc" :=
  C10_done_complete (bs := 16) (ys := (chunkStream 16 [some b!"3\r\nab", some b!"c\r\n0\r\n\r\n", none]).1) (by rfl)
end

section
open Verif.Py Verif.Model.Upload Verif.Model.Response Verif.Spec.Response Verif.Proofs.Response Verif.Model.Asgi Verif.Spec.Asgi Verif.Proofs.Asgi Asgi
/-- A header value with a line break in it. -/
example := C46_lf (c := { date := b!"D", server := b!"S" }) ⟨by decide, by decide, by decide⟩ (e := { phrase := somePhrases, page := fun _ => b!"oops" }) somePhrases_ok (st := some 200) (by rintro _ ⟨⟩; decide +kernel)
  (l := [(b!"X-A", b!"1"), (b!"X-B", b!"1\r\nSet-Cookie: a=b")]) (by decide) [.body b!"hi" false] none (a := { resp := { keepalive := true } }) ⟨rfl, rfl, rfl, rfl, rfl, rfl⟩
end

section
open Verif.Py Verif.Model.Upload Verif.Model.Response Verif.Spec.Response Verif.Proofs.Response Prompt
example := C118_any {} (a := { handler := .gen [([], b!"ab"), ([], b!"cd")] [] (some .other) })
  ⟨by simp, by simp, by simp [Direct], by decide, ⟨rfl, by simp [Direct], by simp [Direct]⟩⟩ (s := { keepalive := true }) rfl
end

section
open Verif.Py Verif.Model.App Verif.Spec.App
/-- Two routes. -/
def regs : List (Reg Nat Nat) := [.route b!"/about" 7 [], .route b!"/other" 8 []]

theorem literal : AllLiteral regs := by
  rintro path f o hm - p ⟨n, m, tail, h, -⟩ c hc
  have hc' : c ∈ path := by rw [h]; simp [hc]
  simp only [regs, List.mem_cons, Reg.route.injEq, List.not_mem_nil, or_false] at hm
  rcases hm with ⟨rfl, -, -⟩ | ⟨rfl, -, -⟩
  all_goals
    revert hc'
    generalize c = x
    revert x
    decide

/-- The path `other` with more slashes and a query. -/
example := C39_found (fun _ _ => false) 1 2 3 4 [] [] regs [] b!"other" b!"//other/?a=1" literal
  ⟨_, List.mem_cons_of_mem _ List.mem_cons_self, b!"/other", 8, [], rfl, by unfold Proofs.App.RegexPath; decide, 1, 0, [], rfl, .inl rfl, by decide, by decide, by decide⟩ (by decide) ⟨1, 1, b!"?a=1", rfl, .inr ⟨_, rfl⟩⟩ (by decide)
example := C39_index (fun _ _ => false) 1 2 3 4 [] [] regs [] b!"//" ⟨1, 0, [], rfl, .inl rfl⟩ (by decide)
end
end ReadCases

end Verif
