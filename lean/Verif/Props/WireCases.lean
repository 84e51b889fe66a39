import Verif.Props.HttpParser
import Verif.Props.Request
import Verif.Props.Lifespan
import Verif.Props.Log
import Verif.Props.Params
import Verif.Props.ChunkEnd
import Verif.Props.Context
/-!
# Cases that meet the hypotheses: heads, lifespan, log, chunked bodies, contexts
-/
namespace Verif.WireCases
open Verif.Py

section
open Verif.Spec.HttpParser Verif.Model.HttpParser
theorem ex_reserved : exHead.NoReserved := by
  intro f hf
  simp [exHead] at hf
  rcases hf with rfl | rfl | rfl <;> decide

/-- A header that is there twice. -/
example := C03_dictionary exHead_wf b!"body" b!"x-a" (by decide) (by decide)
example := C05_roundtrip exHead_wf ex_reserved (by intro f hf; simp [exHead] at hf; rcases hf with rfl | rfl | rfl <;> decide) b!"body"
/-- The head is accepted. -/
example : ∃ r, Model.Head.acceptData (exHead.wire b!"body") exHead.text.length = .ok r ∧ r.path = b!"/a b" ∧ r.query = b!"HTTP/" := by
  obtain ⟨r, h⟩ : ∃ r, Model.Head.acceptData (exHead.wire b!"body") exHead.text.length = .ok r := ⟨_, rfl⟩
  have := (C63_request exHead_wf ex_reserved b!"body" h).2.2.2.1 b!"/a b" b!"HTTP/" rfl (by decide)
  exact ⟨r, h, this.1, this.2⟩
end

section
open Verif.Model.Lifespan
/-- An application that is told twice that it is ready. -/
example := C47_ready_twice [.receive, .send .startupComplete] (.send .startupComplete) rfl (by decide +kernel)
/-- An application that does not answer at its end. -/
example := C47_shutdown_ends (run init [.send .startupComplete, .resume, .stop]) [.receive, .timer] (by decide +kernel) (by simp)
example := C47_shutdown_waits [.send .startupComplete] [.receive, .stop, .receive] (.send .startupComplete) (by decide +kernel) (by decide +kernel) rfl
  (by decide +kernel) (by simp)
end

section
open Verif.Model.Log
example := C121_log [("2024-01-31 23:59:59,999".toList, false, b!"/a\nb", ⟨"ValueError".toList, "%d".toList⟩), ("2024-02-01 00:00:00,000".toList, true, b!"/", ⟨"KeyError".toList, []⟩)]
  (by
    intro r hr
    simp only [List.mem_cons, List.not_mem_nil, or_false] at hr
    rcases hr with rfl | rfl <;> exact ⟨by unfold Verif.Log.TimeOk; decide +kernel, by decide, by decide, by decide⟩)
end

section
open Verif.Spec.Body
/-- The body ends within the data. -/
example := C10_cut (size := b!"0") (ext := []) ⟨by simp, by simp [isHex], rfl, by simp, .inl rfl⟩ (cs := [⟨b!"3", [], b!"abc"⟩])
  (by
    intro c hc
    simp only [List.mem_singleton] at hc
    subst hc
    exact ⟨⟨by simp, by simp [isHex], rfl, by simp, .inl rfl⟩, by simp⟩)
  (segs := [b!"3\r\na", b!"b"]) (X := b!"c\r\n0\r\n") (by simp) (by decide) 16
end

section
open Verif.Model.Context Verif.Spec.Context
/-- What a connection stored itself. -/
example := (C114_get_partial story (story.drop 1) 1 ⟨[], rfl, by simp [story]⟩ b!"user" (by decide) (by decide)
  (by
    rintro v ⟨pre, op, post, h1, h2, -⟩
    have : op ∈ opsOf 1 (story.drop 1) := by rw [h1]; simp
    have e : opsOf 1 (story.drop 1) = [.setattr b!"user" 5, .getattr b!"user"] := rfl
    rw [e] at this
    simp only [List.mem_cons, List.not_mem_nil, or_false] at this
    rcases this with rfl | rfl <;> rcases h2 with h2 | h2 <;> cases h2)).1 5
end

end Verif.WireCases
