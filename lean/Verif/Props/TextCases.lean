import Verif.Props.Args
import Verif.Props.AsgiReceive
import Verif.Props.Continue
import Verif.Props.Dates
import Verif.Props.Text
import Verif.Props.ChunkBuffer
import Verif.Props.Sendfile
/-!
# Cases that meet the hypotheses: command line, dates, texts, ranges, bodies for ASGI
-/
namespace Verif.TextCases
open Verif.Py

section
open Verif.Model.Args Verif.Proofs.Args

/-- Two addresses of different kinds. -/
example := C59_bind intDec [.tcp b!"localhost" b!"80" 80, .unix b!"/tmp/a.sock"] (by simp)
  (by
    intro b hb
    simp only [List.mem_cons, List.not_mem_nil, or_false] at hb
    rcases hb with rfl | rfl
    · exact ⟨by decide, by decide, by decide, by decide +kernel, by decide, by decide⟩
    · exact ⟨by decide, .inl (by decide)⟩) defaults []

/-- `tremolo --nope app`. -/
example := C58_unknown intDec ([] : Callbacks Unit) () b!"tremolo" b!"--nope" [] [] (by decide) (by simp) (by decide) (by decide) (by decide) (by decide) (by decide) rfl
/-- `tremolo --port x app`. -/
example := C58_bad_number intDec ([] : Callbacks Unit) () b!"tremolo" b!"--port" b!"x" [] [b!"app"] (by decide) (by decide) (by simp) (by decide) (by decide)
/-- `tremolo app`. -/
example := C58_wellformed_partial intDec ([] : Callbacks Unit) () b!"tremolo" b!"app" [] (by decide) (by decide) (by simp)
end

section
open Verif.Model.Dates
example := C108_date (t := 784111777) (by decide) (by decide)
example := C108_same (a := 784111777000000000) (b := 784111777999999999) (by decide) (by decide)
example := C108_clean (ns := 784111777000000000) (by decide)
end

section
open Verif.Model.Text
example := C34_one_event (data := b!"a\nb") (event := some b!"e") (id := none) (retry := 0) rfl (by decide) (by decide) (by decide) {} ⟨rfl, rfl⟩
end

section
open Verif.Model.AsgiReceive
/-- Three bytes in two segments. -/
example := C45_content_length_partial (n := 3) (maxBody := 10) (bs := 4) (by decide) (by decide) (by decide) b!"a" [b!"bc", b!"d"] (by decide)
/-- One byte of three. -/
example := C45_content_length_waits (n := 3) (maxBody := 10) (bs := 4) (by decide) (by decide) b!"a" [] (by decide)
example := C45_none 4 10 [] 2 (by decide)
end

section
open Verif.Model.Response Verif.Model.Continue
example := C18_once { contentLength := 5, maxBody := 10 } false (k := { st := { keepalive := true, cont := true } }) ⟨rfl, rfl, rfl, rfl, rfl, rfl⟩ [.read, .deliver, .deliver, .read]
example := C18_limit { contentLength := 11, maxBody := 10 } (by decide) (k := { st := { keepalive := true, cont := true } }) ⟨rfl, rfl, rfl, rfl, rfl, rfl⟩ [.read, .deliver]
example := C60_refuted { contentLength := -1, maxBody := 10 } true (by decide) (k := { st := { cont := true } }) ⟨rfl, rfl, rfl, rfl, rfl, rfl⟩ rfl [.deliver, .deliver, .deliver]
example := C61_ready { contentLength := -1, maxBody := 10 } true (k := { st := { keepalive := true, cont := true } }) ⟨rfl, rfl, rfl, rfl, rfl, rfl⟩ [.read, .deliver, .deliver, .call (.end_ b!"x" true {})]
end

section
open Verif.Model.Sendfile
example := C25_unit 100 b!"lines=0-1" (by intro t h; simp at h)
end

end Verif.TextCases
