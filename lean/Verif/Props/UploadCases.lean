import Verif.Props.Download
import Verif.Props.FormApi
import Verif.Props.Form
import Verif.Props.FilesEnd
import Verif.Props.Body
/-!
# Cases that meet the hypotheses of C08-C14, C49, C53, C54, C100, C115 and C117
-/
namespace Verif.UploadCases
open Verif.Py

namespace Down
open Verif.Model.Response Verif.Model.Sendfile Verif.Model.HttpParser Verif.Spec.Response Verif.Spec.Sendfile Verif.Proofs.Response Verif.Proofs.Sendfile
open Verif.Spec.HttpParser (ReqHead valuesOf)
open Verif.Download

def two : List (Bytes × Bytes) := [(b!"Range", b!"bytes=-1"), (b!"range", b!"bytes=0-0")]
def els : List Elem := [⟨[], .suffix b!"1", []⟩, ⟨[], .between b!"0" b!"0", []⟩]

theorem wfTwo : (exReq b!"GET" two).Wf 100 8192 := by
  refine ⟨by decide, by decide, by decide, ?_, fun _ => ⟨_, List.mem_cons_self, by decide⟩, by decide, by decide, by decide⟩
  intro f hf
  simp only [exReq, two, List.mem_cons, List.map_cons, List.map_nil, List.not_mem_nil, or_false] at hf
  rcases hf with rfl | rfl | rfl <;> exact ⟨by decide, by decide, by decide, by decide, by decide, by decide⟩

theorem wfNone (m : Bytes) (hm : m = b!"GET" ∨ m = b!"HEAD") : (exReq m []).Wf 100 8192 := by
  rcases hm with rfl | rfl <;>
  · refine ⟨by decide, by decide, by decide, ?_, fun _ => ⟨_, List.mem_cons_self, by decide⟩, by decide, by decide, by decide⟩
    intro f hf
    simp only [exReq, List.map_nil, List.mem_singleton] at hf
    subst hf
    exact ⟨by decide, by decide, by decide, by decide, by decide, by decide⟩

def one : List (Bytes × Bytes) := [(b!"Range", b!"bytes=2-5")]
theorem wfOne : (exReq b!"GET" one).Wf 100 8192 := by
  refine ⟨by decide, by decide, by decide, ?_, fun _ => ⟨_, List.mem_cons_self, by decide⟩, by decide, by decide, by decide⟩
  intro f hf
  simp only [exReq, one, List.mem_cons, List.map_cons, List.map_nil, List.not_mem_nil, or_false] at hf
  rcases hf with rfl | rfl <;> exact ⟨by decide, by decide, by decide, by decide, by decide, by decide⟩

def date : List (Bytes × Bytes) := [(b!"If-Modified-Since", b!"Tue, 17 Nov 2026 10:00:00 GMT")]
theorem wfDate : (exReq b!"GET" date).Wf 100 8192 := by
  refine ⟨by decide, by decide, by decide, ?_, fun _ => ⟨_, List.mem_cons_self, by decide⟩, by decide, by decide, by decide⟩
  intro f hf
  simp only [exReq, date, List.mem_cons, List.map_cons, List.map_nil, List.not_mem_nil, or_false] at hf
  rcases hf with rfl | rfl <;> exact ⟨by decide, by decide, by decide, by decide, by decide, by decide⟩

def rest : List (Bytes × Bytes) := [(b!"Range", b!"bytes=7-"), (b!"If-Range", b!"Tue, 17 Nov 2026 10:00:00 GMT")]
theorem wfRest : (exReq b!"GET" rest).Wf 100 8192 := by
  refine ⟨by decide, by decide, by decide, ?_, fun _ => ⟨_, List.mem_cons_self, by decide⟩, by decide, by decide, by decide⟩
  intro f hf
  simp only [exReq, rest, List.mem_cons, List.map_cons, List.map_nil, List.not_mem_nil, or_false] at hf
  rcases hf with rfl | rfl | rfl <;> exact ⟨by decide, by decide, by decide, by decide, by decide, by decide⟩

theorem okEls : ∀ e ∈ els, e.Ok := by
  intro e he
  simp only [els, List.mem_cons, List.not_mem_nil, or_false] at he
  rcases he with rfl | rfl
  · exact ⟨(by intro c hc; cases hc), ⟨by decide, by decide⟩, (by intro c hc; cases hc)⟩
  · exact ⟨(by intro c hc; cases hc), ⟨⟨by decide, by decide⟩, ⟨by decide, by decide⟩⟩, (by intro c hc; cases hc)⟩

/-- GET and HEAD of the whole file, two ranges in two headers, one range, a copy that is current, and the rest of a download. -/
example := C100_whole (exGiven b!"GET" [] (wfNone _ (.inl rfl))) b!"next" {} (.inr ⟨.inl (by decide), by decide⟩) (by decide)
example := C100_head (exGiven b!"HEAD" [] (wfNone _ (.inr rfl))) b!"next" {} (.inr ⟨.inl (by decide), by decide⟩) rfl
example := C100_multi (exGiven b!"GET" two wfTwo) b!"next" {} ⟨rfl, .inl (by decide)⟩ (es := els)
  ⟨[[⟨[], .suffix b!"1", []⟩], [⟨[], .between b!"0" b!"0", []⟩]], by decide, by simp, by simp, rfl⟩ okEls (by decide) (by decide)
  (ps := [(9, 9), (0, 0)]) (by decide) (by decide) (by decide) (by decide)
  (by
    intro p hp ⟨s, t, h⟩
    have h1 := congrArg List.length h
    simp only [List.mem_cons, List.not_mem_nil, or_false] at hp
    rcases hp with rfl | rfl <;> simp [slice, exFile, exArgs] at h1 <;> omega)
example := C100_range (exGiven b!"GET" one wfOne) b!"next" {} ⟨rfl, .inl (by decide)⟩ (e := ⟨[], .between b!"2" b!"5", []⟩)
  ⟨[[⟨[], .between b!"2" b!"5", []⟩]], by decide, by simp, by simp, rfl⟩
  ⟨(by intro c hc; cases hc), ⟨⟨by decide, by decide⟩, ⟨by decide, by decide⟩⟩, (by intro c hc; cases hc)⟩ (p := (2, 5)) (by decide) (by decide) (by decide)
example := C100_current (exGiven b!"GET" date wfDate) b!"next" {} (.inl (by decide)) (by decide)
example := C100_resume (exGiven b!"GET" rest wfRest) b!"next" {} (by decide) rfl (by decide) (f := exFile) (x := ⟨200, [b!"Last-Modified: Tue, 17 Nov 2026 10:00:00 GMT"], b!"0123456789"⟩)
  rfl (by decide +kernel) (k := 7) (by decide) (by decide +kernel) (by decide +kernel) (fun _ => rfl)
end Down

namespace Bodies
open Verif.Model.Upload Verif.Model.BodyStream Verif.Spec.Body

example := C08_exact (n := 5) (maxBody := 100) (bs := 2) (by decide) (by decide) b!"ab" [b!"c", b!"defgh"] (by decide)
example := C11_partition [b!"abc", b!"", b!"defg"] .done [2, 3, 4, 1] (by decide)
example := C12_content_length (n := 5) (maxBody := 100) (bs := 2) (by decide) (by decide) b!"ab" [b!"c", b!"defgh"] (by decide)
example := C12_no_partial (pieces := [b!"ab"]) (o := .badRequest) (by decide)
example := C13_declared (n := 101) (maxBody := 100) (by decide) [some b!"ab", none]
example := C13_undeclared (maxBody := 5) (bs := 2) (by decide) b!"ab" [b!"cd", b!"ef", b!"gh"]
example := C14_pieces (bs := 2) (maxq := 3) (by decide) b!"abcde" [0, 1, 1] {} rfl (by decide)
example := C49_rate (bs := 2) (maxq := 3) (by decide) b!"abcde" [0, 1, 1] {} rfl (by decide) (by decide +kernel)
end Bodies

namespace Forms
open Verif.Model.Form

/-- `a=1&b=2`, half with the head and half later, in and over the limit. -/
example := C54_partial (c := { cl := some 7 }) (n := 7) rfl rfl (by decide) (by decide) b!"a=1" [b!"&b=2"] (by decide)
  [.read, .put, .put, .read, .read, .put, .read] (r := .parsed b!"a=1&b=2") (by decide +kernel)
example := C54_never_larger (c := { cl := some 7 }) (n := 7) rfl rfl (by decide) (by decide) b!"a=1" [b!"&b=2"]
  [.read, .put, .put, .read, .read, .put, .read] (b := b!"a=1&b=2") (by decide +kernel)
example := C54_raises (c := { cl := some 7, limit := 6 }) (n := 7) rfl rfl (by decide) b!"a=1&b=2" [] (by decide) (by decide) [.read] (r := .valueError) (by decide +kernel)
example := C54_ends (c := { cl := some 7 }) (n := 7) rfl rfl (by decide) (by decide) b!"a=1" [b!"&b=2"] (by decide) [.read, .put]
example := C54_again (c := { cl := some 7, limit := 6 }) (n := 7) rfl rfl (by decide) (by decide) b!"a=1&b=2" [] [.read] (r := .valueError) (by decide +kernel)
example := C54_chunked_sound (c := { chunked := true }) rfl rfl (by decide) b!"3\r\na=1\r\n0\r\n\r\n" [] (List.replicate 9 .read) (b := b!"a=1") (by decide +kernel)
end Forms

namespace Api
open Verif.Model.ReadApi Verif.Model.FormApi

example := C117_same { cl := 7 } { size := 7 } rfl (by decide) (by decide) { q := [some b!"a=1&", some b!"b=2", none] }
example := C117_body (c := { cl := 7 }) (a := { size := 7 }) rfl (s := { q := [some b!"a=1&", some b!"b=2", none] }) (Prod.eta _).symm false
example := C117_partial (c := { cl := 7 }) rfl (b := b!"a=1&b=2") rfl (by decide) (ps := [b!"a=1&", b!"b=2"]) rfl { size := 7 } rfl (by decide) (by decide) [false, true]
example := C117_peek (c := { cl := 7 }) rfl (b := b!"a=1&b=2") rfl (by decide) (n := 2) (by decide) (by decide) false { size := 7 } rfl (by decide) (by decide)
example := C117_limit (c := { cl := 7 }) rfl (b := b!"a=1&b=2") rfl (by decide) (d := b!"a=1&") (ps := [b!"b=2"]) rfl false { size := 7, limit := 5 } rfl (by decide)
end Api

end Verif.UploadCases
