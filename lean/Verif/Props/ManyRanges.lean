import Verif.Props.Download
/-!
# C25 and C100 for more than 101 ranges

`split(b',', 100)` (lib/http_response.py 370) leaves the text behind the hundredth comma in one piece. With more than 101 ranges
that piece holds a comma, and no number does.
-/
namespace Verif
open Verif.Py Verif.Model.Response Verif.Model.Sendfile Verif.Model.HttpParser Verif.Spec.Response Verif.Spec.Sendfile Verif.Proofs.Response Verif.Proofs.Sendfile
open Verif.Spec.HttpParser (ReqHead valuesOf)
open Verif.Spec.Client (Resp Delimited values trim)
open Download

namespace ManyRanges

theorem split_join_many (parts : List Bytes) (hc : ∀ p ∈ parts, (44 : UInt8) ∉ p) :
    ∀ n, n + 1 < parts.length → splitByte 44 n (join [44] parts) = parts.take n ++ [join [44] (parts.drop n)] := by
  induction parts with
  | nil => intro n h; simp at h
  | cons p parts ih =>
    intro n hn
    cases n with
    | zero => simp [Proofs.HttpParser.splitByte_zero]
    | succ m =>
      cases parts with
      | nil => simp at hn
      | cons q parts =>
        have ih := ih (fun x hx => hc x (by simp only [List.mem_cons] at hx ⊢; exact .inr hx)) m (by simp at hn ⊢; omega)
        have e : join [44] (p :: q :: parts) = p ++ 44 :: join [44] (q :: parts) := by simp [join]
        rw [e, Proofs.HttpParser.splitByte_cons (hc p (by simp)), ih]
        simp

theorem comma_mem : ∀ {l : List Bytes}, 1 < l.length → (44 : UInt8) ∈ join [44] l
  | [], h => by simp at h
  | [_], h => by simp at h
  | a :: b :: t, _ => by simp [join]

theorem asks_text {h : HVal} {es : List Elem} (ha : Asks h es) (hok : ∀ e ∈ es, e.Ok) (fs : Int) :
    parseRanges fs h = parseList fs (splitByte 44 100 (join [44] (es.map Elem.text))) := by
  have hs : ∀ g : List Elem, startsWith (headerText g) b!"bytes=" = true := fun g => List.isPrefixOf_iff_prefix.2 ⟨_, rfl⟩
  rcases ha with ⟨rfl, hne⟩ | ⟨gs, rfl, h1, h2, rfl⟩
  · unfold parseRanges
    simp only [rangeText, hs, if_true]
    unfold headerText
    rw [replace_bytes, replace_absent (texts_clean hok)]
  · have : (gs.map headerText).all (startsWith · b!"bytes=") = true := by
      rw [List.all_eq_true]
      intro x hx
      obtain ⟨g, _, rfl⟩ := List.mem_map.1 hx
      exact hs g
    unfold parseRanges
    rw [show rangeText (.many (gs.map headerText)) = .ok (join b!"," (gs.map headerText)) by simp only [rangeText, this, if_true]]
    dsimp only
    rw [show b!"," = [44] from rfl, replace_groups (fun g hg e he => hok e (List.mem_flatten.2 ⟨g, hg, he⟩)), join_groups h2]

theorem asks_many {h : HVal} {es : List Elem} (ha : Asks h es) (hok : ∀ e ∈ es, e.Ok) (hl : 101 < es.length) (fs : Int) :
    parseRanges fs h = parseList fs ((es.take 100).map Elem.text ++ [join [44] ((es.drop 100).map Elem.text)]) := by
  rw [asks_text ha hok, split_join_many, List.map_take, List.map_drop]
  · intro p hp
    obtain ⟨e, he, rfl⟩ := List.mem_map.1 hp
    exact fun hm => (elem_bytes (hok e he) 44 hm).1 rfl
  · rw [List.length_map]; exact hl

theorem within_list {es : List Elem} {size : Nat} (hin : ∀ x ∈ es, x.range.within size ≠ none) :
    ∃ ps : List (Nat × Nat), es.map (fun e => e.range.within size) = ps.map some := by
  induction es with
  | nil => exact ⟨[], rfl⟩
  | cons x t ih =>
    obtain ⟨ps, h⟩ := ih (fun y hy => hin y (by simp [hy]))
    cases hx : x.range.within size with
    | none => exact absurd hx (hin x (by simp))
    | some p => exact ⟨p :: ps, by simp [hx, h]⟩

theorem last_bad {es : List Elem} (hl : 101 < es.length) (fs : Int) : parseRange fs (strip (join [44] ((es.drop 100).map Elem.text))) = .error badRange := by
  have hn : ¬ Numeric 44 := by unfold Numeric; decide
  exact parseRange_badByte (mem_strip (comma_mem (by simp; omega)) (numeric_false hn)) hn

end ManyRanges
open ManyRanges

/-- **C25**, more than 101 ranges, in one header or several: if the first hundred lie within the file the request is refused with 400,
whatever the others are. -/
theorem C25_many {h : HVal} {es : List Elem} (ha : Asks h es) (hok : ∀ e ∈ es, e.Ok) (hl : 101 < es.length) {size : Nat}
    (hin : ∀ x ∈ es.take 100, x.range.within size ≠ none) : parseRanges size h = .error (.http 400 b!"Bad Request" htmlType) := by
  obtain ⟨ps, hps⟩ := within_list hin
  rw [asks_many ha hok hl, parseList_append, (parseList_within (fun x hx => hok x (List.mem_of_mem_take hx)) hps).1]
  simp only [parseList, last_bad hl]

/-- **C25**, any number of ranges: never a part of the file. What is not served in full is refused, with 416 if a range among the first
hundred is the first that does not lie within the file. -/
theorem C25_many_beyond {h : HVal} {es : List Elem} {e : Elem} {post : List Elem} (ha : Asks h (es ++ e :: post)) (hok : ∀ x ∈ es ++ e :: post, x.Ok)
    (hl : es.length < 100) {size : Nat} (hin : ∀ x ∈ es, x.range.within size ≠ none) (ho : e.range.within size = none) (no : ¬ e.range.Odd) :
    parseRanges size h = .error (.http 416 b!"Range Not Satisfiable" htmlType) := by
  by_cases hn : (es ++ e :: post).length ≤ 101
  · exact C25_unsatisfiable ha hok hn hin ho no
  · obtain ⟨ps, hps⟩ := within_list hin
    have ht : (es ++ e :: post).take 100 = es ++ e :: post.take (99 - es.length) := by
      rw [List.take_append, List.take_of_length_le (by omega), show 100 - es.length = (99 - es.length) + 1 by omega, List.take_succ_cons]
    rw [asks_many ha hok (by omega), ht, List.map_append, List.append_assoc, parseList_append, (parseList_within (fun x hx => hok x (by simp [hx])) hps).1]
    simp only [List.map_cons, List.cons_append, parseList, strip_elem (hok e (by simp)), parse_beyond (hok e (by simp)).2.1 ho no]

/-- **C100**, more than 101 ranges within the file: the client reads a response with status 400, and no byte of the file. -/
theorem C100_many {c : Cfg} {s s1 : St} {pre : Script} {a : Args} {f : File} {h : Option Bytes} {r : ReqHead} {mx mls : Nat} (g : Given c s s1 pre a f h r mx mls)
    (rest : Bytes) {err : ErrHandler} (e1 : Script.Fine err.script) (e2 : ∀ x ∈ callsOf err.script, setsStatus x = false) (e3 : ∀ p ∈ err.script, Call.NoHeader p.1)
    (hq : AsksPart r f) {es : List Elem} (ha : AsksFor (valuesOf r.pairs b!"range") es) (hok : ∀ x ∈ es, x.Ok) (hl : 101 < es.length)
    (hin : ∀ x ∈ es.take 100, x.range.within f.content.length ≠ none) :
    ∃ x, Delimited r.method (answer c pre (argsOf a r rest mx mls) f h err s) x ∧ x.status = 400 := by
  obtain ⟨v, hv, hav⟩ := asks_of ha
  obtain ⟨x, x1, x2⟩ := refused g rest e1 e2 e3 hq hv (st := (400, b!"Bad Request")) (.inl rfl) (C25_many hav hok hl hin)
  exact ⟨x, x1, by have : (x.status : Int) = 400 := x2; omega⟩

/-- **C100**, any number of ranges of which one of the first hundred does not lie within the file: the client reads a response with status 416. -/
theorem C100_many_beyond {c : Cfg} {s s1 : St} {pre : Script} {a : Args} {f : File} {h : Option Bytes} {r : ReqHead} {mx mls : Nat} (g : Given c s s1 pre a f h r mx mls)
    (rest : Bytes) {err : ErrHandler} (e1 : Script.Fine err.script) (e2 : ∀ x ∈ callsOf err.script, setsStatus x = false) (e3 : ∀ p ∈ err.script, Call.NoHeader p.1)
    (hq : AsksPart r f) {es : List Elem} {e : Elem} {post : List Elem} (ha : AsksFor (valuesOf r.pairs b!"range") (es ++ e :: post)) (hok : ∀ x ∈ es ++ e :: post, x.Ok)
    (hl : es.length < 100) (hin : ∀ x ∈ es, x.range.within f.content.length ≠ none) (ho : e.range.within f.content.length = none) (no : ¬ e.range.Odd) :
    ∃ x, Delimited r.method (answer c pre (argsOf a r rest mx mls) f h err s) x ∧ x.status = 416 := by
  obtain ⟨v, hv, hav⟩ := asks_of ha
  obtain ⟨x, x1, x2⟩ := refused g rest e1 e2 e3 hq hv (st := (416, b!"Range Not Satisfiable")) (.inr rfl) (C25_many_beyond hav hok hl hin ho no)
  exact ⟨x, x1, by have : (x.status : Int) = 416 := x2; omega⟩

/-! ## Cases -/

namespace ManyRanges
/-- `0-0` a hundred and two times, in one header. -/
def exElem : Elem := ⟨[], .between b!"0" b!"0", []⟩
def exMany : List Elem := List.replicate 102 exElem
theorem exOk : exElem.Ok := ⟨(by intro c hc; cases hc), ⟨⟨by decide, by decide⟩, ⟨by decide, by decide⟩⟩, (by intro c hc; cases hc)⟩
def exFields : List (Bytes × Bytes) := [(b!"Range", headerText exMany)]
theorem exWf : (exReq b!"GET" exFields).Wf 100 8192 := by
  refine ⟨by decide, by decide, by decide, ?_, fun _ => ⟨_, List.mem_cons_self, by decide⟩, by decide +kernel, by decide +kernel, by decide +kernel⟩
  intro f hf
  rcases List.mem_cons.1 hf with rfl | hf
  · exact ⟨by decide, by decide, by decide, by decide, by decide, by decide⟩
  · simp only [exFields, List.map_cons, List.map_nil, List.mem_singleton] at hf
    subst hf
    exact ⟨by decide, by decide, by decide, by decide +kernel, by decide +kernel, by decide +kernel⟩
theorem exAsks : AsksFor (valuesOf (exReq b!"GET" exFields).pairs b!"range") exMany := ⟨[exMany], by decide +kernel, by simp, by simp [exMany], by simp⟩
end ManyRanges

example := C100_many (exGiven b!"GET" exFields exWf) b!"next" (err := {}) (by intro x hx; cases hx) (by intro x hx; cases hx) (by intro x hx; cases hx)
  ⟨rfl, .inl (by decide +kernel)⟩ exAsks (fun x hx => (List.eq_of_mem_replicate hx) ▸ exOk) (by simp [exMany])
  (fun x hx => by rw [List.eq_of_mem_replicate (List.mem_of_mem_take hx)]; decide)
/-- A hundred and one are served, one more is refused, and one beyond the end among the first hundred is told. -/
example : parseRanges 10 (.one (headerText (List.replicate 101 exElem))) = .ok (List.replicate 101 (0, 0, 1)) := by decide +kernel
example : parseRanges 10 (.one (headerText exMany)) = .error badRange := by decide +kernel
example := C25_many_beyond (h := .one (headerText (exElem :: ⟨[], .fromOn b!"10", []⟩ :: exMany))) (es := [exElem]) (.inl ⟨rfl, by simp⟩)
  (by
    intro x hx
    simp only [List.cons_append, List.nil_append, List.mem_cons] at hx
    rcases hx with rfl | rfl | hx
    · exact exOk
    · exact ⟨(by intro c hc; cases hc), ⟨by decide, by decide⟩, (by intro c hc; cases hc)⟩
    · exact List.eq_of_mem_replicate hx ▸ exOk)
  (by simp) (size := 10) (by intro x hx; rw [List.mem_singleton.1 hx]; decide) (by decide) (by simp [Range.Odd])
end Verif
