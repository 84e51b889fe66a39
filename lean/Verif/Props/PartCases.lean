import Verif.Props.Dates
import Verif.Props.Params
import Verif.Props.ChunkBuffer
import Verif.Props.Clock
import Verif.Props.Reload
/-!
# Cases for C62, C74, C75, C76, C91, C108 and C120

Each theorem is applied to values that meet its hypotheses.
-/
namespace Verif

namespace PartCases
section
open Verif.Py Verif.Model.Dates Verif.Spec.Dates Dates
/-- One hour from a moment in November 2023. -/
example : Denotes b!"Tue, 14 Nov 2023 23:13:20 GMT" 1700003600 ∧ (1700003600 : Int) ≤ last :=
  C108_cookie (now := 1700000000123456) (expires := 3600) (by decide +kernel) (by decide)
end

section
open Verif.Py Verif.Model.Params Verif.Spec.Params Verif.Model.HttpParser Proofs.Params
/-- Three fields where two are allowed. -/
example : formFields 2 b!"a=1&b=2&c" = .valueError := by
  have lit : ∀ {stop : List UInt8} {x : UInt8}, x < 128 → x ∉ stop → x ≠ 37 → x ≠ 43 → Spec.Params.Written stop [x] [x] := fun h1 h2 h3 h4 => .raw h1 h2 h3 h4 .nil
  have h : Each (Item.Written []) [.field "a".toList "1".toList, .field "b".toList "2".toList, .flag "c".toList] [b!"a=1", b!"b=2", b!"c"] :=
    .cons ⟨b!"a", b!"1", lit (by decide) (by decide) (by decide) (by decide), lit (by decide) (by decide) (by decide) (by decide), rfl⟩ <|
    .cons ⟨b!"b", b!"2", lit (by decide) (by decide) (by decide) (by decide), lit (by decide) (by decide) (by decide) (by decide), rfl⟩ <|
    .cons (lit (by decide) (by decide) (by decide) (by decide)) .nil
  exact C74_limit h (by decide) (by decide)

/-- A request without cookies, after its query was read. -/
example := C75_none (hd := [(b!"host", .one b!"x")]) (by decide +kernel) (p := { query := some [("q".toList, ["1".toList])] }) rfl

example := C75_one_partial (l := [(b!"s", latin1 b!"x=y")]) (ts := [b!"s=x=y"]) (.cons (.raw (n := b!"s") (b := b!"x=y") ⟨by decide, by decide, by decide, by decide⟩ (by decide) ⟨by decide, by decide, by decide, by decide⟩ (by decide)) .nil)
  (by decide) (hd := [(b!"host", .one b!"x"), (b!"cookie", .one b!"s=x=y")]) (by decide +kernel) (p := {}) rfl

example := C76_partial (params := [(b!"name", b!"f"), (b!"filename", b!"my \"new\" file\r\n.txt")]) (by decide) (by
  simp only [List.mem_cons, List.not_mem_nil, or_false]
  rintro p (rfl | rfl)
  · exact ⟨⟨⟨⟨by decide, by decide, by decide, by decide⟩, by decide⟩, by decide⟩, ⟨⟨by decide, by decide, by decide, by decide⟩, by decide⟩, by decide, by decide⟩
  · exact ⟨⟨⟨⟨by decide, by decide, by decide, by decide⟩, by decide⟩, by decide⟩, ⟨⟨by decide, by decide, by decide, by decide⟩, by decide⟩, by decide, by decide⟩)
end

section
open Py Model.Upload Model.BodyStream Proofs.BodyStream
/-- A size with leading zeros in two pieces, then data. -/
example : ∃ s rest, passes 2 false 2 {} [b!"0000", b!"0003\r\n", b!"abc\r\n"] = some (s, rest) ∧ s.buf.length ≤ 4 * 2 + 6 := by
  obtain ⟨⟨s, rest⟩, h⟩ := Option.isSome_iff_exists.1 (show (passes 2 false 2 {} [b!"0000", b!"0003\r\n", b!"abc\r\n"]).isSome = true by decide +kernel)
  exact ⟨s, rest, h, C62_buffer (by decide) 2 h⟩
end

section
open Py Model.Clock Clock
/-- Two quiet seconds with 4000 of 5000. -/
example : (4000 : Int) ≤ 5000 :=
  C120_within (limit := 5000) (now := 0) (by decide) [.wake 1000 false 3000 false] [.answer 2001 (some 2) true] (t := 2001) (ch := false) (mem := 4000) (po := false) (left := 1) (left' := 4)
    (by decide +kernel) (by decide +kernel)

example := C120_date_partial (limit := 0) (late := 5) (wait := 3) (now := 0) [.respond 900, .wake 1000 false 0 true, .answer 1001 (some 1) true, .respond 1500, .respond 1999]
  (by simp [Timed, start, step])
end

section
open Verif.Py Verif.Model.Reload Reload
/-- `late` was imported after the first second: whatever happens to its file, it is no reason to reload. -/
example : run ps0 ([⟨[main], both sA sA⟩] ++ [⟨[main, late], both sA sA⟩, ⟨[main, late], both sA sB⟩]) [] ≠ .reload late :=
  C91_never (w := [(main, sA)]) (m0 := main) (f0 := "/srv/app/main.py".toList) (a0 := sA) (by decide +kernel) ⟨rfl, by decide +kernel⟩ (by decide +kernel) (by decide +kernel) (by decide +kernel)
end
end PartCases

end Verif
