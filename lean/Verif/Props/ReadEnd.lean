import Verif.Props.ReadApi
import Verif.Props.FilesEnd
/-!
# C116: which ways of reading a body take its end from the queue

The end of a body with Content-Length is an item of its own in `queue[0]` (http_protocol.py:171-172). A handler that leaves it there leaves it to
the next request on the connection (`C115_kept`, `C115_lost`).
-/
namespace Verif
open Verif.Py Verif.Model.Upload Verif.Model.ReadApi

namespace ReadApi
open Proofs.ReadApi Proofs.BodyStream

/-- A sized read that finds enough does not ask for the end. -/
theorem gather_enough {c : Cfg} {b : Bytes} (n : Nat) : ∀ (fuel : Nat) (ps : List Bytes) (g : Gen) (s : St), Plain c b s → s.q = ps.map some ++ [none] → s.eof = false → s.body = [] → Going g →
    ps.length < fuel → s.buf.length < n → n ≤ s.buf.length + ps.flatten.length →
    ∃ s' ps', gather c n fuel g s = (.ok (), s') ∧ Open c b s' ps' ∧ ps' <:+ ps ∧ s'.buf ++ ps'.flatten = s.buf ++ ps.flatten ∧ n ≤ s'.buf.length
  | 0, _, _, _, _, _, _, _, _, hl, _, _ => absurd hl (by omega)
  | fuel + 1, ps, g, s, hp, hq, he, hb, hg, hl, hlt, hn' => by
    rcases hn : next c g s with ⟨r1, g1, s1⟩
    obtain ⟨n1, n2, n3⟩ := next_open hp hq he hg hn
    rw [gather, hn]
    rcases n3 with ⟨d, ps', rfl, rfl, e1, e2, e3⟩ | ⟨rfl, rfl, e1, e2, e3⟩
    · dsimp only
      split
      · rename_i hge
        exact ⟨_, ps', rfl, ⟨⟨n2.chunked, n2.cl, n2.max, n2.size⟩, e1, e2, n1.body.trans hb, fun g hg => by cases hg; exact e3⟩, List.suffix_cons _ _,
          by dsimp only; rw [n1.buf]; simp, hge⟩
      · rename_i hge
        obtain ⟨s', ps2, h1, h2, h3, h4, h5⟩ := gather_enough n fuel ps' g1 { s1 with buf := s1.buf ++ d } ⟨n2.chunked, n2.cl, n2.max, n2.size⟩ e1 e2 (n1.body.trans hb) e3
          (by simp only [List.length_cons] at hl; omega) (by dsimp only; omega)
          (by
            dsimp only
            simp only [List.flatten_cons, List.length_append] at hn' ⊢
            rw [n1.buf]; omega)
        exact ⟨s', ps2, h1, h2, h3.trans (List.suffix_cons _ _), by rw [h4]; dsimp only; rw [n1.buf]; simp, h5⟩
    · simp at hn'; omega

/-- One sized read of no more than there is. -/
theorem call_enough {c : Cfg} {b : Bytes} {s : St} {ps : List Bytes} (ho : Open c b s ps) (n : Nat) (raw : Bool) (hn : n ≤ s.buf.length + ps.flatten.length) :
    ∃ s' ps', call c s (.recv (some n) raw) = (.ok ((s.buf ++ ps.flatten).take n), s') ∧ Open c b s' ps' ∧ ps' <:+ ps ∧ s'.buf ++ ps'.flatten = (s.buf ++ ps.flatten).drop n := by
  by_cases h0 : n = 0
  · subst h0
    exact ⟨s, ps, rfl, ho, List.suffix_refl _, rfl⟩
  · have hg : Going (s.inst.getD { raw }) := by
      cases hin : s.inst with
      | none => exact ⟨rfl, rfl⟩
      | some g => exact ho.inst g hin
    have hc : call c s (.recv (some n) raw) =
        (match (if s.buf.length < n then gather c n (bound (s.inst.getD { raw }) s) (s.inst.getD { raw }) s else (.ok (), { s with inst := some (s.inst.getD { raw }) })) with
          | (.error e, s) => (.error e, s)
          | (.ok _, s) => (.ok (s.buf.take n), { s with buf := s.buf.drop n })) := by
      unfold call
      split
      · rename_i h; cases h
      · rename_i h; cases h; exact absurd rfl h0
      · rename_i h; cases h
        rw [if_neg (by simp [St.isEof, ho.eof])]
        rfl
    rw [hc]
    have fin : ∀ (s1 : St) (ps1 : List Bytes), Open c b s1 ps1 → ps1 <:+ ps → s1.buf ++ ps1.flatten = s.buf ++ ps.flatten → n ≤ s1.buf.length →
        ∃ s' ps', (Except.ok (ε := Exc) (s1.buf.take n), { s1 with buf := s1.buf.drop n }) = (.ok ((s.buf ++ ps.flatten).take n), s') ∧ Open c b s' ps' ∧ ps' <:+ ps ∧
          s'.buf ++ ps'.flatten = (s.buf ++ ps.flatten).drop n := by
      intro s1 ps1 o1 hs he hl
      refine ⟨{ s1 with buf := s1.buf.drop n }, ps1, ?_, ⟨⟨o1.plain.chunked, o1.plain.cl, o1.plain.max, o1.plain.size⟩, o1.q, o1.eof, o1.body, o1.inst⟩, hs, ?_⟩
      · rw [← he, List.take_append_of_le_length hl]
      · dsimp only
        rw [← he, List.drop_append_of_le_length hl]
    split
    · rename_i e s1 h1
      split at h1
      · rename_i hlt
        obtain ⟨s2, ps2, g1, _⟩ := gather_enough n _ ps _ s ho.plain ho.q ho.eof ho.body hg (length_bound (g := s.inst.getD { raw }) ho.q) hlt hn
        rw [g1] at h1; cases h1
      · cases h1
    · rename_i u s1 h1
      split at h1
      · rename_i hlt
        obtain ⟨s2, ps2, g1, g2, g3, g4, g5⟩ := gather_enough n _ ps _ s ho.plain ho.q ho.eof ho.body hg (length_bound (g := s.inst.getD { raw }) ho.q) hlt hn
        rw [g1] at h1; cases h1
        exact fin s1 ps2 g2 g3 g4 g5
      · rename_i hlt
        cases h1
        exact fin { s with inst := some (s.inst.getD { raw }) } ps ⟨⟨ho.plain.chunked, ho.plain.cl, ho.plain.max, ho.plain.size⟩, ho.q, ho.eof, ho.body, fun g h => by cases h; exact hg⟩
          (List.suffix_refl _) rfl (by dsimp only; omega)

/-- The sized reads of a handler. -/
def sized (raw : Bool) (ns : List Nat) : List Call := ns.map (fun n => .recv (some n) raw)

theorem sized_enough {c : Cfg} {b : Bytes} (raw : Bool) : ∀ (ns : List Nat) (s : St) (ps : List Bytes), Open c b s ps → ns.sum ≤ s.buf.length + ps.flatten.length →
    ∃ ps', Open c b (calls c s (sized raw ns)).2 ps' ∧ ps' <:+ ps ∧ returned (sized raw ns) (calls c s (sized raw ns)).1 = (s.buf ++ ps.flatten).take ns.sum ∧
      (calls c s (sized raw ns)).2.buf ++ ps'.flatten = (s.buf ++ ps.flatten).drop ns.sum
  | [], s, ps, ho, _ => ⟨ps, ho, List.suffix_refl _, rfl, rfl⟩
  | n :: ns, s, ps, ho, hs => by
    rw [List.sum_cons] at hs
    obtain ⟨s1, ps1, h1, h2, h3, h4⟩ := call_enough ho n raw (by omega)
    have hlen := congrArg List.length h4
    rw [List.length_append, List.length_drop, List.length_append] at hlen
    obtain ⟨ps2, i1, i2, i3, i4⟩ := sized_enough raw ns s1 ps1 h2 (by omega)
    have e : calls c s (sized raw (n :: ns)) = (.ok ((s.buf ++ ps.flatten).take n) :: (calls c s1 (sized raw ns)).1, (calls c s1 (sized raw ns)).2) := by
      simp only [sized, List.map_cons, calls, h1]
    rw [e]
    refine ⟨ps2, i1, i2.trans h3, ?_, ?_⟩
    · rw [show sized raw (n :: ns) = .recv (some n) raw :: sized raw ns from rfl, returned, i3, h4, List.sum_cons, List.take_add]
    · rw [i4, h4, List.drop_drop, List.sum_cons]

theorem calls_eof {c : Cfg} (raw : Bool) : ∀ (ns : List Nat) (s : St), s.isEof = true → (calls c s (sized raw ns)).2 = s
  | [], _, _ => rfl
  | n :: ns, s, h => by
    have h1 : call c s (.recv (some n) raw) = (.ok [], s) := by
      unfold call
      split
      · rename_i hk; cases hk
      · rfl
      · rename_i hk; cases hk
        rw [if_pos h]
    simp only [sized, List.map_cons, calls, h1]
    exact calls_eof raw ns s h

theorem sized_over {c : Cfg} {b : Bytes} (raw : Bool) : ∀ (ns : List Nat) (s : St) (ps : List Bytes), Open c b s ps → s.buf.length + ps.flatten.length < ns.sum →
    (calls c s (sized raw ns)).2.q = [] ∧ (calls c s (sized raw ns)).2.isEof = true
  | [], _, _, _, h => by simp at h
  | n :: ns, s, ps, ho, hs => by
    rw [List.sum_cons] at hs
    by_cases hn : n ≤ s.buf.length + ps.flatten.length
    · obtain ⟨s1, ps1, h1, h2, h3, h4⟩ := call_enough ho n raw hn
      have hlen := congrArg List.length h4
      rw [List.length_append, List.length_drop, List.length_append] at hlen
      have := sized_over raw ns s1 ps1 h2 (by omega)
      simp only [sized, List.map_cons, calls, h1]
      exact this
    · rcases hc : call c s (.recv (some n) raw) with ⟨r, s1⟩
      obtain ⟨p1, p2, _, _, p5⟩ := call_tidy (.inl ⟨ps, ho⟩) (fun h => absurd rfl (h n raw)) hc
      obtain ⟨d, rfl, _, hd⟩ := p5 n raw rfl
      have hlen := congrArg List.length p2
      simp only [returned, ho.body, ho.q, rest_pieces, List.append_nil, List.nil_append, List.length_append] at hlen
      have heof := hd (by omega)
      have hq : s1.q = [] := by
        rcases p1 with ⟨ps1, p1⟩ | p1
        · rw [St.isEof, p1.eof] at heof; cases heof
        · exact p1.q
      simp only [sized, List.map_cons, calls, hc]
      have := calls_eof (c := c) raw ns s1 heof
      simp only [sized] at this
      rw [this]
      exact ⟨hq, heof⟩

end ReadApi

open ReadApi (sized)

/-- **C116 (exact: `eof()`).** However a handler reads its body with `recv`, `read` and `body` (as in C113), the end of the body is taken from the
queue exactly if `_eof` is set: `eof()` is true only if nothing is left. -/
theorem C116_eof {c : Cfg} (hc : c.chunked = false) {b : Bytes} (hl : c.cl = b.length) (hm : b.length ≤ c.maxBody) {ps : List Bytes} (hb : ps.flatten = b) (ks : List Call)
    (ht : Tidy c { q := ps.map some ++ [none] } ks) :
    let s := (calls c { q := ps.map some ++ [none] } ks).2
    (s.eof = true → s.q = []) ∧ (s.eof = false → ∃ ps' : List Bytes, s.q = ps'.map some ++ [none]) ∧ (s.isEof = true → s.q = []) := by
  have hr := ReadApi.rest_pieces ps
  rw [hb] at hr
  obtain ⟨h1, _, _⟩ := ReadApi.calls_tidy (c := c) (b := b) ks { q := ps.map some ++ [none] }
    (.inl ⟨ps, ⟨hc, hl, hm, by dsimp only; rw [hr]; simp⟩, rfl, rfl, rfl, fun _ h => by cases h⟩) ht
  intro s
  have key : (s.eof = true → s.q = []) ∧ (s.eof = false → ∃ ps' : List Bytes, s.q = ps'.map some ++ [none]) := by
    rcases h1 with ⟨ps', h1⟩ | h1
    · exact ⟨fun h => (by rw [show s.eof = false from h1.eof] at h; cases h), fun _ => ⟨ps', h1.q⟩⟩
    · exact ⟨fun _ => h1.q, fun h => (by rw [show s.eof = true from h1.eof] at h; cases h)⟩
  exact ⟨key.1, key.2, fun h => key.1 (by simp only [St.isEof, Bool.and_eq_true] at h; exact h.1)⟩

/-- **C116 (`body()`).** `body()` takes the end, after whatever reads. -/
theorem C116_body {c : Cfg} (hc : c.chunked = false) {b : Bytes} (hl : c.cl = b.length) (hm : b.length ≤ c.maxBody) {ps : List Bytes} (hb : ps.flatten = b) (ks : List Call) (raw : Bool)
    (ht : Tidy c { q := ps.map some ++ [none] } ks) (hk : (calls c { q := ps.map some ++ [none] } ks).2.buf = []) :
    (call c (calls c { q := ps.map some ++ [none] } ks).2 (.body raw)).2.q = [] := by
  have hr := ReadApi.rest_pieces ps
  rw [hb] at hr
  obtain ⟨h1, _, _⟩ := ReadApi.calls_tidy (c := c) (b := b) ks { q := ps.map some ++ [none] }
    (.inl ⟨ps, ⟨hc, hl, hm, by dsimp only; rw [hr]; simp⟩, rfl, rfl, rfl, fun _ h => by cases h⟩) ht
  rcases hcall : call c (calls c { q := ps.map some ++ [none] } ks).2 (.body raw) with ⟨r, s1⟩
  obtain ⟨_, _, _, p4, _⟩ := ReadApi.call_tidy h1 (fun _ => hk) hcall
  exact (p4 raw rfl).2.1.q

/-- **C116 (sized reads, refutation in general).** Reads that ask for no more than the body leave its end in the queue, also if they have returned
every byte of it: with `read(content_length)` nothing but the end is left. -/
theorem C116_left {c : Cfg} (hc : c.chunked = false) {b : Bytes} (hl : c.cl = b.length) (hm : b.length ≤ c.maxBody) {ps : List Bytes} (hb : ps.flatten = b) (ns : List Nat) (raw : Bool)
    (hn : ns.sum ≤ b.length) :
    let p := calls c { q := ps.map some ++ [none] } (sized raw ns)
    returned (sized raw ns) p.1 = b.take ns.sum ∧ p.2.isEof = false ∧ ∃ ps', p.2.q = ps'.map some ++ [none] ∧ ps' <:+ ps ∧
      (ns.sum = b.length → (∀ d ∈ ps, d ≠ []) → p.2.q = [none]) := by
  have hr := ReadApi.rest_pieces ps
  rw [hb] at hr
  obtain ⟨ps', i1, i2, i3, i4⟩ := ReadApi.sized_enough (c := c) (b := b) raw ns { q := ps.map some ++ [none] } ps
    ⟨⟨hc, hl, hm, by dsimp only; rw [hr]; simp⟩, rfl, rfl, rfl, fun _ h => by cases h⟩ (by rw [hb]; simpa using hn)
  intro p
  simp only [List.nil_append, hb] at i3 i4
  refine ⟨i3, by rw [St.isEof, i1.eof]; rfl, ps', i1.q, i2, fun hs hne => ?_⟩
  rw [List.drop_of_length_le (by omega)] at i4
  have := FilesEnd.flatten_empty (fun d hd => hne d (i2.mem hd)) (List.append_eq_nil_iff.1 i4).2
  rw [show p.2.q = _ from i1.q, this]; rfl

/-- **C116 (sized reads).** Reads that ask for more than the body take its end. -/
theorem C116_over {c : Cfg} (hc : c.chunked = false) {b : Bytes} (hl : c.cl = b.length) (hm : b.length ≤ c.maxBody) {ps : List Bytes} (hb : ps.flatten = b) (ns : List Nat) (raw : Bool)
    (hn : b.length < ns.sum) :
    (calls c { q := ps.map some ++ [none] } (sized raw ns)).2.q = [] ∧ (calls c { q := ps.map some ++ [none] } (sized raw ns)).2.isEof = true := by
  have hr := ReadApi.rest_pieces ps
  rw [hb] at hr
  exact ReadApi.sized_over (c := c) (b := b) raw ns { q := ps.map some ++ [none] } ps
    ⟨⟨hc, hl, hm, by dsimp only; rw [hr]; simp⟩, rfl, rfl, rfl, fun _ h => by cases h⟩ (by rw [hb]; simpa using hn)

/-! ## One connection -/

section
open Verif.Model.Conn hiding Item

/-- The body `hello` of a request, in two pieces, read in three ways. -/
example : calls { cl := 5 } { q := [some b!"hel", some b!"lo", none] } (sized false [2, 3]) = ([.ok b!"he", .ok b!"llo"], (calls { cl := 5 } { q := [some b!"hel", some b!"lo", none] } (sized false [2, 3])).2) ∧
    (calls { cl := 5 } { q := [some b!"hel", some b!"lo", none] } (sized false [2, 3])).2.q = [none] ∧
    (calls { cl := 5 } { q := [some b!"hel", some b!"lo", none] } (sized false [2, 4])).2.q = [] ∧
    (calls { cl := 5 } { q := [some b!"hel", some b!"lo", none] } [.body false]).2.q = [] := ⟨rfl, rfl, rfl, rfl⟩

/-- A request whose handler calls `read(5)`, and the request after it. -/
def rdFirst : List Ev := [.data b!"POST /a HTTP/1.1\r\nHost: h\r\nContent-Length: 5\r\n\r\nhello", .head 0, .head 0, .take 0, .leave 0 true, .send]
def rdNext : List Ev := [.data b!"POST /b HTTP/1.1\r\nHost: h\r\nContent-Length: 5\r\n\r\nworld", .head 1, .head 1]

/-- **C116 refuted.** The handler of the first request calls `read(5)`, which returns the five bytes of its body after one item of the queue
and leaves the end. The handler of the second request, whose body is `world`, reads an empty one, also with `body()`. -/
theorem C116_refuted_next :
    (calls { cl := 5 } { q := [some b!"hello", none] } (sized false [5])).1 = [.ok b!"hello"] ∧
    (calls { cl := 5 } { q := [some b!"hello", none] } (sized false [5])).2.q = (run {} {} rdFirst).q0 ∧
    itemsOf 0 (run {} {} rdFirst).log = [some b!"hello"] ∧ (run {} {} rdFirst).q0 = [none] ∧
    (run {} {} (rdFirst ++ rdNext)).running = [1] ∧ (run {} {} (rdFirst ++ rdNext)).q0 = [none, some b!"world", none] ∧
    (call { cl := 5 } { q := (run {} {} (rdFirst ++ rdNext)).q0 } (.body false)).1 = .ok [] := by
  refine ⟨rfl, ?_, ?_, ?_, ?_, ?_, ?_⟩
  · rw [show (run {} {} rdFirst).q0 = [none] by decide +kernel]; rfl
  · decide +kernel
  · decide +kernel
  · decide +kernel
  · decide +kernel
  · rw [show (run {} {} (rdFirst ++ rdNext)).q0 = [none, some b!"world", none] by decide +kernel]; rfl

end

end Verif
