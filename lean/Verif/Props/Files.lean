import Verif.Proofs.Files
import Verif.Proofs.Text
/-!
# C53: multipart uploads
-/
namespace Verif
open Py Model.BodyStream Model.Files Spec.HttpParser Spec.Files Proofs.Files Proofs.HttpParser

/-- **C53.** For every multipart body cut into pieces in any way, `files(limit)` yields the first `limit` parts, each with its
fields and its content unchanged, in order, and leaves the rest for the next call. -/
theorem C53_files {b : Bytes} (hb : BoundaryOk b) {ps : List Part} (hok : ∀ p ∈ ps, p.Ok b) {r : Reader} (hr : Ready b ps r) (limit : Nat) :
    ∃ r', files b limit r = ((ps.take limit).map yields, .finished, r') ∧ Ready b (ps.drop limit) r' := by
  obtain ⟨F, r', hR, hl, _⟩ := parts_full hb ps hok limit r {} ⟨hr.data, hr.out, hr.eof, rfl, rfl, rfl, rfl, fun h => (by cases h)⟩
  refine ⟨r', files_of ?_ hl (by simp), hR⟩
  unfold Reader.isEof
  cases he : r.eof with
  | false => rfl
  | true =>
    have h1 := hr.data
    rw [hr.eof he] at h1
    obtain ⟨w, hw⟩ := multipart_start b ps
    rw [hw] at h1
    simp only [List.flatten_nil, List.append_nil] at h1
    rw [h1]; simp

/-- A new request: any segmentation `segs` of the body. Missing for C53: boundaries that `parse_qs` changes (`C53_refuted_boundary`),
bodies without the line break behind the closing line or with a preamble, headers of more than 8193 bytes. -/
theorem C53_partial {b : Bytes} (hb : BoundaryOk b) {ps : List Part} (hok : ∀ p ∈ ps, p.Ok b) (segs : List Bytes)
    (h : segs.flatten = multipart b ps) (limit : Nat) :
    (files b limit ⟨⟨segs, .done⟩, [], false⟩).1 = (ps.take limit).map yields ∧
    (files b limit ⟨⟨segs, .done⟩, [], false⟩).2.1 = .finished := by
  obtain ⟨r', h1, _⟩ := C53_files hb hok (r := ⟨⟨segs, .done⟩, [], false⟩) ⟨by simpa using h, rfl, fun h => (by cases h)⟩ limit
  rw [h1]; exact ⟨rfl, rfl⟩

/-- Several calls yield the parts one after another, none twice and none lost. -/
theorem C53_calls {b : Bytes} (hb : BoundaryOk b) : ∀ (limits : List Nat) {ps : List Part} (_ : ∀ p ∈ ps, p.Ok b) {r : Reader} (_ : Ready b ps r),
    ((calls b limits r).1.map (·.1)).flatten = (ps.take limits.sum).map yields ∧ (∀ x ∈ (calls b limits r).1, x.2 = .finished) ∧
    ∀ k n, limits[k]? = some n → ((calls b limits r).1[k]?).map (·.1.length) = some (min n (ps.length - (limits.take k).sum)) := by
  intro limits
  induction limits with
  | nil => intro ps _ r _; simp [calls]
  | cons n ns ih =>
    intro ps hok r hr
    obtain ⟨r', h1, h2⟩ := C53_files hb hok hr n
    obtain ⟨e1, e2, e3⟩ := ih (ps := ps.drop n) (fun p hp => hok p (List.mem_of_mem_drop hp)) h2
    simp only [calls, h1]
    refine ⟨?_, ?_, ?_⟩
    · simp only [List.map_cons, List.flatten_cons, e1, List.sum_cons, List.take_add, List.map_append]
    · intro x hx
      rcases List.mem_cons.1 hx with rfl | hx
      · rfl
      · exact e2 x hx
    · intro k m hk
      cases k with
      | zero =>
        simp only [List.getElem?_cons_zero, Option.some.injEq] at hk ⊢
        subst hk
        simp
      | succ k =>
        simp only [List.getElem?_cons_succ, List.take_succ_cons, List.sum_cons] at hk ⊢
        rw [e3 k m hk, List.length_drop]
        congr 2
        omega

/-- **C53, incomplete bodies.** If the body ends before its closing line is complete, the parts that were received with the
delimiter behind them are yielded, and then BadRequest is raised (unless `limit` has been reached). -/
theorem C53_truncated {b : Bytes} (hb : BoundaryOk b) {ps : List Part} (hok : ∀ p ∈ ps, p.Ok b) (segs : List Bytes)
    (h : segs.flatten <+: multipart b ps) (hne : segs.flatten ≠ multipart b ps) (limit : Nat) :
    let x := files b limit ⟨⟨segs, .done⟩, [], false⟩
    let k := complete b ps segs.flatten
    (limit ≤ k → x.1 = (ps.take limit).map yields ∧ x.2.1 = .finished) ∧ (k < limit → x.1 = (ps.take k).map yields ∧ x.2.1 = .badRequest) := by
  obtain ⟨F, r', hl⟩ := parts_cut hb ps hok _ h hne limit ⟨⟨segs, .done⟩, [], false⟩ {}
    ⟨rfl, rfl, fun h => (by cases h), rfl, rfl, rfl, rfl, fun h => (by cases h)⟩
  dsimp only
  refine ⟨fun hk => ?_, fun hk => ?_⟩
  · rw [if_pos hk] at hl
    rw [files_of rfl hl (by simp)]; exact ⟨rfl, rfl⟩
  · rw [if_neg (by omega)] at hl
    rw [files_of rfl hl (by simp)]; exact ⟨rfl, rfl⟩

namespace Files

/-- Whatever the body: what has been received and not yet yielded is an end of it. -/
def rest (r : Reader) (l : Loc) : Bytes := (if l.header then l.body else r.buf) ++ r.gen.pieces.flatten

theorem fetch_data {r r1 : Reader} {l : Loc} {data : Bytes} (h : Model.Files.fetch r l = .ok (data, r1)) :
    r1.buf = r.buf ∧ data ++ r1.gen.pieces.flatten = r.gen.pieces.flatten := by
  rcases fetch_cases h with ⟨_, e⟩ | ⟨_, d, p, e1, e⟩ | ⟨_, e1, _, _, e⟩
  · cases e; exact ⟨rfl, rfl⟩
  · cases e; rw [e1]; exact ⟨rfl, by simp⟩
  · cases e; rw [e1]; exact ⟨rfl, rfl⟩

theorem pass_cont {b : Bytes} {r r' : Reader} {l l' : Loc} (hl : l.header = false → l.body = []) (h : pass b r l = .cont r' l') :
    rest r' l' <:+ rest r l ∧ (l'.header = false → l'.body = []) := by
  unfold pass at h
  split at h
  · cases h
  · next data r1 hf =>
    obtain ⟨e1, e2⟩ := fetch_data hf
    split at h
    · next hh =>
      unfold bodyPass at h
      dsimp only at h
      split at h
      · cases h
        refine ⟨?_, fun h => (by dsimp only at h; rw [hh] at h; cases h)⟩
        unfold rest
        dsimp only
        rw [hh, if_pos rfl, if_pos rfl, List.append_assoc, e2]
        exact List.suffix_refl _
      · cases h
    · next hh =>
      have hh : l.header = false := by simpa using hh
      unfold headPass at h
      dsimp only at h
      have key : ∀ (n : Nat), r1.buf.drop n ++ data.drop (n - r1.buf.length) ++ r1.gen.pieces.flatten <:+ r.buf ++ r.gen.pieces.flatten := by
        intro n
        rw [← List.drop_append, e1, ← e2, ← List.append_assoc]
        rw [List.suffix_append_self_iff]
        exact List.drop_suffix _ _
      have e0 : rest r l = r.buf ++ r.gen.pieces.flatten := by unfold rest; rw [hh]; simp
      rw [e0]
      split at h
      · split at h
        · cases h
        · cases h
          refine ⟨?_, hl⟩
          unfold rest
          dsimp only
          rw [hh]
          simpa using key 0
      · next n hn =>
        rw [hl hh] at h
        split at h
        · split at h
          · cases h
          · cases h
            refine ⟨?_, fun h => (by cases h)⟩
            unfold rest
            simpa [List.drop_append] using key (n + 2 + 2)
        · cases h
          refine ⟨?_, fun h => (by cases h)⟩
          unfold rest
          simpa [List.drop_append] using key (n + 2 + 2)

theorem pass_yield {b : Bytes} {r r1 r' : Reader} {l l' : Loc} {i : Info} {d : Bytes} (h : pass b r l = .yield i d r1 r' l') :
    l'.header = false ∧ l'.body = [] ∧ ∃ t, d ++ CRLF ++ (b!"--" ++ b ++ t) = rest r l ∧ rest r' l' = b!"--" ++ b ++ t := by
  unfold pass at h
  split at h
  · cases h
  · next data r2 hf =>
    obtain ⟨e1, e2⟩ := fetch_data hf
    split at h
    · next hh =>
      unfold bodyPass at h
      dsimp only at h
      split at h
      · cases h
      · next n hn =>
        cases h
        refine ⟨rfl, rfl, ?_⟩
        obtain ⟨t, ht⟩ : CRLF ++ b!"--" ++ b <+: (l.body ++ data).drop n := by
          unfold findFrom at hn
          split at hn
          · cases hn
          · cases hg : find (CRLF ++ b!"--" ++ b) ((l.body ++ data).drop l.cl) with
            | none => rw [hg] at hn; cases hn
            | some m =>
              rw [hg] at hn
              simp only [Option.map_some, Option.some.injEq] at hn
              have := (find_some hg).2.1
              rw [List.drop_drop] at this
              rw [← hn, Nat.add_comm]; exact this
        refine ⟨t ++ r1.gen.pieces.flatten, ?_, ?_⟩
        · have e : rest r l = ((l.body ++ data).take n ++ (l.body ++ data).drop n) ++ r1.gen.pieces.flatten := by
            unfold rest
            rw [hh, if_pos rfl, ← e2, List.take_append_drop, List.append_assoc]
          rw [e, ← ht]
          simp
        · unfold rest
          dsimp only
          rw [if_neg (by simp), ← List.drop_drop, ← ht]
          simp
    · unfold headPass at h
      dsimp only at h
      repeat' split at h
      all_goals cases h

theorem loop_sound (b : Bytes) : ∀ (fuel limit : Nat) (want : Option Nat) (r : Reader) (l : Loc), (l.header = false → l.body = []) →
    (loop b fuel limit want r l).1.length ≤ limit ∧
    ∀ x ∈ (loop b fuel limit want r l).1, x.2 ++ delimiter b <:+: rest r l := by
  intro fuel
  induction fuel with
  | zero => intro limit want r l _; simp [loop]
  | succ fuel ih =>
    intro limit want r l hl
    unfold loop
    split
    · simp
    · next hc =>
      cases hp : pass b r l with
      | stop e r => simp
      | cont r' l' =>
        obtain ⟨h1, h2⟩ := pass_cont hl hp
        obtain ⟨h3, h4⟩ := ih limit want r' l' h2
        exact ⟨h3, fun x hx => (h4 x hx).trans h1.isInfix⟩
      | yield i d r1 r' l' =>
        obtain ⟨h1, h2, t, h3, h4⟩ := pass_yield hp
        have hd : d ++ delimiter b <:+: rest r l := ⟨[], t, by rw [← h3]; simp [delimiter]⟩
        dsimp only
        split
        · refine ⟨by simp; omega, fun x hx => ?_⟩
          simp only [List.mem_singleton] at hx
          subst hx; exact hd
        · obtain ⟨h5, h6⟩ := ih (limit - 1) (want.map (· - 1)) r' l' (fun _ => h2)
          refine ⟨by simp only [List.length_cons]; omega, fun x hx => ?_⟩
          rcases List.mem_cons.1 hx with rfl | hx
          · exact hd
          · refine (h6 x hx).trans ?_
            rw [h4, ← h3]
            exact (List.suffix_append _ _).isInfix

end Files

/-- **C53 (odd parts)**: a part that has one of the three fields twice, or a Content-Disposition of 100 parameters, ends the call by an
exception; the parts before it have been given to the application, and nothing of what is behind. -/
theorem C53_odd {b : Bytes} (hb : BoundaryOk b) {ps : List Part} (hok : ∀ p ∈ ps, p.Ok b) {q : Part} (hq : q.Legal b) (ho : q.Odd) (segs : List Bytes) (rest : Bytes)
    (h : segs.flatten = (ps.map (fun p => p.head b ++ p.content ++ CRLF)).flatten ++ q.head b ++ rest) {limit : Nat} (hl : ps.length < limit) :
    (files b limit ⟨⟨segs, .done⟩, [], false⟩).1 = ps.map yields ∧ (files b limit ⟨⟨segs, .done⟩, [], false⟩).2.1 = .error := by
  obtain ⟨F, r', hr⟩ := parts_odd hb hq ho rest ps hok limit ⟨⟨segs, .done⟩, [], false⟩ {}
    ⟨by simpa using h, rfl, fun h => (by cases h), rfl, rfl, rfl, rfl, fun h => (by cases h)⟩ hl
  rw [files_of rfl hr (by simp)]
  exact ⟨rfl, rfl⟩

/-- Two content types. -/
example : (⟨[⟨b!"Content-Type", true, b!"a/b"⟩, ⟨b!"content-type", true, b!"c/d"⟩], b!"x"⟩ : Part).Odd := .inl ⟨b!"content-type", by simp, by decide +kernel⟩
example : (files b!"b" 5 ⟨⟨[b!"--b\r\nX: y\r\n\r\nabc\r\n--b\r\nContent-Type: a/b\r\ncontent-type: c/d\r\n\r\nde\r\n--b--\r\n"], .done⟩, [], false⟩).1 = [({}, b!"abc")] := by decide +kernel

/-- **C53, any body.** Whatever the body and its cuts: at most `limit` parts are yielded, and every content that is yielded
stands in what was received, with the delimiter behind it. -/
theorem C53_sound (b : Bytes) (limit : Nat) (r : Reader) (want : Option Nat) :
    (files b limit r want).1.length ≤ limit ∧
    ∀ x ∈ (files b limit r want).1, x.2 ++ delimiter b <:+: r.buf ++ r.gen.pieces.flatten := by
  unfold files
  split
  · simp
  · exact Files.loop_sound b _ limit want r {} (fun _ => rfl)

/-- Every call ends. -/
theorem C53_ends (b : Bytes) (limit : Nat) (r : Reader) (want : Option Nat) : (files b limit r want).2.1 ≠ .fuel := by
  unfold files
  split
  · simp
  · exact loop_terminates b _ limit want r {} (by
      have : rank {} = 3 := rfl
      unfold filesFuel; omega)

/-! ## The boundary -/

/-- The boundary is the parameter of the content type, if it has no byte that means something in a query string. -/
theorem C53_boundary {B : Bytes} (hne : B ≠ []) (h : ∀ x ∈ B, x ≠ 59 ∧ x ≠ 38 ∧ x ≠ 43) :
    boundaryOf (b!"multipart/form-data; boundary=" ++ B) = some B := by
  have h59 : (59 : UInt8) ∉ B := fun hm => (h _ hm).1 rfl
  have h38 : (38 : UInt8) ∉ B := fun hm => (h _ hm).2.1 rfl
  have h43 : (43 : UInt8) ∉ B := fun hm => (h _ hm).2.2 rfl
  have hrep : ∀ s : Bytes, (59 : UInt8) ∉ s → replaceAux b!"; " b!"&" 0 s = s := by
    intro s
    induction s with
    | nil => intro _; rfl
    | cons c t ih =>
      intro hm
      have hc : c ≠ 59 := fun e => hm (by simp [e])
      rw [replaceAux, if_neg (by simp [List.isPrefixOf, Ne.symm hc]), ih (fun e => hm (by simp [e]))]
  have e1 : replace b!"; " b!"&" (b!"multipart/form-data; boundary=" ++ B) = b!"multipart/form-data&boundary=" ++ B := by
    unfold replace
    simp only [List.cons_append, List.nil_append]
    simp only [replaceAux, List.isPrefixOf]
    simp
    exact hrep (b!"boundary=" ++ B) (by simp [h59])
  have e2 : replace1 59 [38] (b!"multipart/form-data&boundary=" ++ B) = b!"multipart/form-data" ++ 38 :: (b!"boundary=" ++ B) := by
    rw [Proofs.Text.replace1_notMem (by simp [h59])]; rfl
  unfold boundaryOf
  dsimp only
  rw [e1, e2]
  obtain ⟨n, hn⟩ : ∃ n, (b!"multipart/form-data" ++ 38 :: (b!"boundary=" ++ B)).length = n + 1 := ⟨_, by simp; rfl⟩
  rw [hn, splitByte_cons (by decide), splitByte_notMem (by simp [h38])]
  have e3 : splitByte 61 1 b!"multipart/form-data" = [b!"multipart/form-data"] := by decide
  have e4 : splitByte 61 1 (b!"boundary=" ++ B) = [b!"boundary", B] := by
    rw [show (b!"boundary=" ++ B : Bytes) = b!"boundary" ++ 61 :: B from rfl, splitByte_cons (by decide), splitByte_zero]
  rw [List.findSome?_cons, e3]
  dsimp only
  rw [List.findSome?_cons, e4]
  dsimp only
  rw [if_pos ⟨by decide, hne⟩, Proofs.Text.replace1_notMem h43]

/-- RFC 2046 allows `+` in a boundary and a quoted boundary; here `+` becomes a space and the quotes stay. -/
theorem C53_refuted_boundary :
    boundaryOf b!"multipart/form-data; boundary=a+b" = some b!"a b" ∧
    boundaryOf b!"multipart/form-data; boundary=\"ab\"" = some b!"\"ab\"" ∧
    boundaryOf b!"multipart/form-data; Boundary=ab" = none := by decide +kernel

/-! ## Cases, and what does not hold -/

/-- Two parts: one with a length, whose content holds the delimiter, and one without. -/
def exParts : List Part :=
  [⟨[⟨b!"Content-Length", true, b!"6"⟩, ⟨b!"Content-Disposition", true, b!"form-data; name=\"a\""⟩], b!"\r\n--b1"⟩, ⟨[⟨b!"X", false, b!"y"⟩], b!"\r\n-"⟩]

theorem exBoundary : BoundaryOk b!"b" := ⟨by decide, by decide, by decide⟩

theorem exParts_ok : ∀ p ∈ exParts, p.Ok b!"b" := by
  intro p hp
  simp only [exParts, List.mem_cons, List.not_mem_nil, or_false] at hp
  rcases hp with rfl | rfl
  · refine ⟨?_, by decide, by decide, by decide, by decide, ?_, ?_⟩
    · intro f hf
      simp only [List.mem_cons, List.not_mem_nil, or_false] at hf
      rcases hf with rfl | rfl <;> exact ⟨by decide, by decide, by decide, by decide, by decide, by decide⟩
    · intro v hv
      have : v = b!"6" := by
        have e : Part.field ⟨[⟨b!"Content-Length", true, b!"6"⟩, ⟨b!"Content-Disposition", true, b!"form-data; name=\"a\""⟩], b!"\r\n--b1"⟩
          b!"content-length" = some b!"6" := by decide
        rw [e] at hv; cases hv; rfl
      subst this; decide
    · intro h; exact absurd h (by decide)
  · refine ⟨?_, by decide, by decide, by decide, ?_, ?_, ?_⟩
    · intro f hf
      simp only [List.mem_cons, List.not_mem_nil, or_false] at hf
      subst hf
      exact ⟨by decide, by decide, by decide, by decide, by decide, by decide⟩
    · intro v hv
      have e : Part.field ⟨[⟨b!"X", false, b!"y"⟩], b!"\r\n-"⟩ b!"content-disposition" = none := by decide
      rw [e] at hv; cases hv
    · intro v hv
      have e : Part.field ⟨[⟨b!"X", false, b!"y"⟩], b!"\r\n-"⟩ b!"content-length" = none := by decide
      rw [e] at hv; cases hv
    · intro _
      rw [← contains_false_iff]; decide

example : files b!"b" 5 ⟨⟨[(multipart b!"b" exParts).take 30, (multipart b!"b" exParts).drop 30], .done⟩, [], false⟩ =
    ([(⟨some b!"form-data; name=\"a\"", some 6, none⟩, b!"\r\n--b1"), ({}, b!"\r\n-")], .finished, ⟨⟨[], .done⟩, b!"--b--\r\n", true⟩) := by
  decide +kernel

example : complete b!"b" exParts ((multipart b!"b" exParts).take 90) = 1 := by decide +kernel

/-- The line break behind the closing line is required, though RFC 2046 does not: all parts, then BadRequest. An epilogue
is refused as well. -/
theorem C53_refuted_epilogue :
    files b!"b" 5 ⟨⟨[b!"--b\r\nX: y\r\n\r\nabc\r\n--b--"], .done⟩, [], false⟩ =
      ([({}, b!"abc")], .badRequest, ⟨⟨[], .done⟩, b!"--b--", true⟩) ∧
    (files b!"b" 5 ⟨⟨[b!"--b\r\nX: y\r\n\r\nabc\r\n--b--\r\nend"], .done⟩, [], false⟩).2.1 = .badRequest := by decide +kernel

/-- With a preamble the first part is yielded without its fields. -/
theorem C53_refuted_preamble :
    (files b!"b" 5 ⟨⟨[b!"hello\r\n--b\r\nContent-Type: y\r\n\r\nabc\r\n--b--\r\n"], .done⟩, [], false⟩).1 = [({}, b!"abc")] ∧
    (files b!"b" 5 ⟨⟨[b!"--b\r\nContent-Type: y\r\n\r\nabc\r\n--b--\r\n"], .done⟩, [], false⟩).1 =
      [({ type := some b!"y" }, b!"abc")] := by decide +kernel

/-- A caller that leaves its loop at a part and calls again gets that part again (`abc`), or, if the body came in several
pieces, loses the parts behind it (`de`). -/
theorem C53_refuted_abandoned :
    (files b!"b" 5 (files b!"b" 5 ⟨⟨[b!"--b\r\n\r\nabc\r\n--b--\r\n"], .done⟩, [], false⟩ (some 1)).2.2).1 = [({}, b!"abc")] ∧
    (let x := files b!"b" 5 ⟨⟨[b!"--b\r\n\r\na", b!"bc\r\n--b\r\n\r\nde\r\n", b!"--b--\r\n"], .done⟩, [], false⟩ (some 1)
     x.1 = [({}, b!"abc")] ∧ (files b!"b" 5 x.2.2).1 = [] ∧ (files b!"b" 5 x.2.2).2.1 = .badRequest) := by decide +kernel

end Verif
