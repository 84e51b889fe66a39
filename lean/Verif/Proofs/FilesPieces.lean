import Verif.Props.FilesEnd
import Verif.Spec.FilesPieces
/-!
# Which pieces of a form `files()` asks for
-/
namespace Verif.Proofs.Files
open Verif.Py Verif.Model.BodyStream Verif.Model.HttpParser Verif.Model.Files Verif.Spec.HttpParser Verif.Spec.Files
open Verif.Proofs.HttpParser

/-- The header of a part is found with the pieces that `fetchFor` says, and the end is not asked for meanwhile. -/
theorem head_track {b : Bytes} (hb : BoundaryOk b) {p : Part} (hp : p.Ok b) {X : Bytes} : ∀ (n : Nat) (r : Reader) (l : Loc), todo r l ≤ n →
    H (p.head b ++ X) r l → Fresh r l → ∃ F r' l', B b p X r' l' ∧
      (∀ fuel limit want, 0 < limit → loop b (F + fuel) limit want r l = loop b fuel limit want r' l') ∧
      l'.neg = false ∧ r'.eof = r.eof ∧
      (l'.body.length, l'.paused, r'.gen.pieces) =
        ((fetchFor (p.head b).length r.buf.length l.paused r.gen.pieces).1 - (p.head b).length,
          (fetchFor (p.head b).length r.buf.length l.paused r.gen.pieces).2) := by
  intro n
  induction n with
  | zero =>
    intro r l hn i
    have h0 : r.gen.pieces = [] ∧ (l.hs1 || l.neg) = true := by
      unfold todo at hn
      split at hn
      · next h => exact ⟨List.eq_nil_of_length_eq_zero (by omega), h⟩
      · omega
    exfalso
    have hh : l.hs1 = true := by simpa [i.neg] using h0.2
    have hf := (i.hs1 hh).2
    have hd := i.data
    rw [h0.1] at hd
    simp only [List.flatten_nil, List.append_nil] at hd
    rw [hd, find_head hb hp.legal] at hf
    cases hf
  | succ n ih =>
    intro r l hn i hfr
    have hbuf : r.buf <+: p.head b ++ X := ⟨_, i.data⟩
    rcases fetch_ok (l := l) i.out i.eof (fun h => (i.hs1 (by simpa [i.neg] using h)).1) with
      ⟨data, r1, hf, e1, e2, e3, e4, e5⟩ | ⟨r1, hf, e1, e2⟩
    · have hbuf1 : r.buf ++ data <+: p.head b ++ X := ⟨r1.gen.pieces.flatten, by rw [List.append_assoc, e2]; exact i.data⟩
      have hpass : pass b r l = headPass b data r1 l := by
        unfold pass; rw [hf]; dsimp only; rw [i.header]; rfl
      have hfind := find_head_prefix hb hp.legal hbuf1
      have h4 := head_length b p
      have hcase : (l.paused = true ∧ r1 = r ∧ data = []) ∨ (l.paused = false ∧ r.gen.pieces = data :: r1.gen.pieces ∧ r1.eof = r.eof) := by
        rcases fetch_cases hf with ⟨a, e⟩ | ⟨a, d, ds, ee, e⟩ | ⟨a, ee, f1, f2, e⟩
        · cases e; exact .inl ⟨a, rfl, rfl⟩
        · cases e; exact .inr ⟨a, ee, rfl⟩
        · exfalso
          rcases hfr a with h | h
          · rw [f1] at h; cases h
          · have hd := i.data
            rw [h, ee] at hd
            have := congrArg List.length hd
            simp only [List.flatten_nil, List.append_nil, List.length_nil, List.length_append] at this
            omega
      by_cases hl : (p.head b).length ≤ (r.buf ++ data).length
      · -- found
        rw [if_pos hl] at hfind
        have hpre : p.head b <+: r.buf ++ data := List.prefix_of_prefix_length_le (List.prefix_append _ _) hbuf1 hl
        obtain ⟨w, hw⟩ := hpre
        have hstart : startsWith (r.buf ++ data) (b!"--" ++ b ++ CRLF) = true := by
          unfold startsWith
          rw [isPrefixOf_iff, ← hw]
          exact ⟨(p.fields.map (fun f => f.line ++ CRLF)).flatten ++ CRLF ++ w, by simp [Part.head]⟩
        have hinfo := infoOf_part hb hp w
        rw [hw] at hinfo
        have hhp : headPass b data r1 l = .cont { r1 with buf := r.buf ++ data }
            { l with header := true, hs1 := false, body := w, info := info p, cl := (info p).length.getD 0 } := by
          unfold headPass
          dsimp only
          rw [e1, hfind]
          dsimp only
          have := hp.size
          rw [if_pos ⟨by omega, hstart⟩, show (p.head b).length - 4 + 2 = (p.head b).length - 2 by omega, hinfo]
          dsimp only
          rw [i.body, i.cl, List.nil_append, show (p.head b).length - 2 + 2 = (p.head b).length by omega, ← hw, List.drop_left]
        refine ⟨1, { r1 with buf := r.buf ++ data },
          { l with header := true, hs1 := false, body := w, info := info p, cl := (info p).length.getD 0 }, ?_, fun fuel limit want hlim => ?_,
          i.neg, ?_, ?_⟩
        · refine ⟨?_, e3, e4, rfl, rfl, rfl, rfl, ⟨w, hw⟩, fun h => ?_⟩
          · have h1 : (r.buf ++ data) ++ r1.gen.pieces.flatten = p.head b ++ X := by rw [List.append_assoc, e2]; exact i.data
            rw [← hw, List.append_assoc] at h1
            exact List.append_cancel_left h1
          · dsimp only at h; rw [i.neg] at h; cases h
        · rw [Nat.add_comm]; exact loop_succ hlim (ne_closing hbuf) (hpass.trans hhp)
        · rcases hcase with ⟨_, rfl, _⟩ | ⟨_, _, h⟩
          · rfl
          · exact h
        · have hwl : w.length = (r.buf ++ data).length - (p.head b).length := by rw [← hw, List.length_append]; omega
          dsimp only
          rw [hwl]
          rw [List.length_append] at hl ⊢
          rcases hcase with ⟨hp', rfl, rfl⟩ | ⟨hp', hx, _⟩
          · simp only [List.length_nil, Nat.add_zero] at hl ⊢
            unfold fetchFor
            rw [if_pos ⟨hp', hl⟩, hp']
          · unfold fetchFor
            rw [if_neg (by rw [hp']; simp), hx, fetchUntil, if_pos hl, hp']
      · -- not yet
        rw [if_neg hl] at hfind
        have hhp : headPass b data r1 l = .cont { r1 with buf := r.buf ++ data } { l with hs1 := true, paused := false } := by
          unfold headPass
          dsimp only
          rw [e1, hfind]
          dsimp only
          have := hp.size
          rw [if_neg (by omega)]
        have hi : H (p.head b ++ X) { r1 with buf := r.buf ++ data } { l with hs1 := true, paused := false } :=
          ⟨by dsimp only; rw [List.append_assoc, e2]; exact i.data, e3, e4, i.header, i.body, i.neg, i.cl, fun _ => ⟨rfl, hfind⟩⟩
        have hm : todo { r1 with buf := r.buf ++ data } { l with hs1 := true, paused := false } ≤ n := by
          unfold todo at hn ⊢
          dsimp only
          simp only [Bool.true_or, if_true]
          rcases e5 with e5 | ⟨e5, _, e6⟩
          · omega
          · rw [e6] at hn; rw [e5]; simp at hn; omega
        obtain ⟨F, r', l', hB, hr, hneg, heof, htr⟩ := ih _ _ hm hi (fun _ => .inl rfl)
        refine ⟨F + 1, r', l', hB, fun fuel limit want hlim => ?_, hneg, heof.trans ?_, htr.trans ?_⟩
        · rw [show F + 1 + fuel = (F + fuel) + 1 by omega, loop_succ hlim (ne_closing hbuf) (hpass.trans hhp)]
          exact hr fuel limit want hlim
        · rcases hcase with ⟨_, rfl, _⟩ | ⟨_, _, h⟩
          · rfl
          · exact h
        · have hft : fetchFor (p.head b).length (r.buf ++ data).length false r1.gen.pieces = fetchFor (p.head b).length r.buf.length l.paused r.gen.pieces := by
            rw [List.length_append] at hl ⊢
            unfold fetchFor
            rcases hcase with ⟨hp', rfl, rfl⟩ | ⟨hp', hx, _⟩
            · simp only [List.length_nil, Nat.add_zero] at hl ⊢
              rw [if_neg (by simp), if_neg (by rintro ⟨_, h⟩; exact hl h)]
            · rw [if_neg (by simp), if_neg (by rw [hp']; simp), hx, fetchUntil, if_neg hl]
          dsimp only
          rw [hft]
    · exfalso
      have hh : l.hs1 = true := by simpa [i.neg] using e2
      have hf := (i.hs1 hh).2
      have hd := i.data
      rw [e1] at hd
      simp only [List.flatten_nil, List.append_nil] at hd
      rw [hd, find_head hb hp.legal] at hf
      cases hf

/-- A part is given out with the pieces that `fetchFor` says; the end is asked for if a piece was to be fetched and none was left. -/
theorem body_track {b : Bytes} (hb : BoundaryOk b) {p : Part} (hp : p.Ok b) {w : Bytes} : ∀ (n : Nat) (r : Reader) (l : Loc), todo r l ≤ n →
    B b p (p.content ++ CRLF ++ (b!"--" ++ b ++ w)) r l → ∃ F r' l', H (b!"--" ++ b ++ w) r' l' ∧
      (∀ fuel limit want, 0 < limit → want ≠ some 1 → loop b (F + fuel) limit want r l =
        ((info p, p.content) :: (loop b fuel (limit - 1) (want.map (· - 1)) r' l').1, (loop b fuel (limit - 1) (want.map (· - 1)) r' l').2)) ∧
      l'.paused = true ∧
      r'.eof = (r.eof || (!l.neg && !l.paused && r.gen.pieces.isEmpty)) ∧
      (r'.buf.length, r'.gen.pieces) =
        ((fetchFor (p.content ++ delimiter b).length l.body.length l.paused r.gen.pieces).1 - (p.content ++ CRLF).length,
          (fetchFor (p.content ++ delimiter b).length l.body.length l.paused r.gen.pieces).2.2) := by
  have hD : p.content ++ CRLF ++ (b!"--" ++ b ++ w) = p.content ++ delimiter b ++ w := by simp [delimiter]
  have contra : ∀ (r : Reader) (l : Loc), B b p (p.content ++ CRLF ++ (b!"--" ++ b ++ w)) r l → r.gen.pieces = [] → (l.hs1 || l.neg) = true → False := by
    intro r l i h1 h2
    have hn : l.neg = true := by simpa [i.hs1] using h2
    have hf := (i.neg hn).2
    have hd := i.data
    rw [h1] at hd
    simp only [List.flatten_nil, List.append_nil] at hd
    rw [find_delim hb.cr (i.start hp) (w := w) ⟨[], by rw [List.append_nil, hd, hD]⟩, if_pos] at hf
    · cases hf
    · rw [hd, hD]; simp only [List.length_append]; omega
  intro n
  induction n with
  | zero =>
    intro r l hn i
    exfalso
    unfold todo at hn
    split at hn
    · next h => exact contra r l i (List.eq_nil_of_length_eq_zero (by omega)) h
    · omega
  | succ n ih =>
    intro r l hn i
    rcases fetch_ok (l := l) i.out i.eof (fun h => (i.neg (by simpa [i.hs1] using h)).1) with
      ⟨data, r1, hf, e1, e2, e3, e4, e5⟩ | ⟨r1, hf, e1, e2⟩
    · have hcase : (l.paused = true ∧ r1 = r ∧ data = []) ∨ (l.paused = false ∧ r.gen.pieces = data :: r1.gen.pieces ∧ r1.eof = r.eof) ∨
          (l.paused = false ∧ l.neg = false ∧ r.gen.pieces = [] ∧ r1.gen.pieces = [] ∧ data = [] ∧ r1.eof = true) := by
        rcases fetch_cases hf with ⟨a, e⟩ | ⟨a, d, ds, ee, e⟩ | ⟨a, ee, f1, f2, e⟩
        · cases e; exact .inl ⟨a, rfl, rfl⟩
        · cases e; exact .inr (.inl ⟨a, ee, rfl⟩)
        · cases e; exact .inr (.inr ⟨a, f2, by rw [ee], by rw [ee], rfl, rfl⟩)
      have hdl : (p.content ++ delimiter b).length = p.content.length + (delimiter b).length := List.length_append
      by_cases hl : p.content.length + (delimiter b).length ≤ (l.body ++ data).length
      · have hpre : l.body ++ data <+: p.content ++ CRLF ++ (b!"--" ++ b ++ w) :=
          ⟨r1.gen.pieces.flatten, by rw [List.append_assoc, e2]; exact i.data⟩
        have hfind := find_delim hb.cr (i.start hp) (hD ▸ hpre)
        rw [if_pos hl] at hfind
        obtain ⟨t, ht⟩ : p.content ++ delimiter b <+: l.body ++ data :=
          List.prefix_of_prefix_length_le (List.prefix_append _ w) (hD ▸ hpre) (by rw [List.length_append]; exact hl)
        have hpass : pass b r l = .yield (info p) p.content r1 { r1 with buf := (l.body ++ data).drop (p.content.length + 2) }
            { l with header := false, body := [], neg := false, cl := 0, paused := true } := by
          unfold pass
          rw [hf]
          dsimp only
          rw [i.header]
          simp only [if_true]
          unfold bodyPass
          dsimp only
          rw [show CRLF ++ b!"--" ++ b = delimiter b from rfl, hfind]
          dsimp only
          rw [i.info, show (l.body ++ data).take p.content.length = p.content by rw [← ht, List.append_assoc, List.take_left]]
        refine ⟨1, { r1 with buf := (l.body ++ data).drop (p.content.length + 2) },
          { l with header := false, body := [], neg := false, cl := 0, paused := true }, ?_, fun fuel limit want hlim hw => ?_, rfl, ?_, ?_⟩
        · refine ⟨?_, e3, e4, rfl, rfl, rfl, rfl, fun h => ?_⟩
          · have h1 : (l.body ++ data) ++ r1.gen.pieces.flatten = p.content ++ CRLF ++ (b!"--" ++ b ++ w) := by
              rw [List.append_assoc, e2]; exact i.data
            dsimp only
            have h2 := congrArg (List.drop (p.content.length + 2)) h1
            rw [List.drop_append_of_le_length (by have : 2 ≤ (delimiter b).length := by simp [delimiter]
                                                  omega)] at h2
            rw [h2]
            exact List.drop_left' (by simp)
          · dsimp only at h; rw [i.hs1] at h; cases h
        · rw [Nat.add_comm, loop, if_neg (by rintro (h | h); omega; exact i.ne_closing h), hpass]
          dsimp only
          rw [if_neg hw]
        · dsimp only
          rcases hcase with ⟨h1, rfl, _⟩ | ⟨h1, h2, h3⟩ | ⟨h1, h2, h3, _, _, h4⟩
          · simp [h1]
          · rw [h2, h3]; simp
          · rw [h1, h2, h3, h4]; simp
        · dsimp only
          have hc : (p.content ++ CRLF).length = p.content.length + 2 := by simp
          rw [List.length_drop, hc, hdl]
          rw [List.length_append] at hl ⊢
          unfold fetchFor
          rcases hcase with ⟨h1, rfl, rfl⟩ | ⟨h1, h2, h3⟩ | ⟨h1, h2, h3, h5, rfl, h4⟩
          · simp only [List.length_nil, Nat.add_zero] at hl ⊢
            rw [if_pos ⟨h1, hl⟩]
          · rw [if_neg (by rw [h1]; simp), h2, fetchUntil, if_pos hl]
          · rw [if_neg (by rw [h1]; simp), h3, h5, fetchUntil]; rfl
      · have hnl : (l.body ++ data).length < p.content.length + (delimiter b).length := by omega
        obtain ⟨hpass, i'⟩ := body_wait hb hp i (w := w) ⟨[], by rw [List.append_nil, hD]⟩ hf e1 e2 e3 e4 hnl
        have hm : todo r1 { l with body := l.body ++ data, neg := true, paused := false } ≤ n := by
          unfold todo at hn ⊢
          dsimp only
          simp only [Bool.or_true, if_true]
          rcases e5 with e5 | ⟨e5, _, e6⟩
          · omega
          · rw [e6] at hn; rw [e5]; simp at hn; omega
        obtain ⟨F, r', l', hH, hr, hpa, heof, htr⟩ := ih _ _ hm i'
        refine ⟨F + 1, r', l', hH, fun fuel limit want hlim hw => ?_, hpa, heof.trans ?_, htr.trans ?_⟩
        · rw [show F + 1 + fuel = (F + fuel) + 1 by omega, loop_succ hlim i.ne_closing hpass]
          exact hr fuel limit want hlim hw
        · rcases hcase with ⟨h1, rfl, _⟩ | ⟨h1, h2, h3⟩ | ⟨h1, h2, h3, h5, _, h4⟩
          · simp [h1]
          · rw [h2, h3]; simp
          · exact absurd (contra r1 _ i' h5 (by simp)) id
        · have hft : fetchFor (p.content ++ delimiter b).length (l.body ++ data).length false r1.gen.pieces =
              fetchFor (p.content ++ delimiter b).length l.body.length l.paused r.gen.pieces := by
            rw [hdl]
            rw [List.length_append] at hl ⊢
            unfold fetchFor
            rcases hcase with ⟨h1, rfl, rfl⟩ | ⟨h1, h2, h3⟩ | ⟨h1, h2, h3, h5, rfl, h4⟩
            · simp only [List.length_nil, Nat.add_zero] at hl ⊢
              rw [if_neg (by simp), if_neg (by rintro ⟨_, h⟩; exact hl h)]
            · rw [if_neg (by simp), if_neg (by rw [h1]; simp), h2, fetchUntil, if_neg hl]
            · exact absurd (contra r1 _ i' h5 (by simp)) id
          dsimp only
          rw [hft]
    · exact absurd (contra r l i e1 e2) id

theorem parts_track {b : Bytes} (hb : BoundaryOk b) : ∀ (ps : List Part), (∀ p ∈ ps, p.Ok b) → ∀ (limit : Nat), ps.length ≤ limit → ∀ (r : Reader) (l : Loc),
    H (multipart b ps) r l → Fresh r l → ∃ F r' ys, loop b F limit none r l = (ys, .finished, r') ∧
      r'.eof = (r.eof || takesEnd b ps r.buf.length l.paused r.gen.pieces) := by
  intro ps
  induction ps with
  | nil =>
    intro _ limit _ r l i hfr
    by_cases hlim : limit = 0
    · refine ⟨1, r, [], ?_, by simp [takesEnd]⟩
      rw [loop, if_pos (.inl hlim)]
    · obtain ⟨F, r', _, hr, _, hsafe⟩ := closing_full hb (todo r l) r l (Nat.le_refl _) i
      have hl := hr limit none (by omega)
      refine ⟨F, r', [], hl, ?_⟩
      rw [takesEnd, Bool.or_false]
      cases he : r.eof with
      | false =>
        refine hsafe ⟨he, fun hnil => ?_⟩
        cases hpz : l.paused with
        | true => exact .inl rfl
        | false =>
          rcases hfr hpz with h | h
          · exact .inr (.inl h)
          · exfalso
            have := i.data
            rw [h, hnil] at this
            simp [multipart, closing] at this
      | true =>
        have := FilesEnd.loop_eof b F limit none r l he
        rw [hl] at this; exact this
  | cons p ps ih =>
    intro hok limit hlen r l i hfr
    simp only [List.length_cons] at hlen
    have hp := hok p (by simp)
    obtain ⟨w, hw⟩ := multipart_start b ps
    have i1 : H (p.head b ++ (p.content ++ CRLF ++ multipart b ps)) r l := by
      have : multipart b (p :: ps) = p.head b ++ (p.content ++ CRLF ++ multipart b ps) := by simp [multipart]
      rw [← this]; exact i
    obtain ⟨F1, r1, l1, hB, hr1, hneg, he1, ht1⟩ := head_track hb hp _ r l (Nat.le_refl _) i1 hfr
    rw [hw] at hB
    obtain ⟨F2, r2, l2, hH, hr2, hpa, he2, ht2⟩ := body_track hb hp _ r1 l1 (Nat.le_refl _) hB
    rw [← hw] at hH
    obtain ⟨F3, r3, ys, hr3, he3⟩ := ih (fun q hq => hok q (by simp [hq])) (limit - 1) (by omega) r2 l2 hH (fun h => by rw [hpa] at h; cases h)
    refine ⟨F1 + (F2 + F3), r3, (info p, p.content) :: ys, ?_, ?_⟩
    · rw [hr1 _ _ _ (by omega), hr2 _ _ _ (by omega) (by simp)]
      simp only [Option.map_none]
      rw [hr3]
    · rw [he3, he2, he1, hneg, hpa]
      rw [takesEnd]
      generalize fetchFor (p.head b).length r.buf.length l.paused r.gen.pieces = t at ht1 ⊢
      obtain ⟨k, held, ds⟩ := t
      simp only [Prod.mk.injEq] at ht1
      obtain ⟨t1, t2, t3⟩ := ht1
      rw [t1, t2, t3] at ht2
      rw [t2, t3]
      generalize fetchFor (p.content ++ delimiter b).length (k - (p.head b).length) held ds = c at ht2 ⊢
      obtain ⟨k', held', ds'⟩ := c
      simp only [Prod.mk.injEq] at ht2
      rw [ht2.1, ht2.2]
      dsimp only
      cases held <;> cases ds <;> simp

end Verif.Proofs.Files
