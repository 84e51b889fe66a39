import Verif.Props.Files
import Verif.Props.Params
import Verif.Props.SequentialRead
import Verif.Props.Intake
import Verif.Model.FilesInfo
import Verif.Spec.Controls
/-!
# C115: a form with files, from the browser to the handler, and what it leaves on the connection
-/
namespace Verif
open Py Model.BodyStream Model.Files Model.FilesInfo Spec.HttpParser Spec.Files Spec.Params Spec.Controls Proofs.Files

/-- A text that is read as it was written (C76). -/
def Readable (v : Bytes) : Prop := mpPlain v ∧ v.head? ≠ some 34 ∧ v.getLast? ≠ some 34

/-- A control whose names are readable, whose header is not too long and whose content does not contain the delimiter. -/
structure ControlOk (b : Bytes) (c : Control) : Prop where
  name : Readable c.name
  file : ∀ f, c.file = some f → Readable f.1 ∧ (10 : UInt8) ∉ f.2
  size : (c.part.head b).length ≤ 8193
  delim : ¬ delimiter b <:+: c.content

namespace FilesEnd

theorem escape_free (x : UInt8) (hx : x ∉ b!"%22%0D%0A") : ∀ {v : Bytes}, (x ∉ v ∨ x = 10) → x ∉ mpEscape v := by
  intro v
  induction v with
  | nil => intro _ h; cases h
  | cons c v ih =>
    intro hv h
    unfold mpEscape at h
    rw [List.flatMap_cons, List.mem_append] at h
    rcases h with h | h
    · split at h
      · exact hx (by simp only [List.mem_cons, List.not_mem_nil, or_false] at h ⊢; rcases h with h | h | h <;> simp [h])
      · split at h
        · exact hx (by simp only [List.mem_cons, List.not_mem_nil, or_false] at h ⊢; rcases h with h | h | h <;> simp [h])
        · split at h
          · exact hx (by simp only [List.mem_cons, List.not_mem_nil, or_false] at h ⊢; rcases h with h | h | h <;> simp [h])
          · next h10 =>
            simp only [List.mem_cons, List.not_mem_nil, or_false] at h
            subst h
            rcases hv with hv | hv
            · exact hv (by simp)
            · exact h10 hv
    · refine ih (hv.imp (fun a b => a (by simp [b])) id) h

theorem count_zero {x : UInt8} {s : Bytes} (h : x ∉ s) : count1 x s = 0 := by
  unfold count1
  rw [List.countP_eq_zero]
  intro a ha
  simp only [beq_iff_eq]
  rintro rfl
  exact h ha

theorem count_append (x : UInt8) (s t : Bytes) : count1 x (s ++ t) = count1 x s + count1 x t := by
  unfold count1; exact List.countP_append

theorem part_ok {b : Bytes} {c : Control} (h : ControlOk b c) : c.part.Ok b := by
  have hlf : (10 : UInt8) ∉ dispositionText c.params := by
    unfold dispositionText Control.params
    cases hf : c.file with
    | none =>
      simp only [List.flatMap_cons, List.flatMap_nil, List.append_nil, List.mem_append, not_or]
      exact ⟨by decide, ⟨⟨⟨by decide, by decide⟩, by decide⟩, escape_free 10 (by decide) (.inr rfl)⟩, by decide⟩
    | some f =>
      simp only [List.flatMap_cons, List.flatMap_nil, List.append_nil, List.mem_append, not_or]
      exact ⟨by decide, ⟨⟨⟨⟨by decide, by decide⟩, by decide⟩, escape_free 10 (by decide) (.inr rfl)⟩, by decide⟩,
        ⟨⟨⟨by decide, by decide⟩, by decide⟩, escape_free 10 (by decide) (.inr rfl)⟩, by decide⟩
  have hcount : count1 38 (dispositionText c.params) + count1 59 (dispositionText c.params) < 100 := by
    have e1 := count_zero (escape_free 38 (by decide) (.inl h.name.1.1.1))
    have e2 := count_zero (escape_free 59 (by decide) (.inl h.name.1.1.2.1))
    unfold dispositionText Control.params
    cases hf : c.file with
    | none =>
      simp only [List.flatMap_cons, List.flatMap_nil, List.append_nil, count_append, e1, e2]
      decide
    | some f =>
      have e3 := count_zero (escape_free 38 (by decide) (.inl (h.file f hf).1.1.1.1))
      have e4 := count_zero (escape_free 59 (by decide) (.inl (h.file f hf).1.1.1.2.1))
      simp only [List.flatMap_cons, List.flatMap_nil, List.append_nil, count_append, e1, e2, e3, e4]
      decide
  have hd : c.part.field b!"content-disposition" = some (dispositionText c.params) := by
    unfold Part.field Control.part
    cases c.file with
    | none => rw [show (List.filter _ _ : List Field) = [⟨b!"Content-Disposition", true, dispositionText c.params⟩] from by
        simp only [List.filter_cons, List.filter_nil]; rw [if_pos (by rw [decide_eq_true_eq]; decide)]]
    | some f => rw [show (List.filter _ _ : List Field) = [⟨b!"Content-Disposition", true, dispositionText c.params⟩] from by
        simp only [List.filter_cons, List.filter_nil]; rw [if_pos (by rw [decide_eq_true_eq]; decide), if_neg (by rw [decide_eq_true_eq]; decide)]]
  have hl : c.part.field b!"content-length" = none := by
    unfold Part.field Control.part
    cases c.file with
    | none => rw [show (List.filter _ _ : List Field) = [] from by
        simp only [List.filter_cons, List.filter_nil]; rw [if_neg (by rw [decide_eq_true_eq]; decide)]]
    | some f => rw [show (List.filter _ _ : List Field) = [] from by
        simp only [List.filter_cons, List.filter_nil]; rw [if_neg (by rw [decide_eq_true_eq]; decide), if_neg (by rw [decide_eq_true_eq]; decide)]]
  refine ⟨?_, ?_, h.size, ?_, ?_, ?_, fun _ => h.delim⟩
  · intro f hf
    unfold Control.part at hf
    cases hc : c.file with
    | none =>
      rw [hc] at hf
      simp only [List.mem_cons, List.not_mem_nil, or_false] at hf
      subst hf
      exact ⟨(by dsimp only; decide), (by dsimp only; decide), (by dsimp only; decide), (by dsimp only; decide), hlf, fun h => by cases h⟩
    | some g =>
      rw [hc] at hf
      simp only [List.mem_cons, List.not_mem_nil, or_false] at hf
      rcases hf with rfl | rfl
      · exact ⟨(by dsimp only; decide), (by dsimp only; decide), (by dsimp only; decide), (by dsimp only; decide), hlf, fun h => by cases h⟩
      · exact ⟨(by dsimp only; decide), (by dsimp only; decide), (by dsimp only; decide), (by dsimp only; decide), (h.file g hc).2, fun h => by cases h⟩
  · unfold Control.part
    cases c.file <;> simp
  · intro k hk
    unfold Control.part
    simp only [List.mem_cons, List.not_mem_nil, or_false] at hk
    cases c.file with
    | none =>
      refine Nat.le_trans (List.length_filter_le _ _) ?_
      simp
    | some f =>
      simp only [List.filter_cons, List.filter_nil]
      rcases hk with rfl | rfl | rfl
      · rw [if_pos (by rw [decide_eq_true_eq]; decide), if_neg (by rw [decide_eq_true_eq]; decide)]; simp
      · rw [if_neg (by rw [decide_eq_true_eq]; decide), if_neg (by rw [decide_eq_true_eq]; decide)]; simp
      · rw [if_neg (by rw [decide_eq_true_eq]; decide), if_pos (by rw [decide_eq_true_eq]; decide)]; simp
  · intro v hv
    rw [hd] at hv
    cases hv
    exact hcount
  · intro v hv
    rw [hl] at hv
    cases hv

theorem get_map (f : Str → Val) (k : Str) : ∀ (d : Dict Str Str), Dict.get (d.map (fun kv => (kv.1, f kv.2))) k = (Dict.get d k).map f
  | [] => rfl
  | kv :: d => by
    simp only [List.map_cons, Dict.get]
    split
    · rfl
    · exact get_map f k d

theorem disposition_of {b : Bytes} {c : Control} (_ : ControlOk b c) : c.part.field b!"content-disposition" = some (dispositionText c.params) ∧
    c.part.field b!"content-length" = none ∧ c.part.field b!"content-type" = c.file.map (·.2) := by
  unfold Part.field Control.part
  cases c.file with
  | none =>
    refine ⟨?_, ?_, ?_⟩
    · rw [show (List.filter _ _ : List Field) = [⟨b!"Content-Disposition", true, dispositionText c.params⟩] from by
        simp only [List.filter_cons, List.filter_nil]; rw [if_pos (by rw [decide_eq_true_eq]; decide)]]
    · rw [show (List.filter _ _ : List Field) = [] from by
        simp only [List.filter_cons, List.filter_nil]; rw [if_neg (by rw [decide_eq_true_eq]; decide)]]
    · rw [show (List.filter _ _ : List Field) = [] from by
        simp only [List.filter_cons, List.filter_nil]; rw [if_neg (by rw [decide_eq_true_eq]; decide)]]
      rfl
  | some f =>
    refine ⟨?_, ?_, ?_⟩
    · rw [show (List.filter _ _ : List Field) = [⟨b!"Content-Disposition", true, dispositionText c.params⟩] from by
        simp only [List.filter_cons, List.filter_nil]; rw [if_pos (by rw [decide_eq_true_eq]; decide), if_neg (by rw [decide_eq_true_eq]; decide)]]
    · rw [show (List.filter _ _ : List Field) = [] from by
        simp only [List.filter_cons, List.filter_nil]; rw [if_neg (by rw [decide_eq_true_eq]; decide), if_neg (by rw [decide_eq_true_eq]; decide)]]
    · rw [show (List.filter _ _ : List Field) = [⟨b!"Content-Type", true, f.2⟩] from by
        simp only [List.filter_cons, List.filter_nil]; rw [if_neg (by rw [decide_eq_true_eq]; decide), if_pos (by rw [decide_eq_true_eq]; decide)]]
      rfl

theorem info_says {b : Bytes} {c : Control} (h : ControlOk b c) :
    ∃ d, infoDict (info c.part) = some d ∧ ∀ k : Bytes, Dict.get d (latin1 k) = (c.says k).map (fun v => Val.text (latin1 v)) := by
  obtain ⟨e1, e2, e3⟩ := disposition_of h
  have kn : mpPlain b!"name" ∧ (61 : UInt8) ∉ b!"name" := ⟨⟨⟨by decide, by decide, by decide, by decide⟩, by decide⟩, by decide⟩
  have kf : mpPlain b!"filename" ∧ (61 : UInt8) ∉ b!"filename" := ⟨⟨⟨by decide, by decide, by decide, by decide⟩, by decide⟩, by decide⟩
  obtain ⟨d, hd, hg⟩ := C76_partial (params := c.params) (by unfold Control.params; cases c.file <;> simp) (by
    unfold Control.params
    intro p hp
    cases hc : c.file with
    | none =>
      rw [hc] at hp
      simp only [List.mem_cons, List.not_mem_nil, or_false] at hp
      subst hp
      exact ⟨kn, h.name.1, h.name.2⟩
    | some f =>
      rw [hc] at hp
      simp only [List.mem_cons, List.not_mem_nil, or_false] at hp
      rcases hp with rfl | rfl
      · exact ⟨kn, h.name.1, h.name.2⟩
      · exact ⟨kf, (h.file f hc).1.1, (h.file f hc).1.2⟩)
  unfold infoDict info
  rw [e1, e2, e3]
  dsimp only [Option.map_none]
  rw [hd]
  dsimp only
  have hpar : ∀ k : Bytes, Dict.get (d.map (fun kv => (kv.1, Val.text kv.2))) (latin1 k) =
      ((c.params.filter (fun p => p.1 = k)).getLast?.map (fun p => Val.text (latin1 p.2))) := by
    intro k
    rw [get_map, hg k]
    cases (c.params.filter (fun p => p.1 = k)).getLast? <;> rfl
  refine ⟨_, rfl, fun k => ?_⟩
  cases hc : c.file with
  | none =>
    dsimp only [Option.map_none]
    rw [hpar]
    unfold Control.params Control.says
    rw [hc]
    by_cases hk : k = b!"name"
    · subst hk; simp
    · rw [if_neg hk, List.filter_cons, if_neg (by simpa using fun h => hk h.symm)]; rfl
  | some f =>
    dsimp only [Option.map_some]
    rw [Dict.get_set]
    have ht : "type".toList = latin1 b!"type" := by decide
    rw [ht]
    unfold Control.says
    rw [hc]
    dsimp only
    by_cases hk : k = b!"type"
    · subst hk
      simp
    · rw [if_neg (fun h => hk (Proofs.Params.latin1_inj h.symm)), hpar]
      unfold Control.params
      rw [hc]
      by_cases hk1 : k = b!"name"
      · subst hk1; simp
      · by_cases hk2 : k = b!"filename"
        · subst hk2; simp
        · rw [if_neg hk1, if_neg hk2, if_neg hk]
          simp only [List.filter_cons, List.filter_nil]
          rw [if_neg (by simpa using fun h => hk1 h.symm), if_neg (by simpa using fun h => hk2 h.symm)]
          rfl

end FilesEnd

/-- **C115, what arrives (partial: names in ASCII without `% + & ;` and without quotes at the ends, see C76).** However the body is cut into
pieces, `files()` yields for every control its content unchanged, with a dictionary that has its name, file name and type, and nothing else. -/
theorem C115_browser_partial {b : Bytes} (hb : BoundaryOk b) {cs : List Control} (hok : ∀ c ∈ cs, ControlOk b c) (segs : List Bytes)
    (h : segs.flatten = multipart b (cs.map Control.part)) {limit : Nat} (hl : cs.length ≤ limit) :
    let x := files b limit ⟨⟨segs, .done⟩, [], false⟩
    x.2.1 = .finished ∧
    Each (fun c y => y.2 = c.content ∧ ∃ d, infoDict y.1 = some d ∧ ∀ k : Bytes, Dict.get d (latin1 k) = (c.says k).map (fun v => Val.text (latin1 v)))
      cs x.1 := by
  obtain ⟨h1, h2⟩ := C53_partial hb (ps := cs.map Control.part) (by
    intro p hp
    obtain ⟨c, hc, rfl⟩ := List.mem_map.1 hp
    exact FilesEnd.part_ok (hok c hc)) segs h limit
  refine ⟨h2, ?_⟩
  rw [h1, List.take_of_length_le (by simpa using hl), List.map_map]
  clear h1 h2 h hl
  induction cs with
  | nil => exact .nil
  | cons c cs ih => exact .cons ⟨rfl, FilesEnd.info_says (hok c (by simp))⟩ (ih (fun c hc => hok c (by simp [hc])))

/-- **C115 (the entries `length` and `type`).** Whatever parameters a part has: under `length` and `type` stand its own Content-Length and
Content-Type, if it has them, and not parameters of these names; everything else is from its Content-Disposition. -/
theorem C115_entries {i : Info} {d : Dict Str Val} {ps : Dict Str Str} {v : Bytes} (hv : i.disposition = some v) (hp : Model.Params.disposition v = some ps) (h : infoDict i = some d) (k : Str) :
    (∀ n, k = "length".toList → i.length = some n → Dict.get d k = some (.num n)) ∧ (∀ t, k = "type".toList → i.type = some t → Dict.get d k = some (.text (latin1 t))) ∧
    ((k = "length".toList → i.length = none) → (k = "type".toList → i.type = none) → Dict.get d k = (Dict.get ps k).map Val.text) := by
  unfold infoDict at h
  rw [hv] at h
  dsimp only at h
  rw [hp] at h
  dsimp only at h
  cases h
  have hne : ¬ "type".toList = "length".toList := by decide
  have hg := FilesEnd.get_map Val.text k ps
  refine ⟨fun n hk hl => ?_, fun t hk ht => ?_, fun h1 h2 => ?_⟩
  · subst hk
    rw [hl]
    cases i.type with
    | none => dsimp only; rw [Dict.get_set, if_pos rfl]
    | some t => dsimp only; rw [Dict.get_set, if_neg hne, Dict.get_set, if_pos rfl]
  · subst hk
    rw [ht]
    dsimp only; rw [Dict.get_set, if_pos rfl]
  · rw [← hg]
    cases hl : i.length with
    | none =>
      cases ht : i.type with
      | none => rfl
      | some t => dsimp only; rw [Dict.get_set, if_neg (fun h => by rw [h2 h.symm] at ht; cases ht)]
    | some n =>
      have e1 : ¬ "length".toList = k := fun h => by rw [h1 h.symm] at hl; cases hl
      cases ht : i.type with
      | none => dsimp only; rw [Dict.get_set, if_neg e1]
      | some t => dsimp only; rw [Dict.get_set, if_neg (fun h => by rw [h2 h.symm] at ht; cases ht), Dict.get_set, if_neg e1]

/-- A part that says `length` and `type` twice. -/
example : (infoDict { disposition := some b!"form-data; name=\"a\"; length=\"7\"", length := some 2, type := some b!"text/plain" }).map (fun d => (Dict.get d "length".toList, Dict.get d "type".toList, Dict.get d "name".toList)) =
    some (some (.num 2), some (.text "text/plain".toList), some (.text "a".toList)) := by decide +kernel

/-! ## What it leaves -/

namespace FilesEnd

/-- A call that ends before its limit has the closing line in the buffer. -/
theorem loop_finished (b : Bytes) : ∀ (fuel limit : Nat) (r r' : Reader) (l : Loc) (ys : List (Info × Bytes)),
    loop b fuel limit none r l = (ys, .finished, r') → limit ≤ ys.length ∨ r'.buf = closing b
  | 0, _, _, _, _, _, h => by cases h
  | fuel + 1, limit, r, r', l, ys, h => by
    rw [loop] at h
    split at h
    · next hc =>
      cases h
      rcases hc with hc | hc
      · left; omega
      · right; exact hc
    · split at h
      · next e r1 hp =>
        cases h
        exfalso
        unfold pass at hp
        split at hp
        · next e r1 hf =>
          cases hp
          unfold Model.Files.fetch at hf
          split at hf
          · cases hf
          · split at hf
            · cases hf
            · split at hf <;> cases hf
            · cases hf
        · split at hp
          · unfold bodyPass at hp; dsimp only at hp; split at hp <;> cases hp
          · unfold headPass at hp
            dsimp only at hp
            split at hp
            · split at hp <;> cases hp
            · split at hp
              · split at hp <;> cases hp
              · cases hp
      · exact loop_finished b fuel limit _ r' _ ys h
      · rw [if_neg (by simp)] at h
        dsimp only [Option.map_none] at h
        next i d r1 r2 l2 hp =>
        rcases hx : loop b fuel (limit - 1) none r2 l2 with ⟨ys', e', r3⟩
        rw [hx] at h
        cases h
        rcases loop_finished b fuel (limit - 1) r2 r' l2 ys' hx with h | h
        · left; simp only [List.length_cons]; omega
        · exact .inr h

theorem fetch_eof {r r1 : Reader} {l : Loc} {data : Bytes} (hr : r.eof = true) (h : Model.Files.fetch r l = .ok (data, r1)) : r1.eof = true := by
  rcases fetch_cases h with ⟨_, e⟩ | ⟨_, d, p, e1, e⟩ | ⟨_, e1, _, _, e⟩ <;> cases e
  · exact hr
  · exact hr
  · rfl

/-- The end of the stream has been taken by the end of a pass. -/
def PassEof : Pass → Prop
  | .cont r _ => r.eof = true
  | .yield _ _ r r' _ => r.eof = true ∧ r'.eof = true
  | .stop _ r => r.eof = true

theorem bodyPass_eof (b data : Bytes) {r : Reader} (l : Loc) (h : r.eof = true) : PassEof (bodyPass b data r l) := by
  unfold bodyPass
  dsimp only
  split
  · exact h
  · exact ⟨h, h⟩

theorem headPass_eof (b data : Bytes) {r : Reader} (l : Loc) (h : r.eof = true) : PassEof (headPass b data r l) := by
  unfold headPass
  dsimp only
  split
  · split <;> exact h
  · split
    · split <;> exact h
    · exact h

theorem loop_eof (b : Bytes) : ∀ (fuel limit : Nat) (want : Option Nat) (r : Reader) (l : Loc), r.eof = true → (loop b fuel limit want r l).2.2.eof = true
  | 0, _, _, _, _, h => h
  | fuel + 1, limit, want, r, l, h => by
    have hpass : PassEof (pass b r l) := by
      unfold pass
      cases hf : Model.Files.fetch r l with
      | error x =>
        obtain ⟨e, r1⟩ := x
        unfold Model.Files.fetch at hf
        split at hf
        · cases hf
        · split at hf
          · cases hf
          · split at hf <;> cases hf
            rfl
          · cases hf; exact h
      | ok x =>
        obtain ⟨data, r1⟩ := x
        dsimp only
        split
        · exact bodyPass_eof b data l (fetch_eof h hf)
        · exact headPass_eof b data l (fetch_eof h hf)
    rw [loop]
    split
    · exact h
    · have := hpass
      cases hp : pass b r l with
      | stop e r1 => rw [hp] at this; exact this
      | cont r1 l1 => rw [hp] at this; exact loop_eof b fuel limit want r1 l1 this
      | yield i d r1 r2 l2 =>
        rw [hp] at this
        dsimp only
        split
        · exact this.1
        · exact loop_eof b fuel _ _ r2 l2 this.2

theorem flatten_empty : ∀ {l : List Bytes}, (∀ d ∈ l, d ≠ []) → l.flatten = [] → l = []
  | [], _, _ => rfl
  | d :: l, h, e => by
    rw [List.flatten_cons, List.append_eq_nil_iff] at e
    exact absurd e.1 (h d (by simp))

end FilesEnd

/-- **C115, the end of the body is left (refutation, general).** If the last piece of a form is not longer than the content of its last part
with the closing line behind it, `files()` yields all the parts and returns without having asked for the end of the body: that marker is
still in the queue, alone. Nearly every upload of more than one piece is of this kind. -/
theorem C115_left {b : Bytes} (hb : BoundaryOk b) {ps : List Part} (hok : ∀ p ∈ ps, p.Ok b) (segs : List Bytes) (hne : ∀ d ∈ segs, d ≠ [])
    (h : segs.flatten = multipart b ps) {limit : Nat} (hl : ps.length < limit)
    (hlast : ∀ d p, segs.getLast? = some d → ps.getLast? = some p → d.length ≤ (p.content ++ CRLF ++ closing b).length) :
    ∃ r', files b limit ⟨⟨segs, .done⟩, [], false⟩ = (ps.map yields, .finished, r') ∧ unread r' = [none] := by
  obtain ⟨F, r', hR, hloop, hsuf, heof⟩ := parts_full hb ps hok limit ⟨⟨segs, .done⟩, [], false⟩ {}
    ⟨by simpa using h, rfl, fun h => (by cases h), rfl, rfl, rfl, rfl, fun h => (by cases h)⟩
  have hsegs : segs ≠ [] := by
    rintro rfl
    obtain ⟨w, hw⟩ := multipart_start b ps
    rw [hw] at h; simp at h
  rw [List.take_of_length_le (by omega)] at hloop
  refine ⟨r', files_of rfl hloop (by simp), ?_⟩
  have he := heof ⟨rfl, fun h => absurd h hsegs⟩ (fun _ => .inr rfl) hlast
  have hbuf : r'.buf = closing b := by
    rcases FilesEnd.loop_finished b _ _ _ _ _ _ hloop with h | h
    · simp at h; omega
    · exact h
  have hd := hR.data
  rw [List.drop_of_length_le (by omega), hbuf, multipart] at hd
  have hp : r'.gen.pieces = [] :=
    FilesEnd.flatten_empty (fun d hd => hne d (hsuf.mem hd)) (List.append_cancel_left (hd.trans (List.append_nil _).symm))
  unfold unread
  rw [hp, he]; rfl

/-- **C115, the end of the body is taken** if the whole form comes in one piece. -/
theorem C115_one {b : Bytes} (hb : BoundaryOk b) {ps : List Part} (hps : ps ≠ []) (hok : ∀ p ∈ ps, p.Ok b) {limit : Nat} (hl : ps.length ≤ limit) :
    ∃ r', files b limit ⟨⟨[multipart b ps], .done⟩, [], false⟩ = (ps.map yields, .finished, r') ∧ unread r' = [] := by
  obtain ⟨r', h1, hR⟩ := C53_files hb hok (r := ⟨⟨[multipart b ps], .done⟩, [], false⟩) ⟨by simp, rfl, fun h => (by cases h)⟩ limit
  rw [List.take_of_length_le hl] at h1
  refine ⟨r', h1, ?_⟩
  have he : r'.eof = true := by
    cases ps with
    | nil => exact absurd rfl hps
    | cons p ps =>
      have hlim : 0 < limit := by simp only [List.length_cons] at hl; omega
      obtain ⟨F, r1, l1, hB, hr, _, _, hone⟩ := head_full (X := p.content ++ CRLF ++ multipart b ps) hb (hok p (by simp)) _
        ⟨⟨[multipart b (p :: ps)], .done⟩, [], false⟩ {} (Nat.le_refl _)
        ⟨by simp [multipart], rfl, fun h => (by cases h), rfl, rfl, rfl, rfl, fun h => (by cases h)⟩
      obtain ⟨o1, o2, o3, o4⟩ := hone rfl rfl rfl rfl
      unfold files at h1
      rw [if_neg (by simp [Reader.isEof])] at h1
      have hm := loop_mono b _ (F + 1) limit none _ _ (show (loop b (filesFuel limit ⟨⟨[multipart b (p :: ps)], .done⟩, [], false⟩) limit none
        ⟨⟨[multipart b (p :: ps)], .done⟩, [], false⟩ {}).2.1 ≠ .fuel by rw [h1]; simp)
      rw [h1, show ∀ n, n + (F + 1) = F + (n + 1) by intro n; omega, hr _ _ _ hlim, loop] at hm
      split at hm
      · cases hm
      · have hf : Model.Files.fetch r1 l1 = .ok ([], { r1 with eof := true }) := by
          obtain ⟨⟨pieces, out⟩, buf, eof⟩ := r1
          have := hB.out
          dsimp only at this o1
          subst this o1
          unfold Model.Files.fetch
          rw [o2]
          simp [o3, o4]
        have hp : FilesEnd.PassEof (pass b r1 l1) := by
          unfold pass
          rw [hf]
          dsimp only
          rw [hB.header]
          exact FilesEnd.bodyPass_eof b [] l1 rfl
        cases hq : pass b r1 l1 with
        | stop e r2 => rw [hq] at hm hp; cases hm
        | cont r2 l2 =>
          rw [hq] at hm hp
          dsimp only at hm
          have := FilesEnd.loop_eof b (filesFuel limit ⟨⟨[multipart b (p :: ps)], .done⟩, [], false⟩) limit none r2 l2 hp
          rw [hm] at this
          exact this
        | yield i d r2 r3 l3 =>
          rw [hq] at hm hp
          dsimp only at hm
          rw [if_neg (by simp)] at hm
          have := FilesEnd.loop_eof b (filesFuel limit ⟨⟨[multipart b (p :: ps)], .done⟩, [], false⟩) (limit - 1) (Option.map (· - 1) none) r3 l3 hp.2
          rw [(congrArg Prod.snd hm : _ = (End.finished, r'))] at this
          exact this
  unfold unread
  rw [he, hR.eof he]; rfl

/-! ## What that does to the next request -/

open Model.Conn hiding Item
open Flow (setReq_q0 close_q0)

namespace FilesEnd

/-- `queue[0]` has grown at its end, if at all. -/
def Grows (s s' : St) : Prop := ∃ t, s'.q0 = s.q0 ++ t

theorem Grows.same {s s' : St} (h : s'.q0 = s.q0) : Grows s s' := ⟨[], by rw [h, List.append_nil]⟩
theorem Grows.put (x : Model.Conn.Item) (s : St) : Grows s (put0 x s) := ⟨[x], rfl⟩
theorem Grows.trans {s s' s'' : St} (h : Grows s s') (h' : Grows s' s'') : Grows s s'' := by
  obtain ⟨t, h⟩ := h
  obtain ⟨t', h'⟩ := h'
  exact ⟨t ++ t', by rw [h', h, List.append_assoc]⟩

theorem account_grows (c : Cfg) (n : Nat) (s : St) : Grows s (account c n s) := by
  unfold account
  split
  · exact .same rfl
  · split
    · exact .same rfl
    · split
      · exact .same rfl
      · dsimp only
        split
        · exact (Grows.same rfl).trans (.put _ _)
        · split
          · exact .same rfl
          · exact .same (by unfold put1; dsimp only; exact setReq_q0 _ _ _)

theorem feed_grows (c : Cfg) (bs : Nat) (f : Feed) (s : St) : Grows s (feed c bs f s).1 := by
  unfold feed
  split
  · exact account_grows _ _ _
  · dsimp only
    split
    · exact (Grows.put _ _).trans (.same rfl)
    · exact .put _ _

theorem fed_grows (i k : Nat) (raw : Bytes) (x : St × Option Feed) : Grows x.1 (fed i k raw x) := by
  obtain ⟨s, f⟩ := x
  cases f <;> exact .same rfl

theorem recvFed_grows (i : Nat) (x : St × Option Feed) : Grows x.1 (recvFed i x) := by
  obtain ⟨s, f⟩ := x
  cases f <;> exact .same rfl

theorem head_grows (c : Cfg) (i : Nat) (s : St) : Grows s (headStep c i s) := by
  unfold headStep
  split
  · unfold startHead
    dsimp only
    split
    · exact .same rfl
    · exact .same rfl
    · split <;> exact .same rfl
    · have hn : ∀ r : Model.Head.Req, Grows s (if r.hasBody then newReq r s else put0 (some []) (newReq r s)) := by
        intro r
        split
        · exact .same rfl
        · exact (Grows.same (s' := newReq r s) rfl).trans (.put _ _)
      split
      · exact ((hn _).trans (feed_grows _ _ _ _)).trans (fed_grows _ _ _ _)
      · exact (hn _).trans (fed_grows _ _ _ (_, none))
  · exact (feed_grows _ _ _ _).trans (fed_grows _ _ _ _)
  · exact .same rfl

theorem recv_grows (c : Cfg) (i : Nat) (s : St) : Grows s (recvStep c i s) := by
  unfold recvStep
  split
  · split
    · exact (feed_grows _ _ _ _).trans (recvFed_grows _ _)
    · exact .same rfl
  · exact (feed_grows _ _ _ _).trans (recvFed_grows _ _)
  · exact .same rfl

end FilesEnd

/-- The request at hand has a body. -/
def AtBody (s : St) : Prop := ∀ k r, s.cur = some k → s.reqs[k]? = some r → r.req.hasBody = true

namespace FilesEnd

theorem send_grows (c : Cfg) (s : St) (h : AtBody s) : Grows s (sendStep c s) := by
  unfold sendStep
  split
  · exact .same rfl
  · split
    · exact .same rfl
    · dsimp only
      split
      · split <;> exact .same rfl
      · unfold marker
        dsimp only
        split
        · exact .same (close_q0 _)
        · next k hk =>
          split
          · exact .same rfl
          · next r hr =>
            split
            · unfold handleKeepalive
              dsimp only
              split
              · exact .same (close_q0 _)
              · split
                · exact .same (setReq_q0 _ _ _)
                · split
                  · split
                    · exact .same rfl
                    · exact .same (close_q0 _)
                  · rw [if_pos (h k r hk hr)]
                    exact .same (by unfold reset; dsimp only; exact setReq_q0 _ _ _)
            · exact .same ((close_q0 _).trans (setReq_q0 _ _ _))

end FilesEnd

/-- Whatever happens on a connection, nothing but a read of a handler, or the end of a request without a body, takes anything from `queue[0]`. -/
theorem C115_kept (c : Cfg) (s : St) (e : Ev) (h1 : ∀ k, e ≠ .take k) (h2 : e = .send → AtBody s) : ∃ t, (step c s e).q0 = s.q0 ++ t := by
  cases e with
  | data d =>
    simp only [step]
    split
    · exact FilesEnd.Grows.same (Intake.data_same c d _).1
    · exact FilesEnd.Grows.same rfl
  | eof drop => exact ⟨[none], rfl⟩
  | head i => exact FilesEnd.head_grows c i s
  | recv i => exact FilesEnd.recv_grows c i s
  | send => exact FilesEnd.send_grows c s (h2 rfl)
  | emit k b => exact FilesEnd.Grows.same rfl
  | mark k keep =>
    refine FilesEnd.Grows.same ?_
    simp only [step, closeResponse, put1]
    split
    · rfl
    · exact setReq_q0 _ _ _
  | take k => exact absurd rfl (h1 k)
  | upgrade k => exact FilesEnd.Grows.same (setReq_q0 _ _ _)
  | clear k => exact FilesEnd.Grows.same (setReq_q0 _ _ _)
  | finish k => exact FilesEnd.Grows.same rfl
  | leave k keep =>
    refine FilesEnd.Grows.same ?_
    simp only [step]
    split
    · simp only [closeResponse, put1]
      split
      · rfl
      · exact setReq_q0 _ _ _
    · rfl
  | abort => exact FilesEnd.Grows.same rfl
  | kick => exact FilesEnd.Grows.same rfl

/-- No handler reads, and no request without a body ends. -/
def Unread (c : Cfg) : St → List Ev → Prop
  | _, [] => True
  | s, e :: es => (∀ k, e ≠ .take k) ∧ (e = .send → AtBody s) ∧ Unread c (step c s e) es

namespace FilesEnd

theorem items_mono (c : Cfg) (k : Nat) : ∀ (es : List Ev) (s : St), ∃ t, itemsOf k (run c s es).log = itemsOf k s.log ++ t
  | [], _ => ⟨[], by simp [run]⟩
  | e :: es, s => by
    obtain ⟨t, ht⟩ := items_mono c k es (step c s e)
    have h1 : ∃ u, itemsOf k (step c s e).log = itemsOf k s.log ++ u := by
      by_cases h : ∃ j, e = .take j
      · obtain ⟨j, rfl⟩ := h
        simp only [step]
        split
        · exact ⟨_, Taken.items_take ..⟩
        · exact ⟨[], by simp⟩
      · by_cases h' : ∃ j, e = .finish j
        · obtain ⟨j, rfl⟩ := h'
          exact ⟨[], by simp [step, finish]⟩
        · exact ⟨[], by rw [(Taken.core_step c s e (fun k hk => h ⟨k, hk⟩) (fun k hk => h' ⟨k, hk⟩)).1 k, List.append_nil]⟩
    obtain ⟨u, hu⟩ := h1
    exact ⟨u ++ t, by rw [← List.append_assoc, ← hu]; exact ht⟩

theorem unread_q0 (c : Cfg) : ∀ (es : List Ev) (s : St), Unread c s es → ∃ t, (run c s es).q0 = s.q0 ++ t
  | [], _, _ => ⟨[], by simp [run]⟩
  | e :: es, s, h => by
    obtain ⟨t, ht⟩ := C115_kept c s e h.1 h.2.1
    obtain ⟨u, hu⟩ := unread_q0 c es _ h.2.2
    exact ⟨t ++ u, by rw [← List.append_assoc, ← ht]; exact hu⟩

end FilesEnd

/-- **C115, the next body is lost (refutation, general).** If a handler has left the end of its body in the queue, then, until a request without
a body has ended, the next handler that reads is given that end, whatever body its request has and whenever it reads: its stream is empty
and done. What has been queued since, its own body, is left for others. -/
theorem C115_lost (c : Cfg) {s : St} (hq : s.q0 = [none]) {es : List Ev} (h : Unread c s es) (k : Nat) (hk : itemsOf k (run c s es).log = [])
    (more : List Ev) (cl : Int) (hcl : cl ≤ c.maxBody) :
    rawStream cl c.maxBody (itemsOf k (run c s (es ++ .take k :: more)).log) = ([], .done) ∧
    ∃ own, (run c s es).q0 = none :: own ∧ (run c s (es ++ [.take k])).q0 = own := by
  obtain ⟨own, ho⟩ := FilesEnd.unread_q0 c es s h
  rw [hq] at ho
  have hstep : step c (run c s es) (.take k) = { (run c s es) with q0 := own, log := (run c s es).log ++ [.body k none] } := by
    simp only [step, ho, List.singleton_append]
  refine ⟨?_, own, ho, ?_⟩
  · rw [show run c s (es ++ .take k :: more) = run c (step c (run c s es) (.take k)) more by simp [run]]
    obtain ⟨t, ht⟩ := FilesEnd.items_mono c k more (step c (run c s es) (.take k))
    rw [ht, hstep]
    dsimp only
    rw [Taken.items_take, hk, if_pos rfl]
    unfold rawStream
    rw [if_neg (by omega)]
    rfl
  · rw [show run c s (es ++ [.take k]) = step c (run c s es) (.take k) by simp [run], hstep]

/-! ## One connection -/

/-- A file of 3 bytes, in two pieces. -/
def upForm : List Control := [⟨b!"f", some (b!"a.txt", b!"text/plain"), b!"abc"⟩]
def upBody : Bytes := multipart b!"b" (upForm.map Control.part)
def upSegs : List Bytes := [upBody.take 94, upBody.drop 94]

/-- What the client sends first, in two segments. -/
def upHead : Bytes := b!"POST /up HTTP/1.1\r\nHost: h\r\nContent-Type: multipart/form-data; boundary=b\r\nContent-Length: 105\r\n\r\n"

/-- The upload, its handler, which reads as `files()` does, and the request after it. -/
def upFirst : List Ev := [.data (upHead ++ upBody.take 94), .head 0, .head 0, .data (upBody.drop 94), .recv 0, .recv 0, .take 0, .take 0, .leave 0 true, .send]
def upNext : List Ev := [.data b!"POST /pay HTTP/1.1\r\nHost: h\r\nContent-Length: 5\r\n\r\nhello", .head 1, .head 1]
def upThird : List Ev := [.leave 1 true, .send, .data b!"POST /log HTTP/1.1\r\nHost: h\r\nContent-Length: 3\r\n\r\nabc", .head 2, .head 2, .take 2, .take 2]

example : ∀ c ∈ upForm, ControlOk b!"b" c := by
  intro c hc
  simp only [upForm, List.mem_cons, List.not_mem_nil, or_false] at hc
  subst hc
  refine ⟨⟨⟨⟨by decide, by decide, by decide, by decide⟩, by decide⟩, by decide, by decide⟩, ?_, by decide +kernel, by decide +kernel⟩
  intro f hf
  cases hf
  exact ⟨⟨⟨⟨by decide, by decide, by decide, by decide⟩, by decide⟩, by decide, by decide⟩, by decide⟩

example : upBody = b!"--b\r\nContent-Disposition: form-data; name=\"f\"; filename=\"a.txt\"\r\nContent-Type: text/plain\r\n\r\nabc\r\n--b--\r\n" := by decide +kernel
example : (files b!"b" 1024 ⟨⟨upSegs, .done⟩, [], false⟩).1.map (fun y => (infoDict y.1, y.2)) =
    [(some [("name".toList, .text "f".toList), ("filename".toList, .text "a.txt".toList), ("type".toList, .text "text/plain".toList)], b!"abc")] := by
  decide +kernel
example : (∀ d ∈ upSegs, d ≠ []) ∧ upSegs.flatten = multipart b!"b" (upForm.map Control.part) ∧
    (upBody.drop 94).length ≤ (b!"abc" ++ CRLF ++ closing b!"b").length := by decide +kernel

/-- **C115 refuted.** An upload of two segments: `files()` takes them and leaves the end of the body (`C115_left`). The handler of the next
request, whose body is `hello`, reads an empty one; the handler of the third, whose body is `abc`, reads `hel`. -/
theorem C115_refuted_next :
    (files b!"b" 1024 ⟨⟨upSegs, .done⟩, [], false⟩).2.1 = .finished ∧ unread (files b!"b" 1024 ⟨⟨upSegs, .done⟩, [], false⟩).2.2 = [none] ∧
    itemsOf 0 (run {} {} upFirst).log = upSegs.map some ∧ (run {} {} upFirst).q0 = [none] ∧
    (run {} {} (upFirst ++ upNext)).running = [1] ∧
    rawStream 5 2097152 (itemsOf 1 (run {} {} (upFirst ++ upNext ++ [.take 1])).log) = ([], .done) ∧
    rawStream 3 2097152 (itemsOf 2 (run {} {} (upFirst ++ upNext ++ [.take 1] ++ upThird)).log) = ([b!"hel"], .done) := by
  decide +kernel

/-- The hypothesis of `C115_lost` on that connection. -/
example : Unread {} (run {} {} upFirst) upNext ∧ itemsOf 1 (run {} {} (upFirst ++ upNext)).log = [] :=
  ⟨⟨fun k h => (by cases h), fun h => (by cases h), fun k h => (by cases h), fun h => (by cases h), fun k h => (by cases h), fun h => (by cases h), trivial⟩,
    by decide +kernel⟩

end Verif
