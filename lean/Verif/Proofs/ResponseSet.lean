import Verif.Proofs.ResponseWf
/-!
# What the table holds after calls that only change the head
-/
namespace Verif.Proofs.Response
open Verif.Py Verif.Py.Dict Verif.Model.Upload Verif.Model.Response Verif.Spec.Response

def curType (h : Dict Bytes (List Bytes)) (ctype : List Bytes) : Bytes :=
  match Dict.get h kCT with
  | some (v :: _) => v.drop 13
  | some [] => []
  | none => ctype.head?.getD htmlType

abbrev reserved : List Bytes := [kLine, kCT, kDate, b!"server"]

structure TableIs (c : Cfg) (b : Bool) (calls : List Call) (h : Dict Bytes (List Bytes)) (status : List (Int × Bytes)) (ctype : List Bytes) : Prop where
  nodup : (h.map (·.1)).Nodup
  lineOk : Dict.get h kLine = if b then some [b!"HTTP/" ++ c.version, fmtInt (lastStatus calls).1, (lastStatus calls).2] else none
  status : b = false → status.head?.getD (200, b!"OK") = lastStatus calls
  type : lstrip (curType h ctype) = lstrip (lastType calls)
  single : ∀ l, Dict.get h kCT = some l → l.length = 1
  lines : ∀ k, k ∉ reserved → (Dict.get h k).getD [] = linesFor k calls

/-- What stays the same. -/
structure Same (s0 s : St) : Prop where
  log : s.log = s0.log
  keepalive : s.keepalive = s0.keepalive
  upgraded : s.upgraded = s0.upgraded
  chunked : s.chunked = s0.chunked
  cont : s.cont = s0.cont
  aborted : s.aborted = s0.aborted

theorem Same.refl (s : St) : Same s s := ⟨rfl, rfl, rfl, rfl, rfl, rfl⟩

/-- `g`: the table is strict; `b`: it holds the status line. -/
structure Inv (c : Cfg) (g : Bool) (s0 : St) (b : Bool) (calls : List Call) (s : St) : Prop where
  wf : Wf g s
  same : Same s0 s
  ex : ∃ h, s.headers = some h ∧ TableIs c b calls h s.status s.ctype

theorem lastStatus_snoc (l : List Call) (x : Call) : lastStatus (l ++ [x]) =
    (match x with | .setStatus st m => if (10 : UInt8) ∈ m then lastStatus l else (st, m) | _ => lastStatus l) := by
  cases x <;> simp [lastStatus]
theorem lastType_snoc (l : List Call) (x : Call) : lastType (l ++ [x]) =
    (match x with
      | .setContentType ct => if (10 : UInt8) ∈ ct then lastType l else ct
      | .setHeader n v => if (10 : UInt8) ∉ n ∧ (10 : UInt8) ∉ v ∧ lower n = b!"content-type" then v else lastType l
      | _ => lastType l) := by
  cases x <;> simp [lastType]
theorem linesFor_snoc (k : Bytes) (l : List Call) (x : Call) : linesFor k (l ++ [x]) =
    (match x with
      | .setHeader n v => if (10 : UInt8) ∉ n ∧ (10 : UInt8) ∉ v ∧ lower n = k then [n ++ b!": " ++ v] else linesFor k l
      | .appendHeader n v => if lower n = k then linesFor k l ++ [n ++ b!": " ++ v] else linesFor k l
      | .setCookie v => if (10 : UInt8) ∉ v ∧ b!"set-cookie" = k then linesFor k l ++ [b!"Set-Cookie: " ++ v] else linesFor k l
      | _ => linesFor k l) := by
  cases x <;> simp [linesFor]

theorem nodup_set {h : Dict Bytes (List Bytes)} (hn : (h.map (·.1)).Nodup) (k v) : ((Dict.set h k v).map (·.1)).Nodup := by
  rw [keys_set]
  split
  · exact hn
  · next hm =>
    refine List.nodup_append.2 ⟨hn, by simp, ?_⟩
    intro a ha b hb
    simp at hb; subst hb
    rintro rfl
    obtain ⟨p, hp, e⟩ := List.mem_map.1 ha
    exact hm ((mem_iff h a).2 ⟨p.2, by rw [← e]; exact hp⟩)

theorem lower_length (n : Bytes) : (lower n).length = n.length := by simp [lower]

/-- A content-type header line read back. -/
theorem line_drop {n v : Bytes} (h : lower n = kCT) : lstrip ((line n v).drop 13) = lstrip v := by
  have hl : n.length = 12 := by rw [← lower_length, h]; rfl
  have : (line n v).drop 13 = 32 :: v := by
    unfold line
    rw [List.append_assoc, List.drop_append, List.drop_eq_nil_of_le (by omega), hl]
    rfl
  rw [this]; rfl

/-- Setting a header other than `_line`. -/
theorem TableIs.setH {c b calls h st ct n v} (t : TableIs c b calls h st ct) (h1 : (10 : UInt8) ∉ n) (h2 : (10 : UInt8) ∉ v) (hl : lower n ≠ kLine) :
    TableIs c b (calls ++ [.setHeader n v]) (Dict.set h (lower n) [line n v]) st ct := by
  refine ⟨nodup_set t.nodup _ _, ?_, ?_, ?_, ?_, ?_⟩
  · rw [get_set, if_neg hl, t.lineOk, lastStatus_snoc]
  · intro hb; rw [t.status hb, lastStatus_snoc]
  · rw [lastType_snoc]
    by_cases e : lower n = kCT
    · simp only [curType, get_set, e, if_pos, h1, h2, not_false_eq_true, and_self]
      exact line_drop e
    · simp only [curType, get_set, e, if_false, and_false]
      exact t.type
  · intro l hl'
    rw [get_set] at hl'
    split at hl'
    · cases hl'; rfl
    · exact t.single l hl'
  · intro k hk
    rw [get_set, linesFor_snoc]
    by_cases e : lower n = k
    · simp [e, h1, h2, line]
    · simp [e, t.lines k hk]

theorem TableIs.base {c b calls h st ct k v} (t : TableIs c b calls h st ct) (hk : k = kDate ∨ k = b!"server") :
    TableIs c b calls (Dict.set h k v) st ct := by
  have n1 : k ≠ kLine := by rcases hk with rfl | rfl <;> decide
  have n2 : k ≠ kCT := by rcases hk with rfl | rfl <;> decide
  refine ⟨nodup_set t.nodup _ _, ?_, t.status, ?_, ?_, ?_⟩
  · rw [get_set, if_neg n1, t.lineOk]
  · simp only [curType, get_set, n2, if_false]; exact t.type
  · intro l hl
    rw [get_set, if_neg n2] at hl
    exact t.single l hl
  · intro k' hk'
    have : k ≠ k' := by rintro rfl; rcases hk with rfl | rfl <;> exact hk' (by decide)
    rw [get_set, if_neg this]; exact t.lines k' hk'

theorem TableIs.appendH {c b calls h st ct n v} (t : TableIs c b calls h st ct) (hl : lower n ≠ kLine) (hc : lower n ≠ kCT) :
    TableIs c b (calls ++ [.appendHeader n v]) (Dict.set h (lower n) ((Dict.get h (lower n)).getD [] ++ [line n v])) st ct := by
  refine ⟨nodup_set t.nodup _ _, ?_, ?_, ?_, ?_, ?_⟩
  · rw [get_set, if_neg hl, t.lineOk, lastStatus_snoc]
  · intro hb; rw [t.status hb, lastStatus_snoc]
  · rw [lastType_snoc]
    simp only [curType, get_set, hc, if_false]; exact t.type
  · intro l hl'
    rw [get_set, if_neg hc] at hl'
    exact t.single l hl'
  · intro k hk
    rw [get_set, linesFor_snoc]
    by_cases e : lower n = k
    · subst e; simp [line, t.lines _ hk]
    · simp [e, t.lines k hk]

/-- A call that changes nothing the lists speak about. -/
theorem TableIs.skip {c b calls h st ct call} (t : TableIs c b calls h st ct) (h1 : lastStatus (calls ++ [call]) = lastStatus calls)
    (h2 : lastType (calls ++ [call]) = lastType calls) (h3 : ∀ k, k ∉ reserved → linesFor k (calls ++ [call]) = linesFor k calls) :
    TableIs c b (calls ++ [call]) h st ct :=
  ⟨t.nodup, by rw [h1]; exact t.lineOk, by rw [h1]; exact t.status, by rw [h2]; exact t.type, t.single, fun k hk => by rw [h3 k hk]; exact t.lines k hk⟩

theorem Inv.skip {c g s0 b calls s call} (i : Inv c g s0 b calls s) (h1 : lastStatus (calls ++ [call]) = lastStatus calls)
    (h2 : lastType (calls ++ [call]) = lastType calls) (h3 : ∀ k, k ∉ reserved → linesFor k (calls ++ [call]) = linesFor k calls) :
    Inv c g s0 b (calls ++ [call]) s :=
  let ⟨h, e, t⟩ := i.ex
  ⟨i.wf, i.same, h, e, t.skip h1 h2 h3⟩

theorem Inv.weaken {c g s0 b calls s} (i : Inv c true s0 b calls s) : Inv c g s0 b calls s := ⟨i.wf.weaken, i.same, i.ex⟩

/-- `set_base_header`. -/
theorem inv_base {c : Cfg} (hc : CfgOk c) {g s0 b calls} {s : St} (i : Inv c g s0 b calls s) :
    (setBaseHeader c s).1 = .ok () ∧ Inv c true s0 b calls (setBaseHeader c s).2 := by
  have w := tri_setBaseHeader hc s i.wf
  obtain ⟨h, e, t⟩ := i.ex
  by_cases he : h = []
  · subst he
    have e' : setBaseHeader c s = (.ok (), { s with headers := some (Dict.set (Dict.set [] (lower b!"Date") [line b!"Date" c.date]) (lower b!"Server") [line b!"Server" c.server]) }) := by
      unfold setBaseHeader
      rw [bind_ok (get_run s), if_neg (by simp [e]), bind_ok (setHeader_ok (by decide) hc.date e), setHeader_ok (by decide) hc.server rfl]
    rw [e'] at w ⊢
    refine ⟨rfl, w, ⟨i.same.log, i.same.keepalive, i.same.upgraded, i.same.chunked, i.same.cont, i.same.aborted⟩, _, rfl, ?_⟩
    exact (t.base (.inl (by decide))).base (.inr (by decide))
  · have e' : setBaseHeader c s = (.ok (), s) := by
      unfold setBaseHeader
      rw [bind_ok (get_run s), if_pos (.inr (by rw [e]; simpa using he))]; rfl
    rw [e'] at w ⊢
    exact ⟨rfl, w, i.same, h, e, t⟩

theorem inv_fresh {c : Cfg} {s : St} (hs : Fresh s) : Inv c false s false [] s := by
  refine ⟨⟨fun h e => ?_, by simp [hs.status], by simp [hs.ctype], by simp [hs.log]⟩, Same.refl s, [], hs.headers, ?_⟩
  · rw [hs.headers] at e; cases e; exact ⟨by simp, by simp, .inl ⟨rfl, rfl⟩⟩
  · refine ⟨by simp, rfl, fun _ => by rw [hs.status]; rfl, by rw [hs.ctype]; rfl, by simp [Dict.get], fun k _ => rfl⟩

/-- One call. -/
theorem inv_call {c : Cfg} (hc : CfgOk c) {g s0 b calls} (call : Call) (hf : Call.Fine call) (hg : g = true ∨ Call.NoHeader call) {s : St} (i : Inv c g s0 b calls s) :
    Inv c g s0 b (calls ++ [call]) (call.run c s).2 := by
  obtain ⟨h, e, t⟩ := i.ex
  have hcl : Call.Clean call := by
    cases call with
    | appendHeader n v => exact ⟨hf.1, hf.2.2.2.1, hf.2.1, hf.2.2.1⟩
    | setHeader n v => exact hf
    | _ => trivial
  have kw : Wf g (call.run c s).2 := by
    have hk : Keep g (call.run c) (fun _ => True) := by
      rcases hg with rfl | hg
      · exact keep_call hc call hcl
      · cases g
        · exact keep_call' hc call hg
        · exact keep_call hc call hcl
    have := hk s i.wf
    generalize call.run c s = x at this ⊢
    obtain ⟨x, s'⟩ := x
    cases x with
    | ok a => exact this.1
    | error e => exact this
  have put : ∀ h', (call.run c s).2 = { s with headers := some h' } → TableIs c b (calls ++ [call]) h' s.status s.ctype →
      Inv c g s0 b (calls ++ [call]) (call.run c s).2 := by
    intro h' e' t'
    refine ⟨kw, ?_, h', by rw [e'], by rw [e']; exact t'⟩
    rw [e']; exact ⟨i.same.log, i.same.keepalive, i.same.upgraded, i.same.chunked, i.same.cont, i.same.aborted⟩
  cases call with
  | appendHeader n v =>
    refine put (Dict.set h (lower n) ((Dict.get h (lower n)).getD [] ++ [line n v])) ?_ (t.appendH hf.2.2.2.1 hf.2.2.2.2)
    show (appendHeader n v s).2 = _
    unfold appendHeader; rw [bind_ok (headers_some e)]; rfl
  | setHeader n v =>
    by_cases hl : (10 : UInt8) ∈ n ∨ (10 : UInt8) ∈ v
    · have : Call.run c (.setHeader n v) s = (.error ise, s) := by
        show setHeader n v s = _
        unfold setHeader; rw [if_pos hl]; rfl
      rw [this]
      have hno : ∀ (x : Prop), ¬ ((10 : UInt8) ∉ n ∧ (10 : UInt8) ∉ v ∧ x) := fun x hx => hl.elim hx.1 hx.2.1
      exact i.skip (by rw [lastStatus_snoc]) (by rw [lastType_snoc]; simp only [hno, if_false]) (fun k _ => by rw [linesFor_snoc]; simp only [hno, if_false])
    · have h1 : (10 : UInt8) ∉ n := fun x => hl (.inl x)
      have h2 : (10 : UInt8) ∉ v := fun x => hl (.inr x)
      refine put (Dict.set h (lower n) [line n v]) ?_ (t.setH h1 h2 hf.2)
      show (setHeader n v s).2 = _
      rw [setHeader_ok h1 h2 e]
  | setCookie v =>
    by_cases hl : (10 : UInt8) ∈ v
    · have : Call.run c (.setCookie v) s = (.error ise, s) := by
        show setCookie v s = _
        unfold setCookie; rw [if_pos hl]; rfl
      rw [this]
      exact i.skip (by rw [lastStatus_snoc]) (by rw [lastType_snoc]) (fun k _ => by rw [linesFor_snoc]; simp [hl])
    · have t' := t.appendH (n := b!"Set-Cookie") (v := v) (by decide) (by decide)
      refine put (Dict.set h (lower b!"Set-Cookie") ((Dict.get h (lower b!"Set-Cookie")).getD [] ++ [line b!"Set-Cookie" v])) ?_
        ⟨t'.nodup, by have := t'.lineOk; rw [lastStatus_snoc] at this ⊢; exact this, by have := t'.status; rw [lastStatus_snoc] at this ⊢; exact this,
         by have := t'.type; rw [lastType_snoc] at this ⊢; exact this, t'.single, fun k hk => ?_⟩
      · show (setCookie v s).2 = _
        unfold setCookie; rw [if_neg hl]; unfold appendHeader; rw [bind_ok (headers_some e)]; rfl
      · have := t'.lines k hk
        rw [linesFor_snoc] at this ⊢
        rw [this]
        simp only [hl, not_false_eq_true, true_and]
        have e1 : lower b!"Set-Cookie" = b!"set-cookie" := by decide
        rw [e1]
        split <;> rfl
  | setBaseHeader =>
    have base : Inv c g s0 b calls (setBaseHeader c s).2 → Inv c g s0 b (calls ++ [.setBaseHeader]) (Call.run c .setBaseHeader s).2 := fun i' =>
      i'.skip (by rw [lastStatus_snoc]) (by rw [lastType_snoc]) (fun k _ => by rw [linesFor_snoc])
    apply base
    exact (inv_base hc i).2.weaken
  | setStatus st m =>
    by_cases hm : (10 : UInt8) ∈ m
    · have : Call.run c (.setStatus st m) s = (.error ise, s) := by
        show setStatus st m s = _
        unfold setStatus; rw [if_pos hm]; rfl
      rw [this]
      exact i.skip (by rw [lastStatus_snoc]; simp [hm]) (by rw [lastType_snoc]) (fun k _ => by rw [linesFor_snoc])
    · have hst : lastStatus (calls ++ [.setStatus st m]) = (st, m) := by rw [lastStatus_snoc]; simp [hm]
      cases b with
      | true =>
        have hl := t.lineOk
        rw [if_pos rfl] at hl
        refine put (Dict.set h kLine [b!"HTTP/" ++ c.version, fmtInt st, m]) ?_ ⟨nodup_set t.nodup _ _, ?_, fun h => (by cases h), ?_, ?_, ?_⟩
        · show (setStatus st m s).2 = _
          unfold setStatus; rw [if_neg hm, bind_ok (headers_some e)]; simp only [hl]; rfl
        · rw [get_set, if_pos rfl, hst, if_pos rfl]
        · rw [lastType_snoc]; simp only [curType, get_set, show kLine ≠ kCT by decide, if_false]; exact t.type
        · intro l hl'; rw [get_set, if_neg (by decide)] at hl'; exact t.single l hl'
        · intro k hk
          have : kLine ≠ k := by rintro rfl; exact hk (by decide)
          rw [get_set, if_neg this, linesFor_snoc]; exact t.lines k hk
      | false =>
        have hl := t.lineOk
        rw [if_neg (by decide)] at hl
        have er : Call.run c (.setStatus st m) s = (.ok (), { s with status := (st, m) :: s.status }) := by
          show setStatus st m s = _
          unfold setStatus; rw [if_neg hm, bind_ok (headers_some e)]; simp only [hl]; rfl
        rw [er] at kw ⊢
        refine ⟨kw, ⟨i.same.log, i.same.keepalive, i.same.upgraded, i.same.chunked, i.same.cont, i.same.aborted⟩, h, e,
          ⟨t.nodup, by rw [hl]; rfl, fun _ => by rw [hst]; rfl, by rw [lastType_snoc]; exact t.type, t.single,
           fun k hk => by rw [linesFor_snoc]; exact t.lines k hk⟩⟩
  | setContentType ct =>
    by_cases hm : (10 : UInt8) ∈ ct
    · have : Call.run c (.setContentType ct) s = (.error ise, s) := by
        show setContentType ct s = _
        unfold setContentType; rw [if_pos hm]; rfl
      rw [this]
      exact i.skip (by rw [lastStatus_snoc]) (by rw [lastType_snoc]; simp [hm]) (fun k _ => by rw [linesFor_snoc])
    · have hct : lastType (calls ++ [.setContentType ct]) = ct := by rw [lastType_snoc]; simp [hm]
      rcases hl : Dict.get h kCT with _ | l
      · have er : Call.run c (.setContentType ct) s = (.ok (), { s with ctype := ct :: s.ctype }) := by
          show setContentType ct s = _
          unfold setContentType; rw [if_neg hm, bind_ok (headers_some e)]; simp only [hl]; rfl
        rw [er] at kw ⊢
        refine ⟨kw, ⟨i.same.log, i.same.keepalive, i.same.upgraded, i.same.chunked, i.same.cont, i.same.aborted⟩, h, e,
          ⟨t.nodup, by rw [lastStatus_snoc]; exact t.lineOk, by rw [lastStatus_snoc]; exact t.status, by rw [hct]; simp [curType, hl], t.single,
           fun k hk => by rw [linesFor_snoc]; exact t.lines k hk⟩⟩
      · refine put (Dict.set h kCT [line b!"Content-Type" ct]) ?_ ⟨nodup_set t.nodup _ _, ?_, ?_, ?_, ?_, ?_⟩
        · show (setContentType ct s).2 = _
          unfold setContentType; rw [if_neg hm, bind_ok (headers_some e)]; simp only [hl]; rfl
        · rw [get_set, if_neg (by decide), lastStatus_snoc]; exact t.lineOk
        · rw [lastStatus_snoc]; exact t.status
        · rw [hct]; simp only [curType, get_set, if_true]; exact line_drop (by decide)
        · intro l hl'; rw [get_set, if_pos rfl] at hl'; cases hl'; rfl
        · intro k hk
          have : kCT ≠ k := by rintro rfl; exact hk (by decide)
          rw [get_set, if_neg this, linesFor_snoc]; exact t.lines k hk
  | getStatus => cases hf
  | getContentType => cases hf
  | write d ch o => cases hf
  | end_ d k o => cases hf
  | close k => cases hf
  | stream => cases hf

theorem inv_script {c : Cfg} (hc : CfgOk c) {s0 b} : ∀ (sc : Script), Script.Fine sc → ∀ {calls},
    Tri (Inv c true s0 b calls) (runScript c sc) (fun _ s => Inv c true s0 b (calls ++ callsOf sc) s) (fun _ => True)
  | [], _, calls => fun s i => by simpa [callsOf, runScript, Post] using i
  | (call, g) :: rest, h, calls => by
    intro s i
    have i' := inv_call hc call (h (call, g) (by simp)) (.inl rfl) i
    have ih := inv_script hc rest (fun p hp => h p (by simp [hp])) (s0 := s0) (b := b) (calls := calls ++ [call])
    have ec : calls ++ callsOf ((call, g) :: rest) = calls ++ [call] ++ callsOf rest := by simp [callsOf]
    unfold runScript
    rw [ec]
    generalize call.run c s = x at i' ⊢
    obtain ⟨x, s'⟩ := x
    cases x with
    | ok a => exact ih s' i'
    | error e =>
      dsimp only
      cases g with
      | true => exact ih s' i'
      | false => trivial

end Verif.Proofs.Response
