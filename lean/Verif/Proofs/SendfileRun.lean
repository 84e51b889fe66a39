import Verif.Proofs.Sendfile
/-!
# Running the calls that `sendfile` makes
-/
namespace Verif.Proofs.Sendfile
open Verif.Py Verif.Model.Response Verif.Model.Sendfile Verif.Spec.Response Verif.Proofs.Response

theorem runScript_ok {c : Cfg} {x : Call} {g : Bool} {rest : Script} {s s' : St} (h : x.run c s = (.ok (), s')) :
    runScript c ((x, g) :: rest) s = runScript c rest s' := by
  show (match x.run c s with
    | (.ok _, s') => runScript c rest s'
    | (.error e, s') => if g then runScript c rest s' else (.error e, s')) = _
  rw [h]

theorem runScript_append {c : Cfg} : ∀ {a b : Script} {s s' : St}, runScript c a s = (.ok (), s') → runScript c (a ++ b) s = runScript c b s'
  | [], b, s, s', h => by cases h; rfl
  | (x, g) :: a, b, s, s', h => by
    rw [List.cons_append]
    change (match x.run c s with
      | (.ok _, s') => runScript c a s'
      | (.error e, s') => if g then runScript c a s' else (.error e, s')) = _ at h
    show (match x.run c s with
      | (.ok _, s') => runScript c (a ++ b) s'
      | (.error e, s') => if g then runScript c (a ++ b) s' else (.error e, s')) = _
    rcases hx : x.run c s with ⟨_ | _, s2⟩ <;> rw [hx] at h
    · dsimp only at h ⊢
      split at h
      · next hg => rw [if_pos hg]; exact runScript_append h
      · cases h
    · exact runScript_append h

/-- Calls that set something and are not refused. -/
def Sets : Call → Prop
  | .setHeader n v => (10 : UInt8) ∉ n ∧ (10 : UInt8) ∉ v ∧ (58 : UInt8) ∉ n ∧ lower n ≠ b!"_line"
  | .setStatus _ m => (10 : UInt8) ∉ m
  | .setContentType ct => (10 : UInt8) ∉ ct
  | _ => False

theorem sets_fine {x : Call} (h : Sets x) : Call.Fine x := by
  cases x <;> first | exact h.elim | trivial | exact ⟨h.2.2.1, h.2.2.2⟩

theorem sets_one {c : Cfg} (hc : CfgOk c) {s0 calls s} (i : Inv c true s0 false calls s) {x : Call} (h : Sets x) :
    ∃ s', x.run c s = (.ok (), s') ∧ Inv c true s0 false (calls ++ [x]) s' := by
  have i' := inv_call hc x (sets_fine h) (.inl rfl) i
  obtain ⟨hd, e, t⟩ := i.ex
  have key : ∀ s', x.run c s = (.ok (), s') → ∃ s', x.run c s = (.ok (), s') ∧ Inv c true s0 false (calls ++ [x]) s' := by
    intro s' hs'
    rw [hs'] at i'
    exact ⟨s', hs', i'⟩
  cases x with
  | setHeader n v => exact key _ (setHeader_ok h.1 h.2.1 e)
  | setStatus st m =>
    have hl := t.lineOk
    rw [if_neg (by decide)] at hl
    refine key { s with status := (st, m) :: s.status } ?_
    show setStatus st m s = _
    unfold setStatus; rw [if_neg h, bind_ok (headers_some e)]; simp only [hl]; rfl
  | setContentType ct =>
    rcases hl : Dict.get hd kCT with _ | l
    · refine key { s with ctype := ct :: s.ctype } ?_
      show setContentType ct s = _
      unfold setContentType; rw [if_neg h, bind_ok (headers_some e)]; simp only [hl]; rfl
    · refine key { s with headers := some (Dict.set hd kCT [line b!"Content-Type" ct]) } ?_
      show setContentType ct s = _
      unfold setContentType; rw [if_neg h, bind_ok (headers_some e)]; simp only [hl]; rfl
  | _ => exact h.elim

theorem sets_all {c : Cfg} (hc : CfgOk c) {s0} : ∀ (l : List Call) {calls s}, Inv c true s0 false calls s → (∀ x ∈ l, Sets x) →
    ∃ s', runScript c (l.map call) s = (.ok (), s') ∧ Inv c true s0 false (calls ++ l) s'
  | [], calls, s, i, _ => ⟨s, rfl, by simpa using i⟩
  | x :: l, calls, s, i, h => by
    obtain ⟨s1, r1, i1⟩ := sets_one hc i (h x (by simp))
    obtain ⟨s2, r2, i2⟩ := sets_all hc l i1 (fun y hy => h y (by simp [hy]))
    refine ⟨s2, ?_, by simpa using i2⟩
    rw [List.map_cons, call, runScript_ok r1, r2]

/-- Writes on a response whose head is out, followed by `close(keepalive=True)`. -/
theorem writes_sent {c : Cfg} (ch : Option Bool) (o : SendOpts) : ∀ (ds : List Bytes) {s : St}, s.headers = none → s.upgraded = false →
    runScript c (ds.map (fun d => call (.write (some d) ch o)) ++ [call (.close true)]) s =
      (.ok (), { s with log := s.log ++ ds.map (fun d => .body (framed s.chunked d) o) ++ [.mark s.keepalive] })
  | [], s, _, _ => by simp only [List.map_nil, List.nil_append, List.append_nil]; rfl
  | d :: ds, s, hh, hu => by
    have h1 : (Call.write (some d) ch o).run c s = (.ok (), { s with log := s.log ++ [.body (framed s.chunked d) o] }) := by
      show write c (some d) ch o s = _
      rw [write_sent hh, writeBody_some, hu]; simp
    rw [List.map_cons, List.cons_append, call, runScript_ok h1, writes_sent ch o ds (by exact hh) (by exact hu)]
    simp

/-- The first write sends the head. -/
theorem sends {c : Cfg} (hc : CfgOk c) {s0 calls s} (hup : s0.upgraded = false) (i : Inv c true s0 false calls s) (ch : Option Bool) (o : SendOpts)
    (ho : o.marks = true) (hb : bodyless c (lastStatus calls).1 = false) (d : Bytes) (ds : List Bytes) :
    ∃ s' t rest, runScript c ((d :: ds).map (fun d => call (.write (some d) ch o)) ++ [call (.close true)]) s = (.ok (), s') ∧
      SentLines c (genCalls c { chunked := ch } calls s0.keepalive) true t rest ∧
      s'.log = s0.log ++ .head t [] { throttle := false } :: (d :: ds).map (fun d => .body (framed (wantsChunked c { chunked := ch } (lastStatus calls).1) d) o) ++
        [.mark (genKeep c { chunked := ch } calls s0.keepalive)] := by
  obtain ⟨t, rest, s2, run, sl, hl, hk, hh, hch, hu⟩ := write_spec hc (some d) ch o hup i (fun _ => ho)
  have nb : noBody (lastStatus calls).1 = false := by
    unfold bodyless at hb; simp only [Bool.or_eq_false_iff] at hb; exact hb.2
  rw [hb] at run
  simp only [Bool.false_eq_true, if_false] at run
  rw [writeBody_some] at run
  have hk : s2.keepalive = genKeep c { chunked := ch } calls s0.keepalive := by rw [hk, writeKeep, hb]; simp
  rw [nb] at sl
  have h2 := writes_sent (c := c) ch o ds (s := { s2 with log := s2.log ++ [.body (framed (s2.chunked && !s2.upgraded) d) o] }) (by exact hh) (by exact hu nb)
  have run : (Call.write (some d) ch o).run c s = _ := run
  rw [← runScript_ok (g := false) run] at h2
  refine ⟨_, t, rest, h2, sl, ?_⟩
  simp only [hl, hk, hch, hu nb]
  simp

end Verif.Proofs.Sendfile
