import Verif.Proofs.ResponseServe
/-!
# Requests and error responses as a whole
-/
namespace Verif.Proofs.Response
open Verif.Py Verif.Py.Dict Verif.Model.Upload Verif.Model.Response Verif.Spec.Response

/-- A script of head calls, also when it raises half-way. -/
theorem inv_script_err {c : Cfg} (hc : CfgOk c) {g s0 b} : ∀ (sc : Script), Script.Fine sc → (∀ p ∈ sc, Call.NoHeader p.1) → ∀ {calls},
    Tri (Inv c g s0 b calls) (runScript c sc) (fun _ s => Inv c g s0 b (calls ++ callsOf sc) s)
      (fun s => ∃ pre, pre <+: callsOf sc ∧ Inv c g s0 b (calls ++ pre) s)
  | [], _, _, calls => fun s i => by simpa [callsOf, runScript, Post] using i
  | (call, gd) :: rest, h, hn, calls => by
    intro s i
    have i' := inv_call hc call (h (call, gd) (by simp)) (.inr (hn (call, gd) (by simp))) i
    have ih := inv_script_err hc rest (fun p hp => h p (by simp [hp])) (fun p hp => hn p (by simp [hp])) (g := g) (s0 := s0) (b := b) (calls := calls ++ [call])
    have ec : calls ++ callsOf ((call, gd) :: rest) = calls ++ [call] ++ callsOf rest := by simp [callsOf]
    have lift : ∀ s, (∃ pre, pre <+: callsOf rest ∧ Inv c g s0 b (calls ++ [call] ++ pre) s) →
        ∃ pre, pre <+: callsOf ((call, gd) :: rest) ∧ Inv c g s0 b (calls ++ pre) s := by
      rintro s ⟨pre, ⟨t, ht⟩, i⟩
      exact ⟨call :: pre, ⟨t, by simp [callsOf] at ht ⊢; exact ht⟩, by simpa using i⟩
    have run : ∀ s', Inv c g s0 b (calls ++ [call]) s' → Post (fun _ s => Inv c g s0 b (calls ++ callsOf ((call, gd) :: rest)) s)
        (fun s => ∃ pre, pre <+: callsOf ((call, gd) :: rest) ∧ Inv c g s0 b (calls ++ pre) s) (runScript c rest s') := by
      intro s' hs'
      have := ih s' hs'
      rw [ec]
      generalize runScript c rest s' = x at this ⊢
      obtain ⟨x, s''⟩ := x
      cases x with
      | ok a => exact this
      | error e => exact lift _ this
    unfold runScript
    generalize call.run c s = x at i' ⊢
    obtain ⟨x, s'⟩ := x
    cases x with
    | ok a => exact run s' i'
    | error e =>
      dsimp only
      cases gd with
      | true => exact run s' i'
      | false => exact ⟨[call], ⟨callsOf rest, by simp [callsOf]⟩, i'⟩

/-- The calls of `handle_exception` itself. -/
abbrev errCalls (e : Int × Bytes × Bytes) : List Call := [.setStatus e.1 e.2.1, .setContentType e.2.2]

theorem errorResponse_spec {c : Cfg} (hc : CfgOk c) {eh : ErrHandler} (hf : Script.Fine eh.script) (hn : ∀ p ∈ eh.script, Call.NoHeader p.1)
    {e : Int × Bytes × Bytes} (hm : (10 : UInt8) ∉ e.2.1) (ht : (10 : UInt8) ∉ e.2.2) {s : St} (w : Wf false s) (hs : s.headers ≠ none) :
    ∃ pre d, pre <+: callsOf eh.script ∧ Ended c (errCalls e ++ pre) d false { throttle := false } s.log (errorResponse c eh e s).2 := by
  have hsent : headersSent s = false := by
    cases h : s.headers with
    | none => exact absurd h hs
    | some _ => simp [headersSent, h]
  let s2 : St := { s with headers := some [], status := (e.1, e.2.1) :: s.status, ctype := e.2.2 :: s.ctype }
  have run : errorResponse c eh e s = finally_ (errPage c eh) (fun d => end_ c (d.getD []) false) s2 := by
    unfold errorResponse
    rw [bind_ok (get_run s), if_neg (by simp [hsent]), bind_ok (putHeaders_run _ _)]
    have h1 : setStatus e.1 e.2.1 { s with headers := some [] } = (.ok (), { s with headers := some [], status := (e.1, e.2.1) :: s.status }) := by
      unfold setStatus; rw [if_neg hm, bind_ok (headers_some rfl)]; rfl
    have h2 : setContentType e.2.2 { s with headers := some [], status := (e.1, e.2.1) :: s.status } = (.ok (), s2) := by
      unfold setContentType; rw [if_neg ht, bind_ok (headers_some rfl)]; rfl
    rw [bind_ok h1, bind_ok h2]
  have i2 : Inv c false s2 false (errCalls e) s2 := by
    refine ⟨⟨fun h e => (by cases e; exact ⟨by simp, by simp, .inl ⟨rfl, rfl⟩⟩), ?_, ?_, w.log⟩, Same.refl _, [], rfl, ?_⟩
    · intro p hp
      rcases List.mem_cons.1 hp with rfl | hp
      · exact hm
      · exact w.status p hp
    · intro p hp
      rcases List.mem_cons.1 hp with rfl | hp
      · exact ht
      · exact w.ctype p hp
    · refine ⟨by simp, rfl, fun _ => ?_, ?_, by simp [Dict.get], fun k _ => ?_⟩
      · show (e.1, e.2.1) = _
        simp [lastStatus, hm]
      · show lstrip e.2.2 = _
        simp [lastType, ht]
      · simp [linesFor, Dict.get]
  have hp : Post (fun _ s => ∃ pre, pre <+: callsOf eh.script ∧ Inv c false s2 false (errCalls e ++ pre) s)
      (fun s => ∃ pre, pre <+: callsOf eh.script ∧ Inv c false s2 false (errCalls e ++ pre) s) (errPage c eh s2) := by
    unfold errPage
    have := inv_script_err hc eh.script hf hn s2 i2
    rw [bind_run]
    generalize runScript c eh.script s2 = x at this ⊢
    obtain ⟨x, s'⟩ := x
    cases x with
    | error e => exact this
    | ok a =>
      dsimp only
      rcases eh.ret with e | (_ | d)
      · exact ⟨_, List.prefix_refl _, this⟩
      · exact ⟨_, List.prefix_refl _, this⟩
      · exact ⟨_, List.prefix_refl _, this⟩
  rw [run]
  unfold finally_
  generalize errPage c eh s2 = x at hp ⊢
  obtain ⟨x, s'⟩ := x
  cases x with
  | ok d =>
    obtain ⟨pre, h1, h2⟩ := hp
    obtain ⟨s'', r, en, _⟩ := end_spec hc h2 d false { throttle := false }
    refine ⟨pre, d, h1, ?_⟩
    show Ended _ _ _ _ _ _ (end_ c d false _ s').2
    rw [r]
    exact en
  | error e =>
    obtain ⟨pre, h1, h2⟩ := hp
    obtain ⟨s'', r, en, _⟩ := end_spec hc h2 [] false { throttle := false }
    refine ⟨pre, [], h1, ?_⟩
    dsimp only
    rw [show ((none : Option Bytes).getD []) = [] from rfl, r]
    exact en

theorem wf_fresh {s : St} (hs : Fresh s) : Wf false s := (inv_fresh (c := {}) hs).wf

theorem serve_wf {c : Cfg} (hc : CfgOk c) {a : App} (ha : App.Clean a) : Tri (Wf false) (serve c a) (fun _ s => Wf false s) (Wf false) :=
  Tri.bind (tri_requestLoop hc ha.qms) (fun _ => Tri.pre (Tri.ite
    (Tri.post (up_handleResponse hc _ ha.rms ha.handler) (fun _ _ h => h.weaken) (fun _ h => h)) (Tri.pure _ (fun _ h => h))) (fun _ h => h.1))

/-- What the request middlewares leave when they all let the request through. -/
theorem serve_spec {c : Cfg} (hc : CfgOk c) {a : App} (hq : ∀ m ∈ a.qms, Script.Fine m.script) {s : St} (hs : Fresh s) {Q : St → Prop}
    (h : Tri (fun s' => Inv c false s false (mwCalls a.qms) s') (handleResponse c a.opt a.rms a.handler) (fun _ s' => Q s') (fun _ => True)) {s'}
    (hr : serve c a s = (.ok (), s')) :
    ((∀ m ∈ a.qms, m.ret = .none) ∧ Q s') ∨ MwEnded c s [] a.qms s' ∨ (MwOdd a.qms ∧ s'.log = []) := by
  have hl := loop_spec hc (stable_true c) a.qms hq (g := false) (calls := []) s ⟨inv_fresh hs, trivial⟩
  unfold serve at hr
  rw [requestLoop_eq, bind_run] at hr
  generalize responseLoop c a.qms s = x at hl hr
  obtain ⟨x, s1⟩ := x
  cases x with
  | error e => cases hr
  | ok go =>
    cases go with
    | false =>
      cases hr
      rcases hl with h | h
      · exact .inr (.inl h)
      · exact .inr (.inr (by rw [hs.log] at h; exact h))
    | true =>
      obtain ⟨i1, _, hn⟩ := hl
      have := h s1 (by simpa using i1)
      dsimp only at hr
      rw [if_pos rfl] at hr
      rw [hr] at this
      exact .inl ⟨hn, this⟩

end Verif.Proofs.Response
