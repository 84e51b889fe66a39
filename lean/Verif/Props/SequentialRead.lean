import Verif.Props.SequentialChunked
/-!
# C112: what the handlers of a kept connection read

C93, C107 and C110 say which bytes the handlers of a connection take out of its queue. Here these items are put through `stream()`
(http_request.py:136-250): every handler that reads to the end is given the content of its own request, and the end.
-/
namespace Verif
open Verif.Py Verif.Model.Conn Conn Flow Reply Pipe
open Verif.Spec.HttpParser (ReqHead valuesOf)
open Verif.Spec.Body
open Verif.Model.BodyStream (chunkStream rawStream rawLoop recvPieces Out)
open Serial

/-- The items that the handler of request `k` took, in order; `none` is the end of the body. -/
def itemsOf (k : Nat) (l : List Act) : List Item := l.filterMap (fun | .body j x => if j = k then some x else none | .head _ _ => none)

namespace Taken

/-- What the handlers did, and which ones run. -/
def core (s : St) : List Act × List Nat := (s.log, s.running)

theorem core_setReq (k : Nat) (f : Rq → Rq) (s : St) : core (setReq k f s) = core s := by unfold setReq; split <;> rfl
theorem core_close (s : St) : core (close s) = core s := by unfold close; split <;> rfl
theorem core_put1 (x : Item) (s : St) : core (put1 x s) = core s := rfl

theorem core_account (c : Cfg) (n : Nat) (s : St) : core (account c n s) = core s := by
  unfold account
  split
  · rfl
  · split
    · rfl
    · split
      · rfl
      · dsimp only
        split
        · rfl
        · split
          · rfl
          · rw [core_put1]
            exact core_setReq ..

theorem core_feed (c : Cfg) (bs : Nat) (f : Feed) (s : St) : core (feed c bs f s).1 = core s := by
  unfold feed
  dsimp only
  split
  · exact core_account ..
  · split <;> rfl

theorem core_data (c : Cfg) (d : Bytes) (s : St) : core (dataReceived c d s) = core s := by
  unfold dataReceived
  split <;> rfl

theorem core_drain (c : Cfg) : ∀ (l : List Item) (s : St), core (drain c l s) = core s
  | [], _ => rfl
  | _ :: l, _ => (core_drain c l _).trans (core_data ..)

theorem core_keep (c : Cfg) (k : Nat) (r : Rq) (s : St) : core (handleKeepalive c k r s) = core s := by
  unfold handleKeepalive
  dsimp only
  split
  · exact core_close _
  · split
    · exact core_setReq ..
    · split
      · split
        · rfl
        · exact core_close _
      · split
        · exact core_setReq ..
        · exact (core_drain _ _ _).trans (core_setReq ..)

theorem core_send (c : Cfg) (s : St) : core (sendStep c s) = core s := by
  unfold sendStep
  split
  · rfl
  · split
    · rfl
    · dsimp only
      split
      · split <;> rfl
      · unfold marker
        split
        · exact core_close _
        · split
          · rfl
          · split
            · exact core_keep ..
            · exact (core_close _).trans (core_setReq ..)

theorem core_recv (c : Cfg) (i : Nat) (s : St) : core (recvStep c i s) = core s := by
  have h : ∀ x : St × Option Feed, core (recvFed i x) = core x.1 := by rintro ⟨s, _ | f⟩ <;> rfl
  unfold recvStep
  split
  · split
    · rw [h, core_feed]
    · rfl
  · rw [h, core_feed]
  · rfl

theorem core_response (k : Nat) (keep : Bool) (s : St) : core (closeResponse k keep s) = core s := by
  unfold closeResponse
  split
  · rfl
  · rw [core_put1]; exact core_setReq ..

/-- A head starts one handler at most, which runs then. -/
theorem core_head (c : Cfg) (i : Nat) (s : St) : core (headStep c i s) = core s ∨ ∃ k raw, core (headStep c i s) = (s.log ++ [.head k raw], s.running ++ [k]) := by
  have hf : ∀ k raw (x : St × Option Feed), core x.1 = core s → core (fed i k raw x) = core s ∨ ∃ k' raw', core (fed i k raw x) = (s.log ++ [.head k' raw'], s.running ++ [k']) := by
    rintro k raw ⟨t, _ | f⟩ h
    · have h1 : t.log = s.log := congrArg Prod.fst h
      have h2 : t.running = s.running := congrArg Prod.snd h
      exact .inr ⟨k, raw, by simp [core, fed, begin, h1, h2]⟩
    · exact .inl h
  unfold headStep
  split
  · unfold startHead
    dsimp only
    split
    · exact .inl rfl
    · exact .inl rfl
    · exact .inl (by split <;> rfl)
    · split
      · refine hf _ _ _ ?_
        rw [core_feed]; split <;> rfl
      · refine hf _ _ _ ?_
        split <;> rfl
  · exact hf _ _ _ (core_feed ..)
  · exact .inl rfl

/-- Nothing is taken; handlers that start run, and stop only by `leave`. -/
theorem core_step (c : Cfg) (s : St) (e : Ev) (h : ∀ k, e ≠ .take k) (h' : ∀ k, e ≠ .finish k) :
    (∀ j, itemsOf j (step c s e).log = itemsOf j s.log) ∧ (∀ k ∈ s.running, (∀ keep, e ≠ .leave k keep) → k ∈ (step c s e).running) ∧
    ∀ k raw, Act.head k raw ∈ (step c s e).log → Act.head k raw ∈ s.log ∨ k ∈ (step c s e).running := by
  have same : core (step c s e) = core s → (∀ j, itemsOf j (step c s e).log = itemsOf j s.log) ∧ (∀ k ∈ s.running, (∀ keep, e ≠ .leave k keep) → k ∈ (step c s e).running) ∧
      ∀ k raw, Act.head k raw ∈ (step c s e).log → Act.head k raw ∈ s.log ∨ k ∈ (step c s e).running := by
    intro hc
    have h1 : (step c s e).log = s.log := congrArg Prod.fst hc
    have h2 : (step c s e).running = s.running := congrArg Prod.snd hc
    rw [h1, h2]
    exact ⟨fun _ => rfl, fun _ hk _ => hk, fun _ _ hk => .inl hk⟩
  cases e with
  | take k => exact absurd rfl (h k)
  | finish k => exact absurd rfl (h' k)
  | data d => refine same ?_; simp only [step]; split
              · rw [core_data]; rfl
              · rfl
  | head i =>
    rcases core_head c i s with hc | ⟨k, raw, hc⟩
    · exact same hc
    · have h1 : (step c s (.head i)).log = s.log ++ [.head k raw] := congrArg Prod.fst hc
      have h2 : (step c s (.head i)).running = s.running ++ [k] := congrArg Prod.snd hc
      rw [h1, h2]
      refine ⟨fun j => by simp [itemsOf], fun k hk _ => List.mem_append_left _ hk, fun k' raw' hk => ?_⟩
      rcases List.mem_append.1 hk with hk | hk
      · exact .inl hk
      · simp only [List.mem_singleton, Act.head.injEq] at hk
        exact .inr (by simp [hk.1])
  | recv i => exact same (core_recv c i s)
  | send => exact same (core_send c s)
  | upgrade k => exact same (core_setReq ..)
  | clear k => exact same (core_setReq ..)
  | mark k keep => exact same (core_response ..)
  | leave k keep =>
    simp only [step]
    split
    · have hc := core_response k keep (finish k s)
      have h1 : (closeResponse k keep (finish k s)).log = s.log := congrArg Prod.fst hc
      have h2 : (closeResponse k keep (finish k s)).running = (finish k s).running := congrArg Prod.snd hc
      rw [h1, h2]
      refine ⟨fun _ => rfl, fun j hj hne => ?_, fun _ _ hk => .inl hk⟩
      have : j ≠ k := fun hjk => hne keep (by rw [hjk])
      simp only [finish, List.mem_filter, decide_eq_true_eq]
      exact ⟨hj, by simpa using this⟩
    · exact ⟨fun _ => rfl, fun _ hk _ => hk, fun _ _ hk => .inl hk⟩
  | eof _ | emit _ _ | abort | kick => exact same rfl

theorem items_take (j k : Nat) (x : Item) (l : List Act) : itemsOf j (l ++ [.body k x]) = itemsOf j l ++ if k = j then [x] else [] := by
  unfold itemsOf
  rw [List.filterMap_append]
  congr 1
  by_cases h : k = j <;> simp [h]

theorem bodyOf_items (k : Nat) (l : List Act) : bodyOf k l = ((itemsOf k l).map (·.getD [])).flatten := by
  unfold bodyOf itemsOf
  rw [List.map_filterMap]
  congr 2
  funext a
  cases a with
  | head => rfl
  | body j x => by_cases h : j = k <;> simp [h]

theorem none_items (k : Nat) (l : List Act) : none ∈ itemsOf k l ↔ Act.body k none ∈ l := by
  unfold itemsOf
  rw [List.mem_filterMap]
  constructor
  · rintro ⟨a, ha, h⟩
    cases a with
    | head => cases h
    | body j x =>
      by_cases hj : j = k
      · simp [hj] at h; rw [← hj, ← h]; exact ha
      · simp [hj] at h
  · intro h
    exact ⟨_, h, by simp⟩

/-- The end comes last, and only if the length of the body was given; then a handler that is done has got it. -/
structure Inv (rs : List (ReqHead × Bytes)) (s : St) : Prop where
  ends : ∀ k, ∃ (ps : List Bytes) (tail : List Item), itemsOf k s.log = ps.map some ++ tail ∧ (tail = [] ∨ tail = [none])
  sized : ∀ (k : Nat) q b, rs[k]? = some (q, b) → valuesOf q.pairs b!"content-length" = [] → none ∉ itemsOf k s.log
  done : ∀ (k : Nat) q b raw, rs[k]? = some (q, b) → Act.head k raw ∈ s.log → k ∉ s.running → valuesOf q.pairs b!"content-length" ≠ [] → none ∈ itemsOf k s.log

theorem inv_init (rs : List (ReqHead × Bytes)) : Inv rs {} := ⟨fun _ => ⟨[], [], rfl, .inl rfl⟩, fun _ _ _ _ _ h => (by cases h), fun _ _ _ _ _ h => (by cases h)⟩

theorem none_ends {ps : List Bytes} {tail l : List Item} (h : l = ps.map some ++ tail) (ht : tail = [] ∨ tail = [none]) (hn : none ∉ l) : l = ps.map some := by
  rcases ht with rfl | rfl
  · simpa using h
  · exact absurd (by rw [h]; simp) hn

/-- The head that a request came with decides whether its length is known. -/
theorem known_sized {s : St} {k : Nat} {q : ReqHead} (hw : q.Wf 100 8190) (h : Known s k (q.wire [])) {rq : Rq} (hr : s.reqs[k]? = some rq) :
    Sized rq ↔ valuesOf q.pairs b!"content-length" ≠ [] := by
  obtain ⟨data, n, r, hf, h2, hr', ha, hi⟩ := h
  have hlen := minimal_len hf
  have hl := congrArg List.length hr'
  rw [List.length_take, Nat.min_eq_left (by omega)] at hl
  simp [ReqHead.wire, CRLF] at hl
  have hd : data = q.wire (data.drop (n + 2)) := by
    conv => lhs; rw [← List.take_append_drop (n + 2) data, ← hr']
    simp [ReqHead.wire]
  rw [hd, ← hl] at ha
  rw [hr, Option.map_some, Option.some.injEq] at hi
  have hh : rq.req.headers = r.headers := congrArg (fun x => x.2.2.2) hi
  obtain ⟨r1, _, hi1, _, hh1, _⟩ := accept_iff ha
  unfold Sized Model.HttpParser.hmem
  rw [hh, hh1, (initReq_some hi1).1, hget_wire hw _ b!"content-length" (by decide) (by decide)]
  cases valuesOf q.pairs b!"content-length" with
  | nil => simp [Verif.Proofs.Head.dictVal]
  | cons v l => cases l <;> simp [Verif.Proofs.Head.dictVal]

theorem inv_step {c : Cfg} {rs : List (ReqHead × Bytes)} (hrs : ∀ x ∈ rs, Serial.Mixed c x) {s : St} {e : Ev} (hp : Serial.Phase c rs s) {es : List Ev} (hj : J es s) (h : Taken.Inv rs s) (hf : fair rs s e) :
    Taken.Inv rs (step c s e) := by
  have known : ∀ (k : Nat) q b raw, rs[k]? = some (q, b) → Act.head k raw ∈ s.log → ∀ {rq : Rq}, s.reqs[k]? = some rq → (Sized rq ↔ valuesOf q.pairs b!"content-length" ≠ []) := by
    intro k q b raw hq hl rq hr
    obtain ⟨m, n, hb, _⟩ := hp.base
    have hst : (k, raw) ∈ s.started := by
      unfold St.started
      exact List.mem_filterMap.2 ⟨_, hl, rfl⟩
    have hk := hj.known k raw (.inl hst)
    rw [hb.started] at hst
    obtain ⟨k', hk', e'⟩ := List.mem_map.1 hst
    simp only [Prod.mk.injEq] at e'
    obtain ⟨rfl, rfl⟩ := e'
    rw [show headAt rs k' = q.wire [] by simp [headAt, hq]] at hk
    exact known_sized (hrs _ (List.mem_of_getElem? hq)).wf hk hr
  by_cases he : ∃ k, e = .take k
  · obtain ⟨k, rfl⟩ := he
    cases hq : s.q0 with
    | nil =>
      have : step c s (.take k) = s := by simp [step, hq]
      rw [this]; exact h
    | cons x Q =>
      have hs : step c s (.take k) = { s with q0 := Q, log := s.log ++ [.body k x] } := by simp [step, hq]
      rw [hs]
      have hk : k ∈ s.running := hf
      cases hp with
      | handling m q b b1 rq hh =>
        obtain rfl : k = m := by rw [hh.running] at hk; simpa using hk
        have hst : (k, q.wire []) ∈ s.started := by
          rw [hh.base.started]
          exact List.mem_map.2 ⟨k, by simp, by simp [headAt, hh.at_]⟩
        have hsz := known_sized (hrs _ (List.mem_of_getElem? hh.at_)).wf (hj.known k _ (.inl hst)) hh.req
        -- nothing was taken after the end, and the end is taken only if the length is given
        have key : none ∉ itemsOf k s.log ∧ (x = none → valuesOf q.pairs b!"content-length" ≠ []) := by
          rw [none_items]
          cases hh.sub with
          | bare hb _ _ hq0 _ _ =>
            have hns : ¬ Sized rq := by
              intro hs'
              unfold Sized at hs'
              unfold Model.Head.Req.hasBody at hb
              rw [hs'] at hb; cases hb
            refine ⟨fun hn => ?_, fun hx => ?_⟩
            · have := h.sized k q b hh.at_ (by
                by_cases hc : valuesOf q.pairs b!"content-length" = []
                · exact hc
                · exact absurd (hsz.2 hc) hns)
              exact this ((none_items k s.log).2 hn)
            · have := hq0 x (by rw [hq]; simp)
              rw [hx] at this; cases this
          | wait _ _ _ _ _ hq0 hl _ _ => exact ⟨hl, fun hx => absurd (by rw [hq, hx]; simp) hq0⟩
          | busy _ _ _ _ _ _ _ _ hq0 hl => exact ⟨hl, fun hx => absurd (by rw [hq, hx]; simp) hq0⟩
          | full _ hs' _ _ _ hq0 _ =>
            rcases hq0 with ⟨xs, e1, _, e3⟩ | ⟨e1, _⟩
            · exact ⟨e3, fun _ => hsz.1 hs'⟩
            · rw [hq] at e1; cases e1
        refine ⟨fun j => ?_, fun j q' b' hj' hc => ?_, fun j q' b' raw hj' hl hr hc => ?_⟩
        · obtain ⟨ps, tail, e1, e2⟩ := h.ends j
          dsimp only
          rw [items_take]
          by_cases hkj : k = j
          · subst hkj
            rw [if_pos rfl, none_ends e1 e2 key.1]
            cases x with
            | none => exact ⟨ps, [none], rfl, .inr rfl⟩
            | some d => exact ⟨ps ++ [d], [], by simp, .inl rfl⟩
          · rw [if_neg hkj, List.append_nil]; exact ⟨ps, tail, e1, e2⟩
        · dsimp only
          rw [items_take]
          by_cases hkj : k = j
          · subst hkj
            rw [hh.at_] at hj'; cases hj'
            rw [if_pos rfl]
            intro hn
            rcases List.mem_append.1 hn with hn | hn
            · exact key.1 hn
            · simp only [List.mem_singleton] at hn; exact key.2 hn.symm hc
          · rw [if_neg hkj, List.append_nil]; exact h.sized j q' b' hj' hc
        · dsimp only at hl hr ⊢
          rw [items_take]
          refine List.mem_append_left _ (h.done j q' b' raw hj' ?_ hr hc)
          rcases List.mem_append.1 hl with hl | hl
          · exact hl
          · simp at hl
      | idle m hh => rw [hh.running] at hk; cases hk
      | starting m q b b1 hh => rw [hh.running] at hk; cases hk
      | feeding m q b b1 r f hs' hh => rw [hh.running] at hk; cases hk
      | leaving m q b rq hh => rw [hh.running] at hk; cases hk
  · have hne : ∀ k, e ≠ .take k := fun k hk => he ⟨k, hk⟩
    have hnf : ∀ k, e ≠ .finish k := fun k hk => (by rw [hk] at hf; exact hf)
    obtain ⟨c1, c2, c3⟩ := core_step c s e hne hnf
    refine ⟨fun k => by rw [c1]; exact h.ends k, fun k q b h1 h2 => by rw [c1]; exact h.sized k q b h1 h2, fun k q b raw h1 h2 h3 h4 => ?_⟩
    rw [c1]
    have hl : Act.head k raw ∈ s.log := (c3 k raw h2).resolve_right h3
    by_cases hk : k ∈ s.running
    · have : ∃ keep, e = .leave k keep := by
        refine Classical.byContradiction fun hno => h3 (c2 k hk (fun keep hk' => hno ⟨keep, hk'⟩))
      obtain ⟨keep, rfl⟩ := this
      have hr := (hf hk).2.1
      cases hp with
      | handling m q' b' b1 rq hh =>
        obtain rfl : k = m := by rw [hh.running] at hk; simpa using hk
        have hs' := (known k q b raw h1 hl hh.req).2 h4
        rw [none_items]
        refine hr rq hh.req ?_ hs'
        unfold Model.Head.Req.hasBody
        rw [show Model.HttpParser.hmem rq.req.headers b!"content-length" = true from hs']; rfl
      | idle m hh => rw [hh.running] at hk; cases hk
      | starting m q b b1 hh => rw [hh.running] at hk; cases hk
      | feeding m q b b1 r f hs' hh => rw [hh.running] at hk; cases hk
      | leaving m q b rq hh => rw [hh.running] at hk; cases hk
    · exact h.done k q b raw h1 hl hk h4

theorem fair_snoc {c : Cfg} {rs : List (ReqHead × Bytes)} {e : Ev} : ∀ (es : List Ev) {s : St}, Fair c rs s (es ++ [e]) → Fair c rs s es ∧ fair rs (run c s es) e
  | [], _, h => ⟨trivial, h.1⟩
  | _ :: es, _, h => ⟨⟨h.1, h.2.1, (fair_snoc es h.2.2).1⟩, (fair_snoc es h.2.2).2⟩

theorem inv_run {c : Cfg} {rs : List (ReqHead × Bytes)} (hrs : ∀ x ∈ rs, Serial.Mixed c x) (es : List Ev) (h : Fair c rs {} es) : Taken.Inv rs (run c {} es) := by
  induction es using snocInd with
  | h0 => exact inv_init rs
  | h1 es e ih =>
    obtain ⟨h1, h2⟩ := fair_snoc es h
    obtain ⟨hp, hc, ho⟩ := Serial.phase_run (fun x hx => (hrs x hx).sound) es (Serial.phase_init c rs) h1
    have j := j_run es [] (s := {}) j_init Flow.inv_init rfl hc ho
    have : run c {} (es ++ [e]) = step c (run c {} es) e := by simp [run]
    rw [this]
    exact inv_step hrs hp j (ih h1) h2

end Taken

namespace Taken

/-- A running handler that has got the end of its body has got all of it. -/
theorem whole {c : Cfg} {rs : List (ReqHead × Bytes)} (hrs : ∀ x ∈ rs, Serial.Mixed c x) {es : List Ev} (h : Fair c rs {} es)
    {i : Nat} {q : ReqHead} {b : Bytes} (hi : i < (run c {} es).started.length) (hq : rs[i]? = some (q, b)) (hn : none ∈ itemsOf i (run c {} es).log) :
    bodyOf i (run c {} es).log = b := by
  obtain ⟨_, _, _, hr⟩ := Serial.requests c hrs h
  obtain ⟨r, _, _, _, _, _, h1⟩ := hr i q b hi hq
  by_cases hi' : i ∈ (run c {} es).running
  · obtain ⟨hp, _, _⟩ := Serial.phase_run (fun x hx => (hrs x hx).sound) es (Serial.phase_init c rs) h
    rw [none_items] at hn
    have inv := inv_run hrs es h
    generalize run c {} es = s at *
    cases hp with
    | handling m q' b' b1 rq hh =>
      obtain rfl : i = m := by rw [hh.running] at hi'; simpa using hi'
      have := hh.at_
      rw [hq] at this; cases this
      cases hh.sub with
      | bare hb _ _ _ hl _ => rw [hl, hh.acc.bare hb]
      | wait _ _ _ _ _ _ hl _ _ => exact absurd hn hl
      | busy _ _ _ _ _ _ _ _ _ hl => exact absurd hn hl
      | full _ _ _ _ _ hq0 hby =>
        rcases hq0 with ⟨_, _, _, e3⟩ | ⟨e1, _⟩
        · exact absurd hn e3
        · rw [← hby]; simp [q0b, e1]
    | idle m hh => rw [hh.running] at hi'; cases hi'
    | starting m q b b1 hh => rw [hh.running] at hi'; cases hi'
    | feeding m q b b1 r f hs' hh => rw [hh.running] at hi'; cases hi'
    | leaving m q b rq hh => rw [hh.running] at hi'; cases hi'
  · exact h1 hi'

theorem head_mem {s : St} {i : Nat} {raw : Bytes} (h : s.started[i]? = some (i, raw)) : Act.head i raw ∈ s.log := by
  have := List.mem_of_getElem? h
  unfold St.started at this
  obtain ⟨a, ha, e⟩ := List.mem_filterMap.1 this
  cases a with
  | head k r => simp only [Option.some.injEq, Prod.mk.injEq] at e; obtain ⟨rfl, rfl⟩ := e; exact ha
  | body => cases e

end Taken

/-! ## C112 -/

/-- **C112 (lengths, partial)**: on a connection as in C110, the handler of a request with a Content-Length reads with `stream()`, from
whatever it has taken so far, a beginning of the body of its own request; when the stream ends, that whole body; and the stream of every
handler that is done has ended. -/
theorem C112_length_partial (c : Cfg) {rs : List (ReqHead × Bytes)} (hrs : ∀ x ∈ rs, Serial.Mixed c x) {es : List Ev} (h : Fair c rs {} es)
    {i : Nat} {q : ReqHead} {b v : Bytes} (hi : i < (run c {} es).started.length) (hq : rs[i]? = some (q, b)) (hv : valuesOf q.pairs b!"content-length" = [v]) :
    let r := rawStream (Spec.Head.valueOf v) c.maxBody (itemsOf i (run c {} es).log)
    r.1.flatten <+: b ∧ (r.2 = .done ∨ r.2 = .blocked) ∧ (r.2 = .done → r.1.flatten = b) ∧ (i ∉ (run c {} es).running → r.2 = .done) := by
  obtain ⟨_, _, _, hr⟩ := Serial.requests c hrs h
  obtain ⟨rq, h1, _, _, _, h2, _⟩ := hr i q b hi hq
  have inv := Taken.inv_run hrs es h
  have hw := Taken.whole hrs h hi hq
  have hx := hrs _ (List.mem_of_getElem? hq)
  have hlen : Spec.Head.valueOf v = b.length ∧ b.length ≤ c.maxBody := by
    rcases hx.body with ⟨_, ⟨e, _⟩ | ⟨v', e, _, e2, e3⟩⟩ | ⟨e, _⟩
    · rw [hv] at e; cases e
    · rw [hv] at e; cases e; exact ⟨e2, e3⟩
    · rw [hv] at e; cases e
  obtain ⟨ps, tail, e1, e2⟩ := inv.ends i
  have hb : ps.flatten = bodyOf i (run c {} es).log := by
    rw [Taken.bodyOf_items, e1]
    rcases e2 with rfl | rfl <;> simp [Function.comp_def]
  intro r
  have hr' : r = (rawLoop b.length 0 ps, if tail = [none] then .done else .blocked) := by
    show rawStream _ _ _ = _
    unfold rawStream
    rw [hlen.1, if_neg (by omega), e1, Proofs.BodyStream.recvPieces_map]
    rcases e2 with rfl | rfl <;> simp [recvPieces]
  have hfl : r.1.flatten = bodyOf i (run c {} es).log := by
    rw [hr', Proofs.BodyStream.rawLoop_flatten, hb, List.take_of_length_le]
    exact h2.length_le
  refine ⟨hfl ▸ h2, ?_, fun hd => ?_, fun hni => ?_⟩
  · rw [hr']; dsimp only; split <;> simp
  · rw [hfl]
    refine hw ?_
    rw [hr'] at hd
    dsimp only at hd
    split at hd
    · rename_i ht; rw [e1, ht]; simp
    · cases hd
  · have := inv.done i q b _ hq (Taken.head_mem h1) hni (by rw [hv]; simp)
    rw [hr']
    rcases e2 with rfl | rfl
    · rw [e1] at this; simp at this
    · rfl

/-- **C112 (chunks, partial)**: the handler of a request with the chunks `cs`, when it is done, has taken its body in some segments; `stream()`
makes of them exactly the content of the chunks and then ends, if no segment ends just behind the data of a chunk or in its CRLF.
Otherwise it refuses the body (C09), having yielded a part of the content at most. -/
theorem C112_chunked_partial (c : Cfg) {rs : List (ReqHead × Bytes)} (hrs : ∀ x ∈ rs, Serial.Mixed c x) {es : List Ev} (h : Fair c rs {} es)
    {i : Nat} {q : ReqHead} {bs : Nat} {cs : List Chunk} {size ext rest : Bytes} (hi : i < (run c {} es).started.length) (hni : i ∉ (run c {} es).running)
    (hq : rs[i]? = some (q, encode cs (lastChunk size ext rest))) (hv : Chunked q)
    (h0 : SizeLine size ext 0) (h0l : size.length + ext.length + 1 ≤ 4 * bs) (hcs : ∀ k ∈ cs, k.Wf ∧ k.size.length + k.ext.length + 1 ≤ 4 * bs) :
    let r := chunkStream bs (itemsOf i (run c {} es).log)
    ∃ segs : List Bytes, itemsOf i (run c {} es).log = segs.map some ∧ segs.flatten = encode cs (lastChunk size ext rest) ∧
      (SafeCuts cs (lastChunk size ext rest) segs → r.1.flatten = payload cs ∧ r.2 = .done) ∧
      (¬ SafeCuts cs (lastChunk size ext rest) segs → r.1.flatten <+: payload cs ∧ r.2 = .badRequest) := by
  obtain ⟨_, _, _, hr⟩ := Serial.requests c hrs h
  obtain ⟨rq, h1, _, _, _, _, h2⟩ := hr i _ _ hi hq
  have inv := Taken.inv_run hrs es h
  have hx := hrs _ (List.mem_of_getElem? hq)
  have hcl : valuesOf q.pairs b!"content-length" = [] := by
    rcases hx.body with ⟨e, _⟩ | ⟨e, _⟩
    · exact absurd e hv
    · exact e
  obtain ⟨ps, tail, e1, e2⟩ := inv.ends i
  have e3 := Taken.none_ends e1 e2 (inv.sized i _ _ hq hcl)
  have hb : ps.flatten = encode cs (lastChunk size ext rest) := by
    rw [← h2 hni, Taken.bodyOf_items, e3]
    simp [Function.comp_def]
  intro r
  refine ⟨ps, e3, hb, ?_⟩
  have := C09_exact h0 h0l hcs ps hb [] (.inl rfl)
  rw [List.append_nil, ← e3] at this
  exact this

/-- **C112 (no body, partial)**: the handler of a request without a body takes nothing of any other. But neither does its stream ever end:
`b''` is queued for it, and no end (http_protocol.py:321-324), so a handler that calls `body()` waits for `keepalive_timeout` seconds and
then fails (request.py:30-48). -/
theorem C112_bare_partial (c : Cfg) {rs : List (ReqHead × Bytes)} (hrs : ∀ x ∈ rs, Serial.Mixed c x) {es : List Ev} (h : Fair c rs {} es)
    {i : Nat} {q : ReqHead} {b : Bytes} (hi : i < (run c {} es).started.length) (hq : rs[i]? = some (q, b)) (hl : valuesOf q.pairs b!"content-length" = [])
    (ht : valuesOf q.pairs b!"transfer-encoding" = []) :
    (∀ x ∈ itemsOf i (run c {} es).log, x = some []) ∧ (rawStream (-1) c.maxBody (itemsOf i (run c {} es).log)).1.flatten = [] ∧
      (rawStream (-1) c.maxBody (itemsOf i (run c {} es).log)).2 = .blocked := by
  obtain ⟨_, _, _, hr⟩ := Serial.requests c hrs h
  obtain ⟨rq, h1, _, _, _, h2, _⟩ := hr i _ _ hi hq
  have inv := Taken.inv_run hrs es h
  have hx := hrs _ (List.mem_of_getElem? hq)
  have hb : b = [] := by
    rcases hx.body with ⟨_, ⟨_, e⟩ | ⟨v, e, _⟩⟩ | ⟨_, ⟨t, e⟩, _⟩
    · exact e
    · rw [hl] at e; cases e
    · rw [ht] at e; cases e
  obtain ⟨ps, tail, e1, e2⟩ := inv.ends i
  have e3 := Taken.none_ends e1 e2 (inv.sized i _ _ hq hl)
  rw [hb, List.prefix_nil, Taken.bodyOf_items, e3, List.flatten_eq_nil_iff] at h2
  have hps : ∀ d ∈ ps, d = [] := fun d hd => h2 d (List.mem_map.2 ⟨some d, List.mem_map.2 ⟨d, hd, rfl⟩, rfl⟩)
  have hraw : ∀ (l : List Bytes) n, rawLoop (-1) n l = l := by
    intro l
    induction l with
    | nil => intro n; rfl
    | cons d l ih => intro n; simp [rawLoop, ih]
  have hs : rawStream (-1) c.maxBody (itemsOf i (run c {} es).log) = (ps, .blocked) := by
    have := Proofs.BodyStream.recvPieces_map ps []
    rw [List.append_nil] at this
    unfold rawStream
    rw [if_neg (by omega), e3, this]
    simp [recvPieces, hraw]
  refine ⟨fun x hx => ?_, by rw [hs]; exact List.flatten_eq_nil_iff.2 hps, by rw [hs]⟩
  rw [e3] at hx
  obtain ⟨d, hd, rfl⟩ := List.mem_map.1 hx
  rw [hps d hd]

/-- The connection of C110: the segments `3 CRLF a`, `bc CRLF` and the last chunk are read as `abc`, the body with its length as `xyz`, and
the empty one as nothing. -/
example : (List.range 3).map (fun k => itemsOf k (run {} {} esC).log) =
      [[some b!"3\r\na", some b!"bc\r\n", some b!"0\r\n\r\n"], [some b!"xyz", none], [some b!"0\r\n\r\n"]] ∧
    chunkStream 16384 (itemsOf 0 (run {} {} esC).log) = ([b!"a", b!"bc"], .done) ∧ rawStream 3 2097152 (itemsOf 1 (run {} {} esC).log) = ([b!"xyz"], .done) ∧
    chunkStream 16384 (itemsOf 2 (run {} {} esC).log) = ([], .done) := by decide +kernel

/-- The hypotheses on the chunks, on the first request of that connection. -/
example : rsC[0]? = some (chunky, encode [⟨b!"3", [], b!"abc"⟩] (lastChunk b!"0" [] CRLF)) ∧ Chunked chunky ∧ SizeLine b!"0" [] 0 ∧ (⟨b!"3", [], b!"abc"⟩ : Chunk).Wf := by
  refine ⟨by decide +kernel, by unfold Chunked; decide +kernel, ⟨by decide, ?_, by decide, by decide, .inl rfl⟩, ⟨by decide, ?_, by decide, by decide, .inl rfl⟩, by decide⟩
  all_goals
    intro c hc
    simp only [List.mem_singleton] at hc
    subst hc; unfold isHex; decide

namespace Serial
/-- A chunked body cut behind `abc`, then a request without a body whose handler asks for one. -/
def rsD : List (ReqHead × Bytes) := [(chunky, abc), (get2, [])]
def esD : List Ev :=
  [.data (chunky.wire b!"3\r\nabc"), .head 0, .head 0, .take 0, .data b!"\r\n0\r\n\r\n", .recv 0, .recv 0, .take 0, .emit 0 out1, .leave 0 true, .send, .send,
   .data (get2.wire []), .head 1, .head 1, .take 1, .take 1]
end Serial

/-- Both exceptions happen: the segments of the first body are taken in full and refused, and the second handler has taken all there is,
and waits. -/
theorem C112_refuted : Fair {} rsD {} esD ∧ (run {} {} esD).started.length = 2 ∧ bodyOf 0 (run {} {} esD).log = abc ∧
    chunkStream 16384 (itemsOf 0 (run {} {} esD).log) = ([b!"abc"], .badRequest) ∧
    itemsOf 1 (run {} {} esD).log = [some []] ∧ (run {} {} esD).q0 = [] ∧ rawStream (-1) 2097152 (itemsOf 1 (run {} {} esD).log) = ([[]], .blocked) :=
  ⟨FairB.fair (by decide +kernel), by decide +kernel, by decide +kernel, by decide +kernel, by decide +kernel, by decide +kernel, by decide +kernel⟩

end Verif
