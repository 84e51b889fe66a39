import Verif.Props.ConnStream
/-!
# C16: a connection does not get stuck
-/
namespace Verif
open Verif.Py Verif.Model.Conn Conn Flow

namespace Live

/-- Handlers end with completing their response, and no request is an upgrade or has `Expect: 100-continue`. -/
def Tidy (c : Cfg) : St → List Ev → Prop
  | _, [] => True
  | s, e :: es => (∀ k, e ≠ .finish k) ∧ (∀ r ∈ s.reqs, r.req.httpContinue = false ∧ r.upgraded = false) ∧ Tidy c (step c s e) es

structure Live (s : St) : Prop where
  load : load s = 1
  send : s.sendDone = false
  cur : ∀ k, s.cur = some k → k < s.reqs.length
  rd : s.hb.isSome = true → s.reading = true

/-- The fields that `Live` is about, apart from the load. -/
structure Keep (s s' : St) : Prop where
  send : s'.sendDone = s.sendDone
  cur : s'.cur = s.cur
  reqs : s'.reqs.length = s.reqs.length
  hb : s'.hb = s.hb
  rd : s.reading = true → s'.reading = true

theorem Keep.refl (s : St) : Keep s s := ⟨rfl, rfl, rfl, rfl, id⟩
theorem Keep.trans {a b c : St} (h : Keep a b) (h' : Keep b c) : Keep a c :=
  ⟨h'.send.trans h.send, h'.cur.trans h.cur, h'.reqs.trans h.reqs, h'.hb.trans h.hb, fun x => h'.rd (h.rd x)⟩

theorem Live.keep {s s' : St} (h : Live s) (k : Keep s s') (hl : Conn.load s' = Conn.load s) : Live s' :=
  ⟨hl.trans h.load, k.send.trans h.send, fun i hi => (by rw [k.reqs]; exact h.cur i (by rw [← k.cur]; exact hi)), fun x => k.rd (h.rd (by rw [← k.hb]; exact x))⟩

theorem keep_setReq (k : Nat) (f : Rq → Rq) (s : St) : Keep s (setReq k f s) := by
  unfold setReq; split
  · exact ⟨rfl, rfl, by simp, rfl, id⟩
  · exact .refl _
theorem load_setReq (k : Nat) (f : Rq → Rq) (s : St) : Conn.load (setReq k f s) = Conn.load s := by
  obtain ⟨_, b, c', d, e⟩ := setReq_fields k f s; exact load_congr b c' d e

theorem keep_account (c : Cfg) (n : Nat) (s : St) : Keep s (account c n s) := by
  unfold account
  split
  · exact .refl _
  · next k _ =>
    split
    · exact .refl _
    · next r _ =>
      split
      · exact ⟨rfl, rfl, rfl, rfl, fun _ => rfl⟩
      · dsimp only
        have h0 : Keep s { s with reqs := s.reqs.set k { r with bodySize := r.bodySize + n } } := ⟨rfl, rfl, by simp, rfl, id⟩
        split
        · exact h0.trans ⟨rfl, rfl, rfl, rfl, id⟩
        · split
          · exact h0.trans ⟨rfl, rfl, rfl, rfl, fun _ => rfl⟩
          · exact h0.trans ((keep_setReq k noKeep _).trans ⟨rfl, rfl, rfl, rfl, id⟩)

theorem keep_feed (c : Cfg) (bs : Nat) (f : Feed) (s : St) : Keep s (feed c bs f s).1 := by
  unfold feed
  split
  · exact keep_account c _ s
  · dsimp only; split <;> exact ⟨rfl, rfl, rfl, rfl, id⟩

theorem load_feed {c : Cfg} {bs : Nat} {f : Feed} {s : St} (h : (feed c bs f s).1.tooLarge = false) :
    (feed c bs f s).1.running = s.running ∧ (feed c bs f s).1.heads = s.heads ∧ (feed c bs f s).1.q1 = s.q1 ∧ (feed c bs f s).1.hb = s.hb := by
  rcases feed_fields c bs f s with h' | ⟨_, h1⟩
  · rw [h] at h'; cases h'
  · exact h1

theorem load_data (c : Cfg) (d : Bytes) (s : St) : Conn.load (dataReceived c d s) = Conn.load s := by
  rcases data_cases c d s with ⟨_, e⟩ | ⟨_, _, e⟩ | ⟨buf, _, hb, ⟨n, _, _, e⟩ | e | ⟨_, e⟩⟩ <;> rw [e]
  · rfl
  · unfold Conn.load; rw [hb]; simp only [List.countP_append, List.countP_singleton, busy, wish, if_true]; omega
  · unfold Conn.load; rw [hb]; rfl
  · unfold Conn.load; rw [hb]; rfl

/-- Data arrives; `rd` is given back by whoever calls. -/
theorem keep_data (c : Cfg) (d : Bytes) (s : St) : (dataReceived c d s).sendDone = s.sendDone ∧ (dataReceived c d s).cur = s.cur ∧
    (dataReceived c d s).reqs = s.reqs ∧ ((dataReceived c d s).hb.isSome = true → s.hb.isSome = true ∧ (dataReceived c d s).reading = s.reading) := by
  rcases data_cases c d s with ⟨_, e⟩ | ⟨_, hb, e⟩ | ⟨buf, _, hb, ⟨n, _, _, e⟩ | e | ⟨_, e⟩⟩ <;> rw [e]
  · exact ⟨rfl, rfl, rfl, fun x => ⟨x, rfl⟩⟩
  · exact ⟨rfl, rfl, rfl, fun x => (by dsimp only at x; rw [hb] at x; cases x)⟩
  · exact ⟨rfl, rfl, rfl, fun x => (by cases x)⟩
  · exact ⟨rfl, rfl, rfl, fun _ => ⟨by rw [hb]; rfl, rfl⟩⟩
  · exact ⟨rfl, rfl, rfl, fun _ => ⟨by rw [hb]; rfl, rfl⟩⟩

theorem drain_load (c : Cfg) : ∀ (l : List Item) (s : St), Conn.load (drain c l s) = Conn.load s ∧ (drain c l s).sendDone = s.sendDone ∧
    (drain c l s).cur = s.cur ∧ (drain c l s).reqs = s.reqs
  | [], _ => ⟨rfl, rfl, rfl, rfl⟩
  | x :: l, s => by
    obtain ⟨a, b, d, e⟩ := drain_load c l (dataReceived c (x.getD []) s)
    obtain ⟨a', b', d', _⟩ := keep_data c (x.getD []) s
    exact ⟨a.trans (load_data _ _ _), b.trans a', d.trans b', e.trans d'⟩

theorem live_fed {s : St} {i k : Nat} {raw : Bytes} {p : St × Option Feed} {x : HTask} (hx : s.heads[i]? = some x) (hb : busy x = true)
    (hf : p.1.running = s.running ∧ p.1.heads = s.heads ∧ p.1.q1 = s.q1 ∧ p.1.hb = s.hb) :
    Conn.load (fed i k raw p) = Conn.load s ∧ Keep p.1 (fed i k raw p) := by
  obtain ⟨s', o⟩ := p
  obtain ⟨h1, h2, h3, h4⟩ := hf
  dsimp only at h1 h2 h3 h4
  cases o with
  | none =>
    have := countP_set_busy (y := .handling k) hx hb
    refine ⟨?_, ⟨rfl, rfl, rfl, rfl, id⟩⟩
    simp only [fed, begin, Conn.load, h1, h2, h3, h4, List.length_append, List.length_singleton]
    simp only [busy, Bool.false_eq_true, if_false] at this
    omega
  | some f =>
    have := countP_set_busy (y := .feeding f k raw) hx hb
    refine ⟨?_, ⟨rfl, rfl, rfl, rfl, id⟩⟩
    simp only [fed, Conn.load, h1, h2, h3, h4]
    simp only [busy, if_true] at this
    omega

theorem live_step {c : Cfg} {s : St} {e : Ev} (h : Live s) (hi : Inv [] s) (hf : ∀ k, e ≠ .finish k) (hc : calm s e) (hg : Good (step c s e))
    (hr : ∀ r ∈ s.reqs, r.req.httpContinue = false ∧ r.upgraded = false) : (step c s e).closing = true ∨ Live (step c s e) := by
  cases e with
  | finish k => exact absurd rfl (hf k)
  | mark k b =>
    obtain ⟨_, _, ⟨k', q, _, h2, h3⟩, _⟩ := hc
    rw [(hr q (List.mem_of_getElem? h2)).1] at h3; cases h3
  | data d =>
    right
    simp only [step]
    split
    · obtain ⟨a, b, d', e⟩ := keep_data c d { s with rx := s.rx ++ d }
      refine ⟨(load_data _ _ _).trans h.load, a.trans h.send, fun k hk => ?_, fun x => ?_⟩
      · rw [d']; exact h.cur k (by rw [← hk, b])
      · obtain ⟨x1, x2⟩ := e x; rw [x2]; exact h.rd x1
    · exact h
  | eof drop => exact .inl rfl
  | head i =>
    right
    revert hg
    simp only [step]
    unfold headStep
    split
    · next d n hx =>
      obtain ⟨hl, _⟩ := List.getElem?_eq_some_iff.1 hx
      have bad : ∀ (x : HTask) (s' : St), ¬ good x → s'.heads = s.heads.set i x → Good s' → False := by
        intro x s' hx hs hgood
        exact hx (hgood.2.2 x (by rw [hs]; exact List.mem_set hl x))
      unfold startHead
      dsimp only
      split
      · intro hg; exact (bad .done _ id rfl hg).elim
      · intro hg; exact (bad .done _ id rfl hg).elim
      · split
        · intro hg; exact (bad (.failing s.reqs.length) _ id rfl hg).elim
        · intro hg; exact (bad .done _ id rfl hg).elim
      · next r _ =>
        intro hg
        generalize hs1 : (if r.hasBody = true then newReq r s else put0 (some []) (newReq r s)) = s1 at hg ⊢
        have e1 : s1.running = s.running ∧ s1.heads = s.heads ∧ s1.q1 = s.q1 ∧ s1.hb = s.hb ∧ s1.sendDone = s.sendDone ∧ s1.cur = some s.reqs.length ∧
            s1.reqs.length = s.reqs.length + 1 ∧ s1.reading = s.reading := by
          subst hs1; split <;> simp [newReq, put0]
        obtain ⟨r1, r2, r3, r4, r5, r6, r7, r8⟩ := e1
        have fin : ∀ p : St × Option Feed, (p.1.running = s1.running ∧ p.1.heads = s1.heads ∧ p.1.q1 = s1.q1 ∧ p.1.hb = s1.hb) → Keep s1 p.1 →
            Live (fed i s.reqs.length (d.take (n + 2)) p) := by
          intro p hp kp
          obtain ⟨l1, k1⟩ := live_fed (k := s.reqs.length) (raw := d.take (n + 2)) (p := p) hx rfl ⟨hp.1.trans r1, hp.2.1.trans r2, hp.2.2.1.trans r3, hp.2.2.2.trans r4⟩
          have kk := kp.trans k1
          refine ⟨l1.trans h.load, kk.send.trans (r5.trans h.send), fun k hk => ?_, fun x => kk.rd (by rw [r8]; exact h.rd (by rw [← r4, ← kk.hb]; exact x))⟩
          rw [kk.cur, r6] at hk; cases hk
          rw [kk.reqs, r7]; omega
        split at hg
        · next hcnd =>
          rw [if_pos hcnd]
          refine fin _ (load_feed ?_) (keep_feed _ _ _ _)
          have := hg.1
          revert this
          generalize feed c c.firstSize { rest := d.drop (n + 2), size := (d.drop (n + 2)).length } s1 = p
          rcases p with ⟨a, _ | b⟩ <;> exact id
        · next hcnd =>
          rw [if_neg hcnd]
          exact fin _ ⟨rfl, rfl, rfl, rfl⟩ (.refl _)
    · next f k raw hx =>
      intro hg
      have ht : (feed c c.firstSize f s).1.tooLarge = false := by
        have := hg.1
        revert this
        generalize feed c c.firstSize f s = p
        rcases p with ⟨a, _ | b⟩ <;> exact id
      obtain ⟨l1, k1⟩ := live_fed (k := k) (raw := raw) (p := feed c c.firstSize f s) hx rfl (load_feed ht)
      exact h.keep ((keep_feed _ _ _ _).trans k1) l1
    · intro _; exact h
  | recv i =>
    right
    revert hg
    have fin : ∀ f, Good (recvFed i (feed c c.bufferSize f s)) → Live (recvFed i (feed c c.bufferSize f s)) := by
      intro f hg
      have ht : (feed c c.bufferSize f s).1.tooLarge = false := by
        have := hg.1
        revert this
        generalize feed c c.bufferSize f s = p
        rcases p with ⟨a, _ | b⟩ <;> exact id
      obtain ⟨a, b, c', d⟩ := load_feed ht
      have kf := keep_feed c c.bufferSize f s
      revert a b c' d kf
      generalize feed c c.bufferSize f s = p
      intro a b c' d kf
      have : Conn.load (recvFed i p) = Conn.load s ∧ Keep p.1 (recvFed i p) := by
        rcases p with ⟨q, _ | o⟩
        · exact ⟨load_congr a b c' d, ⟨rfl, rfl, rfl, rfl, id⟩⟩
        · exact ⟨load_congr a b c' d, ⟨rfl, rfl, rfl, rfl, id⟩⟩
      exact h.keep (kf.trans this.2) this.1
    simp only [step]
    unfold recvStep
    split
    · split
      · exact fin _
      · intro _; exact h
    · exact fin _
    · intro _; exact h
  | send =>
    simp only [step]
    unfold sendStep
    rw [if_neg (by rw [h.send]; simp)]
    split
    · exact .inr h
    · next x q hq =>
      have hl : Conn.load { s with q1 := q, sent := s.sent ++ [x] } + (if x.isNone then 1 else 0) = Conn.load s := by
        unfold Conn.load; dsimp only; rw [hq]; simp only [List.countP_cons]; omega
      cases x with
      | some b =>
        right
        dsimp only
        simp at hl
        split
        · exact h.keep ⟨rfl, rfl, rfl, rfl, id⟩ hl
        · exact h.keep ⟨rfl, rfl, rfl, rfl, id⟩ hl
      | none =>
        dsimp only
        have hz : Conn.load { s with q1 := q, sent := s.sent ++ [none] } = 0 := by have := h.load; simp at hl; omega
        have hcl : ∀ s' : St, (close s').closing = true := by
          intro s'; unfold close; split
          · assumption
          · rfl
        unfold marker
        dsimp only
        split
        · exact .inl (hcl _)
        · next k hk =>
          split
          · next hn => exact absurd (List.getElem?_eq_none_iff.1 hn) (by have := h.cur k hk; omega)
          · next r hrk =>
            obtain ⟨c1, c2⟩ := hr r (List.mem_of_getElem? hrk)
            split
            · generalize hs0 : { s with q1 := q, sent := s.sent ++ [none] } = s0 at hz ⊢
              have e0 : s0.sendDone = s.sendDone ∧ s0.cur = s.cur ∧ s0.reqs = s.reqs := by subst hs0; exact ⟨rfl, rfl, rfl⟩
              unfold handleKeepalive
              rw [c1, c2]
              dsimp only
              split
              · exact .inl (hcl _)
              · right
                simp only [Bool.false_eq_true, if_false]
                generalize hs1 : { s0 with registered := s0.registered || s0.first } = s1
                have e1 : s1.sendDone = s.sendDone ∧ s1.cur = s.cur ∧ s1.reqs = s.reqs ∧ s1.running = s0.running ∧ s1.heads = s0.heads ∧ s1.q1 = s0.q1 := by
                  subst hs1; exact ⟨e0.1, e0.2.1, e0.2.2, rfl, rfl, rfl⟩
                obtain ⟨r1, r2, r3, r4, r5, r6⟩ := e1
                obtain ⟨_, f1, f2, f3, _⟩ := setReq_fields k (fun r => { r with bodySize := 0 }) s1
                have ks := keep_setReq k (fun r => { r with bodySize := 0 }) s1
                have base : ∀ q0, Conn.load { (reset k s1) with q0 := q0 } = 1 ∧ { (reset k s1) with q0 := q0 }.sendDone = false ∧ { (reset k s1) with q0 := q0 }.cur = s.cur ∧
                    { (reset k s1) with q0 := q0 }.reqs.length = s.reqs.length := by
                  intro q0
                  refine ⟨?_, ?_, ?_, ?_⟩
                  · unfold Conn.load; simp only [reset, f1, f2, f3, r4, r5, r6, wish]
                    unfold Conn.load at hz; omega
                  · simp only [reset, ks.send, r1, h.send]
                  · simp only [reset, ks.cur, r2]
                  · simp only [reset, ks.reqs, r3]
                have fin : ∀ s', Conn.load s' = 1 ∧ s'.sendDone = false ∧ s'.cur = s.cur ∧ s'.reqs.length = s.reqs.length → Live { s' with reading := true } := by
                  intro s' ⟨a, b, c', d⟩
                  exact ⟨a, b, fun k hk => by dsimp only at hk ⊢; rw [d]; exact h.cur k (by rw [← c']; exact hk), fun _ => rfl⟩
                refine fin _ ?_
                split
                · exact base (reset k s1).q0
                · obtain ⟨a, b, c', d⟩ := drain_load c (reset k s1).q0 { (reset k s1) with q0 := [] }
                  obtain ⟨a', b', c'', d'⟩ := base []
                  exact ⟨a.trans a', b.trans b', c'.trans c'', by rw [d]; exact d'⟩
            · exact .inl (hcl _)
  | emit k b => exact .inr (h.keep ⟨rfl, rfl, rfl, rfl, id⟩ (by simp [step, put1, Conn.load, List.countP_append]))
  | take k =>
    right
    simp only [step]
    split
    · exact h.keep ⟨rfl, rfl, rfl, rfl, id⟩ rfl
    · exact h
  | upgrade k => exact .inr (h.keep (keep_setReq _ _ _) (load_setReq _ _ _))
  | clear k => exact .inr (h.keep (keep_setReq _ _ _) (load_setReq _ _ _))
  | leave k keep =>
    right
    simp only [step]
    split
    · next ha =>
      have hrun : k ∈ s.running := by
        unfold active at ha
        rw [Bool.or_eq_true] at ha
        rcases ha with ha | ha
        · simpa using ha
        · exact (hi.good (.failing k) (by simpa using ha)).elim
      have hl : Conn.load (finish k s) = 0 := by
        have := (finish_load k s).2 ha; have := h.load; omega
      have hk : Keep s (finish k s) := ⟨rfl, rfl, rfl, rfl, id⟩
      have hp : ∀ s', Conn.load s' = 0 → Conn.load (put1 none s') = Conn.load s := by
        intro s' hs'; rw [h.load]; unfold Conn.load put1 at *; dsimp only; rw [List.countP_append]; simp; omega
      unfold closeResponse
      split
      · exact h.keep (hk.trans ⟨rfl, rfl, rfl, rfl, id⟩) (hp _ hl)
      · exact h.keep ((hk.trans (keep_setReq _ _ _)).trans ⟨rfl, rfl, rfl, rfl, id⟩) (hp _ ((load_setReq _ _ _).trans hl))
    · exact h
  | abort => exact .inl rfl
  | kick => exact .inr (h.keep ⟨rfl, rfl, rfl, rfl, id⟩ rfl)

theorem live_run {c : Cfg} : ∀ (es : List Ev) {s : St}, (s.closing = true ∨ Live s) → Inv [] s → s.tooLarge = false → Calm c s es → Tidy c s es →
    (run c s es).closing = true ∨ Live (run c s es)
  | [], _, h, _, _, _, _ => h
  | e :: es, s, h, hi, ht, hc, hy => by
    refine live_run es (s := step c s e) ?_ (inv_step hi hc.1 ht hc.2.1) hc.2.1.1 hc.2.2 hy.2.2
    rcases h with h | h
    · exact .inl (closing_step h)
    · exact live_step h hi hy.1 hc.1 hc.2.1 hy.2.1

end Live

/-- **C16**: in the schedules of `C16_partial` in which handlers end with completing their response, no request is an upgrade
or has `Expect: 100-continue`, a connection that is not being closed is never stuck: a handler runs, or a task of a head can
run, or the send task has an end marker to take, or the connection is waiting for a head and reading. With `C16_partial`, in
the last case all requests received completely were handled. -/
theorem C16_progress (c : Cfg) {es : List Ev} (h : Calm c {} es) (hy : Live.Tidy c {} es) (hc : (run c {} es).closing = false) :
    (run c {} es).running ≠ [] ∨ (∃ d n, HTask.new d n ∈ (run c {} es).heads) ∨ (∃ f k raw, HTask.feeding f k raw ∈ (run c {} es).heads) ∨
    (none ∈ (run c {} es).q1 ∧ (run c {} es).sendDone = false) ∨ (∃ buf, (run c {} es).hb = some buf ∧ (run c {} es).reading = true) := by
  have l := Live.live_run es (s := {}) (.inr ⟨rfl, rfl, fun k hk => (by cases hk), fun _ => rfl⟩) inv_init rfl h hy
  have i := inv_run es inv_init rfl h
  generalize run c {} es = s at *
  rcases l with l | l
  · rw [hc] at l; cases l
  have hl := l.load
  unfold load at hl
  by_cases h1 : s.running = []
  · right
    by_cases h2 : s.heads.countP busy = 0
    · right; right
      by_cases h3 : s.q1.countP Option.isNone = 0
      · right
        cases hb : s.hb with
        | none => rw [h1, h2, h3, hb] at hl; simp [wish] at hl
        | some b => exact ⟨b, rfl, l.rd (by rw [hb]; rfl)⟩
      · left
        obtain ⟨x, hx, hn⟩ := List.countP_pos_iff.1 (Nat.pos_of_ne_zero h3)
        cases x with
        | some b => cases hn
        | none => exact ⟨hx, l.send⟩
    · obtain ⟨x, hx, hb⟩ := List.countP_pos_iff.1 (Nat.pos_of_ne_zero h2)
      cases x with
      | new d n => exact .inl ⟨d, n, hx⟩
      | feeding f k raw => exact .inr (.inl ⟨f, k, raw, hx⟩)
      | failing k => exact (i.good _ hx).elim
      | handling k => cases hb
      | done => cases hb
  · exact .inl h1

def TidyB (c : Cfg) : St → List Ev → Bool
  | _, [] => true
  | s, e :: es => (match e with | .finish _ => false | _ => true) && s.reqs.all (fun r => !r.req.httpContinue && !r.upgraded) && TidyB c (step c s e) es

theorem TidyB.tidy {c : Cfg} : ∀ {es : List Ev} {s : St}, TidyB c s es = true → Live.Tidy c s es
  | [], _, _ => trivial
  | e :: _, _, h => by
    simp only [TidyB, Bool.and_eq_true] at h
    refine ⟨fun k hk => (by subst hk; simp at h), fun r hr => ?_, TidyB.tidy h.2⟩
    have := List.all_eq_true.1 h.1.2 r hr
    simpa using this

/-- The hypotheses of `C16_progress` hold for `threeRequests`. -/
example : Calm {} {} threeRequests ∧ Live.Tidy {} {} threeRequests ∧ (run {} {} threeRequests).closing = false :=
  ⟨CalmB.calm (by decide +kernel), TidyB.tidy (by decide +kernel), by decide +kernel⟩

/-- Without `Tidy` it can: a request with `Expect: 100-continue` whose handler does not ask for the body is never finished. -/
theorem C16_progress_needs_tidy :
    let s := run {} {} [.data b!"POST / HTTP/1.1\r\nContent-Length: 5\r\nExpect: 100-continue\r\n\r\n", .head 0, .head 0, .emit 0 b!"no", .leave 0 true, .send, .send]
    s.running = [] ∧ s.q1 = [] ∧ s.hb = none ∧ s.heads = [.handling 0] ∧ s.closing = false ∧ s.sendDone = false := by decide +kernel

end Verif
