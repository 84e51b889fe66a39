import Verif.Spec.Intake
/-!
# C97: what a connection holds of what its client has sent
-/
namespace Verif
open Verif.Py Verif.Model.Conn Verif.Spec.Intake

namespace Intake

def tok (s : St) : Nat := unqueued s + s.reading.toNat

/-- No more is held by tasks, and the queue stays within its limit or the connection is closing. -/
structure Slow (c : Cfg) (s s' : St) : Prop where
  tok : tok s' ≤ tok s
  ends : ends s' = ends s
  closing : s'.closing = false → s.closing = false
  pieces : s'.closing = false → pieces s' ≤ max (pieces s) c.maxQueue

theorem Slow.refl (c : Cfg) (s : St) : Slow c s s := ⟨Nat.le_refl _, rfl, id, fun _ => Nat.le_max_left _ _⟩
theorem Slow.trans {c : Cfg} {a b d : St} (h : Slow c a b) (h' : Slow c b d) : Slow c a d :=
  ⟨Nat.le_trans h'.tok h.tok, h'.ends.trans h.ends, fun x => h.closing (h'.closing x), fun x => by have := h.pieces (h'.closing x); have := h'.pieces x; omega⟩

theorem slow_of {c : Cfg} {s s' : St} (h1 : s'.heads = s.heads) (h2 : s'.recvs = s.recvs) (h3 : s'.q0 = s.q0) (h4 : s'.sent = s.sent)
    (h5 : s'.reading = s.reading) (h6 : s'.closing = false → s.closing = false) : Slow c s s' :=
  ⟨by simp only [Intake.tok, unqueued, h1, h2, h5]; omega, by simp only [Spec.Intake.ends, h4], h6, fun _ => by simp only [Spec.Intake.pieces, h3]; omega⟩

theorem slow_put1 (c : Cfg) (x : Item) (s : St) : Slow c s (put1 x s) := slow_of rfl rfl rfl rfl rfl id
theorem slow_abort (c : Cfg) (s : St) : Slow c s (abort s) := slow_of rfl rfl rfl rfl rfl (fun h => by cases h)
theorem slow_close (c : Cfg) (s : St) : Slow c s (close s) := by
  unfold close; split
  · exact .refl _ _
  · exact slow_of rfl rfl rfl rfl rfl (fun h => by cases h)
theorem slow_setReq (c : Cfg) (k : Nat) (f : Rq → Rq) (s : St) : Slow c s (setReq k f s) := by
  unfold setReq; split
  · exact slow_of rfl rfl rfl rfl rfl id
  · exact .refl _ _
theorem slow_put0 (c : Cfg) {x : Item} (hx : x.getD [] = []) (s : St) : Slow c s (put0 x s) :=
  ⟨Nat.le_refl _, rfl, id, fun _ => by simp [Spec.Intake.pieces, put0, hx]; omega⟩

/-- What `account` does to the fields of interest. -/
theorem account_same (c : Cfg) (n : Nat) (s : St) : (account c n s).heads = s.heads ∧ (account c n s).recvs = s.recvs ∧ (account c n s).sent = s.sent ∧
    (account c n s).closing = s.closing ∧ pieces (account c n s) = pieces s := by
  unfold account
  split
  · exact ⟨rfl, rfl, rfl, rfl, rfl⟩
  · split
    · exact ⟨rfl, rfl, rfl, rfl, rfl⟩
    · split
      · exact ⟨rfl, rfl, rfl, rfl, rfl⟩
      · dsimp only
        split
        · exact ⟨rfl, rfl, rfl, rfl, by simp [pieces, put0]⟩
        · split
          · exact ⟨rfl, rfl, rfl, rfl, rfl⟩
          · unfold setReq
            split <;> exact ⟨rfl, rfl, rfl, rfl, rfl⟩

theorem feed_same (c : Cfg) (bs : Nat) (f : Feed) (s : St) : (feed c bs f s).1.heads = s.heads ∧ (feed c bs f s).1.recvs = s.recvs ∧ (feed c bs f s).1.sent = s.sent ∧
    ((feed c bs f s).1.closing = false → s.closing = false) ∧ ((feed c bs f s).1.closing = false → pieces (feed c bs f s).1 ≤ max (pieces s) c.maxQueue) ∧
    (∀ g, (feed c bs f s).2 = some g → (feed c bs f s).1.reading = s.reading) := by
  unfold feed
  split
  · obtain ⟨h1, h2, h3, h4, h5⟩ := account_same c f.size s
    exact ⟨h1, h2, h3, fun h => h4 ▸ h, fun _ => by rw [h5]; omega, fun g h => (by cases h)⟩
  · dsimp only
    split
    · exact ⟨rfl, rfl, rfl, fun h => (by cases h), fun h => (by cases h), fun g h => (by cases h)⟩
    · rename_i h
      refine ⟨rfl, rfl, rfl, id, fun _ => ?_, fun _ _ => rfl⟩
      have : pieces (put0 (some (f.rest.take bs)) s) ≤ (put0 (some (f.rest.take bs)) s).q0.length := List.countP_le_length
      show pieces (put0 (some (f.rest.take bs)) s) ≤ _
      omega

theorem toNat_le (b : Bool) : b.toNat ≤ 1 := by cases b <;> decide

theorem unq_head {s : St} {i : Nat} {h x : HTask} (hi : s.heads[i]? = some h) : (s.heads.set i x).countP (·.busy) + h.busy.toNat = s.heads.countP (·.busy) + x.busy.toNat := by
  obtain ⟨hl, he⟩ := List.getElem?_eq_some_iff.1 hi
  rw [List.countP_set hl, he]
  have : h.busy = true → 0 < s.heads.countP (·.busy) := fun hb => List.countP_pos_iff.2 ⟨h, List.mem_of_getElem? hi, hb⟩
  cases hb : h.busy <;> cases x.busy <;> simp
  all_goals (have := this hb; omega)

theorem unq_recv {s : St} {i : Nat} {h x : RTask} (hi : s.recvs[i]? = some h) : (s.recvs.set i x).countP (·.busy) + h.busy.toNat = s.recvs.countP (·.busy) + x.busy.toNat := by
  obtain ⟨hl, he⟩ := List.getElem?_eq_some_iff.1 hi
  rw [List.countP_set hl, he]
  have : h.busy = true → 0 < s.recvs.countP (·.busy) := fun hb => List.countP_pos_iff.2 ⟨h, List.mem_of_getElem? hi, hb⟩
  cases hb : h.busy <;> cases x.busy <;> simp
  all_goals (have := this hb; omega)

theorem slow_fed {c : Cfg} {bs i k : Nat} {raw : Bytes} {f : Feed} {s s1 : St} {h : HTask} (hs : Slow c s s1) (e1 : s1.heads = s.heads) (e2 : s1.recvs = s.recvs) (e3 : s1.reading = s.reading)
    (hi : s.heads[i]? = some h) (hb : h.busy = true) :
    Slow c s (fed i k raw (feed c bs f s1)) := by
  obtain ⟨h1, h2, h3, h4, h5, h6⟩ := feed_same c bs f s1
  generalize feed c bs f s1 = p at *
  obtain ⟨a, o⟩ := p
  dsimp only at h1 h2 h3 h4 h5 h6
  cases o with
  | none =>
    have hu := unq_head (x := .handling k) hi
    rw [hb] at hu
    have : (HTask.handling k).busy = false := rfl
    rw [this] at hu
    refine ⟨?_, by simp only [Spec.Intake.ends, fed, begin]; exact (congrArg _ h3).trans hs.ends, fun x => hs.closing (h4 x), fun x => ?_⟩
    · have := toNat_le a.reading
      simp only [Intake.tok, unqueued, fed, begin, h1, h2, e1, e2]
      simp at hu; omega
    · have := h5 x
      have := hs.pieces (h4 x)
      have e : pieces (fed i k raw (a, none)) = pieces a := rfl
      omega
  | some g =>
    have hu := unq_head (x := .feeding g k raw) hi
    rw [hb] at hu
    have : (HTask.feeding g k raw).busy = true := rfl
    rw [this] at hu
    refine ⟨?_, by simp only [Spec.Intake.ends, fed]; exact (congrArg _ h3).trans hs.ends, fun x => hs.closing (h4 x), fun x => ?_⟩
    · have := h6 g rfl
      simp only [Intake.tok, unqueued, fed, h1, h2, e1, e2, this, e3]
      simp at hu; omega
    · have := h5 x
      have := hs.pieces (h4 x)
      have e : pieces (fed i k raw (a, some g)) = pieces a := rfl
      omega

/-- A head task that ends, or fails, without queueing. -/
theorem slow_over {c : Cfg} {i : Nat} {s s' : St} {h x : HTask} (hi : s.heads[i]? = some h) (hb : h.busy = true) (hx : x.busy = false)
    (h1 : s'.heads = s.heads.set i x) (h2 : s'.recvs = s.recvs) (h3 : s'.q0 = s.q0) (h4 : s'.sent = s.sent)
    (h5 : s'.reading = s.reading) (h6 : s'.closing = s.closing) : Slow c s s' := by
  have hu := unq_head (x := x) hi
  rw [hb, hx] at hu
  simp at hu
  exact ⟨by simp only [Intake.tok, unqueued, h1, h2, h5]; omega, by simp only [Spec.Intake.ends, h4], fun e => h6 ▸ e, fun _ => by simp only [Spec.Intake.pieces, h3]; omega⟩

theorem slow_head (c : Cfg) (i : Nat) (s : St) : Slow c s (headStep c i s) := by
  unfold headStep
  split
  · rename_i data n hi
    unfold startHead
    dsimp only
    split
    · exact slow_over hi rfl rfl rfl rfl rfl rfl rfl rfl
    · exact slow_over hi rfl rfl rfl rfl rfl rfl rfl rfl
    · split
      · exact slow_over hi rfl rfl rfl rfl rfl rfl rfl rfl
      · exact slow_over hi rfl rfl rfl rfl rfl rfl rfl rfl
    · rename_i r _
      have hs : Slow c s (newReq r s) := slow_of rfl rfl rfl rfl rfl id
      have hs2 : Slow c s (put0 (some []) (newReq r s)) := hs.trans (slow_put0 c rfl _)
      split
      · split
        · exact slow_fed hs rfl rfl rfl hi rfl
        · exact slow_fed hs2 rfl rfl rfl hi rfl
      · split
        · exact hs.trans (slow_over (h := .new data n) (by exact hi) rfl (x := .handling s.reqs.length) rfl rfl rfl rfl rfl rfl rfl)
        · exact hs2.trans (slow_over (h := .new data n) (by exact hi) rfl (x := .handling s.reqs.length) rfl rfl rfl rfl rfl rfl rfl)
  · rename_i f k raw hi
    exact slow_fed (.refl _ _) rfl rfl rfl hi rfl
  · exact .refl _ _

theorem slow_recvFed {c : Cfg} {bs i : Nat} {f : Feed} {s : St} {h : RTask} (hi : s.recvs[i]? = some h) (hb : h.busy = true) : Slow c s (recvFed i (feed c bs f s)) := by
  obtain ⟨h1, h2, h3, h4, h5, h6⟩ := feed_same c bs f s
  generalize feed c bs f s = p at *
  obtain ⟨a, o⟩ := p
  dsimp only at h1 h2 h3 h4 h5 h6
  cases o with
  | none =>
    have hu := unq_recv (x := .done) hi
    rw [hb] at hu
    have : RTask.done.busy = false := rfl
    rw [this] at hu
    refine ⟨?_, by simp only [Spec.Intake.ends, recvFed]; exact (congrArg _ h3), fun x => h4 x, fun x => h5 x⟩
    have := toNat_le a.reading
    simp only [Intake.tok, unqueued, recvFed, h1, h2]
    simp at hu; omega
  | some g =>
    have hu := unq_recv (x := .feeding g) hi
    rw [hb] at hu
    have : (RTask.feeding g).busy = true := rfl
    rw [this] at hu
    refine ⟨?_, by simp only [Spec.Intake.ends, recvFed]; exact (congrArg _ h3), fun x => h4 x, fun x => h5 x⟩
    have := h6 g rfl
    simp only [Intake.tok, unqueued, recvFed, h1, h2, this]
    simp at hu; omega

theorem slow_recv (c : Cfg) (i : Nat) (s : St) : Slow c s (recvStep c i s) := by
  unfold recvStep
  split
  · split
    · rename_i hi _
      exact slow_recvFed hi rfl
    · exact .refl _ _
  · rename_i hi
    exact slow_recvFed hi rfl
  · exact .refl _ _

/-- A segment is handed over. -/
theorem data_same (c : Cfg) (d : Bytes) (s : St) : (dataReceived c d s).q0 = s.q0 ∧ (dataReceived c d s).sent = s.sent ∧ ((dataReceived c d s).closing = false → s.closing = false) ∧
    (unqueued (dataReceived c d s) = unqueued s ∧ (dataReceived c d s).reading = s.reading ∨
      d ≠ [] ∧ unqueued (dataReceived c d s) = unqueued s + 1 ∧ (dataReceived c d s).reading = false) := by
  unfold dataReceived
  have hne : ∀ x, (Model.Head.dataReceived c.maxHeader s.hb d).2 = x → x ≠ .wait → d ≠ [] := by
    rintro x h1 h2 rfl
    rw [← h1] at h2; exact h2 rfl
  split
  · exact ⟨rfl, rfl, id, .inl ⟨rfl, rfl⟩⟩
  · rename_i h
    refine ⟨rfl, rfl, id, .inr ⟨hne _ (by rw [h]) (fun e => (by cases e)), ?_, rfl⟩⟩
    simp [unqueued, HTask.busy]; omega
  · exact ⟨rfl, rfl, fun h => (by cases h), .inl ⟨rfl, rfl⟩⟩
  · rename_i h
    refine ⟨rfl, rfl, id, .inr ⟨hne _ (by rw [h]) (fun e => (by cases e)), ?_, rfl⟩⟩
    simp [unqueued, RTask.busy]; omega

theorem drain_same (c : Cfg) : ∀ (l : List Item) (s : St), (drain c l s).q0 = s.q0 ∧ (drain c l s).sent = s.sent ∧ ((drain c l s).closing = false → s.closing = false) ∧
    unqueued (drain c l s) ≤ unqueued s + l.countP (fun x => !(x.getD []).isEmpty)
  | [], s => ⟨rfl, rfl, id, by simp [drain]⟩
  | x :: l, s => by
    have h1 := data_same c (x.getD []) s
    have h2 := drain_same c l (dataReceived c (x.getD []) s)
    have e : drain c (x :: l) s = drain c l (dataReceived c (x.getD []) s) := rfl
    have h3 : unqueued (dataReceived c (x.getD []) s) ≤ unqueued s + (!(x.getD []).isEmpty).toNat := by
      rcases h1.2.2.2 with ⟨e, _⟩ | ⟨hx, e, _⟩
      · omega
      · have : (!(x.getD []).isEmpty) = true := by simpa using hx
        rw [this, e]; exact Nat.le_refl _
    rw [e]
    refine ⟨h2.1.trans h1.1, h2.2.1.trans h1.2.1, fun h => h1.2.2.1 (h2.2.2.1 h), ?_⟩
    have h4 := h2.2.2.2
    rw [List.countP_cons]
    cases hx : (!(x.getD []).isEmpty) <;> simp [hx] at h3 ⊢ <;> omega

/-- The keep-alive handling: at most the pieces of the queue go to tasks, and reading is on. -/
theorem keep_same (c : Cfg) (k : Nat) (r : Rq) (s : St) : (handleKeepalive c k r s).sent = s.sent ∧ ((handleKeepalive c k r s).closing = false → s.closing = false) ∧
    pieces (handleKeepalive c k r s) ≤ pieces s ∧ unqueued (handleKeepalive c k r s) ≤ unqueued s + pieces s := by
  have hc : ∀ s : St, (close s).sent = s.sent ∧ ((close s).closing = false → s.closing = false) ∧ pieces (close s) = pieces s ∧ unqueued (close s) = unqueued s := by
    intro s
    unfold close; split
    · exact ⟨rfl, id, rfl, rfl⟩
    · exact ⟨rfl, fun h => (by cases h), rfl, rfl⟩
  have hset : ∀ (f : Rq → Rq) (s : St), (setReq k f s).sent = s.sent ∧ (setReq k f s).closing = s.closing ∧ pieces (setReq k f s) = pieces s ∧ unqueued (setReq k f s) = unqueued s ∧ (setReq k f s).q0 = s.q0 := by
    intro f s
    unfold setReq; split <;> exact ⟨rfl, rfl, rfl, rfl, rfl⟩
  have e1 : pieces { s with registered := s.registered || s.first } = pieces s := rfl
  have e2 : unqueued { s with registered := s.registered || s.first } = unqueued s := rfl
  unfold handleKeepalive
  dsimp only
  split
  · obtain ⟨h1, h2, h3, h4⟩ := hc { s with registered := s.registered || s.first }
    exact ⟨h1, h2, by omega, by omega⟩
  · split
    · obtain ⟨h1, h2, h3, h4, _⟩ := hset (fun r => { r with req := { r.req with httpContinue := false } }) { s with registered := s.registered || s.first }
      exact ⟨h1, fun h => h2 ▸ h, Nat.le_of_eq h3, Nat.le_trans (Nat.le_of_eq h4) (Nat.le_add_right _ _)⟩
    · split
      · split
        · exact ⟨rfl, id, Nat.le_refl _, Nat.le_add_right _ _⟩
        · obtain ⟨h1, h2, h3, h4⟩ := hc { s with registered := s.registered || s.first }
          exact ⟨h1, h2, by show pieces (close _) ≤ _; omega, by show unqueued (close _) ≤ _; omega⟩
      · obtain ⟨h1, h2, h3, h4, h5⟩ := hset (fun r => { r with bodySize := 0 }) { s with registered := s.registered || s.first }
        split
        · exact ⟨h1, fun h => h2 ▸ h, Nat.le_of_eq h3, Nat.le_trans (Nat.le_of_eq h4) (Nat.le_add_right _ _)⟩
        · have q : (reset k { s with registered := s.registered || s.first }).q0 = s.q0 := h5
          rw [q]
          obtain ⟨d1, d2, d3, d4⟩ := drain_same c s.q0 { (reset k { s with registered := s.registered || s.first }) with q0 := [] }
          refine ⟨d2.trans h1, fun h => h2 ▸ d3 h, ?_, ?_⟩
          · show List.countP _ (drain _ _ _).q0 ≤ _
            rw [d1]; simp
          · exact Nat.le_trans d4 (Nat.add_le_add_right (Nat.le_of_eq h4) _)

/-- The send task: as `Slow`, unless it takes the end of a response. -/
theorem send_cases (c : Cfg) (s : St) : Slow c s (sendStep c s) ∨ (s.q1.head? = some none ∧ ends (sendStep c s) = ends s + 1 ∧
    ((sendStep c s).closing = false → s.closing = false) ∧ pieces (sendStep c s) ≤ pieces s ∧ tok (sendStep c s) ≤ max (tok s) (unqueued s + pieces s + 1)) := by
  unfold sendStep
  split
  · exact .inl (.refl _ _)
  · split
    · exact .inl (.refl _ _)
    · rename_i x q hq
      cases x with
      | some b =>
        left
        have : ends { s with q1 := q, sent := s.sent ++ [some b] } = ends s := by simp [ends, List.count_append]
        have h : Slow c s { s with q1 := q, sent := s.sent ++ [some b] } := ⟨Nat.le_refl _, this, id, fun _ => Nat.le_max_left _ _⟩
        dsimp only
        split
        · exact h
        · exact h.trans (slow_of rfl rfl rfl rfl rfl id)
      | none =>
        right
        have he : ∀ s' : St, s'.sent = s.sent ++ [none] → ends s' = ends s + 1 := by
          intro s' h; simp [ends, h, List.count_append]
        refine ⟨by rw [hq]; rfl, ?_⟩
        dsimp only
        have hc : ∀ s' : St, Slow c s' (close s') := slow_close c
        have hset : ∀ (k : Nat) (f : Rq → Rq) (s : St), (setReq k f s).sent = s.sent ∧ (setReq k f s).closing = s.closing ∧ pieces (setReq k f s) = pieces s ∧ tok (setReq k f s) = tok s := by
          intro k f s
          unfold setReq; split <;> exact ⟨rfl, rfl, rfl, rfl⟩
        have hcl : ∀ s : St, (close s).sent = s.sent ∧ ((close s).closing = false → s.closing = false) ∧ pieces (close s) = pieces s ∧ tok (close s) = tok s := by
          intro s
          unfold close; split
          · exact ⟨rfl, id, rfl, rfl⟩
          · exact ⟨rfl, fun h => (by cases h), rfl, rfl⟩
        unfold marker
        dsimp only
        split
        · obtain ⟨h1, h2, h3, h4⟩ := hcl { s with q1 := q, sent := s.sent ++ [none] }
          exact ⟨he _ h1, h2, Nat.le_of_eq h3, Nat.le_trans (Nat.le_of_eq h4) (Nat.le_max_left _ _)⟩
        · rename_i k _
          split
          · exact ⟨he _ rfl, id, Nat.le_refl _, Nat.le_max_left _ _⟩
          · rename_i rq _
            split
            · obtain ⟨h1, h2, h3, h4⟩ := keep_same c k rq { s with q1 := q, sent := s.sent ++ [none] }
              refine ⟨he _ h1, h2, h3, Nat.le_trans ?_ (Nat.le_max_right _ _)⟩
              exact Nat.add_le_add h4 (toNat_le _)
            · obtain ⟨h1, h2, h3, h4⟩ := hset k (fun r => { r with bodySize := 0 }) { s with q1 := q, sent := s.sent ++ [none] }
              obtain ⟨g1, g2, g3, g4⟩ := hcl (setReq k (fun r => { r with bodySize := 0 }) { s with q1 := q, sent := s.sent ++ [none] })
              exact ⟨he _ (g1.trans h1), fun h => h2 ▸ g2 h, Nat.le_of_eq (g3.trans h3), Nat.le_trans (Nat.le_of_eq (g4.trans h4)) (Nat.le_max_left _ _)⟩

theorem slow_closeResponse (c : Cfg) (k : Nat) (keep : Bool) (s : St) : Slow c s (closeResponse k keep s) := by
  unfold closeResponse
  refine .trans ?_ (slow_put1 c none _)
  split
  · exact .refl _ _
  · exact slow_setReq c _ _ _

theorem slow_finish (c : Cfg) (k : Nat) (s : St) : Slow c s (finish k s) := by
  refine ⟨?_, rfl, id, fun _ => Nat.le_max_left _ _⟩
  have : (s.heads.map (fun h => if h = .failing k then .done else h)).countP (·.busy) ≤ s.heads.countP (·.busy) := by
    rw [List.countP_map]
    refine List.countP_mono_left (fun x _ h => ?_)
    simp only [Function.comp] at h
    split at h
    · cases h
    · exact h
  simp only [Intake.tok, unqueued, finish]; omega

/-- Any step but the send task's. -/
theorem slow_step (c : Cfg) (s : St) (e : Ev) (he : e ≠ .send) : Slow c s (step c s e) := by
  cases e with
  | data d =>
    dsimp only [step]
    split
    · rename_i h
      simp only [Bool.and_eq_true] at h
      obtain ⟨h1, h2, h3, h4⟩ := data_same c d { s with rx := s.rx ++ d }
      refine ⟨?_, congrArg (List.count none) h2, h3, fun _ => ?_⟩
      · rcases h4 with ⟨e1, e2⟩ | ⟨_, e1, e2⟩
        · exact Nat.le_of_eq (by simp only [Intake.tok, e1, e2]; rfl)
        · have e : unqueued { s with rx := s.rx ++ d } = unqueued s := rfl
          have : s.reading.toNat = 1 := by rw [h.1]; rfl
          simp only [Intake.tok, e1, e2, e]
          simp; omega
      · simp only [Spec.Intake.pieces, h1]; omega
    · exact .refl _ _
  | eof drop => exact (slow_put0 c (x := none) rfl s).trans (slow_of rfl rfl rfl rfl rfl (fun h => by cases h))
  | head i => exact slow_head c i s
  | recv i => exact slow_recv c i s
  | send => exact absurd rfl he
  | emit k b => exact slow_put1 c _ s
  | mark k keep => exact slow_closeResponse c k keep s
  | take k =>
    dsimp only [step]
    split
    · rename_i x q hq
      refine ⟨Nat.le_refl _, rfl, id, fun _ => ?_⟩
      have : q.countP (fun x => !(x.getD []).isEmpty) ≤ s.q0.countP (fun x => !(x.getD []).isEmpty) := by rw [hq, List.countP_cons]; omega
      simp only [Spec.Intake.pieces]; omega
    · exact .refl _ _
  | upgrade k => exact slow_setReq c _ _ _
  | clear k => exact slow_setReq c _ _ _
  | finish k => exact slow_finish c k s
  | leave k keep =>
    dsimp only [step]
    split
    · exact (slow_finish c k s).trans (slow_closeResponse c k keep _)
    · exact .refl _ _
  | abort => exact slow_abort c s
  | kick => exact slow_of rfl rfl rfl rfl rfl id

/-- In an open connection. -/
structure Inv (c : Cfg) (s : St) : Prop where
  pieces : pieces s ≤ c.maxQueue
  tok : tok s ≤ 1 + ends s * (c.maxQueue + 1)

theorem inv_step (c : Cfg) (s : St) (e : Ev) (h : s.closing = false → Inv c s) (ho : (step c s e).closing = false) : Inv c (step c s e) := by
  have slow : Slow c s (step c s e) → Inv c (step c s e) := fun hs => by
    have i := h (hs.closing ho)
    have := hs.pieces ho
    exact ⟨by have := i.pieces; omega, by rw [hs.ends]; exact Nat.le_trans hs.tok i.tok⟩
  by_cases he : e = .send
  · subst he
    rcases send_cases c s with hs | ⟨_, h1, h2, h3, h4⟩
    · exact slow hs
    · have i := h (h2 ho)
      have i1 := i.pieces
      have i2 := i.tok
      refine ⟨Nat.le_trans h3 i1, ?_⟩
      show tok (sendStep c s) ≤ 1 + ends (sendStep c s) * _
      rw [h1, Nat.succ_mul]
      have : unqueued s ≤ tok s := Nat.le_add_right _ _
      omega
  · exact slow (slow_step c s e he)

theorem inv_run (c : Cfg) : ∀ (es : List Ev) (s : St), (s.closing = false → Inv c s) → (run c s es).closing = false → Inv c (run c s es)
  | [], _, h, ho => h ho
  | e :: es, s, h, ho => inv_run c es (step c s e) (inv_step c s e h) ho

theorem inv_init (c : Cfg) : Inv c {} := ⟨Nat.zero_le _, by show 1 ≤ 1 + 0 * _; omega⟩

/-- In an open connection that was calm. -/
theorem calm_run (c : Cfg) : ∀ (es : List Ev) (s : St), (s.closing = false → Inv c s ∧ tok s ≤ c.maxQueue + 1) → Calm c s es → (run c s es).closing = false →
    tok (run c s es) ≤ c.maxQueue + 1
  | [], _, h, _, ho => (h ho).2
  | e :: es, s, h, hc, ho => by
    refine calm_run c es (step c s e) (fun hcl => ?_) hc.2 ho
    refine ⟨inv_step c s e (fun x => (h x).1) hcl, ?_⟩
    by_cases he : e = .send
    · subst he
      rcases send_cases c s with hs | ⟨h0, _, h2, _, h4⟩
      · exact Nat.le_trans hs.tok (h (hs.closing hcl)).2
      · have i := h (h2 hcl)
        have i1 := i.1.pieces
        have hu := hc.1 rfl h0
        show tok (sendStep c s) ≤ _
        omega
    · have hs := slow_step c s e he
      exact Nat.le_trans hs.tok (h (hs.closing hcl)).2

/-! ## Sizes -/

def most (c : Cfg) : Nat := max c.bufferSize c.firstSize

structure Sized (c : Cfg) (n : Nat) (s : St) : Prop where
  q0 : ∀ x ∈ s.q0, (x.getD []).length ≤ most c
  hb : ∀ b, s.hb = some b → b.length ≤ c.maxHeader
  heads : ∀ h ∈ s.heads, h.bytes ≤ c.maxHeader + max n (most c)
  recvs : ∀ x ∈ s.recvs, x.bytes ≤ max n (most c)

theorem Sized.congr {c : Cfg} {n : Nat} {s s' : St} (h : Sized c n s) (h1 : s'.q0 = s.q0) (h2 : s'.hb = s.hb) (h3 : s'.heads = s.heads) (h4 : s'.recvs = s.recvs) : Sized c n s' :=
  ⟨h1 ▸ h.q0, h2 ▸ h.hb, h3 ▸ h.heads, h4 ▸ h.recvs⟩

theorem sized_put0 {c : Cfg} {n : Nat} {s : St} {x : Item} (h : Sized c n s) (hx : (x.getD []).length ≤ most c) : Sized c n (put0 x s) := by
  refine ⟨fun y hy => ?_, h.hb, h.heads, h.recvs⟩
  simp only [put0, List.mem_append, List.mem_singleton] at hy
  rcases hy with hy | rfl
  · exact h.q0 y hy
  · exact hx

theorem sized_close {c : Cfg} {n : Nat} {s : St} (h : Sized c n s) : Sized c n (close s) := by
  unfold close; split <;> exact h.congr rfl rfl rfl rfl
theorem sized_setReq {c : Cfg} {n k : Nat} {f : Rq → Rq} {s : St} (h : Sized c n s) : Sized c n (setReq k f s) := by
  unfold setReq; split <;> exact h.congr rfl rfl rfl rfl

theorem sized_account {c : Cfg} {n m : Nat} {s : St} (h : Sized c n s) : Sized c n (account c m s) := by
  unfold account
  split
  · exact h
  · split
    · exact h
    · split
      · exact h.congr rfl rfl rfl rfl
      · dsimp only
        split
        · exact sized_put0 (h.congr rfl rfl rfl rfl) (Nat.zero_le _)
        · split
          · exact h.congr rfl rfl rfl rfl
          · unfold setReq
            split <;> exact h.congr rfl rfl rfl rfl

theorem sized_feed {c : Cfg} {n bs : Nat} {f : Feed} {s : St} (h : Sized c n s) (hb : bs ≤ most c) :
    Sized c n (feed c bs f s).1 ∧ ∀ g, (feed c bs f s).2 = some g → g.rest.length ≤ f.rest.length := by
  unfold feed
  split
  · exact ⟨sized_account h, fun g hg => (by cases hg)⟩
  · dsimp only
    have h1 : Sized c n (put0 (some (f.rest.take bs)) s) := sized_put0 h (by simp; omega)
    split
    · exact ⟨h1.congr rfl rfl rfl rfl, fun g hg => (by cases hg)⟩
    · refine ⟨h1, fun g hg => ?_⟩
      cases hg
      simp

theorem sized_headSet {c : Cfg} {n i : Nat} {x : HTask} {s s' : St} (h : Sized c n s) (hx : x.bytes ≤ c.maxHeader + max n (most c)) (h1 : s'.q0 = s.q0) (h2 : s'.hb = s.hb)
    (h3 : s'.heads = s.heads.set i x) (h4 : s'.recvs = s.recvs) : Sized c n s' := by
  refine ⟨h1 ▸ h.q0, h2 ▸ h.hb, fun y hy => ?_, h4 ▸ h.recvs⟩
  rw [h3] at hy
  rcases List.mem_or_eq_of_mem_set hy with hy | rfl
  · exact h.heads y hy
  · exact hx

theorem sized_recvSet {c : Cfg} {n i : Nat} {x : RTask} {s s' : St} (h : Sized c n s) (hx : x.bytes ≤ max n (most c)) (h1 : s'.q0 = s.q0) (h2 : s'.hb = s.hb)
    (h3 : s'.heads = s.heads) (h4 : s'.recvs = s.recvs.set i x) : Sized c n s' := by
  refine ⟨h1 ▸ h.q0, h2 ▸ h.hb, h3 ▸ h.heads, fun y hy => ?_⟩
  rw [h4] at hy
  rcases List.mem_or_eq_of_mem_set hy with hy | rfl
  · exact h.recvs y hy
  · exact hx

theorem sized_fed {c : Cfg} {n i k : Nat} {raw : Bytes} {f : Feed} {s : St} (h : Sized c n s) (hf : f.rest.length ≤ c.maxHeader + max n (most c)) :
    Sized c n (fed i k raw (feed c c.firstSize f s)) := by
  obtain ⟨h1, h2⟩ := sized_feed (f := f) h (show c.firstSize ≤ most c from Nat.le_max_right _ _)
  generalize feed c c.firstSize f s = p at *
  obtain ⟨a, _ | g⟩ := p
  · exact sized_headSet (x := .handling k) h1 (Nat.zero_le _) rfl rfl rfl rfl
  · exact sized_headSet (x := .feeding g k raw) h1 (Nat.le_trans (h2 g rfl) hf) rfl rfl rfl rfl

theorem sized_recvFed {c : Cfg} {n i : Nat} {f : Feed} {s : St} (h : Sized c n s) (hf : f.rest.length ≤ max n (most c)) :
    Sized c n (recvFed i (feed c c.bufferSize f s)) := by
  obtain ⟨h1, h2⟩ := sized_feed (f := f) h (show c.bufferSize ≤ most c from Nat.le_max_left _ _)
  generalize feed c c.bufferSize f s = p at *
  obtain ⟨a, _ | g⟩ := p
  · exact sized_recvSet (x := .done) h1 (Nat.zero_le _) rfl rfl rfl rfl
  · exact sized_recvSet (x := .feeding g) h1 (Nat.le_trans (h2 g rfl) hf) rfl rfl rfl rfl

theorem sized_head {c : Cfg} {n i : Nat} {s : St} (h : Sized c n s) : Sized c n (headStep c i s) := by
  unfold headStep
  split
  · rename_i data m hi
    have hd : data.length ≤ c.maxHeader + max n (most c) := h.heads _ (List.mem_of_getElem? hi)
    unfold startHead
    dsimp only
    split
    · exact sized_headSet (i := i) (x := .done) h (Nat.zero_le _) rfl rfl rfl rfl
    · exact sized_headSet (i := i) (x := .done) h (Nat.zero_le _) rfl rfl rfl rfl
    · split
      · exact sized_headSet (i := i) (x := .failing s.reqs.length) h (Nat.zero_le _) rfl rfl rfl rfl
      · exact sized_headSet (i := i) (x := .done) h (Nat.zero_le _) rfl rfl rfl rfl
    · rename_i r _
      have h1 : Sized c n (newReq r s) := h.congr rfl rfl rfl rfl
      have h2 : Sized c n (put0 (some []) (newReq r s)) := sized_put0 h1 (Nat.zero_le _)
      have hd' : (data.drop (m + 2)).length ≤ c.maxHeader + max n (most c) := by rw [List.length_drop]; omega
      split
      · split
        · exact sized_fed h1 hd'
        · exact sized_fed h2 hd'
      · split
        · exact sized_headSet (i := i) (x := .handling s.reqs.length) h1 (Nat.zero_le _) rfl rfl rfl rfl
        · exact sized_headSet (i := i) (x := .handling s.reqs.length) h2 (Nat.zero_le _) rfl rfl rfl rfl
  · rename_i f k raw hi
    exact sized_fed h (h.heads _ (List.mem_of_getElem? hi))
  · exact h

theorem sized_recv {c : Cfg} {n i : Nat} {s : St} (h : Sized c n s) : Sized c n (recvStep c i s) := by
  unfold recvStep
  split
  · rename_i d w hi
    split
    · exact sized_recvFed h (h.recvs _ (List.mem_of_getElem? hi))
    · exact h
  · rename_i f hi
    exact sized_recvFed h (h.recvs _ (List.mem_of_getElem? hi))
  · exact h

theorem sized_data {c : Cfg} {n : Nat} {d : Bytes} {s : St} (h : Sized c n s) (hd : d.length ≤ max n (most c)) (ho : (dataReceived c d s).closing = false) : Sized c n (dataReceived c d s) := by
  unfold dataReceived at ho ⊢
  have hcase : Model.Head.dataReceived c.maxHeader s.hb d = (s.hb, .wait) ∨ (s.hb = none ∧ Model.Head.dataReceived c.maxHeader s.hb d = (none, .body d)) ∨
      ∃ buf, s.hb = some buf ∧ ((∃ m, Model.Head.dataReceived c.maxHeader s.hb d = (none, .start (buf ++ d) m)) ∨ Model.Head.dataReceived c.maxHeader s.hb d = (some (buf ++ d), .abort) ∨
        (Model.Head.dataReceived c.maxHeader s.hb d = (some (buf ++ d), .wait) ∧ (buf ++ d).length ≤ c.maxHeader)) := by
    unfold Model.Head.dataReceived
    split
    · exact .inl rfl
    · right
      cases s.hb with
      | none => exact .inl ⟨rfl, rfl⟩
      | some buf =>
        refine .inr ⟨buf, rfl, ?_⟩
        dsimp only
        cases find CRLF2 (buf ++ d) <;> dsimp only
        all_goals
          split
          · exact .inl ⟨_, rfl⟩
          · split
            · exact .inr (.inl rfl)
            · split
              · exact .inr (.inl rfl)
              · rename_i h3
                exact .inr (.inr ⟨rfl, (Classical.not_not.1 h3).2⟩)
  rcases hcase with e | ⟨_, e⟩ | ⟨buf, hb, ⟨m, e⟩ | e | ⟨e, hl⟩⟩
  · rw [e]; exact h.congr rfl rfl rfl rfl
  · rw [e]
    refine ⟨h.q0, fun b hb => (by cases hb), h.heads, fun x hx => ?_⟩
    simp only [List.mem_append, List.mem_singleton] at hx
    rcases hx with hx | rfl
    · exact h.recvs x hx
    · exact hd
  · rw [e]
    refine ⟨h.q0, fun b hb => (by cases hb), fun x hx => ?_, h.recvs⟩
    simp only [List.mem_append, List.mem_singleton] at hx
    rcases hx with hx | rfl
    · exact h.heads x hx
    · have := h.hb _ hb
      show (buf ++ d).length ≤ _
      rw [List.length_append]; omega
  · rw [e] at ho; cases ho
  · rw [e]
    refine ⟨h.q0, fun b hb => ?_, h.heads, h.recvs⟩
    cases hb
    exact hl

theorem sized_drain {c : Cfg} {n : Nat} : ∀ (l : List Item) {s : St}, Sized c n s → (∀ x ∈ l, (x.getD []).length ≤ most c) → (drain c l s).closing = false → Sized c n (drain c l s)
  | [], _, h, _, _ => h
  | x :: l, s, h, hl, ho => by
    have e : drain c (x :: l) s = drain c l (dataReceived c (x.getD []) s) := rfl
    rw [e] at ho ⊢
    refine sized_drain l (sized_data h ?_ ((drain_same c l _).2.2.1 ho)) (fun y hy => hl y (List.mem_cons_of_mem _ hy)) ho
    exact Nat.le_trans (hl x List.mem_cons_self) (Nat.le_max_right _ _)

theorem sized_keep {c : Cfg} {n k : Nat} {r : Rq} {s : St} (h : Sized c n s) (ho : (handleKeepalive c k r s).closing = false) : Sized c n (handleKeepalive c k r s) := by
  have h0 : Sized c n { s with registered := s.registered || s.first } := h.congr rfl rfl rfl rfl
  unfold handleKeepalive at ho ⊢
  dsimp only at ho ⊢
  split at ho
  · rename_i e; rw [if_pos e]; exact sized_close h0
  · rename_i e
    rw [if_neg e]
    split at ho
    · rename_i e; rw [if_pos e]; exact (sized_setReq h0).congr rfl rfl rfl rfl
    · rename_i e
      rw [if_neg e]
      split at ho
      · rename_i e
        rw [if_pos e]
        split
        · exact h0.congr rfl rfl rfl rfl
        · exact (sized_close h0).congr rfl rfl rfl rfl
      · rename_i e
        rw [if_neg e]
        have h1 : Sized c n (reset k { s with registered := s.registered || s.first }) := by
          have := sized_setReq (k := k) (f := fun r => { r with bodySize := 0 }) h0
          exact ⟨this.q0, fun b hb => (by cases hb; exact Nat.zero_le _), this.heads, this.recvs⟩
        split at ho
        · rename_i e; rw [if_pos e]; exact h1.congr rfl rfl rfl rfl
        · rename_i e
          rw [if_neg e]
          exact (sized_drain _ (s := { (reset k { s with registered := s.registered || s.first }) with q0 := [] }) ⟨fun x hx => (by cases hx), h1.hb, h1.heads, h1.recvs⟩ h1.q0 ho).congr rfl rfl rfl rfl

theorem sized_send {c : Cfg} {n : Nat} {s : St} (h : Sized c n s) (ho : (sendStep c s).closing = false) : Sized c n (sendStep c s) := by
  unfold sendStep at ho ⊢
  split at ho
  · rename_i e; rw [if_pos e]; exact h
  · rename_i e
    rw [if_neg e]
    split at ho
    · exact h
    · rename_i x q hq
      have h0 : Sized c n { s with q1 := q, sent := s.sent ++ [x] } := h.congr rfl rfl rfl rfl
      cases x with
      | some b =>
        dsimp only
        split <;> exact h.congr rfl rfl rfl rfl
      | none =>
        dsimp only at ho ⊢
        unfold marker at ho ⊢
        dsimp only at ho ⊢
        split at ho
        · exact (sized_close h0).congr rfl rfl rfl rfl
        · split at ho
          · exact h0
          · split at ho
            · rename_i e
              rw [if_pos e]
              exact sized_keep h0 ho
            · rename_i e
              rw [if_neg e]
              exact (sized_close (sized_setReq h0)).congr rfl rfl rfl rfl

theorem sized_closeResponse {c : Cfg} {n k : Nat} {keep : Bool} {s : St} (h : Sized c n s) : Sized c n (closeResponse k keep s) := by
  unfold closeResponse
  split
  · exact h.congr rfl rfl rfl rfl
  · exact (sized_setReq h).congr rfl rfl rfl rfl

theorem sized_finish {c : Cfg} {n k : Nat} {s : St} (h : Sized c n s) : Sized c n (finish k s) := by
  refine ⟨h.q0, h.hb, fun x hx => ?_, h.recvs⟩
  simp only [finish, List.mem_map] at hx
  obtain ⟨y, hy, rfl⟩ := hx
  split
  · exact Nat.zero_le _
  · exact h.heads y hy

theorem sized_step {c : Cfg} {n : Nat} {s : St} {e : Ev} (h : Sized c n s) (he : ∀ d, e = .data d → d.length ≤ n) (ho : (step c s e).closing = false) : Sized c n (step c s e) := by
  cases e with
  | data d =>
    dsimp only [step] at ho ⊢
    split at ho
    · rename_i e
      rw [if_pos e]
      exact sized_data (h.congr rfl rfl rfl rfl) (Nat.le_trans (he d rfl) (Nat.le_max_left _ _)) ho
    · rename_i e; rw [if_neg e]; exact h
  | eof drop => cases ho
  | head i => exact sized_head h
  | recv i => exact sized_recv h
  | send => exact sized_send h ho
  | emit k b => exact h.congr rfl rfl rfl rfl
  | mark k keep => exact sized_closeResponse h
  | take k =>
    dsimp only [step]
    split
    · rename_i x q hq
      exact ⟨fun y hy => h.q0 y (by rw [hq]; exact List.mem_cons_of_mem _ hy), h.hb, h.heads, h.recvs⟩
    · exact h
  | upgrade k => exact sized_setReq h
  | clear k => exact sized_setReq h
  | finish k => exact sized_finish h
  | leave k keep =>
    dsimp only [step]
    split
    · exact sized_closeResponse (sized_finish h)
    · exact h
  | abort => cases ho
  | kick => exact h.congr rfl rfl rfl rfl

theorem open_step (c : Cfg) (s : St) (e : Ev) (ho : (step c s e).closing = false) : s.closing = false := by
  by_cases he : e = .send
  · subst he
    rcases send_cases c s with h | ⟨_, _, h, _⟩
    · exact h.closing ho
    · exact h ho
  · exact (slow_step c s e he).closing ho

theorem open_run (c : Cfg) : ∀ (es : List Ev) (s : St), (run c s es).closing = false → s.closing = false
  | [], _, h => h
  | e :: es, s, h => open_step c s e (open_run c es _ h)

theorem sized_run {c : Cfg} {n : Nat} : ∀ (es : List Ev) {s : St}, Sized c n s → Short n es → (run c s es).closing = false → Sized c n (run c s es)
  | [], _, h, _, _ => h
  | e :: es, s, h, hs, ho => sized_run es (sized_step h (fun d hd => hs d (hd ▸ List.mem_cons_self)) (open_run c es _ ho)) (fun d hd => hs d (List.mem_cons_of_mem _ hd)) ho

theorem sized_init (c : Cfg) (n : Nat) : Sized c n {} := ⟨fun x hx => (by cases hx), fun b hb => (by cases hb; exact Nat.zero_le _), fun x hx => (by cases hx), fun x hx => (by cases hx)⟩

theorem sum_le {α : Type} {f : α → Nat} {p : α → Bool} {m : Nat} : ∀ (l : List α), (∀ x ∈ l, f x ≤ m) → (∀ x, p x = false → f x = 0) → (l.map f).sum ≤ l.countP p * m
  | [], _, _ => by simp
  | x :: l, h, hp => by
    have ih := sum_le l (fun y hy => h y (List.mem_cons_of_mem _ hy)) hp
    rw [List.map_cons, List.sum_cons, List.countP_cons]
    cases hx : p x with
    | false => rw [hp x hx]; simp; exact ih
    | true =>
      have := h x List.mem_cons_self
      simp [Nat.succ_mul]; omega

theorem task_le {c : Cfg} {n : Nat} {s : St} (h : Sized c n s) : taskBytes s ≤ unqueued s * (c.maxHeader + max n (most c)) := by
  have h1 := sum_le (p := (·.busy)) s.heads h.heads (by intro x hx; cases x <;> first | rfl | cases hx)
  have h2 := sum_le (p := (·.busy)) (m := c.maxHeader + max n (most c)) s.recvs (fun x hx => Nat.le_trans (h.recvs x hx) (Nat.le_add_left _ _)) (by intro x hx; cases x <;> first | rfl | cases hx)
  unfold taskBytes unqueued
  rw [Nat.add_mul]
  exact Nat.add_le_add h1 h2

theorem queue_le {c : Cfg} {n : Nat} {s : St} (h : Sized c n s) : queueBytes s ≤ pieces s * most c :=
  sum_le s.q0 h.q0 (fun x hx => by simpa using hx)

theorem short_exists : ∀ es : List Ev, ∃ n, Short n es
  | [] => ⟨0, fun d hd => (by cases hd)⟩
  | e :: es => by
    obtain ⟨n, hn⟩ := short_exists es
    cases e with
    | data d =>
      refine ⟨max n d.length, fun x hx => ?_⟩
      rcases List.mem_cons.1 hx with hx | hx
      · cases hx; exact Nat.le_max_right _ _
      · exact Nat.le_trans (hn x hx) (Nat.le_max_left _ _)
    | _ =>
      refine ⟨n, fun x hx => ?_⟩
      rcases List.mem_cons.1 hx with hx | hx
      · cases hx
      · exact hn x hx

end Intake
open Intake

/-- **C97**: in every schedule, with any handlers and however fast the client sends: while the connection is open, at most
`max_queue_size` items of the receive queue carry bytes, each at most a buffer. -/
theorem C97_queue (c : Cfg) (es : List Ev) (ho : (run c {} es).closing = false) : pieces (run c {} es) ≤ c.maxQueue ∧
    ∀ x ∈ (run c {} es).q0, (x.getD []).length ≤ max c.bufferSize c.firstSize := by
  obtain ⟨n, hn⟩ := short_exists es
  exact ⟨(inv_run c es {} (fun _ => inv_init c) ho).pieces, (sized_run es (sized_init c n) hn ho).q0⟩

/-- **C97**: the segments that wait outside the queue. While no response of the connection has ended there is at most one, and none
while reading is on; each end of a response adds at most the items of a full queue and one more. -/
theorem C97_unqueued (c : Cfg) (es : List Ev) (ho : (run c {} es).closing = false) :
    unqueued (run c {} es) + (run c {} es).reading.toNat ≤ 1 + ends (run c {} es) * (c.maxQueue + 1) :=
  (inv_run c es {} (fun _ => inv_init c) ho).tok

/-- **C97** (partial: the send task takes the end of a response only when all that was received is queued): then there are never more
than the items of a full queue and one more, however many requests the connection serves. -/
theorem C97_calm_partial (c : Cfg) (es : List Ev) (hc : Calm c {} es) (ho : (run c {} es).closing = false) :
    unqueued (run c {} es) + (run c {} es).reading.toNat ≤ c.maxQueue + 1 :=
  calm_run c es {} (fun _ => ⟨inv_init c, by show 1 ≤ _; omega⟩) hc ho

namespace Intake
theorem bytes_le {c : Cfg} {n u : Nat} {s : St} (h : Sized c n s) (hp : pieces s ≤ c.maxQueue) (hu : unqueued s ≤ u) :
    bytes s ≤ u * (c.maxHeader + max n (most c)) + c.maxQueue * most c + c.maxHeader := by
  have h1 := Nat.le_trans (task_le h) (Nat.mul_le_mul_right _ hu)
  have h2 := Nat.le_trans (queue_le h) (Nat.mul_le_mul_right _ hp)
  have h3 : (s.hb.getD []).length ≤ c.maxHeader := by
    cases hb : s.hb with
    | none => exact Nat.zero_le _
    | some b => exact h.hb b hb
  unfold bytes
  omega
end Intake

/-- **C97** (partial: as above): the bytes a connection holds of what its client has sent are bounded by its settings and the size of a segment. -/
theorem C97_bytes_partial (c : Cfg) (es : List Ev) {n : Nat} (hn : Short n es) (hc : Calm c {} es) (ho : (run c {} es).closing = false) :
    bytes (run c {} es) ≤ (c.maxQueue + 1) * (c.maxHeader + max n (max c.bufferSize c.firstSize)) + c.maxQueue * max c.bufferSize c.firstSize + c.maxHeader :=
  bytes_le (sized_run es (sized_init c n) hn ho) (C97_queue c es ho).1 (Nat.le_trans (Nat.le_add_right _ _) (C97_calm_partial c es hc ho))

/-- **C97**: the same without any assumption, for a connection's first exchange: one segment, one queue and one head. -/
theorem C97_first (c : Cfg) (es : List Ev) {n : Nat} (hn : Short n es) (he : none ∉ (run c {} es).sent) (ho : (run c {} es).closing = false) :
    bytes (run c {} es) ≤ c.maxHeader + max n (max c.bufferSize c.firstSize) + c.maxQueue * max c.bufferSize c.firstSize + c.maxHeader := by
  have h := C97_unqueued c es ho
  have : ends (run c {} es) = 0 := List.count_eq_zero.2 he
  rw [this] at h
  have := bytes_le (u := 1) (sized_run es (sized_init c n) hn ho) (C97_queue c es ho).1 (by omega)
  rw [Nat.one_mul] at this
  exact this

namespace Intake
open Verif.Model.Head Verif.Model.HttpParser

def H : Bytes := b!"POST / HTTP/1.1\r\nHost: h\r\nContent-Length: 100000\r\n\r\n"
def B : Bytes := List.replicate 20000 120

/-- A request whose handler reads one piece of the body and returns; the rest of its second segment still waits to be queued. -/
def cycle (n : Nat) : List Ev := [.data H, .head n, .data B, .recv n, .take n, .leave n true, .send]

def cycles : Nat → List Ev
  | 0 => []
  | n + 1 => cycles n ++ cycle n

structure Cyc (n : Nat) (s : St) : Prop where
  hb : s.hb = some []
  reading : s.reading = true
  closing : s.closing = false
  q0 : s.q0 = []
  q1 : s.q1 = []
  heads : s.heads.length = n
  recvs : s.recvs.length = n
  reqs : s.reqs.length = n
  gen : s.gen = n
  futs : s.futDone.length = n + 1
  first : (s.first || s.gen > 0) = true
  receive : s.receive = none
  reg : (s.registered || s.first) = true
  send : s.sendDone = false
  running : s.running = []
  noWrite : s.noWrite = false
  bytes : n * 3616 ≤ taskBytes s

def N : Nat := 50

theorem headH : Model.Head.dataReceived 8192 (some []) H = (none, .start H N) := by decide +kernel

theorem acceptH : ∃ r, acceptData H N = .ok r ∧ r.hasBody = true ∧ hmem r.headers b!"content-length" = true ∧ r.contentLength = 100000 ∧ r.httpKeepalive = true ∧ r.httpContinue = false := by
  have h : (match acceptData H N with
    | .ok r => r.hasBody && hmem r.headers b!"content-length" && r.contentLength == 100000 && r.httpKeepalive && !r.httpContinue
    | .error _ => false) = true := by decide +kernel
  cases hA : acceptData H N with
  | error e => rw [hA] at h; cases h
  | ok r =>
    rw [hA] at h
    simp only [Bool.and_eq_true, beq_iff_eq, Bool.not_eq_true'] at h
    exact ⟨r, rfl, h.1.1.1.1, h.1.1.1.2, h.1.1.2, h.1.2, h.2⟩

theorem lenH : H.length = 52 := by decide
theorem lenB : B.length = 20000 := List.length_replicate

theorem cyc_step {n : Nat} {s : St} (h : Cyc n s) : Cyc (n + 1) (run {} s (cycle n)) := by
  obtain ⟨r, r1, r2, r3, r4, r5, r6⟩ := acceptH
  have e1 : step {} s (.data H) = { s with rx := s.rx ++ H, hb := none, reading := false, heads := s.heads ++ [.new H N] } := by
    simp only [step, h.reading, h.closing, Bool.not_false, Bool.and_self, if_true]
    unfold Model.Conn.dataReceived
    dsimp only
    rw [h.hb, headH]
  have e2 : step {} { s with rx := s.rx ++ H, hb := none, reading := false, heads := s.heads ++ [.new H N] } (.head n) =
      { s with rx := s.rx ++ H, hb := none, reading := true, heads := s.heads ++ [.handling n], reqs := s.reqs ++ [{ req := r }], cur := some n,
               futDone := s.futDone.set n true, running := [n], log := s.log ++ [.head n H] } := by
    have hd : H.drop (N + 2) = [] := by decide
    have ht : H.take (N + 2) = H := by decide
    have hn : (s.heads ++ [HTask.new H N])[n]? = some (.new H N) := by rw [← h.heads]; simp
    have hq : (s.reqs ++ [({ req := r } : Rq)])[n]? = some { req := r } := by rw [← h.reqs]; simp
    have hs1 : (s.reqs ++ [({ req := r } : Rq)]).set n { req := r } = s.reqs ++ [{ req := r }] := by rw [← h.reqs]; simp
    have hs2 : (s.heads ++ [HTask.new H N]).set n (.handling n) = s.heads ++ [.handling n] := by rw [← h.heads]; simp
    have hf := h.first
    rw [h.gen] at hf
    simp only [step, headStep, hn]
    unfold startHead
    simp only [r1, r2, newReq, hd, ht, h.reqs, true_or, if_true, feed, account, List.length_nil, hq, Nat.add_zero, r3, r4, hs1, true_and]
    simp only [show ¬ ((100000 : Int) ≤ ((0 : Nat) : Int)) from by decide, if_false, show (0 : Nat) < 2097152 from by decide, if_true, fed, begin, h.running, h.gen]
    simp
    exact ⟨hs2, fun a b => (by simp [a, b] at hf)⟩
  have hB : B ≠ [] := by intro e; have := lenB; rw [e] at this; cases this
  have e3 : step {} { s with rx := s.rx ++ H, hb := none, reading := true, heads := s.heads ++ [.handling n], reqs := s.reqs ++ [{ req := r }], cur := some n, futDone := s.futDone.set n true, running := [n], log := s.log ++ [.head n H] } (.data B) =
      { s with rx := s.rx ++ H ++ B, hb := none, reading := false, heads := s.heads ++ [.handling n], reqs := s.reqs ++ [{ req := r }], cur := some n, futDone := s.futDone.set n true, running := [n], log := s.log ++ [.head n H], recvs := s.recvs ++ [.waiting B (.fut n)], receive := some (.task n) } := by
    simp only [step, h.closing, Bool.not_false, Bool.and_self, if_true]
    unfold Model.Conn.dataReceived
    dsimp only
    rw [show Model.Head.dataReceived 8192 none B = (none, .body B) from by unfold Model.Head.dataReceived; rw [if_neg hB]]
    simp [h.receive, h.gen, h.recvs]
  have e4 : step {} { s with rx := s.rx ++ H ++ B, hb := none, reading := false, heads := s.heads ++ [.handling n], reqs := s.reqs ++ [{ req := r }], cur := some n, futDone := s.futDone.set n true, running := [n], log := s.log ++ [.head n H], recvs := s.recvs ++ [.waiting B (.fut n)], receive := some (.task n) } (.recv n) =
      { s with rx := s.rx ++ H ++ B, hb := none, reading := false, heads := s.heads ++ [.handling n], reqs := s.reqs ++ [{ req := r }], cur := some n, futDone := s.futDone.set n true, running := [n], log := s.log ++ [.head n H], recvs := s.recvs ++ [.feeding { rest := B.drop 16384, size := B.length }], receive := some (.task n), q0 := [some (B.take 16384)] } := by
    have hn : (s.recvs ++ [RTask.waiting B (.fut n)])[n]? = some (.waiting B (.fut n)) := by rw [← h.recvs]; simp
    have hs2 : (s.recvs ++ [RTask.waiting B (.fut n)]).set n (.feeding { rest := B.drop 16384, size := B.length }) = s.recvs ++ [.feeding { rest := B.drop 16384, size := B.length }] := by
      rw [← h.recvs]; simp
    have hf : (s.futDone.set n true)[n]? = some true := by rw [List.getElem?_set_self (by have := h.futs; omega)]
    simp only [step, recvStep, hn, waited, hf, feed, hB, if_false, put0, h.q0, recvFed]
    simp
    exact hs2
  have e5 : step {} { s with rx := s.rx ++ H ++ B, hb := none, reading := false, heads := s.heads ++ [.handling n], reqs := s.reqs ++ [{ req := r }], cur := some n, futDone := s.futDone.set n true, running := [n], log := s.log ++ [.head n H], recvs := s.recvs ++ [.feeding { rest := B.drop 16384, size := B.length }], receive := some (.task n), q0 := [some (B.take 16384)] } (.take n) =
      { s with rx := s.rx ++ H ++ B, hb := none, reading := false, heads := s.heads ++ [.handling n], reqs := s.reqs ++ [{ req := r }], cur := some n, futDone := s.futDone.set n true, running := [n], log := s.log ++ [.head n H] ++ [.body n (some (B.take 16384))], recvs := s.recvs ++ [.feeding { rest := B.drop 16384, size := B.length }], receive := some (.task n), q0 := [] } := rfl
  have e6 : step {} { s with rx := s.rx ++ H ++ B, hb := none, reading := false, heads := s.heads ++ [.handling n], reqs := s.reqs ++ [{ req := r }], cur := some n, futDone := s.futDone.set n true, running := [n], log := s.log ++ [.head n H] ++ [.body n (some (B.take 16384))], recvs := s.recvs ++ [.feeding { rest := B.drop 16384, size := B.length }], receive := some (.task n), q0 := [] } (.leave n true) =
      { s with rx := s.rx ++ H ++ B, hb := none, reading := false, heads := (s.heads ++ [HTask.handling n]).map (fun h => if h = HTask.failing n then HTask.done else h), reqs := s.reqs ++ [{ req := r }], cur := some n, futDone := s.futDone.set n true, running := [], log := s.log ++ [.head n H] ++ [.body n (some (B.take 16384))], recvs := s.recvs ++ [.feeding { rest := B.drop 16384, size := B.length }], receive := some (.task n), q0 := [], q1 := [none], queued := s.queued ++ [none] } := by
    have ha : active n { s with rx := s.rx ++ H ++ B, hb := none, reading := false, heads := s.heads ++ [.handling n], reqs := s.reqs ++ [{ req := r }], cur := some n, futDone := s.futDone.set n true, running := [n], log := s.log ++ [.head n H] ++ [.body n (some (B.take 16384))], recvs := s.recvs ++ [.feeding { rest := B.drop 16384, size := B.length }], receive := some (.task n), q0 := [] } = true := by simp [active]
    simp only [step]
    rw [if_pos ha]
    simp [closeResponse, put1, Model.Conn.finish, h.q1]
  have e7 : ∃ s', step {} { s with rx := s.rx ++ H ++ B, hb := none, reading := false, heads := (s.heads ++ [HTask.handling n]).map (fun h => if h = HTask.failing n then HTask.done else h), reqs := s.reqs ++ [{ req := r }], cur := some n, futDone := s.futDone.set n true, running := [], log := s.log ++ [.head n H] ++ [.body n (some (B.take 16384))], recvs := s.recvs ++ [.feeding { rest := B.drop 16384, size := B.length }], receive := some (.task n), q0 := [], q1 := [none], queued := s.queued ++ [none] } .send = s' ∧ Cyc (n + 1) s' := by
    refine ⟨_, rfl, ?_⟩
    have hq : (s.reqs ++ [({ req := r } : Rq)])[n]? = some { req := r } := by rw [← h.reqs]; simp
    have hb : taskBytes s + 3616 = ((((s.heads ++ [HTask.handling n]).map (fun h => if h = .failing n then .done else h)).map (·.bytes)).sum + ((s.recvs ++ [RTask.feeding { rest := B.drop 16384, size := B.length }]).map (·.bytes)).sum) := by
      have hm : ((s.heads ++ [HTask.handling n]).map (fun h => if h = .failing n then .done else h)).map (·.bytes) = s.heads.map (·.bytes) ++ [0] := by
        rw [List.map_map, List.map_append]
        congr 1
        refine List.map_congr_left (fun x _ => ?_)
        simp only [Function.comp]
        split
        · rename_i e; rw [e]; rfl
        · rfl
      rw [hm]
      simp [taskBytes, RTask.bytes, lenB]
      omega
    simp only [step, sendStep, h.send, marker, hq, r5, handleKeepalive, h.reg, r6, r2, reset, setReq]
    simp
    have hbt := h.bytes
    exact ⟨rfl, rfl, h.closing, rfl, rfl, by simp [h.heads], by simp [h.recvs], by simp [h.reqs], by simp [h.gen], by simp [h.futs], by simp, rfl, rfl, by first | rfl | exact h.send, rfl, h.noWrite, by
        rw [Nat.succ_mul]
        refine Nat.le_trans (Nat.add_le_add_right hbt _) (Nat.le_of_eq ?_)
        rw [hb]
        simp [taskBytes]⟩
  obtain ⟨s', e7, h7⟩ := e7
  have : run {} s (cycle n) = s' := by
    simp only [run, cycle, List.foldl_cons, List.foldl_nil]
    rw [e1, e2, e3, e4, e5, e6, e7]
  rw [this]; exact h7

theorem run_append (c : Cfg) (s : St) (a b : List Ev) : run c s (a ++ b) = run c (run c s a) b := List.foldl_append

theorem cyc_run : ∀ n, Cyc n (run {} {} (cycles n))
  | 0 => ⟨rfl, rfl, rfl, rfl, rfl, rfl, rfl, rfl, rfl, rfl, rfl, rfl, rfl, rfl, rfl, rfl, Nat.zero_le _⟩
  | n + 1 => by rw [cycles, run_append]; exact cyc_step (cyc_run n)

end Intake

/-- **C97** refuted without the assumption: handlers that return before their bodies have arrived. Each end of a response turns reading on
although a segment still waits to be queued; so, with the default settings and segments of 20000 bytes, a connection that stays open
can hold any number of bytes. -/
theorem C97_refuted_early (m : Nat) : ∃ es : List Ev, Short 20000 es ∧ (run {} {} es).closing = false ∧ m ≤ bytes (run {} {} es) := by
  refine ⟨cycles m, ?_, (cyc_run m).closing, ?_⟩
  · suffices h : ∀ n, Short 20000 (cycles n) from h m
    intro n
    induction n with
    | zero => intro d hd; cases hd
    | succ n ih =>
      intro d hd
      rw [cycles] at hd
      rcases List.mem_append.1 hd with hd | hd
      · exact ih d hd
      · simp only [cycle, List.mem_cons, List.not_mem_nil, Ev.data.injEq, or_false, reduceCtorEq, false_or] at hd
        rcases hd with rfl | rfl
        · rw [lenH]; decide
        · rw [lenB]; decide
  · have := (cyc_run m).bytes
    unfold bytes
    omega

namespace Intake
def P : Bytes := b!"POST / HTTP/1.1\r\nHost: h\r\nContent-Length: 6\r\n\r\n"
def run1 : List Ev := [.data P, .head 0, .data b!"abc", .data b!"lost?", .recv 0]
def run2 : List Ev := run1 ++ [.recv 0, .data b!"def", .recv 1, .recv 1, .take 0, .take 0, .take 0, .emit 0 b!"ok", .leave 0 true, .send, .send, .data P, .head 1]
end Intake

/-! Cases of the hypotheses: a first exchange in which a segment waits and reading is off; two exchanges that are calm. -/
example : (run {} {} run1).closing = false ∧ none ∉ (run {} {} run1).sent ∧ unqueued (run {} {} run1) = 1 ∧ pieces (run {} {} run1) = 1 ∧ (run {} {} run1).reading = false ∧
    (run {} {} run1).rx = P ++ b!"abc" := by decide +kernel
example : (run {} {} run2).closing = false ∧ ends (run {} {} run2) = 1 ∧ (run {} {} run2).started.length = 2 ∧ (run {} {} run2).reading = true := by decide +kernel
example : Calm {} {} run2 := by decide +kernel

end Verif
