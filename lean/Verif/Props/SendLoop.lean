import Verif.Model.SendLoop
/-!
# C82, C83: writing responses to a slow client
-/
namespace Verif
open Verif.Py Model.SendLoop

namespace SendLoop

theorem run_append (c : Cfg) (s : St) (a b : List Ev) : run c s (a ++ b) = run c (run c s a) b := by simp [run]
theorem run_snoc (c : Cfg) (s : St) (es : List Ev) (e : Ev) : run c s (es ++ [e]) = step c (run c s es) e := by simp [run]
theorem run_cons (c : Cfg) (s : St) (e : Ev) (es : List Ev) : run c s (e :: es) = run c (step c s e) es := rfl

/-- The bytes of some items. -/
def text (xs : List Item) : Bytes := xs.flatMap Item.data

/-- What `maybeResume` and `control` leave alone. -/
structure Same (s t : St) : Prop where
  q : t.q = s.q
  hand : t.hand = s.hand
  waits : t.waits = s.waits
  high : t.high = s.high
  th : t.th = s.th
  tl : t.tl = s.tl
  buf : t.buf = s.buf
  out : t.out = s.out
  mode : t.mode = s.mode
  done : t.done = s.done
  now : t.now = s.now
  puts : t.puts = s.puts
  expiries : t.expiries = s.expiries

theorem Same.rfl' (s : St) : Same s s := by constructor <;> rfl

theorem resume_same (s : St) : Same s (maybeResume s) := by
  unfold maybeResume; split <;> constructor <;> rfl

theorem control_same (c : Cfg) (s : St) : Same s (flowControl c s) := by
  unfold flowControl
  split
  · split
    · constructor <;> rfl
    · exact resume_same s
  · split <;> constructor <;> rfl

/-! ### C82: order -/

structure Ord (s : St) (taken : List Item) : Prop where
  split : s.puts = taken ++ s.q
  live : s.mode ≠ .dead → s.out ++ s.buf ++ s.hand.getD [] = text taken
  pre : s.out <+: text taken
  empty : s.mode = .dead → s.buf = []

theorem Ord.same {s t : St} {k} (h : Ord s k) (m : Same s t) : Ord t k :=
  ⟨by rw [m.puts, m.q]; exact h.split, by rw [m.mode, m.out, m.buf, m.hand]; exact h.live, by rw [m.out]; exact h.pre, by rw [m.mode, m.buf]; exact h.empty⟩

theorem pre_of {a b t : Bytes} (h : a ++ b = t) : a <+: t := ⟨b, h⟩

/-- Writing `b`, when all bytes before it are written. -/
theorem ord_write (c : Cfg) (n : Nat) (b : Bytes) {s : St} {k : List Item} (hs : s.puts = k ++ s.q) (hh : s.hand = none)
    (hl : s.mode ≠ .dead → s.out ++ s.buf ++ b = text k) (hp : s.out <+: text k) (he : s.mode = .dead → s.buf = []) : Ord (write c n b s) k := by
  unfold write
  split
  · next h =>
    refine ⟨hs, fun hm => ?_, hp, he⟩
    rcases h with h | h
    · exact absurd h hm
    · subst h; rw [hh]; exact hl hm
  next h =>
  have hm : s.mode ≠ .dead := fun e => h (.inl e)
  split
  · next hb =>
    have e := hl hm
    rw [hb, List.append_nil] at e
    split
    · refine ⟨hs, fun _ => ?_, ?_, he⟩
      · show s.out ++ b ++ s.buf ++ s.hand.getD [] = _
        rw [hb, hh]; simpa using e
      · exact ⟨[], by simpa using e⟩
    · refine Ord.same (s := { s with out := s.out ++ b.take n, buf := b.drop n }) ⟨hs, fun _ => ?_, ?_, fun e => absurd e hm⟩ (control_same c _)
      · show s.out ++ b.take n ++ b.drop n ++ s.hand.getD [] = _
        rw [hh, List.append_assoc s.out, List.take_append_drop]; simpa using e
      · exact ⟨b.drop n, by rw [List.append_assoc, List.take_append_drop]; exact e⟩
  · refine Ord.same (s := { s with buf := s.buf ++ b }) ⟨hs, fun _ => ?_, hp, fun e => absurd e hm⟩ (control_same c _)
    show s.out ++ (s.buf ++ b) ++ s.hand.getD [] = _
    rw [hh, ← List.append_assoc]; simpa using hl hm

theorem text_snoc (k : List Item) (x : Item) : text (k ++ [x]) = text k ++ x.data := by simp [text]

/-- `hand` and `wait` go together. -/
def Held (s : St) : Prop := s.hand = none → s.wait = .none

theorem held_resume {s : St} (h : Held s) : Held (maybeResume s) := by
  intro e
  have := h (by rw [← (resume_same s).hand]; exact e)
  unfold maybeResume; split
  · show wake s.wait = _; rw [this]; rfl
  · exact this

theorem held_control (c : Cfg) {s : St} (h : Held s) : Held (flowControl c s) := by
  unfold flowControl
  split
  · split
    · exact h
    · exact held_resume h
  · split <;> exact h

theorem held_write (c : Cfg) (n : Nat) (b : Bytes) {s : St} (h : Held s) : Held (write c n b s) := by
  unfold write
  split
  · exact h
  split
  · split
    · exact h
    · exact held_control c (s := { s with out := _, buf := _ }) h
  · exact held_control c (s := { s with buf := _ }) h

theorem held_step (c : Cfg) {s : St} (h : Held s) (e : Ev) : Held (step c s e) := by
  cases e with
  | put x => exact h
  | marks a l =>
    simp only [step, setMarks]; split
    · exact held_control c (s := { s with high := _, th := _, tl := _ }) h
    · exact h
  | send n =>
    simp only [step, send]; split
    · exact h
    · split
      · next b hb =>
        split
        · exact held_write c n b (s := { s with hand := none, wait := .none }) (fun _ => rfl)
        · exact fun _ => rfl
        · exact h
      · next hn =>
        split
        · exact h
        · split
          · exact h
          · exact h
        · split
          · exact fun e => by cases e
          · exact held_write c n _ (s := { s with q := _ }) h
  | drain n =>
    simp only [step]; split
    · exact h
    · exact held_resume (s := { s with out := _, buf := _ }) h
  | tick => exact h
  | timer =>
    simp only [step]; split
    · next t ht =>
      split
      · intro e; have := h e; rw [ht] at this; cases this
      · exact h
    · exact h
  | abort => exact h
  | lost => exact h

theorem ord_step (c : Cfg) {s : St} {k : List Item} (h : Ord s k) (e : Ev) : ∃ k', Ord (step c s e) k' := by
  cases e with
  | put x => exact ⟨k, by show s.puts ++ [x] = k ++ (s.q ++ [x]); rw [h.split, List.append_assoc], h.live, h.pre, h.empty⟩
  | marks a l =>
    refine ⟨k, ?_⟩
    simp only [step, setMarks]; split
    · exact Ord.same (s := { s with high := a, th := a, tl := l.getD (a / 4) }) ⟨h.split, h.live, h.pre, h.empty⟩ (control_same c _)
    · exact ⟨h.split, h.live, h.pre, h.empty⟩
  | send n =>
    simp only [step, send]; split
    · exact ⟨k, h⟩
    split
    · next b hb =>
      split
      · refine ⟨k, ord_write c n b (s := { s with hand := none, wait := .none }) h.split rfl (fun hm => ?_) h.pre h.empty⟩
        have := h.live hm; rw [hb] at this; exact this
      · exact ⟨k, h.split, fun hm => absurd rfl hm, h.pre, fun _ => rfl⟩
      · exact ⟨k, h⟩
    · next hn =>
      split
      · exact ⟨k, h⟩
      · next keep q hq =>
        have hs : s.puts = (k ++ [.fin keep]) ++ q := by rw [h.split, hq]; simp
        have ht : text (k ++ [.fin keep]) = text k := by rw [text_snoc]; simp [Item.data]
        refine ⟨k ++ [.fin keep], ?_⟩
        split
        · exact ⟨hs, by rw [ht]; exact h.live, by rw [ht]; exact h.pre, h.empty⟩
        · have hd : (if s.mode = .alive then Mode.closing else s.mode) = .dead ↔ s.mode = .dead := by cases s.mode <;> decide
          exact ⟨hs, fun hm => by rw [ht]; exact h.live fun e => hm (hd.2 e), by rw [ht]; exact h.pre, fun e => h.empty (hd.1 e)⟩
      · next b q hq =>
        have hs : s.puts = (k ++ [.bytes b]) ++ q := by rw [h.split, hq]; simp
        have ht : text (k ++ [.bytes b]) = text k ++ b := by rw [text_snoc]; rfl
        have hl : s.mode ≠ .dead → s.out ++ s.buf ++ b = text (k ++ [.bytes b]) := by
          intro hm; have := h.live hm; rw [hn] at this; rw [ht, ← this]; simp
        have hp : s.out <+: text (k ++ [.bytes b]) := by rw [ht]; exact h.pre.trans ⟨b, rfl⟩
        refine ⟨k ++ [.bytes b], ?_⟩
        split
        · exact ⟨hs, hl, hp, h.empty⟩
        · exact ord_write c n b (s := { s with q := q }) hs hn hl hp h.empty
  | drain n =>
    refine ⟨k, ?_⟩
    simp only [step]; split
    · exact h
    · next hb =>
      refine Ord.same (s := { s with out := s.out ++ s.buf.take n, buf := s.buf.drop n }) ⟨h.split, fun hm => ?_, ?_, fun e => absurd (h.empty e) hb⟩ (resume_same _)
      · show s.out ++ s.buf.take n ++ s.buf.drop n ++ _ = _
        rw [List.append_assoc s.out, List.take_append_drop]; exact h.live hm
      · refine (List.prefix_append _ (s.buf.drop n ++ s.hand.getD [])).trans ?_
        have := h.live fun e => hb (h.empty e)
        rw [← this]
        show s.out ++ s.buf.take n ++ (s.buf.drop n ++ s.hand.getD []) <+: _
        rw [← List.append_assoc, List.append_assoc s.out, List.take_append_drop]
        exact List.prefix_rfl
  | tick => exact ⟨k, h.split, h.live, h.pre, h.empty⟩
  | timer =>
    refine ⟨k, ?_⟩
    simp only [step]; split
    · split
      · exact ⟨h.split, h.live, h.pre, h.empty⟩
      · exact h
    · exact h
  | abort => exact ⟨k, h.split, fun hm => absurd rfl hm, h.pre, fun _ => rfl⟩
  | lost => exact ⟨k, h.split, fun hm => absurd rfl hm, h.pre, fun _ => rfl⟩


theorem ord_run (c : Cfg) (es : List Ev) : ∃ k, Ord (run c (init c) es) k := by
  induction es using snocInd with
  | h0 => exact ⟨[], rfl, fun _ => rfl, List.prefix_rfl, fun _ => rfl⟩
  | h1 es e ih => obtain ⟨k, h⟩ := ih; rw [run_snoc]; exact ord_step c h e

/-! ### C82: the size of the buffer -/

structure Bd (H M : Nat) (s : St) : Prop where
  high : s.high ≤ H
  tl : s.tl ≤ H
  q : ∀ x ∈ s.q, x.data.length ≤ M
  hand : ∀ b, s.hand = some b → b.length ≤ M
  woken : s.wait = .woken → s.buf.length ≤ H
  buf : s.buf.length ≤ H + M

theorem bd_resume {H M : Nat} {s : St} (h : Bd H M s) : Bd H M (maybeResume s) := by
  unfold maybeResume; split
  · next hc => exact { h with woken := fun _ => Nat.le_trans hc.2 h.tl }
  · exact h

theorem bd_control (c : Cfg) {H M : Nat} {s : St} (h : Bd H M s) : Bd H M (flowControl c s) := by
  unfold flowControl
  split
  · split
    · exact { h with }
    · exact bd_resume h
  · split
    · exact { h with }
    · exact h

theorem bd_write (c : Cfg) (n : Nat) (b : Bytes) {H M : Nat} {s : St} (h : Bd H M s) (hb : b.length ≤ M) (hs : s.buf.length ≤ H)
    (hw : s.wait ≠ .woken) : Bd H M (write c n b s) := by
  unfold write
  split
  · exact h
  split
  · split
    · exact { h with }
    · refine bd_control c (s := { s with out := s.out ++ b.take n, buf := b.drop n }) { h with woken := fun e => absurd e hw, buf := ?_ }
      show (b.drop n).length ≤ _
      rw [List.length_drop]; omega
  · refine bd_control c (s := { s with buf := s.buf ++ b }) { h with woken := fun e => absurd e hw, buf := ?_ }
    show (s.buf ++ b).length ≤ _
    rw [List.length_append]; omega

theorem bd_kill {H M : Nat} {s : St} (h : Bd H M s) : Bd H M (kill s) := { h with woken := fun _ => Nat.zero_le _, buf := Nat.zero_le _ }

/-- The events keep to the limits. -/
def Within (H M : Nat) : Ev → Prop
  | .put x => x.data.length ≤ M
  | .marks h _ => h ≤ H
  | _ => True

theorem bd_step (c : Cfg) {H M : Nat} {s : St} (h : Bd H M s) (hh : Held s) {e : Ev} (he : Within H M e) : Bd H M (step c s e) := by
  cases e with
  | put x =>
    refine { h with q := fun y hy => ?_ }
    rcases List.mem_append.1 hy with hy | hy
    · exact h.q y hy
    · rw [List.mem_singleton.1 hy]; exact he
  | marks a l =>
    simp only [step, setMarks]; split
    · next hl =>
      exact bd_control c (s := { s with high := a, th := a, tl := l.getD (a / 4) }) { h with high := he, tl := Nat.le_trans hl he }
    · exact { h with high := he }
  | send n =>
    simp only [step, send]; split
    · exact h
    split
    · next b hb =>
      split
      · next hw =>
        exact bd_write c n b (s := { s with hand := none, wait := .none })
          { h with hand := fun x hx => (by cases hx), woken := fun e => (by cases e) } (h.hand b hb) (h.woken hw) (fun e => by cases e)
      · exact { bd_kill h with hand := fun x hx => (by cases hx), woken := fun e => (by cases e) }
      · exact h
    · next hn =>
      have hw : s.wait ≠ .woken := by rw [hh hn]; exact fun e => by cases e
      split
      · exact h
      · next keep q hq =>
        have : ∀ x ∈ q, x.data.length ≤ M := fun x hx => h.q x (by rw [hq]; exact List.mem_cons_of_mem _ hx)
        split
        · exact { h with q := this }
        · exact { h with q := this }
      · next b q hq =>
        have this : ∀ x ∈ q, x.data.length ≤ M := fun x hx => h.q x (by rw [hq]; exact List.mem_cons_of_mem _ hx)
        have hb : b.length ≤ M := h.q (.bytes b) (by rw [hq]; exact List.mem_cons_self)
        split
        · exact { h with q := this, hand := fun x hx => (by cases hx; exact hb), woken := fun e => (by cases e) }
        · next hc => exact bd_write c n b (s := { s with q := q }) { h with q := this } hb (by have := h.high; show s.buf.length ≤ H; omega) hw
  | drain n =>
    simp only [step]; split
    · exact h
    · refine bd_resume (s := { s with out := s.out ++ s.buf.take n, buf := s.buf.drop n }) { h with woken := fun e => ?_, buf := ?_ }
      · have := h.woken e; show (s.buf.drop n).length ≤ H; rw [List.length_drop]; omega
      · have := h.buf; show (s.buf.drop n).length ≤ H + M; rw [List.length_drop]; omega
  | tick => exact { h with }
  | timer =>
    simp only [step]; split
    · split
      · exact { h with woken := fun e => (by cases e) }
      · exact h
    · exact h
  | abort => exact bd_kill h
  | lost => exact { bd_kill h with }

theorem held_run (c : Cfg) (es : List Ev) : Held (run c (init c) es) := by
  induction es using snocInd with
  | h0 => exact fun _ => rfl
  | h1 es e ih => rw [run_snoc]; exact held_step c ih e

theorem bd_run (c : Cfg) {H M : Nat} (hH : 65536 ≤ H) (hl : c.low0 ≤ H) (es : List Ev) (he : ∀ e ∈ es, Within H M e) : Bd H M (run c (init c) es) := by
  induction es using snocInd with
  | h0 => exact ⟨hH, hl, fun x hx => (by cases hx), fun b hb => (by cases hb), fun e => (by cases e), Nat.zero_le _⟩
  | h1 es e ih =>
    rw [run_snoc]
    exact bd_step c (ih fun x hx => he x (List.mem_append_left _ hx)) (held_run c es) (he e (by simp))

/-! ### C83: waking -/

/-- The transport pauses no later than `_send_data` waits, so that every wait is ended by `resume_writing`. -/
structure Good (s : St) : Prop where
  le : s.th ≤ s.high
  lo : s.tl ≤ s.th
  full : s.th < s.buf.length → s.paused = true
  wait : ∀ t, s.wait = .pending t → s.mode ≠ .dead → s.paused = true ∧ s.buf ≠ []

theorem good_resume {s : St} (h : s.th ≤ s.high) (hl : s.tl ≤ s.th) (hf : s.th < s.buf.length → s.paused = true)
    (hw : ∀ t, s.wait = .pending t → s.mode ≠ .dead → s.paused = true) : Good (maybeResume s) := by
  unfold maybeResume; split
  · next hc =>
    refine ⟨h, hl, fun hx => ?_, fun t ht => ?_⟩
    · have : s.th < s.buf.length := hx; omega
    · have : wake s.wait = .pending t := ht
      cases hs : s.wait <;> rw [hs] at this <;> cases this
  · next hc =>
    refine ⟨h, hl, hf, fun t ht hm => ⟨hw t ht hm, fun hb => hc ⟨hw t ht hm, ?_⟩⟩⟩
    rw [hb]; exact Nat.zero_le _

theorem good_control (c : Cfg) {s : St} (h : s.th ≤ s.high) (hl : s.tl ≤ s.th) (hw : ∀ t, s.wait = .pending t → s.mode ≠ .dead → s.paused = true ∧ s.buf ≠ []) :
    Good (flowControl c s) := by
  unfold flowControl
  split
  · split
    · exact ⟨h, hl, fun _ => rfl, fun t ht hm => ⟨rfl, (hw t ht hm).2⟩⟩
    · next hc =>
      refine good_resume h hl (fun hx => ?_) fun t ht hm => (hw t ht hm).1
      cases hp : s.paused
      · exact absurd ⟨Nat.le_of_lt hx, hp⟩ hc
      · rfl
  · split
    · exact ⟨h, hl, fun _ => rfl, fun t ht hm => ⟨rfl, (hw t ht hm).2⟩⟩
    · next hc => exact ⟨h, hl, fun hx => absurd hx hc, hw⟩

theorem good_write (c : Cfg) (n : Nat) (b : Bytes) {s : St} (h : Good s) (hw : s.wait = .none) : Good (write c n b s) := by
  have hw' : ∀ t, s.wait = .pending t → False := fun t ht => by rw [hw] at ht; cases ht
  unfold write
  split
  · exact h
  split
  · split
    · exact ⟨h.le, h.lo, h.full, fun t ht => (hw' t ht).elim⟩
    · exact good_control c (s := { s with out := s.out ++ b.take n, buf := b.drop n }) h.le h.lo fun t ht => (hw' t ht).elim
  · exact good_control c (s := { s with buf := s.buf ++ b }) h.le h.lo fun t ht => (hw' t ht).elim

/-- `set_watermarks` with limits that asyncio accepts. -/
def Valid : Ev → Prop
  | .marks h l => l.getD (h / 4) ≤ h
  | _ => True

theorem good_step (c : Cfg) {s : St} (h : Good s) (hh : Held s) {e : Ev} (he : Valid e) : Good (step c s e) := by
  cases e with
  | put x => exact ⟨h.le, h.lo, h.full, h.wait⟩
  | marks a l =>
    have hl : l.getD (a / 4) ≤ a := he
    simp only [step, setMarks]
    rw [if_pos hl]
    exact good_control c (s := { s with high := a, th := a, tl := l.getD (a / 4) }) (Nat.le_refl _) he h.wait
  | send n =>
    simp only [step, send]; split
    · exact h
    split
    · next b hb =>
      split
      · exact good_write c n b (s := { s with hand := none, wait := .none }) ⟨h.le, h.lo, h.full, fun t ht => (by cases ht)⟩ rfl
      · exact ⟨h.le, h.lo, fun hx => (by simp [kill] at hx), fun t ht => (by cases ht)⟩
      · exact h
    · next hn =>
      split
      · exact h
      · split
        · exact ⟨h.le, h.lo, h.full, h.wait⟩
        · refine ⟨h.le, h.lo, h.full, fun t ht => ?_⟩
          have : s.wait = .pending t := ht
          rw [hh hn] at this; cases this
      · split
        · next hc =>
          refine ⟨h.le, h.lo, h.full, fun t _ _ => ⟨h.full ?_, fun hb => ?_⟩⟩
          · have := h.le; omega
          · have hb : s.buf = [] := hb
            rw [hb] at hc; simp at hc
        · exact good_write c n _ (s := { s with q := _ }) ⟨h.le, h.lo, h.full, h.wait⟩ (hh hn)
  | drain n =>
    simp only [step]; split
    · exact h
    · refine good_resume (s := { s with out := s.out ++ s.buf.take n, buf := s.buf.drop n }) h.le h.lo (fun hx => h.full ?_) fun t ht hm => (h.wait t ht hm).1
      have : s.th < (s.buf.drop n).length := hx
      rw [List.length_drop] at this; omega
  | tick => exact ⟨h.le, h.lo, h.full, h.wait⟩
  | timer =>
    simp only [step]; split
    · split
      · exact ⟨h.le, h.lo, h.full, fun t ht => (by cases ht)⟩
      · exact h
    · exact h
  | abort => exact ⟨h.le, h.lo, fun hx => (by simp [step, kill] at hx), fun t _ hm => absurd rfl hm⟩
  | lost => exact ⟨h.le, h.lo, fun hx => (by simp [step, kill] at hx), fun t _ hm => absurd rfl hm⟩

theorem good_run (c : Cfg) {s : St} (h : Good s) (hh : Held s) (es : List Ev) (he : ∀ e ∈ es, Valid e) : Good (run c s es) ∧ Held (run c s es) := by
  induction es using snocInd with
  | h0 => exact ⟨h, hh⟩
  | h1 es e ih =>
    have := ih fun x hx => he x (List.mem_append_left _ hx)
    rw [run_snoc]
    exact ⟨good_step c this.1 this.2 (he e (by simp)), held_step c this.2 e⟩


/-- How the connection came to watch the limits that the transport watches: the limits of a new transport are low enough, as without
TLS, or `set_watermarks` was called while nothing was waiting. All calls had limits that asyncio accepts. -/
def Watched (c : Cfg) (es : List Ev) : Prop :=
  (c.high0 ≤ 65536 ∧ c.low0 ≤ c.high0 ∧ ∀ e ∈ es, Valid e) ∨
  ∃ pre h l post, es = pre ++ .marks h l :: post ∧ (∀ t, (run c (init c) pre).wait ≠ .pending t) ∧ Valid (.marks h l) ∧ ∀ e ∈ post, Valid e

theorem good_of {c : Cfg} {es : List Ev} (h : Watched c es) : Good (run c (init c) es) := by
  rcases h with ⟨h1, h2, hv⟩ | ⟨pre, a, l, post, rfl, hw, hv, hp⟩
  · exact (good_run c (s := init c) ⟨h1, h2, fun hx => (by simp [init] at hx), fun t ht => (by cases ht)⟩ (fun _ => rfl) es hv).1
  · rw [run_append, run_cons]
    refine (good_run c ?_ (held_step c (held_run c pre) _) post hp).1
    generalize run c (init c) pre = s at hw
    have hl : l.getD (a / 4) ≤ a := hv
    simp only [step, setMarks]
    rw [if_pos hl]
    exact good_control c (s := { s with high := a, th := a, tl := l.getD (a / 4) }) (Nat.le_refl _) hl fun t ht => absurd ht (hw t)

/-! ### Which waits expired -/

def Old (s : St) : Prop := ∀ x ∈ s.expiries, x.1 ≤ s.waits ∧ ((∃ t, s.wait = .pending t) → x.1 < s.waits)

/-- Steps other than the timer and the start of a wait. -/
structure Calm (s t : St) : Prop where
  waits : t.waits = s.waits
  expiries : t.expiries = s.expiries
  wait : ∀ x, t.wait = .pending x → s.wait = .pending x

theorem Calm.old {s t : St} (m : Calm s t) (h : Old s) : Old t := by
  intro x hx
  rw [m.expiries] at hx; rw [m.waits]
  exact ⟨(h x hx).1, fun ⟨t, ht⟩ => (h x hx).2 ⟨t, m.wait t ht⟩⟩

theorem Calm.cast {s s' t : St} (h : Calm s' t) (h1 : s'.waits = s.waits := by rfl) (h2 : s'.expiries = s.expiries := by rfl)
    (h3 : s'.wait = s.wait := by rfl) : Calm s t := ⟨h.waits.trans h1, h.expiries.trans h2, fun x hx => h3 ▸ h.wait x hx⟩

theorem calm_resume (s : St) : Calm s (maybeResume s) := by
  unfold maybeResume; split
  · refine ⟨rfl, rfl, fun x hx => ?_⟩
    have : wake s.wait = .pending x := hx
    cases hs : s.wait <;> rw [hs] at this <;> cases this
  · exact ⟨rfl, rfl, fun _ h => h⟩

theorem calm_control (c : Cfg) (s : St) : Calm s (flowControl c s) := by
  unfold flowControl; split
  · split
    · exact ⟨rfl, rfl, fun _ h => h⟩
    · exact calm_resume s
  · split <;> exact ⟨rfl, rfl, fun _ h => h⟩

theorem calm_write (c : Cfg) (n : Nat) (b : Bytes) (s : St) : Calm s (write c n b s) := by
  unfold write; split
  · exact ⟨rfl, rfl, fun _ h => h⟩
  split
  · split
    · exact ⟨rfl, rfl, fun _ h => h⟩
    · exact (calm_control c { s with out := s.out ++ b.take n, buf := b.drop n }).cast
  · exact (calm_control c { s with buf := s.buf ++ b }).cast

/-- What a step does to the waits. -/
theorem wait_step (c : Cfg) (s : St) (e : Ev) :
    Calm s (step c s e) ∨
    (s.hand = none ∧ s.high < s.buf.length ∧ (step c s e).waits = s.waits + 1 ∧ (step c s e).expiries = s.expiries ∧
      (∃ n, e = .send n) ∧ (step c s e).wait = .pending s.now) ∨
    (∃ t, s.wait = .pending t ∧ t + c.timeout ≤ s.now ∧ e = .timer ∧ (step c s e).waits = s.waits ∧
      (step c s e).expiries = s.expiries ++ [(s.waits, s.now)] ∧ (step c s e).wait = .expired) := by
  cases e with
  | put x => exact .inl ⟨rfl, rfl, fun _ h => h⟩
  | marks a l =>
    left; simp only [step, setMarks]; split
    · exact (calm_control c { s with high := a, th := a, tl := l.getD (a / 4) }).cast
    · exact ⟨rfl, rfl, fun _ h => h⟩
  | send n =>
    simp only [step, send]; split
    · exact .inl ⟨rfl, rfl, fun _ h => h⟩
    split
    · next b hb =>
      split
      · left
        have := calm_write c n b { s with hand := none, wait := .none }
        exact ⟨this.waits, this.expiries, fun x hx => (by cases this.wait x hx)⟩
      · exact .inl ⟨rfl, rfl, fun _ h => (by cases h)⟩
      · exact .inl ⟨rfl, rfl, fun _ h => h⟩
    · next hn =>
      split
      · exact .inl ⟨rfl, rfl, fun _ h => h⟩
      · split <;> exact .inl ⟨rfl, rfl, fun _ h => h⟩
      · split
        · next hc => exact .inr (.inl ⟨hn, hc, rfl, rfl, ⟨n, rfl⟩, rfl⟩)
        · exact .inl (Calm.cast (calm_write c n _ { s with q := _ }))
  | drain n =>
    left; simp only [step]; split
    · exact ⟨rfl, rfl, fun _ h => h⟩
    · exact (calm_resume { s with out := s.out ++ s.buf.take n, buf := s.buf.drop n }).cast
  | tick => exact .inl ⟨rfl, rfl, fun _ h => h⟩
  | timer =>
    simp only [step]; split
    · next t ht =>
      split
      · next hc => exact .inr (.inr ⟨t, ht, hc, trivial, rfl, rfl, rfl⟩)
      · exact .inl ⟨rfl, rfl, fun _ h => h⟩
    · exact .inl ⟨rfl, rfl, fun _ h => h⟩
  | abort => exact .inl ⟨rfl, rfl, fun _ h => h⟩
  | lost => exact .inl ⟨rfl, rfl, fun _ h => h⟩

theorem old_step (c : Cfg) {s : St} (h : Old s) (e : Ev) : Old (step c s e) := by
  rcases wait_step c s e with m | ⟨_, _, hw, he, _, _⟩ | ⟨t, ht, _, _, hw, he, hx⟩
  · exact m.old h
  · intro x hx; rw [he] at hx; rw [hw]
    have := (h x hx).1
    exact ⟨by omega, fun _ => by omega⟩
  · intro x hm; rw [he] at hm; rw [hw]
    refine ⟨?_, fun ⟨t, ht⟩ => by rw [hx] at ht; cases ht⟩
    rcases List.mem_append.1 hm with hm | hm
    · exact (h x hm).1
    · rw [List.mem_singleton.1 hm]; exact Nat.le_refl _

theorem old_run (c : Cfg) (es : List Ev) : Old (run c (init c) es) := by
  induction es using snocInd with
  | h0 => exact fun x hx => (by cases hx)
  | h1 es e ih => rw [run_snoc]; exact old_step c ih e

/-- Wait number `w` is over, and did not expire. -/
structure Over (w : Nat) (s : St) : Prop where
  le : w ≤ s.waits
  lt : ∀ t, s.wait = .pending t → w < s.waits
  none : ∀ t, (w, t) ∉ s.expiries

theorem over_step (c : Cfg) {w : Nat} {s : St} (h : Over w s) (e : Ev) : Over w (step c s e) := by
  rcases wait_step c s e with m | ⟨_, _, hw, he, _, _⟩ | ⟨t, ht, _, _, hw, he, hx⟩
  · exact ⟨by rw [m.waits]; exact h.le, fun t ht => by rw [m.waits]; exact h.lt t (m.wait t ht), by rw [m.expiries]; exact h.none⟩
  · have := h.le
    exact ⟨by omega, fun _ _ => by omega, by rw [he]; exact h.none⟩
  · refine ⟨by rw [hw]; exact h.le, fun t ht => (by rw [hx] at ht; cases ht), fun u hu => ?_⟩
    rw [he] at hu
    rcases List.mem_append.1 hu with hu | hu
    · exact h.none u hu
    · have := h.lt t ht
      cases List.mem_singleton.1 hu
      exact Nat.lt_irrefl _ this

theorem over_run (c : Cfg) {w : Nat} {s : St} (h : Over w s) (es : List Ev) : Over w (run c s es) := by
  induction es using snocInd with
  | h0 => exact h
  | h1 es e ih => rw [run_snoc]; exact over_step c ih e

/-- Still waiting, as in `s`. `out` has grown by too little. -/
structure Still (s t : St) : Prop where
  wait : t.wait = s.wait
  hand : t.hand = s.hand
  waits : t.waits = s.waits
  expiries : t.expiries = s.expiries
  tl : t.tl = s.tl
  out : t.out.length = s.out.length ∨ t.out.length + s.tl < s.out.length + s.buf.length
  live : t.mode ≠ .dead → t.out.length + t.buf.length = s.out.length + s.buf.length ∧ t.paused = true
  dead : t.mode = .dead → t.buf = []

def isMarks : Ev → Bool
  | .marks _ _ => true
  | _ => false

theorem still_step (c : Cfg) {s t : St} {t0 : Nat} {b : Bytes} (hs : s.wait = .pending t0) (hb : s.hand = some b) (h : Still s t)
    {e : Ev} (he : isMarks e = false) (hn : t.now < t0 + c.timeout) :
    Still s (step c t e) ∨ ((step c t e).wait = .woken ∧ (step c t e).waits = s.waits ∧ (step c t e).expiries = s.expiries) := by
  cases e with
  | put x => exact .inl ⟨h.wait, h.hand, h.waits, h.expiries, h.tl, h.out, h.live, h.dead⟩
  | marks a l => cases he
  | send n =>
    left
    have : step c t (.send n) = t := by
      simp only [step, send]; split
      · rfl
      · simp only [h.hand, hb, h.wait, hs]
    rw [this]; exact h
  | drain n =>
    simp only [step]; split
    · exact .inl h
    · next hbuf =>
      have hm : t.mode ≠ .dead := fun e => hbuf (h.dead e)
      obtain ⟨hl, hp⟩ := h.live hm
      have htn := List.length_take (i := n) (l := t.buf)
      have hdn := List.length_drop (i := n) (l := t.buf)
      unfold maybeResume
      split
      · right
        refine ⟨?_, h.waits, h.expiries⟩
        show wake t.wait = _
        rw [h.wait, hs]; rfl
      · next hc =>
        left
        have hc : ¬ (t.buf.drop n).length ≤ t.tl := fun x => hc ⟨hp, x⟩
        refine ⟨h.wait, h.hand, h.waits, h.expiries, h.tl, .inr ?_, fun _ => ⟨?_, hp⟩, fun e => absurd e hm⟩
        · show (t.out ++ t.buf.take n).length + s.tl < _
          rw [List.length_append]
          have := h.tl
          omega
        · show (t.out ++ t.buf.take n).length + (t.buf.drop n).length = _
          rw [List.length_append]; omega
  | tick => exact .inl ⟨h.wait, h.hand, h.waits, h.expiries, h.tl, h.out, h.live, h.dead⟩
  | timer =>
    left
    have : step c t .timer = t := by
      simp only [step, h.wait, hs]
      rw [if_neg (by omega)]
    rw [this]; exact h
  | abort => exact .inl ⟨h.wait, h.hand, h.waits, h.expiries, h.tl, h.out, fun e => absurd rfl e, fun _ => rfl⟩
  | lost => exact .inl ⟨h.wait, h.hand, h.waits, h.expiries, h.tl, h.out, fun e => absurd rfl e, fun _ => rfl⟩

theorem now_step (c : Cfg) (s : St) (e : Ev) : s.now ≤ (step c s e).now := by
  have hc : ∀ s : St, (flowControl c s).now = s.now := fun s => (control_same c s).now
  have hr : ∀ s : St, (maybeResume s).now = s.now := fun s => (resume_same s).now
  have hw : ∀ n b (s : St), (write c n b s).now = s.now := by
    intro n b s; unfold write; split
    · rfl
    split
    · split
      · rfl
      · rw [hc]
    · rw [hc]
  cases e with
  | put x => exact Nat.le_refl _
  | marks a l =>
    simp only [step, setMarks]; split
    · rw [hc]; exact Nat.le_refl _
    · exact Nat.le_refl _
  | send n =>
    simp only [step, send]; split
    · exact Nat.le_refl _
    split
    · split
      · rw [hw]; exact Nat.le_refl _
      · exact Nat.le_refl _
      · exact Nat.le_refl _
    · split
      · exact Nat.le_refl _
      · split <;> exact Nat.le_refl _
      · split
        · exact Nat.le_refl _
        · rw [hw]; exact Nat.le_refl _
  | drain n =>
    simp only [step]; split
    · exact Nat.le_refl _
    · rw [hr]; exact Nat.le_refl _
  | tick => exact Nat.le_succ _
  | timer =>
    simp only [step]; split
    · split <;> exact Nat.le_refl _
    · exact Nat.le_refl _
  | abort => exact Nat.le_refl _
  | lost => exact Nat.le_refl _

theorem still_run (c : Cfg) {s : St} {t0 : Nat} {b : Bytes} (hs : s.wait = .pending t0) (hb : s.hand = some b) (h : Still s s)
    (hx : ∀ t, (s.waits, t) ∉ s.expiries) (es : List Ev) (he : ∀ e ∈ es, isMarks e = false) (hn : (run c s es).now < t0 + c.timeout) :
    Still s (run c s es) ∨ Over s.waits (run c s es) := by
  induction es using snocInd with
  | h0 => exact .inl h
  | h1 es e ih =>
    rw [run_snoc] at hn ⊢
    have hn' : (run c s es).now < t0 + c.timeout := Nat.lt_of_le_of_lt (now_step c _ e) hn
    rcases ih (fun x hx => he x (List.mem_append_left _ hx)) hn' with i | i
    · rcases still_step c hs hb i (he e (by simp)) hn' with j | ⟨j1, j2, j3⟩
      · exact .inl j
      · exact .inr ⟨by rw [j2]; exact Nat.le_refl _, fun t ht => (by rw [j1] at ht; cases ht), by rw [j3]; exact hx⟩
    · exact .inr (over_step c i e)


theorem mode_step (c : Cfg) (s : St) (e : Ev) (h : (step c s e).mode = .dead) :
    s.mode = .dead ∨ e = .abort ∨ e = .lost ∨ s.wait = .expired := by
  have hc : ∀ s : St, (flowControl c s).mode = s.mode := fun s => (control_same c s).mode
  have hr : ∀ s : St, (maybeResume s).mode = s.mode := fun s => (resume_same s).mode
  have hw : ∀ n b (s : St), (write c n b s).mode = s.mode := by
    intro n b s; unfold write; split
    · rfl
    split
    · split
      · rfl
      · rw [hc]
    · rw [hc]
  cases e with
  | put x => exact .inl h
  | marks a l =>
    simp only [step, setMarks] at h; split at h
    · rw [hc] at h; exact .inl h
    · exact .inl h
  | send n =>
    simp only [step, send] at h; split at h
    · exact .inl h
    split at h
    · split at h
      · rw [hw] at h; exact .inl h
      · next hx => exact .inr (.inr (.inr hx))
      · exact .inl h
    · split at h
      · exact .inl h
      · split at h
        · exact .inl h
        · left
          have h : (if s.mode = .alive then Mode.closing else s.mode) = .dead := h
          cases hm : s.mode <;> rw [hm] at h <;> first | rfl | cases h
      · split at h
        · exact .inl h
        · rw [hw] at h; exact .inl h
  | drain n =>
    simp only [step] at h; split at h
    · exact .inl h
    · rw [hr] at h; exact .inl h
  | tick => exact .inl h
  | timer =>
    simp only [step] at h; split at h
    · split at h <;> exact .inl h
    · exact .inl h
  | abort => exact .inr (.inl rfl)
  | lost => exact .inr (.inr (.inl rfl))

/-- A wait that is marked as expired is recorded. -/
theorem expired_step (c : Cfg) (s : St) (e : Ev) (h : (step c s e).wait = .expired) : s.wait = .expired ∨ (s.waits, s.now) ∈ (step c s e).expiries := by
  have hr : ∀ s : St, (maybeResume s).wait = .expired → s.wait = .expired := by
    intro s hs; unfold maybeResume at hs; split at hs
    · have hs : wake s.wait = .expired := hs
      cases hx : s.wait <;> rw [hx] at hs <;> first | rfl | cases hs
    · exact hs
  have hc : ∀ s : St, (flowControl c s).wait = .expired → s.wait = .expired := by
    intro s hs; unfold flowControl at hs; split at hs
    · split at hs
      · exact hs
      · exact hr s hs
    · split at hs <;> exact hs
  have hw : ∀ n b (s : St), (write c n b s).wait = .expired → s.wait = .expired := by
    intro n b s hs; unfold write at hs; split at hs
    · exact hs
    split at hs
    · split at hs
      · exact hs
      · have := hc _ hs; exact this
    · have := hc _ hs; exact this
  cases e with
  | put x => exact .inl h
  | marks a l =>
    simp only [step, setMarks] at h; split at h
    · have := hc _ h; exact .inl this
    · exact .inl h
  | send n =>
    simp only [step, send] at h; split at h
    · exact .inl h
    split at h
    · split at h
      · cases hw _ _ _ h
      · cases h
      · exact .inl h
    · split at h
      · exact .inl h
      · split at h <;> exact .inl h
      · split at h
        · cases h
        · have := hw _ _ _ h; exact .inl this
  | drain n =>
    simp only [step] at h; split at h
    · exact .inl h
    · have := hr _ h; exact .inl this
  | tick => exact .inl h
  | timer =>
    simp only [step] at h ⊢; split at h
    · split at h
      · next t ht hx => right; simp [ht, hx]
      · exact .inl h
    · exact .inl h
  | abort => exact .inl h
  | lost => exact .inl h

theorem more_step (c : Cfg) (s : St) (e : Ev) : s.expiries <+: (step c s e).expiries := by
  rcases wait_step c s e with m | ⟨_, _, _, he, _, _⟩ | ⟨_, _, _, _, _, he, _⟩
  · rw [m.expiries]; exact List.prefix_rfl
  · rw [he]; exact List.prefix_rfl
  · rw [he]; exact List.prefix_append _ _

theorem dead_run (c : Cfg) (es : List Ev) :
    ((run c (init c) es).mode = .dead → Ev.abort ∈ es ∨ Ev.lost ∈ es ∨ (run c (init c) es).expiries ≠ []) ∧
    ((run c (init c) es).wait = .expired → (run c (init c) es).expiries ≠ []) := by
  induction es using snocInd with
  | h0 => exact ⟨fun e => (by cases e), fun e => (by cases e)⟩
  | h1 es e ih =>
    rw [run_snoc]
    have up : (run c (init c) es).expiries ≠ [] → (step c (run c (init c) es) e).expiries ≠ [] := by
      intro hne hx
      have := more_step c (run c (init c) es) e
      rw [hx] at this
      exact hne (List.prefix_nil.1 this)
    refine ⟨fun h => ?_, fun h => ?_⟩
    · rcases mode_step c _ e h with h | h | h | h
      · rcases ih.1 h with i | i | i
        · exact .inl (List.mem_append_left _ i)
        · exact .inr (.inl (List.mem_append_left _ i))
        · exact .inr (.inr (up i))
      · exact .inl (by simp [h])
      · exact .inr (.inl (by simp [h]))
      · exact .inr (.inr (up (ih.2 h)))
    · rcases expired_step c _ e h with h | h
      · exact up (ih.2 h)
      · exact fun hx => by rw [hx] at h; cases h

theorem write_bytes (c : Cfg) (n : Nat) (b : Bytes) {s : St} (h : s.mode ≠ .dead) : (write c n b s).out ++ (write c n b s).buf = s.out ++ s.buf ++ b := by
  unfold write; split
  · next hc =>
    rcases hc with hc | hc
    · exact absurd hc h
    · rw [hc]; simp
  split
  · next hb =>
    split
    · rw [hb]; simp [hb]
    · rw [(control_same c _).out, (control_same c _).buf, hb]
      show s.out ++ b.take n ++ b.drop n = _
      rw [List.append_assoc, List.take_append_drop]; simp
  · rw [(control_same c _).out, (control_same c _).buf]
    show s.out ++ (s.buf ++ b) = _
    simp

/-- A task that has returned does not wait, unless the connection is lost. -/
theorem done_step (c : Cfg) {s : St} (h : s.done = true → s.mode = .dead ∨ s.hand = none) (e : Ev) :
    (step c s e).done = true → (step c s e).mode = .dead ∨ (step c s e).hand = none := by
  have hc (s : St) : (flowControl c s).done = s.done ∧ (flowControl c s).mode = s.mode ∧ (flowControl c s).hand = s.hand :=
    ⟨(control_same c s).done, (control_same c s).mode, (control_same c s).hand⟩
  have hr (s : St) : (maybeResume s).done = s.done ∧ (maybeResume s).mode = s.mode ∧ (maybeResume s).hand = s.hand :=
    ⟨(resume_same s).done, (resume_same s).mode, (resume_same s).hand⟩
  have hw : ∀ n b (s : St), (write c n b s).hand = s.hand := by
    intro n b s; unfold write; split
    · rfl
    split
    · split
      · rfl
      · rw [(hc _).2.2]
    · rw [(hc _).2.2]
  cases e with
  | put x => exact h
  | marks a l =>
    simp only [step, setMarks]; split
    · rw [(hc _).1, (hc _).2.1, (hc _).2.2]; exact h
    · exact h
  | send n =>
    simp only [step, send]; split
    · exact h
    next hd =>
    split
    · split
      · exact fun _ => .inr (hw _ _ _)
      · exact fun _ => .inr rfl
      · exact h
    · next hn =>
      split
      · exact h
      · split <;> exact fun _ => .inr hn
      · split
        · exact fun e => absurd e hd
        · exact fun _ => .inr ((hw _ _ _).trans hn)
  | drain n =>
    simp only [step]; split
    · exact h
    · rw [(hr _).1, (hr _).2.1, (hr _).2.2]; exact h
  | tick => exact h
  | timer =>
    simp only [step]; split
    · split <;> exact h
    · exact h
  | abort => exact fun _ => .inl rfl
  | lost => exact fun _ => .inl rfl

theorem done_run (c : Cfg) (es : List Ev) : (run c (init c) es).done = true → (run c (init c) es).mode = .dead ∨ (run c (init c) es).hand = none := by
  induction es using snocInd with
  | h0 => exact fun e => (by cases e)
  | h1 es e ih => rw [run_snoc]; exact done_step c ih e

/-- While it waits it has an item in hand, and has not returned. -/
theorem pending_hand {c : Cfg} {es : List Ev} {t0 : Nat} (hp : (run c (init c) es).wait = .pending t0) : ∃ b, (run c (init c) es).hand = some b := by
  cases h : (run c (init c) es).hand with
  | none => rw [held_run c es h] at hp; cases hp
  | some b => exact ⟨b, rfl⟩

/-- A waiting task that is woken writes. -/
theorem woken_send (c : Cfg) {s : St} {b : Bytes} (hd : s.done = false) (hb : s.hand = some b) (hw : s.wait = .woken) (k : Nat) :
    send c k s = write c k b { s with hand := none, wait := .none } := by
  unfold send; rw [if_neg (by rw [hd]; exact fun e => by cases e)]
  simp only [hb, hw]

theorem drain_woken {s : St} {t0 n : Nat} (c : Cfg) (hp : s.wait = .pending t0) (hq : s.paused = true) (hb : s.buf ≠ [])
    (hn : s.buf.length ≤ n + s.tl) : (step c s (.drain n)).wait = .woken := by
  simp only [step]; rw [if_neg hb]
  unfold maybeResume
  rw [if_pos ⟨hq, by show (s.buf.drop n).length ≤ s.tl; rw [List.length_drop]; omega⟩]
  show wake s.wait = _
  rw [hp]; rfl

theorem drain_bytes (c : Cfg) (s : St) (n : Nat) : (step c s (.drain n)).out ++ (step c s (.drain n)).buf = s.out ++ s.buf ∧
    (step c s (.drain n)).hand = s.hand ∧ (step c s (.drain n)).done = s.done ∧ (step c s (.drain n)).mode = s.mode := by
  simp only [step]; split
  · exact ⟨rfl, rfl, rfl, rfl⟩
  · rw [(resume_same _).out, (resume_same _).buf, (resume_same _).hand, (resume_same _).done, (resume_same _).mode]
    exact ⟨by show s.out ++ s.buf.take n ++ s.buf.drop n = _; rw [List.append_assoc, List.take_append_drop], rfl, rfl, rfl⟩

/-- When and where a wait began. -/
theorem wait_began (c : Cfg) (es : List Ev) {t0 : Nat} (h : (run c (init c) es).wait = .pending t0) :
    ∃ pre n mid, es = pre ++ .send n :: mid ∧ (run c (init c) pre).now = t0 ∧ (run c (init c) pre).wait = .none ∧
      (run c (init c) pre).waits + 1 = (run c (init c) es).waits ∧ (run c (init c) pre).high < (run c (init c) pre).buf.length := by
  induction es using snocInd with
  | h0 => cases h
  | h1 es e ih =>
    rw [run_snoc] at h ⊢
    rcases wait_step c (run c (init c) es) e with m | ⟨hh, hc, hw, _, ⟨n, hn⟩, hp⟩ | ⟨_, _, _, _, _, _, hx⟩
    · obtain ⟨pre, n, mid, h1, h2⟩ := ih (m.wait t0 h)
      exact ⟨pre, n, mid ++ [e], by rw [h1]; simp, by rw [m.waits]; exact h2⟩
    · rw [hp] at h; cases h
      exact ⟨es, n, [], by rw [hn], rfl, held_run c es hh, hw.symm, hc⟩
    · rw [hx] at h; cases h

end SendLoop

open SendLoop

/-- **C82 (order).** In every schedule, with or without TLS: the items are taken from the queue in order, and what the socket took,
what is in the transport's buffer and what `_send_data` holds while it waits are, in this order, the bytes of the items taken, unless
the connection was aborted. Even then, the socket took a beginning of them. -/
theorem C82_order (c : Cfg) (es : List Ev) : ∃ taken, (run c (init c) es).puts = taken ++ (run c (init c) es).q ∧
    ((run c (init c) es).mode ≠ .dead →
      (run c (init c) es).out ++ (run c (init c) es).buf ++ (run c (init c) es).hand.getD [] = taken.flatMap Item.data) ∧
    (run c (init c) es).out <+: taken.flatMap Item.data := by
  obtain ⟨k, h⟩ := ord_run c es
  exact ⟨k, h.split, h.live, h.pre⟩

/-- **C82 (bounded buffer).** If no item has more than `M` bytes, and no watermark is above `H`, then the buffer never holds more
than `H + M` bytes, however slowly the client reads. -/
theorem C82_bounded (c : Cfg) (H M : Nat) (hH : 65536 ≤ H) (hl : c.low0 ≤ H) (es : List Ev)
    (hp : ∀ x, Ev.put x ∈ es → x.data.length ≤ M) (hm : ∀ h l, Ev.marks h l ∈ es → h ≤ H) :
    (run c (init c) es).buf.length ≤ H + M := by
  refine (bd_run c hH hl es fun e he => ?_).buf
  cases e with
  | put x => exact hp x he
  | marks h l => exact hm h l he
  | _ => trivial

/-- **C82 (cut off).** The bytes of a connection are thrown away only if something else aborted it or lost it, or a wait has expired. -/
theorem C82_cut (c : Cfg) (es : List Ev) (h : (run c (init c) es).mode = .dead) :
    Ev.abort ∈ es ∨ Ev.lost ∈ es ∨ (run c (init c) es).expiries ≠ [] := (dead_run c es).1 h

/-- **C83 (a waiting writer is woken).** As long as the transport watches the same limits: if `_send_data` waits, then as soon as the
client has read until the buffer is down to the low limit, it goes on, and writes the item it holds. -/
theorem C83_wakes_partial (c : Cfg) (es : List Ev) (hw : Watched c es) {t0 : Nat} (hp : (run c (init c) es).wait = .pending t0)
    (hm : (run c (init c) es).mode ≠ .dead) (n k : Nat) (hn : (run c (init c) es).buf.length ≤ n + (run c (init c) es).tl) :
    (run c (init c) es).buf ≠ [] ∧ (run c (init c) (es ++ [.drain n])).wait = .woken ∧
    ∃ b, (run c (init c) es).hand = some b ∧
      (run c (init c) (es ++ [.drain n] ++ [.send k])).out ++ (run c (init c) (es ++ [.drain n] ++ [.send k])).buf =
        (run c (init c) es).out ++ (run c (init c) es).buf ++ b := by
  have g := (good_of hw).wait t0 hp hm
  obtain ⟨b, hb⟩ := pending_hand hp
  have hd : (run c (init c) es).done = false := by
    cases hd : (run c (init c) es).done
    · rfl
    · rcases done_run c es hd with h | h
      · exact absurd h hm
      · rw [hb] at h; cases h
  rw [run_snoc c (init c) (es ++ [Ev.drain n]) (.send k), run_snoc c (init c) es (.drain n)]
  generalize run c (init c) es = s at *
  have hk := drain_woken c hp g.1 g.2 hn
  obtain ⟨d1, d2, d3, d4⟩ := drain_bytes c s n
  refine ⟨g.2, hk, b, hb, ?_⟩
  show (send c k _).out ++ (send c k _).buf = _
  rw [woken_send c (d3.trans hd) (d2.trans hb) hk k, write_bytes c k b (s := { step c s (.drain n) with hand := none, wait := .none }) (by rw [← d4] at hm; exact hm)]
  rw [← d1]

/-- **C83 (a client that reads is not cut off).** As long as the transport watches the same limits and they do not change: if
`_send_data` waits since `t0`, and before the timeout the client reads so much that the buffer is down to the low limit, then this wait
never expires. -/
theorem C83_reads_partial (c : Cfg) (es : List Ev) (hw : Watched c es) {t0 : Nat} (hp : (run c (init c) es).wait = .pending t0)
    (hm : (run c (init c) es).mode ≠ .dead) (es' : List Ev) (he : ∀ e ∈ es', isMarks e = false)
    (hn : (run c (init c) (es ++ es')).now < t0 + c.timeout)
    (hr : (run c (init c) es).out.length < (run c (init c) (es ++ es')).out.length)
    (hr' : (run c (init c) es).out.length + (run c (init c) es).buf.length ≤ (run c (init c) (es ++ es')).out.length + (run c (init c) es).tl)
    (later : List Ev) (t : Nat) : ((run c (init c) es).waits, t) ∉ (run c (init c) (es ++ es' ++ later)).expiries := by
  have g := (good_of hw).wait t0 hp hm
  obtain ⟨b, hb⟩ := pending_hand hp
  have ho := old_run c es
  rw [run_append, run_append] at *
  generalize run c (init c) es = s at *
  have hx : ∀ t, (s.waits, t) ∉ s.expiries := fun t ht => Nat.lt_irrefl _ ((ho _ ht).2 ⟨t0, hp⟩)
  rcases still_run c hp hb ⟨rfl, rfl, rfl, rfl, rfl, .inl rfl, fun _ => ⟨rfl, g.1⟩, fun e => absurd e hm⟩ hx es' he hn with h | h
  · rcases h.out with h | h <;> omega
  · exact (over_run c h later).none t

theorem SendLoop.early (c : Cfg) (es : List Ev) {w t : Nat} (h : (w, t) ∈ (run c (init c) es).expiries) :
    ∃ pre post t0, es = pre ++ .timer :: post ∧ (run c (init c) pre).wait = .pending t0 ∧ (run c (init c) pre).waits = w ∧
      (run c (init c) pre).now = t ∧ t0 + c.timeout ≤ t := by
  induction es using snocInd with
  | h0 => cases h
  | h1 es e ih =>
    rw [run_snoc] at h
    have up : (w, t) ∈ (run c (init c) es).expiries → ∃ pre post t0, es ++ [e] = pre ++ .timer :: post ∧ (run c (init c) pre).wait = .pending t0 ∧
        (run c (init c) pre).waits = w ∧ (run c (init c) pre).now = t ∧ t0 + c.timeout ≤ t := by
      intro h
      obtain ⟨pre, post, t0, h1, h2⟩ := ih h
      exact ⟨pre, post ++ [e], t0, by rw [h1]; simp, h2⟩
    rcases wait_step c (run c (init c) es) e with m | ⟨_, _, _, he, _, _⟩ | ⟨t0, ht, hx, hte, _, he, _⟩
    · rw [m.expiries] at h; exact up h
    · rw [he] at h; exact up h
    · rw [he] at h
      rcases List.mem_append.1 h with h | h
      · exact up h
      · cases List.mem_singleton.1 h
        exact ⟨es, [], t0, by rw [hte], ht, rfl, rfl, hx⟩

/-- **C83 (not before the time).** In every schedule: a wait that expires at `t` is still going on then, and began at least
`keepalive_timeout` before, with more than the high watermark in the buffer. -/
theorem C83_early (c : Cfg) (es : List Ev) {w t : Nat} (h : (w, t) ∈ (run c (init c) es).expiries) :
    ∃ pre n mid post, es = pre ++ .send n :: mid ++ .timer :: post ∧ (run c (init c) pre).wait = .none ∧ (run c (init c) pre).waits + 1 = w ∧
      (run c (init c) pre).high < (run c (init c) pre).buf.length ∧ (run c (init c) pre).now + c.timeout ≤ t ∧
      (run c (init c) (pre ++ .send n :: mid)).now = t ∧ (run c (init c) (pre ++ .send n :: mid)).waits = w ∧
      (run c (init c) (pre ++ .send n :: mid)).wait = .pending (run c (init c) pre).now := by
  obtain ⟨a, post, t0, h1, h2, h3, h4, h5⟩ := SendLoop.early c es h
  obtain ⟨pre, n, mid, g1, g2, g3, g4, g5⟩ := wait_began c a h2
  subst g1 g2
  exact ⟨pre, n, mid, post, h1, g3, g4.trans h3, g5, h5, h4, h3, h2⟩

/-- **C83 (deadline).** In every state: a wait that has lasted `keepalive_timeout` is ended by its timer, and the connection is
aborted. -/
theorem C83_deadline (c : Cfg) (es : List Ev) {t0 : Nat} (hp : (run c (init c) es).wait = .pending t0)
    (hm : (run c (init c) es).mode ≠ .dead) (ht : t0 + c.timeout ≤ (run c (init c) es).now) (n : Nat) :
    (run c (init c) (es ++ [.timer] ++ [.send n])).mode = .dead := by
  obtain ⟨b, hb⟩ := pending_hand hp
  have hd : (run c (init c) es).done = false := by
    cases hd : (run c (init c) es).done
    · rfl
    · rcases done_run c es hd with h | h
      · exact absurd h hm
      · rw [hb] at h; cases h
  rw [run_snoc, run_snoc]
  generalize run c (init c) es = s at *
  have : step c s .timer = { s with wait := .expired, expiries := s.expiries ++ [(s.waits, s.now)] } := by
    simp only [step, hp]; rw [if_pos ht]
  rw [this]
  simp only [step, send, hd, hb]
  rw [if_neg (by simp)]; rfl

/-- The limits of a TLS transport of CPython 3.11. -/
def tlsCfg : Cfg := { tls := true, high0 := 524288, low0 := 131072 }

/-- A server that sends `d` and then `d'`, and a client that reads all of `d`. -/
def bigThen (d d' : Bytes) : List Ev := [.put (.bytes d), .send 0, .put (.bytes d'), .send 0, .drain d.length]

namespace SendLoop

theorem big_reached {d d' : Bytes} (h1 : 65536 < d.length) (h2 : d.length < 524288) :
    run tlsCfg (init tlsCfg) (bigThen d d') = { init tlsCfg with hand := some d', wait := .pending 0, waits := 1, out := d, puts := [.bytes d, .bytes d'] } := by
  have hd : d ≠ [] := fun e => by rw [e] at h1; simp at h1
  have c1 : ¬ 524288 ≤ d.length := by omega
  have w : write tlsCfg 0 d { init tlsCfg with puts := [.bytes d] } = { init tlsCfg with puts := [.bytes d], buf := d } := by
    simp [write, flowControl, maybeResume, tlsCfg, init, c1, hd]
  have s1 : run tlsCfg (init tlsCfg) [.put (.bytes d), .send 0] = { init tlsCfg with puts := [.bytes d], buf := d } := by
    rw [← w]; rfl
  rw [show bigThen d d' = [.put (.bytes d), .send 0] ++ [.put (.bytes d'), .send 0, .drain d.length] from rfl, run_append, s1]
  have s2 : run tlsCfg { init tlsCfg with puts := [.bytes d], buf := d } [.put (.bytes d'), .send 0] =
      { init tlsCfg with puts := [.bytes d, .bytes d'], buf := d, hand := some d', wait := .pending 0, waits := 1 } := by
    simp [run, step, send, init, h1]
  rw [show ([.put (.bytes d'), .send 0, .drain d.length] : List Ev) = [.put (.bytes d'), .send 0] ++ [.drain d.length] from rfl, run_append, s2]
  simp [run, step, hd, maybeResume, init]

/-- The writer waits for nothing. -/
structure Stuck (d d' : Bytes) (s : St) : Prop where
  out : s.out = d
  buf : s.buf = []
  hand : s.mode ≠ .dead → s.hand = some d' ∧ s.paused = false ∧ s.wait ≠ .woken ∧ s.wait ≠ .none
  th : 0 < s.th

theorem stuck_step {d d' : Bytes} {c : Cfg} (hc : c.tls = true) {s : St} (h : Stuck d d' s) (e : Ev) (he : isMarks e = false) : Stuck d d' (step c s e) := by
  have hdead : ∀ {t : St}, t.out = d → t.buf = [] → t.mode = .dead → 0 < t.th → Stuck d d' t := fun a b m q => ⟨a, b, fun x => absurd m x, q⟩
  cases e with
  | put x => exact ⟨h.out, h.buf, h.hand, h.th⟩
  | marks a l => cases he
  | send n =>
    by_cases hm : s.mode = .dead
    · have hw (n b) {t : St} (ht : t.mode = .dead) (ho : t.out = d) (hb : t.buf = []) (hq : 0 < t.th) : Stuck d d' (write c n b t) := by
        unfold write; rw [if_pos (.inl ht)]; exact hdead ho hb ht hq
      simp only [step, send]; split
      · exact h
      split
      · split
        · exact hw _ _ hm h.out h.buf h.th
        · exact hdead h.out rfl rfl h.th
        · exact h
      · split
        · exact h
        · split
          · exact hdead h.out h.buf hm h.th
          · refine hdead h.out h.buf ?_ h.th
            show (if s.mode = .alive then Mode.closing else s.mode) = .dead
            rw [hm]; rfl
        · split
          · exact hdead h.out h.buf hm h.th
          · exact hw _ _ hm h.out h.buf h.th
    · obtain ⟨h1, h2, h3, h4⟩ := h.hand hm
      simp only [step, send]; split
      · exact h
      rw [h1]; dsimp only
      split
      · next hw => exact absurd hw h3
      · exact hdead h.out rfl rfl h.th
      · exact h
  | drain n => simp only [step]; rw [if_pos h.buf]; exact h
  | tick => exact ⟨h.out, h.buf, h.hand, h.th⟩
  | timer =>
    simp only [step]; split
    · split
      · exact ⟨h.out, h.buf, fun hm => ⟨(h.hand hm).1, (h.hand hm).2.1, fun e => (by cases e), fun e => (by cases e)⟩, h.th⟩
      · exact h
    · exact h
  | abort => exact hdead h.out rfl rfl h.th
  | lost => exact hdead h.out rfl rfl h.th

theorem stuck_run {d d' : Bytes} {c : Cfg} (hc : c.tls = true) {s : St} (h : Stuck d d' s) (es : List Ev) (he : ∀ e ∈ es, isMarks e = false) :
    Stuck d d' (run c s es) := by
  induction es using snocInd with
  | h0 => exact h
  | h1 es e ih =>
    rw [run_snoc]
    exact stuck_step hc (ih fun x hx => he x (List.mem_append_left _ hx)) e (he e (by simp))

end SendLoop

/-- **C83 is false with TLS** where `set_watermarks` was not called, as in WebSocket sessions: `_send_data` waits above 65536 bytes, but
the transport calls `resume_writing` only after its buffer held 524288. If the server has sent more than 65536 bytes in one message and
the client reads all of it, the next message is never sent, whatever happens, although the buffer is empty. -/
theorem C83_refuted_tls (d d' : Bytes) (h1 : 65536 < d.length) (h2 : d.length < 524288) :
    (run tlsCfg (init tlsCfg) (bigThen d d')).buf = [] ∧ (run tlsCfg (init tlsCfg) (bigThen d d')).mode = .alive ∧
    (run tlsCfg (init tlsCfg) (bigThen d d')).puts = [.bytes d, .bytes d'] ∧
    ∀ es, (∀ e ∈ es, isMarks e = false) → (run tlsCfg (init tlsCfg) (bigThen d d' ++ es)).out = d := by
  rw [big_reached h1 h2]
  refine ⟨rfl, rfl, rfl, fun es he => ?_⟩
  rw [run_append, big_reached h1 h2]
  exact (stuck_run (d' := d') rfl ⟨rfl, rfl, fun _ => ⟨rfl, rfl, fun e => (by cases e), fun e => (by cases e)⟩, show 0 < 524288 by decide⟩ es he).out

/-- After `keepalive_timeout` the connection is aborted. -/
theorem C83_refuted_tls_cut (d d' : Bytes) (h1 : 65536 < d.length) (h2 : d.length < 524288) :
    (run tlsCfg (init tlsCfg) (bigThen d d' ++ List.replicate 30 .tick ++ [.timer] ++ [.send 0])).mode = .dead := by
  have hr : run tlsCfg (init tlsCfg) (bigThen d d' ++ List.replicate 30 .tick) =
      { init tlsCfg with hand := some d', wait := .pending 0, waits := 1, out := d, puts := [.bytes d, .bytes d'], now := 30 } := by
    rw [run_append, big_reached h1 h2]; rfl
  exact C83_deadline tlsCfg (bigThen d d' ++ List.replicate 30 .tick) (t0 := 0) (by rw [hr]) (by rw [hr]; exact fun e => by cases e)
    (by rw [hr]; exact Nat.le_refl 30) 0

/-! ### Examples -/

/-- A small configuration: the transport pauses above 4 bytes, and resumes at 1. -/
def smallEs : List Ev :=
  [.marks 4 (some 1), .put (.bytes b!"abcdef"), .put (.bytes b!"gh"), .put (.bytes b!"ij"), .send 1, .send 0, .tick, .drain 2, .tick, .drain 2, .send 0, .send 0]

example : Watched {} smallEs ∧ Watched tlsCfg smallEs := by
  refine ⟨.inl ⟨by decide, by decide, ?_⟩, .inr ⟨[], 4, some 1, smallEs.tail, rfl, fun t e => (by cases e), (by decide : (1 : Nat) ≤ 4), ?_⟩⟩
  · intro e he; simp [smallEs] at he; rcases he with rfl | rfl | rfl | rfl | rfl | rfl | rfl | rfl | rfl | rfl | rfl | rfl <;> simp [Valid]
  · intro e he; simp [smallEs] at he; rcases he with rfl | rfl | rfl | rfl | rfl | rfl | rfl | rfl | rfl | rfl | rfl <;> simp [Valid]

/-- It waits behind the first item with five bytes in the buffer, is woken when one is left, and writes the rest. -/
example : (run {} (init {}) (smallEs.take 6)).wait = .pending 0 ∧ (run {} (init {}) (smallEs.take 6)).buf = b!"bcdef" ∧
    (run {} (init {}) (smallEs.take 8)).wait = .pending 0 ∧ (run {} (init {}) (smallEs.take 10)).wait = .woken ∧
    (run {} (init {}) smallEs).out ++ (run {} (init {}) smallEs).buf = b!"abcdefghij" ∧ (run {} (init {}) smallEs).expiries = [] := by decide +kernel

/-- A client that reads too slowly. -/
example : (run { timeout := 2 } (init {}) (smallEs.take 9 ++ [.timer, .send 0])).mode = .dead ∧
    (run { timeout := 2 } (init {}) (smallEs.take 9 ++ [.timer])).expiries = [(1, 2)] ∧
    (run { timeout := 2 } (init {}) (smallEs.take 9 ++ [.timer, .send 0])).out = b!"abc" := by decide +kernel

/-- `C83_refuted_tls` applies. -/
example : 65536 < (List.replicate 70000 (0 : UInt8)).length ∧ (List.replicate 70000 (0 : UInt8)).length < 524288 := by
  rw [List.length_replicate]; decide

end Verif
