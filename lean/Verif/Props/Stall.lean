import Verif.Proofs.Stall
import Verif.Props.ErrorPage
/-!
# C104: a client that stops sending its body
-/
namespace Verif
open Verif.Py Verif.Model.Stall Verif.Spec.Stall
open Verif.Model
open Proofs.Stall

namespace Stall

theorem run_snoc (K : Nat) (es : List Ev) (e : Ev) : run K (es ++ [e]) = step K (run K es) e := by
  unfold run; rw [List.foldl_append]; rfl

theorem cancelTask_keeps (s : St) : (cancelTask s).gone = s.gone ∧ (cancelTask s).now = s.now ∧ (cancelTask s).outs = s.outs ∧ (cancelTask s).puts = s.puts ∧
    (cancelTask s).cancelled = s.cancelled := by
  unfold cancelTask; split <;> exact ⟨rfl, rfl, rfl, rfl, rfl⟩

theorem cancelHandler_keeps (s : St) : (cancelHandler s).gone = s.gone ∧ (cancelHandler s).now = s.now ∧ (cancelHandler s).outs = s.outs ∧ (cancelHandler s).puts = s.puts := by
  unfold cancelHandler
  split
  · exact ⟨rfl, rfl, rfl, rfl⟩
  · split
    · exact ⟨rfl, rfl, rfl, rfl⟩
    · obtain ⟨h1, h2, h3, h4, _⟩ := cancelTask_keeps s; exact ⟨h1, h2, h3, h4⟩

theorem gone_step (K : Nat) (s : St) (e : Ev) : (step K s e).gone = true ↔ s.gone = true ∨ e = .lose := by
  cases e with
  | tick => simp [step]
  | put x => simp only [step]; split <;> simp_all
  | read =>
    simp only [step]
    split
    · split <;> simp_all
    · simp
  | wake =>
    simp only [step]
    split
    · simp
    · split
      · simp
      · split <;> simp
    · simp
  | fire =>
    simp only [step]
    split
    · simp
    · split <;> simp [(cancelTask_keeps s).1]
    · split <;> simp [(cancelTask_keeps s).1]
  | cancel => simp [step, (cancelHandler_keeps s).1]
  | lose => simp only [step]; split <;> simp_all
  | run =>
    simp only [step]
    split
    · simp
    · split <;> simp [finish]
    · split <;> simp [finish]

theorem gone_run (K : Nat) (es : List Ev) : (run K es).gone = true ↔ .lose ∈ es := by
  induction es using snocInd with
  | h0 => simp [run]
  | h1 es e ih => rw [run_snoc, gone_step, ih]; simp; constructor <;> (rintro (h | h) <;> simp [h])

theorem put_snoc {es : List Ev} (h : .lose ∉ es) (e : Ev) (he : e ≠ .lose) : itemsPut (es ++ [e]) = more (itemsPut es) e := by
  induction es with
  | nil => cases e <;> simp_all [itemsPut, more]
  | cons a t ih =>
    have ih := ih (fun hm => h (by simp [hm]))
    cases a with
    | lose => exact absurd (by simp) h
    | put x => simp only [List.cons_append, itemsPut, ih]; cases e <;> simp [more]
    | _ => simp only [List.cons_append, itemsPut, ih]

theorem inv_gone {K : Nat} {s : St} {L : List Item} (i : Inv K s L) (hg : s.gone = true) (L' : List Item) : Inv K s L' :=
  ⟨i.cur, i.fifo, fun h => (by rw [hg] at h; cases h), i.gone, i.must, i.hmust, i.outs⟩

theorem inv_run (K : Nat) (es : List Ev) : Inv K (run K es) (itemsPut es) := by
  induction es using snocInd with
  | h0 =>
    refine ⟨⟨[], .idle rfl rfl rfl (.inl rfl) (fun h => absurd rfl h), fun _ => ⟨[], .nil, rfl⟩⟩, fun _ => rfl, fun _ => rfl, fun h => (by cases h), fun t h => (by cases h), fun h => (by cases h), ?_⟩
    intro pre r post h
    exact absurd h (by simp [run])
  | h1 es e ih =>
    rw [run_snoc]
    by_cases hg : (run K es).gone = true
    · by_cases hp : ∃ x, e = .put x
      · obtain ⟨x, rfl⟩ := hp
        have : step K (run K es) (.put x) = run K es := by simp only [step]; rw [if_pos hg]
        rw [this]; exact inv_gone ih hg _
      · exact inv_gone (step_inv ih e (fun _ x h => hp ⟨x, h⟩)) ((gone_step K _ e).2 (.inl hg)) _
    · have hl : .lose ∉ es := fun h => hg ((gone_run K es).2 h)
      have := step_inv ih e (fun h => absurd h hg)
      by_cases he : e = .lose
      · exact inv_gone this ((gone_step K _ e).2 (.inr he)) _
      · rw [put_snoc hl e he]; exact this

theorem done_run {K : Nat} {s : St} {t p k : Nat} {r} (h : s.rd = .inner t p k) (hr : s.q.calls[k]? = some (.done r)) :
    (step K s .run).rd = .idle ∧ ∃ x, (step K s .run).outs = s.outs ++ [x] ∧ x.t0 = t := by
  have e : step K s .run = finish s t p (gotOf r) := by simp only [step, h, hr]
  rw [e]; exact ⟨rfl, _, rfl, rfl⟩

theorem ends_inner {K : Nat} {s : St} {L : List Item} (i : Inv K s L) {t p k : Nat} (h : s.rd = .inner t p k) (hd : t + K ≤ s.now) :
    (step K (step K (step K s .fire) .wake) .run).rd = .idle ∧ ∃ r, (step K (step K (step K s .fire) .wake) .run).outs = s.outs ++ [r] ∧ r.t0 = t := by
  obtain ⟨hh, hc, -⟩ := i.cur
  cases hc with
  | idle a => rw [h] at a; cases a
  | fresh a => rw [h] at a; cases a
  | @inner t' p' k' ph _ a1 a2 a3 =>
    rw [h] at a1
    cases a1
    have e1 : step K s .fire = { s with q := Queue.cancel k s.q } := by
      simp only [step, h]; rw [if_pos hd]; unfold cancelTask; rw [h]
    have e2 : step K (step K s .fire) .wake = { s with q := Queue.resume k (Queue.cancel k s.q) } := by
      rw [e1]; simp only [step, h]
    have hdone : ∃ r, (Queue.resume k (Queue.cancel k s.q)).calls[k]? = some (.done r) := by
      have c := (cancel_in a2 i.must).1
      cases ph with
      | waiting => exact ⟨_, (resume_in c).1.2.1⟩
      | ready x => exact ⟨_, (resume_in c).1.2.1⟩
      | cancelled => exact ⟨_, (resume_in c).1.2.1⟩
      | done r => exact ⟨_, (resume_in c).1.2.1⟩
    obtain ⟨r, hr⟩ := hdone
    rw [e2]
    exact done_run (s := { s with q := Queue.resume k (Queue.cancel k s.q) }) h hr

/-! ### With a loop that keeps up -/

/-- All items since item `p` were put just now. -/
def Since (s : St) (p : Nat) : Prop := p ≤ s.puts.length ∧ ∀ i x, p ≤ i → s.puts[i]? = some x → x = s.now

structure Timed (K : Nat) (puts : List Nat) (r : Read) : Prop where
  lo : r.t0 ≤ r.t1
  hi : r.t1 ≤ r.t0 + K
  p0 : r.p0 ≤ r.p1
  p1 : r.p1 ≤ puts.length
  at_end : ∀ i x, r.p0 ≤ i → i < r.p1 → puts[i]? = some x → x = r.t1

inductive Now (K : Nat) (s : St) : Prop
  | idle : s.rd = .idle → Now K s
  | fresh {t p : Nat} {c d : Bool} : s.rd = .fresh t p c d → s.now = t → Since s p → (s.gone = false → p < s.puts.length → s.q.queue ≠ []) → Now K s
  | inner {t p k : Nat} : s.rd = .inner t p k → t ≤ s.now → s.now ≤ t + K → Since s p → (In s.q k .waiting → s.puts.length = p) → Now K s

theorem in_waiting {q : Q} {k : Nat} {ph : Ph} (h : In q k ph) (hw : In q k .waiting) : ph = .waiting := by
  obtain ⟨-, -, -, f, w1, w2, -⟩ := hw
  cases ph with
  | waiting => rfl
  | ready x => obtain ⟨-, -, g, g1, g2⟩ := h; rw [g1] at w1; cases w1; rw [g2] at w2; cases w2
  | cancelled => obtain ⟨-, g, g1, g2, -⟩ := h; rw [g1] at w1; cases w1; rw [g2] at w2; cases w2
  | done r => obtain ⟨-, g1, -⟩ := h; rw [g1] at w1; cases w1

theorem cancel_not_waiting {q : Q} {k : Nat} {ph : Ph} (h : In q k ph) (hm : ∀ t ∈ q.must, t < q.calls.length) : ¬ In (Queue.cancel k q) k .waiting := by
  intro hw
  have := (cancel_in h hm).1
  cases ph with
  | waiting => cases in_waiting this hw
  | ready x => cases in_waiting this hw
  | cancelled => cases in_waiting this hw
  | done r => cases in_waiting this hw

theorem timed_put {K : Nat} {puts : List Nat} {r : Read} (h : Timed K puts r) (n : Nat) : Timed K (puts ++ [n]) r :=
  ⟨h.lo, h.hi, h.p0, by have := h.p1; simp; omega, fun i x h1 h2 h3 => h.at_end i x h1 h2 (by rw [List.getElem?_append_left (Nat.lt_of_lt_of_le h2 h.p1)] at h3; exact h3)⟩

theorem since_put {s : St} {p : Nat} (h : Since s p) (q : Q) : Since { s with q := q, puts := s.puts ++ [s.now] } p := by
  refine ⟨by have := h.1; simp; omega, fun i x h1 h2 => ?_⟩
  dsimp only at h2 ⊢
  rw [List.getElem?_append] at h2
  split at h2
  · exact h.2 i x h1 h2
  · have := List.mem_of_getElem? h2
    simpa using this

/-- `task.cancel()` keeps the times. -/
theorem now_cancel {K : Nat} {s : St} {L : List Item} (i : Inv K s L) (n : Now K s) (b : Bool) : Now K { cancelTask s with cancelled := b } := by
  obtain ⟨hh, hc, -⟩ := i.cur
  cases n with
  | idle a => refine .idle ?_; unfold cancelTask; rw [a]; exact a
  | @fresh t p c0 d0 a b c d =>
    have e : cancelTask s = { s with rd := .fresh t p (c0 || !d0) d0 } := by unfold cancelTask; rw [a]
    rw [e]; exact .fresh rfl b c d
  | @inner t p k a b1 b2 c d =>
    have e : cancelTask s = { s with q := Queue.cancel k s.q } := by unfold cancelTask; rw [a]
    rw [e]
    refine .inner (t := t) (p := p) (k := k) a b1 b2 c (fun hw => ?_)
    cases hc with
    | idle a' => rw [a] at a'; cases a'
    | fresh a' => rw [a] at a'; cases a'
    | inner a' a2 => rw [a] at a'; cases a'; exact absurd hw (cancel_not_waiting a2 i.must)

theorem now_cancelHandler {K : Nat} {s : St} {L : List Item} (i : Inv K s L) (n : Now K s) : Now K (cancelHandler s) := by
  unfold cancelHandler
  split
  · exact n
  · split
    · cases n with
      | idle a => exact .idle a
      | fresh a b c d => exact .fresh a b c d
      | inner a b c d e => exact .inner (s := { s with must := true, cancelled := true }) a b c d e
    · exact now_cancel i n true

theorem prompt_step {K : Nat} {s : St} {L : List Item} (i : Inv K s L) (n : Now K s) (o : ∀ r ∈ s.outs, Timed K s.puts r) (e : Ev) (hq : e = .tick → Quiet K s) :
    Now K (step K s e) ∧ ∀ r ∈ (step K s e).outs, Timed K (step K s e).puts r := by
  have snoc : ∀ a : Read, Timed K s.puts a → ∀ r ∈ s.outs ++ [a], Timed K s.puts r := by
    intro a ha r hr
    rcases List.mem_append.1 hr with h | h
    · exact o r h
    · simp only [List.mem_singleton] at h; subst h; exact ha
  cases e with
  | tick =>
    refine ⟨?_, o⟩
    rcases hq rfl with h | ⟨t, p, k, f, ow, h1, h2, h3, h4⟩
    · exact .idle h
    · cases n with
      | idle a => exact .idle a
      | fresh a => rw [h1] at a; cases a
      | inner a b c d e =>
        rw [h1] at a
        cases a
        obtain ⟨hh, hc, -⟩ := i.cur
        have hw : In s.q k .waiting := by
          cases hc with
          | idle a' => rw [h1] at a'; cases a'
          | fresh a' => rw [h1] at a'; cases a'
          | @inner _ _ _ ph _ a' a2 =>
            rw [h1] at a'
            cases a'
            cases ph with
            | waiting => exact a2
            | ready x => obtain ⟨-, -, g, g1, g2⟩ := a2; rw [g1] at h2; cases h2; rw [g2] at h3; cases h3
            | cancelled => obtain ⟨-, g, g1, g2, -⟩ := a2; rw [g1] at h2; cases h2; rw [g2] at h3; cases h3
            | done r => obtain ⟨-, g1, -⟩ := a2; rw [g1] at h2; cases h2
        have hp := e hw
        refine .inner (s := { s with now := s.now + 1 }) h1 (Nat.le_succ_of_le b) h4 ⟨d.1, fun i x hi hx => ?_⟩ e
        have := (List.getElem?_eq_some_iff.1 hx).1
        dsimp only at this
        omega
  | put x =>
    simp only [step]
    split
    · exact ⟨n, o⟩
    · next hg =>
      refine ⟨?_, fun r hr => timed_put (o r hr) _⟩
      obtain ⟨hh, hc, -⟩ := i.cur
      cases n with
      | idle a => exact .idle a
      | fresh a b c d =>
        refine .fresh a b (since_put c _) (fun _ _ => ?_)
        have hr : Rest s.q := by
          cases hc with
          | idle a' => rw [a] at a'; cases a'
          | fresh _ h => exact h
          | inner a' => rw [a] at a'; cases a'
        show (Queue.put x s.q).queue ≠ []
        rw [(put_rest x hr).2.1]; simp
      | @inner t p k a b1 b2 c d =>
        refine .inner (s := { s with q := Queue.put x s.q, puts := s.puts ++ [s.now] }) a b1 b2 (since_put c _) (fun hw => ?_)
        cases hc with
        | idle a' => rw [a] at a'; cases a'
        | fresh a' => rw [a] at a'; cases a'
        | @inner _ _ _ ph _ a' a2 =>
          rw [a] at a'
          cases a'
          by_cases hp : ph = .waiting
          · subst hp; cases in_waiting (put_waiting x a2).1 hw
          · exact absurd (in_waiting (put_other x a2 hp).1 hw) hp
  | read =>
    simp only [step]
    split
    · next hr =>
      split
      · exact ⟨.idle hr, snoc _ ⟨Nat.le_refl _, Nat.le_add_right _ _, Nat.le_refl _, Nat.le_refl _, fun i x h1 h2 => by dsimp only at h1 h2; omega⟩⟩
      · refine ⟨.fresh rfl rfl ⟨Nat.le_refl _, fun i x h1 h2 => ?_⟩ (fun _ h => absurd h (Nat.lt_irrefl _)), o⟩
        have := (List.getElem?_eq_some_iff.1 h2).1
        dsimp only at this
        omega
    · exact ⟨n, o⟩
  | wake =>
    obtain ⟨hh, hc, -⟩ := i.cur
    simp only [step]
    cases n with
    | idle a => rw [a]; exact ⟨.idle a, o⟩
    | @fresh t p c d a b c1 d1 =>
      rw [a]
      simp only
      split
      · exact ⟨.fresh a b c1 d1, o⟩
      · split
        · exact ⟨.fresh rfl b c1 d1, o⟩
        · next h1 h2 =>
          refine ⟨.inner (s := { s with rd := .inner t p s.q.calls.length, q := Queue.start s.q }) rfl (by rw [b]; exact Nat.le_refl _) (by rw [b]; exact Nat.le_add_right _ _) c1 (fun hw => ?_), o⟩
          cases hc with
          | idle a' => rw [a] at a'; cases a'
          | inner a' => rw [a] at a'; cases a'
          | fresh a' a2 a3 a4 a5 a6 a7 =>
            rw [a] at a'
            cases a'
            have hg : s.gone = false := by
              cases hg : s.gone with
              | false => rfl
              | true => exact absurd (a6 hg) h2
            rcases (start_rest a2 i.must).1 with ⟨-, x, r, -, w, -⟩ | ⟨-, w, -⟩ | ⟨-, w, -⟩
            · cases in_waiting w hw
            · have h5 := c1.1
              have h6 := d1 hg
              show s.puts.length = p
              rcases Nat.lt_or_ge p s.puts.length with h7 | h7
              · exact absurd w (h6 h7)
              · omega
            · cases in_waiting w hw
    | @inner t p k a b1 b2 c d =>
      rw [a]
      simp only
      refine ⟨.inner (s := { s with rd := .inner t p k, q := Queue.resume k s.q }) rfl b1 b2 c (fun hw => d ?_), o⟩
      cases hc with
      | idle a' => rw [a] at a'; cases a'
      | fresh a' => rw [a] at a'; cases a'
      | @inner _ _ _ ph _ a' a2 =>
        rw [a] at a'
        cases a'
        have := (resume_in a2).1
        cases ph with
        | waiting => exact a2
        | ready x => cases in_waiting this hw
        | cancelled => cases in_waiting this hw
        | done r => cases in_waiting this hw
  | fire =>
    have hcan : Now K (cancelTask s) ∧ ∀ r ∈ (cancelTask s).outs, Timed K (cancelTask s).puts r := by
      refine ⟨?_, by rw [(cancelTask_keeps s).2.2.1, (cancelTask_keeps s).2.2.2.1]; exact o⟩
      have := now_cancel i n s.cancelled
      rw [← (cancelTask_keeps s).2.2.2.2] at this
      exact this
    simp only [step]
    split
    · exact ⟨n, o⟩
    · split
      · exact hcan
      · exact ⟨n, o⟩
    · split
      · exact hcan
      · exact ⟨n, o⟩
  | cancel =>
    refine ⟨now_cancelHandler i n, ?_⟩
    simp only [step]
    rw [(cancelHandler_keeps s).2.2.1, (cancelHandler_keeps s).2.2.2]; exact o
  | lose =>
    simp only [step]
    split
    · exact ⟨n, o⟩
    · refine ⟨?_, by rw [(cancelHandler_keeps s).2.2.1, (cancelHandler_keeps s).2.2.2]; exact o⟩
      cases now_cancelHandler i n with
      | idle a => exact .idle a
      | fresh a b c d => exact .fresh a b c (fun h => by cases h)
      | inner a b1 b2 c d =>
        refine .inner (s := { cancelHandler s with gone := true, q := Queue.clear (cancelHandler s).q }) a b1 b2 c (fun hw => ?_)
        obtain ⟨-, -, -, f, -, -, h⟩ := hw
        cases h
  | run =>
    have hfin : ∀ t p g, t ≤ s.now → s.now ≤ t + K → Since s p → Now K (finish s t p g) ∧ ∀ r ∈ (finish s t p g).outs, Timed K (finish s t p g).puts r := by
      intro t p g h1 h2 h3
      exact ⟨.idle rfl, snoc _ ⟨h1, h2, h3.1, Nat.le_refl _, fun i x a b c => h3.2 i x a c⟩⟩
    simp only [step]
    cases n with
    | idle a => rw [a]; exact ⟨.idle a, o⟩
    | fresh a b c d =>
      rw [a]
      simp only
      split
      · exact hfin _ _ _ (by rw [b]; exact Nat.le_refl _) (by rw [b]; exact Nat.le_add_right _ _) c
      · exact ⟨.fresh a b c d, o⟩
    | inner a b1 b2 c d =>
      rw [a]
      simp only
      split
      · exact hfin _ _ _ b1 b2 c
      · exact ⟨.inner a b1 b2 c d, o⟩

theorem prompt_run {K : Nat} (es : List Ev) (hp : Prompt K es) : Now K (run K es) ∧ ∀ r ∈ (run K es).outs, Timed K (run K es).puts r := by
  induction es using snocInd with
  | h0 => exact ⟨.idle rfl, fun r hr => by cases hr⟩
  | h1 es e ih =>
    obtain ⟨h1, h2⟩ := ih (fun pre post he => hp pre (post ++ [e]) (by rw [he]; simp))
    rw [run_snoc]
    exact prompt_step (inv_run K es) h1 h2 e (fun he => hp es [] (by rw [he]))

end Stall
open Stall

/-! ## C104 -/

/-- **C104 (not too early).** In every schedule: a read of the body ends with TimeoutError only if it has taken `keepalive_timeout`, or the
handler was cancelled meanwhile, or the read before it ended so and nothing has been put since. -/
theorem C104_early (K : Nat) (es : List Ev) {pre post : List Read} {r : Read} (h : (run K es).outs = pre ++ r :: post) (ht : r.got = .timeout) :
    r.t0 + K ≤ r.t1 ∨ r.cancelled = true ∨ ∃ pre' r0, pre = pre' ++ [r0] ∧ r0.got = .timeout ∧ r0.p1 = r.p0 :=
  (inv_run K es).outs pre r post h ht

/-- **C104 (accounting).** In every schedule, as long as the connection is there: the items put are, in order, those that the reads took, at most one of
the read that goes on, and what is in the queue. A read gives the item that it took; only one that ends with TimeoutError may lose it. -/
theorem C104_delivered (K : Nat) {es : List Ev} (hl : .lose ∉ es) : ∃ hs h, All2 (fun r h => Gives r.got h) (run K es).outs hs ∧ h.length ≤ 1 ∧
    ((run K es).rd = .idle → h = []) ∧ itemsPut es = hs.flatten ++ h ++ (run K es).q.queue := by
  have i := inv_run K es
  have hg : (run K es).gone = false := by
    cases h : (run K es).gone with
    | false => rfl
    | true => exact absurd ((gone_run K es).1 h) hl
  obtain ⟨h, hc, hh⟩ := i.cur
  obtain ⟨hs, h1, h2⟩ := hh hg
  refine ⟨hs, h, h1, ?_, ?_, by rw [← i.put hg, ← i.fifo hg, h2]⟩
  · cases hc with
    | idle => simp
    | fresh => simp
    | @inner t p k ph h a1 a2 a3 =>
      cases ph with
      | waiting => rw [a3.1]; simp
      | ready x => rw [a3.1]; simp
      | cancelled => rw [a3.1]; simp
      | done r => cases r with
        | got x => rw [show h = [x] from a3]; simp
        | cancelledError => rcases a3.1 with rfl | ⟨x, rfl⟩ <;> simp
  · intro hi
    cases hc with
    | idle => rfl
    | fresh => rfl
    | inner a => rw [hi] at a; cases a

/-- **C104 (an end).** A read that has taken `keepalive_timeout` ends: when its timer and its task run, and the handler then. -/
theorem C104_ends (K : Nat) (es : List Ev) {t p : Nat} (h : (∃ c d, (run K es).rd = .fresh t p c d) ∨ ∃ k, (run K es).rd = .inner t p k) (hd : t + K ≤ (run K es).now) :
    (run K (es ++ [.wake, .fire, .wake, .run])).rd = .idle ∧ ∃ r, (run K (es ++ [.wake, .fire, .wake, .run])).outs = (run K es).outs ++ [r] ∧ r.t0 = t := by
  have e : run K (es ++ [.wake, .fire, .wake, .run]) = step K (step K (step K (step K (run K es) .wake) .fire) .wake) .run := by
    unfold run; rw [List.foldl_append]; rfl
  rw [e]
  have i := inv_run K es
  have i' := step_inv i .wake (fun _ x h => by cases h)
  generalize run K es = s at *
  rcases h with ⟨c, d, h⟩ | ⟨k, h⟩
  · have hdn : ∀ s1 : St, s1.rd = .fresh t p true true → s1.now = s.now → s1.outs = s.outs → (step K (step K (step K s1 .fire) .wake) .run).rd = .idle ∧
        ∃ r, (step K (step K (step K s1 .fire) .wake) .run).outs = s.outs ++ [r] ∧ r.t0 = t := by
      intro s1 h1 h2 h3
      have e1 : step K s1 .fire = s1 := by
        simp only [step, h1]; rw [if_pos (by rw [h2]; exact hd)]; unfold cancelTask; rw [h1]; simp [← h1]
      have e2 : step K s1 .wake = s1 := by simp only [step, h1]; rfl
      have e3 : step K s1 .run = finish s1 t p .timeout := by simp only [step, h1]; rfl
      rw [e1, e2, e3]
      exact ⟨rfl, _, by unfold finish; rw [h3], rfl⟩
    have e1 : step K s .wake = if d then s else if c then { s with rd := .fresh t p c true } else { s with rd := .inner t p s.q.calls.length, q := Queue.start s.q } := by
      simp only [step, h]
    obtain ⟨hh, hc, -⟩ := i.cur
    cases hc with
    | idle a => rw [h] at a; cases a
    | inner a => rw [h] at a; cases a
    | fresh a1 a2 a3 a4 a5 a6 a7 =>
      rw [h] at a1
      cases a1
      rw [e1] at i' ⊢
      cases d with
      | true => have := a5 rfl; subst this; exact hdn s h rfl rfl
      | false =>
        cases c with
        | true => exact hdn _ rfl rfl rfl
        | false => exact ends_inner (s := { s with rd := .inner t p s.q.calls.length, q := Queue.start s.q }) i' rfl hd
  · have e1 : step K s .wake = { s with q := Queue.resume k s.q } := by simp only [step, h]
    rw [e1] at i' ⊢
    exact ends_inner (s := { s with q := Queue.resume k s.q }) i' h hd

/-- **C104 (time).** With a loop that keeps up, every read ends within `keepalive_timeout`, and the items put while it went on were put at the
time when it ended. -/
theorem C104_prompt {K : Nat} {es : List Ev} (hp : Prompt K es) {r : Read} (hr : r ∈ (run K es).outs) :
    r.t0 ≤ r.t1 ∧ r.t1 ≤ r.t0 + K ∧ ∀ i x, r.p0 ≤ i → i < r.p1 → (run K es).puts[i]? = some x → x = r.t1 :=
  have h := (prompt_run es hp).2 r hr
  ⟨h.lo, h.hi, h.at_end⟩

namespace Stall

theorem uncancelled {K : Nat} {es : List Ev} (hc : .cancel ∉ es) (hl : .lose ∉ es) : (run K es).cancelled = false ∧ ∀ r ∈ (run K es).outs, r.cancelled = false := by
  induction es using snocInd with
  | h0 => exact ⟨rfl, fun r hr => by cases hr⟩
  | h1 es e ih =>
    obtain ⟨a, b⟩ := ih (fun h => hc (by simp [h])) (fun h => hl (by simp [h]))
    rw [run_snoc]
    generalize run K es = s at *
    have snoc : ∀ x : Read, x.cancelled = false → ∀ r ∈ s.outs ++ [x], r.cancelled = false := by
      intro x hx r hr
      rcases List.mem_append.1 hr with h | h
      · exact b r h
      · simp only [List.mem_singleton] at h; subst h; exact hx
    cases e with
    | tick => exact ⟨a, b⟩
    | put x => simp only [step]; split <;> exact ⟨a, b⟩
    | read =>
      simp only [step]
      split
      · split
        · exact ⟨a, snoc _ rfl⟩
        · exact ⟨a, b⟩
      · exact ⟨a, b⟩
    | wake =>
      simp only [step]
      split
      · exact ⟨a, b⟩
      · split
        · exact ⟨a, b⟩
        · split <;> exact ⟨a, b⟩
      · exact ⟨a, b⟩
    | fire =>
      have h := cancelTask_keeps s
      simp only [step]
      split
      · exact ⟨a, b⟩
      · split
        · rw [h.2.2.2.2, h.2.2.1]; exact ⟨a, b⟩
        · exact ⟨a, b⟩
      · split
        · rw [h.2.2.2.2, h.2.2.1]; exact ⟨a, b⟩
        · exact ⟨a, b⟩
    | cancel => exact absurd (by simp) hc
    | lose => exact absurd (by simp) hl
    | run =>
      simp only [step]
      split
      · exact ⟨a, b⟩
      · split
        · exact ⟨rfl, snoc _ a⟩
        · exact ⟨a, b⟩
      · split
        · exact ⟨rfl, snoc _ a⟩
        · exact ⟨a, b⟩

/-- What `body()` gives when no read fails. -/
theorem body_ok : ∀ {outs : List Read} {hs : List (List Item)}, All2 (fun r h => Gives r.got h) outs hs → ∀ {d : Bytes}, bodyOf (outs.map (·.got)) = some (d, .eof) →
    ∃ (ps : List Bytes) (rest : List Item), hs.flatten = ps.map some ++ none :: rest ∧ d = ps.flatten
  | _, _, .nil, d, h => by cases h
  | r :: outs, _, .cons (b := hd) (m := hs) hg ht, d, h => by
    simp only [List.map_cons] at h
    generalize hgot : r.got = g at hg h
    cases hg with
    | piece e =>
      simp only [bodyOf] at h
      cases hb : bodyOf (outs.map (·.got)) with
      | none => rw [hb] at h; cases h
      | some x =>
        obtain ⟨x1, x2⟩ := x
        rw [hb] at h
        simp only [Option.map_some, Option.some.injEq, Prod.mk.injEq] at h
        obtain ⟨rfl, rfl⟩ := h
        obtain ⟨ps, rest, h1, h2⟩ := body_ok ht hb
        exact ⟨e :: ps, rest, by simp [h1], by simp [h2]⟩
    | eof =>
      simp only [bodyOf, Option.some.injEq, Prod.mk.injEq, and_true] at h
      exact ⟨[], hs.flatten, by simp, by rw [← h]; rfl⟩
    | timeout => simp [bodyOf] at h
    | lost x => simp [bodyOf] at h

end Stall

/-- **C104 (a stalled client).** With a loop that keeps up and a handler that is not cancelled: its first TimeoutError comes exactly `keepalive_timeout`
after the read was begun, and no item was put in that time (one put at its very end may be too late). -/
theorem C104_stalled {K : Nat} {es : List Ev} (hp : Prompt K es) (hc : .cancel ∉ es) (hl : .lose ∉ es) {pre post : List Read} {r : Read}
    (h : (run K es).outs = pre ++ r :: post) (ht : r.got = .timeout) (hf : ∀ x ∈ pre, x.got ≠ .timeout) :
    r.t1 = r.t0 + K ∧ ∀ i x, r.p0 ≤ i → i < r.p1 → (run K es).puts[i]? = some x → x = r.t0 + K := by
  have hm : r ∈ (run K es).outs := by rw [h]; simp
  obtain ⟨h1, h2, h3⟩ := C104_prompt hp hm
  have h4 : r.t0 + K ≤ r.t1 := by
    rcases C104_early K es h ht with a | a | ⟨p, r0, a, b, -⟩
    · exact a
    · rw [(uncancelled hc hl).2 r hm] at a; cases a
    · exact absurd b (hf r0 (by rw [a]; simp))
  have h5 : r.t1 = r.t0 + K := Nat.le_antisymm h2 h4
  exact ⟨h5, fun i x a b c => (h3 i x a b c).trans h5⟩

/-- **C104 (a client that does not stall).** What `body()` returns is exactly what was put before the end marker. -/
theorem C104_body (K : Nat) {es : List Ev} (hl : .lose ∉ es) {d : Bytes} (hb : bodyOf ((run K es).outs.map (·.got)) = some (d, .eof)) :
    ∃ (ps : List Bytes) (rest : List Item), itemsPut es = ps.map some ++ none :: rest ∧ d = ps.flatten := by
  obtain ⟨hs, h, h1, -, -, h2⟩ := C104_delivered K hl
  obtain ⟨ps, rest, h3, h4⟩ := body_ok h1 hb
  exact ⟨ps, rest ++ h ++ (run K es).q.queue, by rw [h2, h3]; simp, h4⟩

/-- **C104 (the answer).** A handler that calls `body()`, one of whose reads is the first to end otherwise than with a piece, with TimeoutError, and that has
sent nothing: the client is answered 408, and the connection is closed. -/
theorem C104_answer (K : Nat) {es : List Ev} {pre post : List Read} {r : Read} (ho : (run K es).outs = pre ++ r :: post) (ht : r.got = .timeout)
    (hp : ∀ x ∈ pre, ∃ d, x.got = .piece d) {c : Model.Response.Cfg} (hc : Spec.Response.CfgOk c) {env : Model.ErrorPage.Env} (hd : env.debug = false) {s : Model.Response.St} {h} (eh : s.headers = some h) (hu : s.upgraded = false) :
    ∃ x, excOf (bodyOf ((run K es).outs.map (·.got))) = some x ∧ (Model.ErrorPage.respond c env (Model.ErrorPage.error500 env) x s).2.log = s.log ++ [.head
      (b!"HTTP/" ++ c.version ++ b!" 408 Request Timeout\r\nContent-Type: text/html; charset=utf-8\r\nContent-Length: 15\r\nConnection: close\r\nDate: " ++ c.date ++
        b!"\r\nServer: " ++ c.server ++ b!"\r\n\r\n") (if c.method = b!"HEAD" then [] else b!"Request Timeout") { throttle := false }, .mark false] := by
  have hb : ∀ pre : List Read, (∀ x ∈ pre, ∃ d, x.got = .piece d) → ∃ d, bodyOf ((pre ++ r :: post).map (·.got)) = some (d, .timeout) := by
    intro pre
    induction pre with
    | nil => intro _; exact ⟨[], by simp [bodyOf, ht]⟩
    | cons a l ih =>
      intro h
      obtain ⟨d, hd⟩ := h a (by simp)
      obtain ⟨e, he⟩ := ih (fun x hx => h x (by simp [hx]))
      exact ⟨d ++ e, by simp only [List.cons_append, List.map_cons, hd, bodyOf, he]; rfl⟩
  obtain ⟨d, hb⟩ := hb pre hp
  refine ⟨_, by rw [ho, hb]; rfl, ?_⟩
  rw [(C98_private hc hd _ eh hu).2]
  have e1 : fmtInt 408 = b!"408" := by decide +kernel
  have e2 : fmtNat 15 = b!"15" := by decide +kernel
  unfold Spec.Asgi.errText
  rw [e1, e2]
  simp only [List.append_assoc]
  rfl

/-- After a TimeoutError sized reads never fail and never report the end: they give what is in the buffer, and then nothing, whatever the client
sends. -/
theorem C104_sized (n : Nat) (gs : List Got) {s : Sized} (hd : s.dead = true) :
    recvSized n gs s = some (some (s.buf.take n), { s with buf := s.buf.drop n }, gs) := by
  unfold recvSized
  split
  · next h =>
    rcases h with rfl | ⟨-, h⟩
    · simp
    · obtain ⟨b, e, d⟩ := s
      dsimp only at h
      subst h
      simp
  · have hf : fill n gs s = some (true, s, gs) := by cases gs <;> (unfold fill; rw [if_pos hd])
    rw [hf, ite_self]

/-- That is so after any sized read that ended with TimeoutError. -/
theorem C104_sized_after {n : Nat} {gs rest : List Got} {s s' : Sized} (h : recvSized n gs s = some (none, s', rest)) (m : Nat) (gs' : List Got) :
    recvSized m gs' s' = some (some (s'.buf.take m), { s' with buf := s'.buf.drop m }, gs') := by
  refine C104_sized m gs' ?_
  have hf : ∀ (gs : List Got) (s : Sized) {s' rest}, fill n gs s = some (false, s', rest) → s'.dead = true := by
    intro gs
    induction gs with
    | nil => intro s s' rest h; unfold fill at h; split at h <;> cases h
    | cons g t ih =>
      intro s s' rest h
      unfold fill at h
      split at h
      · cases h
      · cases g with
        | timeout => cases h; rfl
        | eof => cases h
        | piece d =>
          simp only at h
          split at h
          · cases h
          · exact ih _ h
  unfold recvSized at h
  split at h
  · cases h
  · split at h
    · cases h
    · next h2 =>
      cases h
      split at h2
      · exact hf _ _ h2
      · cases h2
    · cases h

namespace Stall

/-- The current read can end with TimeoutError only. -/
inductive Doomed (s : St) : Prop
  | must : s.rd ≠ .idle → s.must = true → Doomed s
  | fresh {t p : Nat} {d : Bool} : s.rd = .fresh t p true d → Doomed s
  | ready {t p k : Nat} {x : Item} : s.rd = .inner t p k → In s.q k (.ready x) → k ∈ s.q.must → Doomed s
  | cancelled {t p k : Nat} : s.rd = .inner t p k → In s.q k .cancelled → Doomed s
  | done {t p k : Nat} : s.rd = .inner t p k → In s.q k (.done .cancelledError) → Doomed s

theorem doomed_q {s s' : St} {t p k : Nat} (hr : s.rd = .inner t p k) (hr' : s'.rd = .inner t p k) (hm : s.must = true → s'.must = true)
    (h1 : ∀ x, In s.q k (.ready x) → k ∈ s.q.must → (In s'.q k (.ready x) ∧ k ∈ s'.q.must) ∨ In s'.q k (.done .cancelledError))
    (h2 : In s.q k .cancelled → In s'.q k .cancelled ∨ In s'.q k (.done .cancelledError))
    (h3 : In s.q k (.done .cancelledError) → In s'.q k (.done .cancelledError)) (d : Doomed s) : Doomed s' := by
  cases d with
  | must a b => exact .must (by rw [hr']; intro h; cases h) (hm b)
  | fresh a => rw [hr] at a; cases a
  | ready a b c =>
    rw [hr] at a
    cases a
    rcases h1 _ b c with ⟨x, y⟩ | x
    · exact .ready hr' x y
    · exact .done hr' x
  | cancelled a b =>
    rw [hr] at a
    cases a
    rcases h2 b with x | x
    · exact .cancelled hr' x
    · exact .done hr' x
  | done a b =>
    rw [hr] at a
    cases a
    exact .done hr' (h3 b)

theorem cancel_doomed {K : Nat} {s : St} {L : List Item} (i : Inv K s L) (hr : s.rd ≠ .idle) : Doomed (cancelHandler s) := by
  obtain ⟨h, hc, -⟩ := i.cur
  cases hd : taskDone s with
  | true =>
    refine .must ?_ ?_
    · unfold cancelHandler
      split
      · exact hr
      · rw [hd]; exact hr
    · unfold cancelHandler
      split
      · next h => exact absurd h hr
      · rw [hd]; rfl
  | false =>
    have e : cancelHandler s = { cancelTask s with cancelled := true } := by
      unfold cancelHandler
      split
      · next h => exact absurd h hr
      · rw [hd]; rfl
    rw [e]
    cases hc with
    | idle a => exact absurd a hr
    | @fresh t p c d a1 a2 a3 a4 a5 =>
      have hd' : d = false := by unfold taskDone at hd; rw [a1] at hd; exact hd
      subst hd'
      refine .fresh (t := t) (p := p) (d := false) ?_
      show (cancelTask s).rd = _
      unfold cancelTask; rw [a1]; simp
    | @inner t p k ph h a1 a2 a3 =>
      have e2 : cancelTask s = { s with q := Queue.cancel k s.q } := by unfold cancelTask; rw [a1]
      rw [e2]
      have c := cancel_in a2 i.must
      cases ph with
      | waiting => exact .cancelled (s := { s with q := Queue.cancel k s.q, cancelled := true }) a1 c.1
      | ready x => exact .ready (s := { s with q := Queue.cancel k s.q, cancelled := true }) a1 c.1 (c.2.2.2.2 ⟨x, rfl⟩)
      | cancelled => exact .cancelled (s := { s with q := Queue.cancel k s.q, cancelled := true }) a1 c.1
      | done r => unfold taskDone at hd; rw [a1] at hd; simp [a2.2.1] at hd

/-- One event later: still so, or the read has ended with TimeoutError. -/
theorem doomed_step {K : Nat} {s : St} {L : List Item} (i : Inv K s L) (d : Doomed s) (e : Ev) :
    (Doomed (step K s e) ∧ (step K s e).outs = s.outs) ∨ ∃ r, (step K s e).outs = s.outs ++ [r] ∧ r.got = .timeout := by
  have hri : s.rd ≠ .idle := by
    cases d with
    | must a => exact a
    | fresh a => rw [a]; intro h; cases h
    | ready a => rw [a]; intro h; cases h
    | cancelled a => rw [a]; intro h; cases h
    | done a => rw [a]; intro h; cases h
  have same : ∀ s' : St, s'.rd = s.rd → s'.q = s.q → (s.must = true → s'.must = true) → Doomed s' := by
    intro s' h1 h2 h3
    cases d with
    | must a b => exact .must (by rw [h1]; exact a) (h3 b)
    | fresh a => exact .fresh (by rw [h1]; exact a)
    | ready a b c => exact .ready (by rw [h1]; exact a) (by rw [h2]; exact b) (by rw [h2]; exact c)
    | cancelled a b => exact .cancelled (by rw [h1]; exact a) (by rw [h2]; exact b)
    | done a b => exact .done (by rw [h1]; exact a) (by rw [h2]; exact b)
  have hcan : ∀ t p k, s.rd = .inner t p k → Doomed { s with q := Queue.cancel k s.q } := by
    intro t p k hr
    refine doomed_q (s := s) hr hr id (fun x h1 h2 => ?_) (fun h => ?_) (fun h => ?_) d
    · exact .inl ⟨(cancel_in h1 i.must).1, (cancel_in h1 i.must).2.2.2.2 ⟨x, rfl⟩⟩
    · exact .inl (cancel_in h i.must).1
    · exact (cancel_in h i.must).1
  have hfire : Doomed (cancelTask s) := by
    unfold cancelTask
    split
    · next h => exact absurd h hri
    · next t p c dd h =>
      cases d with
      | must a b => exact .must (by intro h; cases h) b
      | fresh a => rw [h] at a; cases a; exact .fresh (t := t) (p := p) (d := dd) (by simp)
      | ready a => rw [h] at a; cases a
      | cancelled a => rw [h] at a; cases a
      | done a => rw [h] at a; cases a
    · next t p k h => exact hcan t p k h
  cases e with
  | tick => exact .inl ⟨same _ rfl rfl id, rfl⟩
  | put x =>
    simp only [step]
    split
    · exact .inl ⟨d, rfl⟩
    · left
      refine ⟨?_, rfl⟩
      cases hr : s.rd with
      | idle => exact absurd hr hri
      | fresh t p c dd =>
        cases d with
        | must a b => exact .must (by intro h; cases h) b
        | fresh a => rw [hr] at a; cases a; exact .fresh rfl
        | ready a => rw [hr] at a; cases a
        | cancelled a => rw [hr] at a; cases a
        | done a => rw [hr] at a; cases a
      | inner t p k =>
        refine doomed_q (s := s) hr rfl id (fun x' h1 h2 => ?_) (fun h => ?_) (fun h => ?_) d
        · have := put_other x h1 (by intro h; cases h)
          exact .inl ⟨this.1, by show k ∈ (Queue.put x s.q).must; rw [this.2.2.2.2.1]; exact h2⟩
        · exact .inl (put_other x h (by intro h; cases h)).1
        · exact (put_other x h (by intro h; cases h)).1
  | read =>
    have : step K s .read = s := by simp only [step]
    rw [this]; exact .inl ⟨d, rfl⟩
  | wake =>
    simp only [step]
    split
    · next h => exact absurd h hri
    · next t p c dd h =>
      split
      · exact .inl ⟨d, rfl⟩
      · next hdd =>
        split
        · next hc => subst hc; exact .inl ⟨.fresh rfl, rfl⟩
        · next hc =>
          exfalso
          cases d with
          | must a b =>
            obtain ⟨_, hcur, -⟩ := i.cur
            cases hcur with
            | idle a' => exact hri a'
            | inner a' => rw [h] at a'; cases a'
            | fresh a1 a2 a3 a4 a5 a6 a7 => rw [h] at a1; cases a1; exact hdd (a7 b)
          | fresh a => rw [h] at a; cases a; exact hc rfl
          | ready a => rw [h] at a; cases a
          | cancelled a => rw [h] at a; cases a
          | done a => rw [h] at a; cases a
    · next t p k h =>
      left
      refine ⟨doomed_q (s := s) h h id (fun x h1 h2 => ?_) (fun h1 => ?_) (fun h1 => ?_) d, rfl⟩
      · right
        have := (resume_in h1).1
        simp only [h2, if_true] at this
        exact this
      · exact .inr (resume_in h1).1
      · exact (resume_in h1).1
  | fire =>
    simp only [step]
    split
    · exact .inl ⟨d, rfl⟩
    · split
      · exact .inl ⟨hfire, (cancelTask_keeps s).2.2.1⟩
      · exact .inl ⟨d, rfl⟩
    · split
      · exact .inl ⟨hfire, (cancelTask_keeps s).2.2.1⟩
      · exact .inl ⟨d, rfl⟩
  | cancel => exact .inl ⟨cancel_doomed i hri, (cancelHandler_keeps s).2.2.1⟩
  | lose =>
    simp only [step]
    split
    · exact .inl ⟨d, rfl⟩
    · refine .inl ⟨?_, (cancelHandler_keeps s).2.2.1⟩
      cases cancel_doomed i hri with
      | must a b => exact .must a b
      | fresh a => exact .fresh a
      | ready a b c => exact .ready (s := { cancelHandler s with gone := true, q := Queue.clear (cancelHandler s).q }) a (clear_in b (by intro h; cases h)) c
      | cancelled a b => exact .cancelled (s := { cancelHandler s with gone := true, q := Queue.clear (cancelHandler s).q }) a (clear_in b (by intro h; cases h))
      | done a b => exact .done (s := { cancelHandler s with gone := true, q := Queue.clear (cancelHandler s).q }) a (clear_in b (by intro h; cases h))
  | run =>
    simp only [step]
    split
    · next h => exact absurd h hri
    · split
      · exact .inr ⟨_, rfl, by simp⟩
      · exact .inl ⟨d, rfl⟩
    · next t p k h =>
      split
      · next r hr =>
        right
        refine ⟨_, rfl, ?_⟩
        dsimp only
        cases d with
        | must a b => rw [b]; rfl
        | fresh a => rw [h] at a; cases a
        | ready a b => rw [h] at a; cases a; obtain ⟨-, -, f, g, -⟩ := b; rw [g] at hr; cases hr
        | cancelled a b => rw [h] at a; cases a; obtain ⟨-, f, g, -⟩ := b; rw [g] at hr; cases hr
        | done a b => rw [h] at a; cases a; rw [b.2.1] at hr; cases hr; simp [gotOf]
      · exact .inl ⟨d, rfl⟩

theorem doomed_run {K : Nat} {es : List Ev} (d : Doomed (run K es)) (fs : List Ev) :
    (Doomed (run K (es ++ fs)) ∧ (run K (es ++ fs)).outs = (run K es).outs) ∨ ∃ r post, (run K (es ++ fs)).outs = (run K es).outs ++ r :: post ∧ r.got = .timeout := by
  have grow : ∀ (s : St) (e : Ev), ∃ l, (step K s e).outs = s.outs ++ l := by
    intro s e
    cases e with
    | tick => exact ⟨[], by simp [step]⟩
    | put x => refine ⟨[], ?_⟩; simp only [step]; split <;> simp
    | read =>
      simp only [step]
      split
      · split
        · exact ⟨_, rfl⟩
        · exact ⟨[], by simp⟩
      · exact ⟨[], by simp⟩
    | wake =>
      refine ⟨[], ?_⟩
      simp only [step]
      split
      · simp
      · split
        · simp
        · split <;> simp
      · simp
    | fire =>
      refine ⟨[], ?_⟩
      simp only [step]
      split
      · simp
      · split <;> simp [(cancelTask_keeps s).2.2.1]
      · split <;> simp [(cancelTask_keeps s).2.2.1]
    | cancel => exact ⟨[], by simp [step, (cancelHandler_keeps s).2.2.1]⟩
    | lose => refine ⟨[], ?_⟩; simp only [step]; split <;> simp [(cancelHandler_keeps s).2.2.1]
    | run =>
      simp only [step]
      split
      · exact ⟨[], by simp⟩
      · split
        · exact ⟨_, rfl⟩
        · exact ⟨[], by simp⟩
      · split
        · exact ⟨_, rfl⟩
        · exact ⟨[], by simp⟩
  induction fs using snocInd with
  | h0 => rw [List.append_nil]; exact .inl ⟨d, rfl⟩
  | h1 fs e ih =>
    rw [← List.append_assoc, run_snoc]
    rcases ih with ⟨d', ho⟩ | ⟨r, post, ho, ht⟩
    · rcases doomed_step (inv_run K (es ++ fs)) d' e with ⟨h1, h2⟩ | ⟨r, h1, h2⟩
      · exact .inl ⟨h1, h2.trans ho⟩
      · exact .inr ⟨r, [], by rw [h1, ho], h2⟩
    · obtain ⟨l, hl⟩ := grow (run K (es ++ fs)) e
      exact .inr ⟨r, post ++ l, by rw [hl, ho]; simp, ht⟩

end Stall

/-- **C104 (cancellation).** A handler that is cancelled in a read, or whose connection is lost then, gets no data from it: whatever happens after, that read, if it ends,
ends with TimeoutError. -/
theorem C104_cancelled (K : Nat) (es : List Ev) {e : Ev} (he : e = .cancel ∨ (e = .lose ∧ .lose ∉ es)) (hr : (run K es).rd ≠ .idle) (fs : List Ev) {r : Read} {post : List Read}
    (h : (run K (es ++ e :: fs)).outs = (run K es).outs ++ r :: post) : r.got = .timeout := by
  have hd : Doomed (run K (es ++ [e])) ∧ (run K (es ++ [e])).outs = (run K es).outs := by
    rw [run_snoc]
    have hc := cancel_doomed (inv_run K es) hr
    have ho := (cancelHandler_keeps (run K es)).2.2.1
    rcases he with rfl | ⟨rfl, hl⟩
    · exact ⟨hc, ho⟩
    · have hg : ¬ (run K es).gone = true := fun h => hl ((gone_run K es).1 h)
      simp only [step]
      rw [if_neg hg]
      refine ⟨?_, ho⟩
      generalize cancelHandler (run K es) = s at hc
      cases hc with
      | must a b => exact .must a b
      | fresh a => exact .fresh a
      | ready a b c => exact .ready (s := { s with gone := true, q := Queue.clear s.q }) a (clear_in b (by intro h; cases h)) c
      | cancelled a b => exact .cancelled (s := { s with gone := true, q := Queue.clear s.q }) a (clear_in b (by intro h; cases h))
      | done a b => exact .done (s := { s with gone := true, q := Queue.clear s.q }) a (clear_in b (by intro h; cases h))
  have e1 : es ++ e :: fs = (es ++ [e]) ++ fs := by simp
  rw [e1] at h
  rcases doomed_run hd.1 fs with ⟨-, h2⟩ | ⟨r', post', h2, h3⟩
  · rw [h2, hd.2] at h
    have := congrArg List.length h
    simp at this
  · rw [h2, hd.2] at h
    have := List.append_cancel_left h
    simp only [List.cons.injEq] at this
    rw [← this.1]; exact h3

/-! ## Cases -/

/-- Two pieces, the second after 3 of 4 seconds, and the end. -/
example :
    let es : List Ev := [.put (some b!"ab"), .read, .wake, .run, .read, .wake, .tick, .tick, .tick, .put (some b!"c"), .wake, .run, .put none, .read, .wake, .run]
    (run 4 es).outs.map (fun r => (r.t0, r.t1, r.got)) = [(0, 0, .piece b!"ab"), (0, 3, .piece b!"c"), (3, 3, .eof)] ∧
      bodyOf ((run 4 es).outs.map (·.got)) = some (b!"abc", .eof) := by decide +kernel

/-- The client sends nothing more after the first piece. -/
example :
    let es : List Ev := [.put (some b!"ab"), .read, .wake, .run, .tick, .read, .wake, .tick, .tick, .tick, .tick, .fire, .wake, .run]
    (run 4 es).outs.map (fun r => (r.t0, r.t1, r.got)) = [(0, 0, .piece b!"ab"), (1, 5, .timeout)] ∧
      bodyOf ((run 4 es).outs.map (·.got)) = some (b!"ab", .timeout) := by decide +kernel

namespace Stall

/-- Is the state quiet? -/
def quiet (K : Nat) (s : St) : Bool :=
  match s.rd with
  | .idle => true
  | .fresh .. => false
  | .inner t _ k => match s.q.calls[k]? with
    | some (.own f) => match s.q.futs[f]? with
      | some (_, .pending) => decide (s.now < t + K)
      | _ => false
    | _ => false

theorem quiet_sound {K : Nat} {s : St} (h : quiet K s = true) : Quiet K s := by
  unfold quiet at h
  split at h
  · next h1 => exact .inl h1
  · cases h
  · next t p k h1 =>
    split at h
    · next f h2 =>
      split at h
      · next o h3 => exact .inr ⟨t, p, k, f, o, h1, h2, h3, by simpa using h⟩
      · cases h
    · cases h

/-- Are all ticks of the schedule at quiet states? -/
def promptFrom (K : Nat) : St → List Ev → Bool
  | _, [] => true
  | s, e :: t => (if e = .tick then quiet K s else true) && promptFrom K (step K s e) t

theorem prompt_sound {K : Nat} {es : List Ev} (h : promptFrom K {} es = true) : Prompt K es := by
  have key : ∀ (es : List Ev) (s : St), promptFrom K s es = true → ∀ pre post, es = pre ++ .tick :: post → Quiet K (pre.foldl (step K) s) := by
    intro es
    induction es with
    | nil => intro s _ pre post h; simp at h
    | cons e t ih =>
      intro s h pre post he
      simp only [promptFrom, Bool.and_eq_true] at h
      cases pre with
      | nil =>
        simp only [List.nil_append, List.cons.injEq] at he
        rw [he.1] at h
        exact quiet_sound (by simpa using h.1)
      | cons a pre =>
        simp only [List.cons_append, List.cons.injEq] at he
        rw [← he.1]
        exact ih _ h.2 pre post he.2
  exact key es {} h

end Stall

/-- The loop of both cases keeps up. -/
example : Prompt 4 [.put (some b!"ab"), .read, .wake, .run, .read, .wake, .tick, .tick, .tick, .put (some b!"c"), .wake, .run, .put none, .read, .wake, .run] :=
  prompt_sound (by decide +kernel)
example : Prompt 4 [.put (some b!"ab"), .read, .wake, .run, .tick, .read, .wake, .tick, .tick, .tick, .tick, .fire, .wake, .run] := prompt_sound (by decide +kernel)

/-- An item was already given to the read, but the handler is cancelled before it runs. -/
example : (run 4 [.read, .wake, .put (some b!"x")]).rd ≠ .idle ∧ (run 4 [.read, .wake, .put (some b!"x"), .cancel, .wake, .run]).outs.map (·.got) = [.timeout] := by decide +kernel

/-- **C104 fails** for a handler that catches the TimeoutError and reads again: that read does not wait, and ends with TimeoutError at once. -/
theorem C104_refuted_retry : Prompt 4 [.read, .wake, .tick, .tick, .tick, .tick, .fire, .wake, .run, .read, .wake, .run] ∧
    (run 4 [.read, .wake, .tick, .tick, .tick, .tick, .fire, .wake, .run, .read, .wake, .run]).outs.map (fun r => (r.t0, r.t1, r.got)) = [(0, 4, .timeout), (4, 4, .timeout)] :=
  ⟨prompt_sound (by decide +kernel), by decide +kernel⟩

/-- An item that comes at the moment of the timeout is lost; a handler that reads again gets a body without it, as a whole one. -/
theorem C104_refuted_lost : Prompt 4 [.read, .wake, .tick, .tick, .tick, .tick, .put (some b!"x"), .fire, .wake, .run, .put (some b!"y"), .put none, .read, .wake, .run, .read, .wake, .run] ∧
    (run 4 [.read, .wake, .tick, .tick, .tick, .tick, .put (some b!"x"), .fire, .wake, .run, .put (some b!"y"), .put none, .read, .wake, .run, .read, .wake, .run]).outs.map (·.got) =
      [.timeout, .piece b!"y", .eof] := ⟨prompt_sound (by decide +kernel), by decide +kernel⟩

/-- A handler that is cancelled in a read (by `app_handler_timeout`, say) gets a TimeoutError; one that catches it to read again goes on after its time. -/
theorem C104_refuted_cancel : (run 4 [.read, .wake, .tick, .cancel, .wake, .run, .put (some b!"x"), .read, .wake, .run]).outs.map (fun r => (r.t0, r.t1, r.cancelled, r.got)) =
    [(0, 1, true, .timeout), (1, 1, false, .piece b!"x")] := by decide +kernel

/-- When the connection is lost in a read, that is a TimeoutError, too; one that reads again then gets the end of the body, although no end came. -/
theorem C104_refuted_gone : (run 4 [.put (some b!"x"), .read, .wake, .run, .read, .wake, .lose, .wake, .run, .read]).outs.map (·.got) = [.piece b!"x", .timeout, .eof] := by decide +kernel

/-- Sized reads: the client stalls, and goes on. The handler that reads on after the TimeoutError gets the part that came before, and then nothing. -/
theorem C104_refuted_sized : recvSized 4 [.piece b!"ab", .timeout, .piece b!"cd", .eof] {} = some (none, { buf := b!"ab", dead := true }, [.piece b!"cd", .eof]) ∧
    recvSized 4 [.piece b!"cd", .eof] { buf := b!"ab", dead := true } = some (some b!"ab", { dead := true }, [.piece b!"cd", .eof]) ∧
    recvSized 4 [.piece b!"cd", .eof] { dead := true } = some (some [], { dead := true }, [.piece b!"cd", .eof]) := by decide +kernel

end Verif
