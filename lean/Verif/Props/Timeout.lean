import Verif.Model.Timeout
import Verif.Py.Util
/-!
# The handler timeout: C68
-/
namespace Verif
open Verif.Model.Timeout

namespace Timeout

/-- Requests are handled one after another: a handler starts only when all earlier ones have ended. -/
def Serial (c : Cfg) (es : List Ev) : Prop := ∀ pre post, es = pre ++ .start :: post → ∀ i, i < (run c pre).starts.length → i ∈ (run c pre).done

theorem run_snoc (c : Cfg) (es : List Ev) (e : Ev) : run c (es ++ [e]) = step c (run c es) e := by
  unfold run; rw [List.foldl_append]; rfl

theorem serial_snoc {c : Cfg} {es : List Ev} {e : Ev} (h : Serial c (es ++ [e])) : Serial c es :=
  fun pre post he => h pre (post ++ [e]) (by rw [he]; simp)

theorem get_old {l : List Nat} {i x : Nat} {y : Nat} (h : l[i]? = some x) : (l ++ [y])[i]? = some x := by
  obtain ⟨h1, h2⟩ := List.getElem?_eq_some_iff.1 h
  rw [List.getElem?_append_left h1]; exact h

structure Inv (c : Cfg) (s : St) : Prop where
  past : ∀ (i t : Nat), s.starts[i]? = some t → t ≤ s.now
  armed : ∀ i ∈ s.armed, i < s.starts.length
  cur : ∀ h, s.cur = some h → h < s.starts.length
  done : ∀ i ∈ s.done, i < s.starts.length
  cancelled : ∀ p ∈ s.cancelled, p.1 < s.starts.length ∧ p.2 ≤ s.now ∧ ∃ (i t : Nat), s.starts[i]? = some t ∧ t + c.limit ≤ p.2

theorem ht_now (s : St) : (handlerTimeout s).now = s.now ∧ (handlerTimeout s).starts = s.starts ∧ (handlerTimeout s).done = s.done ∧
    (handlerTimeout s).armed = s.armed ∧ (handlerTimeout s).cur = s.cur := by
  unfold handlerTimeout
  split
  · exact ⟨rfl, rfl, rfl, rfl, rfl⟩
  · split
    · exact ⟨rfl, rfl, rfl, rfl, rfl⟩
    · split <;> exact ⟨rfl, rfl, rfl, rfl, rfl⟩

theorem ht_cancelled (s : St) {p : Nat × Nat} (h : p ∈ (handlerTimeout s).cancelled) :
    p ∈ s.cancelled ∨ ∃ k, s.cur = some k ∧ k ∉ s.done ∧ p = (k, s.now) := by
  unfold handlerTimeout at h
  split at h
  · exact .inl h
  · next k hk =>
    split at h
    · exact .inl h
    · split at h
      · exact .inl h
      · next hd =>
        rcases List.mem_append.1 h with h | h
        · exact .inl h
        · simp only [List.mem_singleton] at h
          exact .inr ⟨k, hk, hd, h⟩

theorem inv_run (c : Cfg) (es : List Ev) : Inv c (run c es) := by
  induction es using snocInd with
  | h0 => exact ⟨by simp [run], by simp [run], by simp [run], by simp [run], by simp [run]⟩
  | h1 es e ih =>
    rw [run_snoc]
    obtain ⟨h1, h2, h3, h4, h5⟩ := ih
    generalize run c es = s at *
    cases e with
    | tick => exact ⟨fun i t h => Nat.le_succ_of_le (h1 i t h), h2, h3, h4, fun p hp => ⟨(h5 p hp).1, Nat.le_succ_of_le (h5 p hp).2.1, (h5 p hp).2.2⟩⟩
    | start =>
      unfold step
      dsimp only
      split
      · exact ⟨h1, h2, h3, h4, h5⟩
      · refine ⟨fun i t h => ?_, fun i hi => ?_, fun h hh => ?_, fun i hi => ?_, fun p hp => ?_⟩
        · dsimp only at h ⊢
          rw [List.getElem?_append] at h
          split at h
          · exact h1 i t h
          · have := List.mem_of_getElem? h
            simp only [List.mem_singleton] at this
            omega
        · dsimp only at hi ⊢
          simp only [List.length_append, List.length_cons, List.length_nil]
          rcases List.mem_append.1 hi with h | h
          · have := h2 i h; omega
          · simp only [List.mem_singleton] at h; omega
        · dsimp only at hh ⊢
          simp only [List.length_append, List.length_cons, List.length_nil]
          simp only [Option.some.injEq] at hh; omega
        · have := h4 i hi
          simp only [List.length_append, List.length_cons, List.length_nil]; omega
        · obtain ⟨a, b, i, t, d, e⟩ := h5 p hp
          exact ⟨by simp only [List.length_append, List.length_cons, List.length_nil]; omega, b, i, t, get_old d, e⟩
    | finish i =>
      unfold step
      dsimp only
      split
      · next hi =>
        refine ⟨h1, fun j hj => ?_, h3, fun j hj => ?_, h5⟩
        · dsimp only at hj
          split at hj
          · exact h2 j hj
          · exact h2 j (List.mem_filter.1 hj).1
        · rcases List.mem_cons.1 hj with h | h
          · subst h; exact hi.1
          · exact h4 j h
      · exact ⟨h1, h2, h3, h4, h5⟩
    | fire i =>
      unfold step
      dsimp only
      split
      · next t ht =>
        split
        · next hc =>
          obtain ⟨e1, e2, e3, e4, e5⟩ := ht_now { s with armed := s.armed.filter (· ≠ i) }
          refine ⟨by rw [e1, e2]; exact h1, ?_, by rw [e5, e2]; exact h3, by rw [e3, e2]; exact h4, fun p hp => ?_⟩
          · rw [e4, e2]
            intro j hj
            exact h2 j (List.mem_filter.1 hj).1
          · rw [e2, e1]
            rcases ht_cancelled _ hp with h | ⟨k, hk, _, rfl⟩
            · exact h5 p h
            · exact ⟨h3 k hk, Nat.le_refl _, i, t, ht, hc.2⟩
        · exact ⟨h1, h2, h3, h4, h5⟩
      · exact ⟨h1, h2, h3, h4, h5⟩
    | upgrade => exact ⟨h1, h2, h3, h4, h5⟩
    | lose => exact ⟨h1, h2, fun h hh => (by cases hh), h4, h5⟩

/-- With native handlers one after another, only the timer of the current handler is armed. -/
structure Own (c : Cfg) (s : St) : Prop where
  undone : ∀ i ∈ s.armed, i ∉ s.done
  last : ∀ (i : Nat), i < s.starts.length → i ∉ s.done → i + 1 = s.starts.length
  cur : ∀ h, s.cur = some h → h + 1 = s.starts.length
  cancelled : ∀ p ∈ s.cancelled, ∃ t : Nat, s.starts[p.1]? = some t ∧ t + c.limit ≤ p.2

theorem own_run {c : Cfg} (hn : c.asgi = false) (es : List Ev) (hs : Serial c es) : Own c (run c es) := by
  induction es using snocInd with
  | h0 => exact ⟨by simp [run], by simp [run], by simp [run], by simp [run]⟩
  | h1 es e ih =>
    have all := fun (he : e = .start) => hs es [] (by rw [he])
    have inv := inv_run c es
    obtain ⟨h1, h2, h3, h5⟩ := ih (serial_snoc hs)
    rw [run_snoc]
    generalize run c es = s at *
    cases e with
    | tick => exact ⟨h1, h2, h3, h5⟩
    | start =>
      have all := all rfl
      unfold step
      dsimp only
      split
      · exact ⟨h1, h2, h3, h5⟩
      · refine ⟨fun i hi hd => ?_, fun i hi hd => ?_, fun h hh => ?_, fun p hp => ?_⟩
        · dsimp only at hi hd
          rcases List.mem_append.1 hi with h | h
          · exact h1 i h hd
          · simp only [List.mem_singleton] at h
            have := inv.done i hd; omega
        · dsimp only at hi hd ⊢
          simp only [List.length_append, List.length_cons, List.length_nil] at hi ⊢
          by_cases hl : i < s.starts.length
          · exact absurd (all i hl) hd
          · omega
        · dsimp only at hh ⊢
          simp only [List.length_append, List.length_cons, List.length_nil]
          simp only [Option.some.injEq] at hh; omega
        · obtain ⟨t, d, e⟩ := h5 p hp
          exact ⟨t, get_old d, e⟩
    | finish i =>
      unfold step
      dsimp only
      split
      · next hi =>
        rw [hn]
        refine ⟨fun j hj hd => ?_, fun j hj hd => ?_, h3, h5⟩
        · simp only [Bool.false_eq_true, if_false, List.mem_filter, decide_eq_true_eq] at hj
          rcases List.mem_cons.1 hd with h | h
          · exact hj.2 h
          · exact h1 j hj.1 h
        · exact h2 j hj (fun h => hd (List.mem_cons_of_mem _ h))
      · exact ⟨h1, h2, h3, h5⟩
    | fire i =>
      unfold step
      dsimp only
      split
      · next t ht =>
        split
        · next hc =>
          obtain ⟨e1, e2, e3, e4, e5⟩ := ht_now { s with armed := s.armed.filter (· ≠ i) }
          refine ⟨?_, by rw [e2, e3]; exact h2, by rw [e5, e2]; exact h3, fun p hp => ?_⟩
          · rw [e4, e3]
            intro j hj
            exact h1 j (List.mem_filter.1 hj).1
          · rw [e2]
            rcases ht_cancelled _ hp with h | ⟨k, hk, _, rfl⟩
            · exact h5 p h
            · have a1 := h2 i (inv.armed i hc.1) (h1 i hc.1)
              have a2 := h3 k hk
              have : i = k := by omega
              subst this
              exact ⟨t, ht, hc.2⟩
        · exact ⟨h1, h2, h3, h5⟩
      · exact ⟨h1, h2, h3, h5⟩
    | upgrade => exact ⟨h1, h2, h3, h5⟩
    | lose => exact ⟨h1, h2, fun h hh => (by cases hh), h5⟩

end Timeout
open Timeout

/-! ## C68 -/

/-- **C68**, native handlers, one after another: a handler is cancelled by the timeout only when it has run for at least
`app_handler_timeout`. Missing: ASGI applications, and handlers that go on after their response has ended. -/
theorem C68_partial {c : Cfg} (hn : c.asgi = false) (es : List Ev) (hs : Serial c es) {h t : Nat} (hc : (h, t) ∈ (run c es).cancelled) :
    ∃ t0, (run c es).starts[h]? = some t0 ∧ t0 + c.limit ≤ t :=
  (own_run hn es hs).cancelled _ hc

/-- For all handlers: some request of the connection was started that long ago. -/
theorem C68_some (c : Cfg) (es : List Ev) {h t : Nat} (hc : (h, t) ∈ (run c es).cancelled) :
    ∃ i t0 : Nat, (run c es).starts[i]? = some t0 ∧ t0 + c.limit ≤ t := by
  obtain ⟨_, _, i, t0, h1, h2⟩ := (inv_run c es).cancelled _ hc
  exact ⟨i, t0, h1, h2⟩

namespace Timeout

theorem pending_run {c : Cfg} (es : List Ev) (hs : Serial c es) (nu : .upgrade ∉ es) (h : Nat) (hl : h < (run c es).starts.length) (hd : h ∉ (run c es).done) :
    h ∈ (run c es).armed ∨ (∃ t, (h, t) ∈ (run c es).cancelled) ∨ (run c es).lost = true := by
  have key : ∀ es : List Ev, Serial c es → .upgrade ∉ es → (run c es).upgraded = false ∧ ((run c es).lost = false → ∀ h, h < (run c es).starts.length → h ∉ (run c es).done →
      (run c es).cur = some h ∧ (h ∈ (run c es).armed ∨ ∃ t, (h, t) ∈ (run c es).cancelled)) := by
    intro es
    induction es using snocInd with
    | h0 => intro _ _; exact ⟨rfl, by simp [run]⟩
    | h1 es e ih =>
      intro hs nu
      have all := fun (he : e = .start) => hs es [] (by rw [he])
      have inv := inv_run c es
      obtain ⟨u, k⟩ := ih (serial_snoc hs) (fun h => nu (by simp [h]))
      rw [run_snoc]
      generalize run c es = s at *
      cases e with
      | tick => exact ⟨u, k⟩
      | upgrade => exact absurd (by simp) nu
      | lose => exact ⟨u, fun h => by cases h⟩
      | start =>
        have all := all rfl
        unfold step
        dsimp only
        split
        · exact ⟨u, k⟩
        · refine ⟨rfl, fun _ h hl hd => ?_⟩
          dsimp only at hl hd ⊢
          simp only [List.length_append, List.length_cons, List.length_nil] at hl
          by_cases hx : h < s.starts.length
          · exact absurd (all h hx) hd
          · have : h = s.starts.length := by omega
            subst this
            exact ⟨rfl, .inl (by simp)⟩
      | finish i =>
        unfold step
        dsimp only
        split
        · refine ⟨u, fun l h hl hd => ?_⟩
          dsimp only at l hl hd ⊢
          have hd' : h ∉ s.done := fun x => hd (List.mem_cons_of_mem _ x)
          have hi : h ≠ i := fun x => hd (by simp [x])
          obtain ⟨a, b⟩ := k l h hl hd'
          refine ⟨a, ?_⟩
          rcases b with b | b
          · left
            split
            · exact b
            · exact List.mem_filter.2 ⟨b, by simpa using hi⟩
          · exact .inr b
        · exact ⟨u, k⟩
      | fire i =>
        unfold step
        dsimp only
        split
        · next t ht =>
          split
          · next hc =>
            have el : (handlerTimeout { s with armed := s.armed.filter (· ≠ i) }).lost = s.lost ∧ (handlerTimeout { s with armed := s.armed.filter (· ≠ i) }).upgraded = s.upgraded := by
              unfold handlerTimeout
              split
              · exact ⟨rfl, rfl⟩
              · split
                · exact ⟨rfl, rfl⟩
                · split <;> exact ⟨rfl, rfl⟩
            obtain ⟨e1, e2, e3, e4, e5⟩ := ht_now { s with armed := s.armed.filter (· ≠ i) }
            refine ⟨el.2.trans u, fun l h hl hd => ?_⟩
            rw [el.1] at l
            rw [e2] at hl
            rw [e3] at hd
            obtain ⟨a, b⟩ := k l h hl hd
            rw [e5, e4]
            refine ⟨a, .inr ⟨s.now, ?_⟩⟩
            unfold handlerTimeout
            dsimp only
            rw [a]
            dsimp only
            rw [u, l, if_neg (by simp), if_neg hd]
            simp
          · exact ⟨u, k⟩
        · exact ⟨u, k⟩
  cases hlost : (run c es).lost with
  | true => exact .inr (.inr rfl)
  | false =>
    rcases ((key es hs nu).2 hlost h hl hd).2 with x | x
    · exact .inl x
    · exact .inr (.inl x)

theorem ticks (c : Cfg) (n : Nat) (s : St) : (List.replicate n Ev.tick).foldl (step c) s = { s with now := s.now + n } := by
  induction n generalizing s with
  | zero => rfl
  | succ n ih => rw [List.replicate_succ, List.foldl_cons, ih]; simp [step, Nat.add_assoc, Nat.add_comm 1]

end Timeout

/-- No handler escapes: handlers one after another (native or ASGI), no upgrade, connection open; a handler that has not
ended was cancelled already, or its timer is still armed, and when that fires, the handler is cancelled. -/
theorem C68_no_escape {c : Cfg} (es : List Ev) (hs : Serial c es) (nu : .upgrade ∉ es) {h t0 : Nat} (hl : (run c es).starts[h]? = some t0) (hd : h ∉ (run c es).done)
    (ho : (run c es).lost = false) :
    (∃ t, (h, t) ∈ (run c es).cancelled) ∨ (h ∈ (run c es).armed ∧ (t0 + c.limit ≤ (run c es).now → ∃ t, (h, t) ∈ (run c (es ++ [.fire h])).cancelled)) := by
  have hl' := (List.getElem?_eq_some_iff.1 hl).1
  rcases pending_run es hs nu h hl' hd with a | a | a
  · refine .inr ⟨a, fun due => ?_⟩
    have hs' : Serial c (es ++ [.fire h]) := by
      intro pre post e i hi
      rcases List.eq_nil_or_concat post with rfl | ⟨p, x, rfl⟩
      · have := List.append_inj_right' e rfl
        simp at this
      · have e' : es ++ [Ev.fire h] = (pre ++ .start :: p) ++ [x] := by rw [e]; simp
        exact hs pre p (List.append_inj_left' e' rfl) i hi
    have nu' : Ev.upgrade ∉ es ++ [.fire h] := by simp [nu]
    have e1 : (run c (es ++ [.fire h])).armed = (run c es).armed.filter (· ≠ h) := by
      rw [run_snoc]; unfold step; simp only [hl]; rw [if_pos ⟨a, due⟩, (ht_now _).2.2.2.1]
    have e2 : (run c (es ++ [.fire h])).starts = (run c es).starts := by
      rw [run_snoc]; unfold step; simp only [hl]; rw [if_pos ⟨a, due⟩, (ht_now _).2.1]
    have e3 : (run c (es ++ [.fire h])).done = (run c es).done := by
      rw [run_snoc]; unfold step; simp only [hl]; rw [if_pos ⟨a, due⟩, (ht_now _).2.2.1]
    have e4 : (run c (es ++ [.fire h])).lost = (run c es).lost := by
      rw [run_snoc]; unfold step; simp only [hl]; rw [if_pos ⟨a, due⟩]
      unfold handlerTimeout
      split
      · rfl
      · split
        · rfl
        · split <;> rfl
    rcases pending_run _ hs' nu' h (by rw [e2]; exact hl') (by rw [e3]; exact hd) with b | b | b
    · rw [e1] at b; simp at b
    · exact b
    · rw [e4, ho] at b; cases b
  · exact .inl a
  · rw [ho] at a; cases a

/-- Nothing is cancelled by the timer of an upgraded request (`handler_timeout` leaves it alone), nor on a connection that
is lost. -/
theorem C68_upgraded (c : Cfg) (es b : List Ev) (hu : (run c es).upgraded = true ∨ (run c es).lost = true) (hb : .start ∉ b) :
    (run c (es ++ b)).cancelled = (run c es).cancelled := by
  suffices (run c (es ++ b)).cancelled = (run c es).cancelled ∧ ((run c (es ++ b)).upgraded = true ∨ (run c (es ++ b)).lost = true) from this.1
  induction b using snocInd with
  | h0 => simpa using hu
  | h1 b e ih =>
    have := ih (fun h => hb (by simp [h]))
    rw [← List.append_assoc, run_snoc]
    generalize run c (es ++ b) = s at *
    cases e with
    | tick => exact this
    | start => exact absurd (by simp) hb
    | finish i => unfold step; dsimp only; split <;> exact this
    | upgrade => exact ⟨this.1, .inl rfl⟩
    | lose => exact ⟨this.1, .inr rfl⟩
    | fire i =>
      unfold step; dsimp only
      split
      · split
        · unfold handlerTimeout; dsimp only
          split
          · exact this
          · rw [if_pos (by rcases this.2 with h | h <;> simp [h])]; exact this
        · exact this
      · exact this

/-- a WebSocket that is open for longer than the limit -/
example : (run { limit := 2 } ([.start, .upgrade] ++ [.tick, .tick, .tick, .fire 0])).cancelled = [] ∧
    (run { limit := 2 } ([.start] ++ [.tick, .tick, .tick, .fire 0])).cancelled = [(0, 3)] := by decide +kernel

/-- Two requests; the second takes too long. -/
example : (run { limit := 2 } [.start, .tick, .finish 0, .start, .tick, .fire 0, .tick, .tick, .fire 1]).cancelled = [(1, 4)] ∧
    (run { limit := 2 } [.start, .tick, .finish 0, .start, .tick, .fire 0, .tick, .tick, .fire 1]).starts = [0, 1] := by decide +kernel
example : Serial { limit := 2 } [.start, .tick, .finish 0, .start, .tick, .fire 0, .tick, .tick, .fire 1] := by
  intro pre post h
  rcases pre with _ | ⟨x1, _ | ⟨x2, _ | ⟨x3, _ | ⟨x4, pre⟩⟩⟩⟩
  · intro i hi; simp [run] at hi
  · simp at h
  · simp at h
  · simp only [List.cons_append, List.nil_append, List.cons.injEq] at h
    obtain ⟨rfl, rfl, rfl, _⟩ := h
    intro i hi
    have : i = 0 := by simp [run, step] at hi; exact hi
    subst this; decide +kernel
  · exfalso
    simp only [List.cons_append, List.cons.injEq] at h
    have : Ev.start ∈ [Ev.tick, .fire 0, .tick, .tick, .fire 1] := by rw [h.2.2.2.2]; simp
    simp at this

/-- **C68 fails** for ASGI applications: the timer of a request goes on after its handler has ended, and cancels the
handler of a later request of the connection, even one that has just started. -/
theorem C68_refuted_asgi (T : Nat) : (run { asgi := true, limit := T } ([.start, .finish 0] ++ List.replicate T .tick ++ [.start, .fire 0])).cancelled = [(1, T)] ∧
    (run { asgi := true, limit := T } ([.start, .finish 0] ++ List.replicate T .tick ++ [.start, .fire 0])).starts = [0, T] := by
  unfold run
  rw [List.foldl_append, List.foldl_append, Timeout.ticks]
  simp [step, handlerTimeout]

/-- The native server cancels the timer. -/
example (T : Nat) : (run { limit := T } ([.start, .finish 0] ++ List.replicate T .tick ++ [.start, .fire 0])).cancelled = [] := by
  unfold run
  rw [List.foldl_append, List.foldl_append, Timeout.ticks]
  simp [step]

/-- **C68 fails** for a handler that goes on after its response has ended, while the next request is handled: its timer
cancels the handler of that request and not itself. -/
theorem C68_refuted_overlap (T : Nat) : (run { limit := T } ([.start] ++ List.replicate T .tick ++ [.start, .fire 0])).cancelled = [(1, T)] ∧
    (run { limit := T } ([.start] ++ List.replicate T .tick ++ [.start, .fire 0])).starts = [0, T] := by
  unfold run
  rw [List.foldl_append, List.foldl_append, Timeout.ticks]
  simp [step, handlerTimeout]

end Verif
