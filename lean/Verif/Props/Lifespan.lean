import Verif.Spec.Lifespan
import Verif.Py.Util
/-!
# C47: the lifespan outcome decides worker start-up
-/
namespace Verif
open Verif.Model.Lifespan Verif.Spec.Lifespan

namespace Lifespan

theorem run_snoc (s : St) (es : List Ev) (e : Ev) : run s (es ++ [e]) = step (run s es) e := by
  simp [run, List.foldl_append]

theorem run_append (s : St) (a b : List Ev) : run s (a ++ b) = run (run s a) b := by
  simp [run, List.foldl_append]

/-- While the worker waits at start-up, the state is what the history says. -/
structure Start (h : List Ev) (s : St) : Prop where
  phase : s.phase = .starting
  waiter : s.waiter = match h.find? decisive with
    | none => .pending
    | some e => if completes e then .result else .cancelled
  task : s.task = h.findSome? ending

theorem start_step {h : List Ev} {s : St} (i : Start h s) (e : Ev) (he : e ≠ .resume) : Start (h ++ [e]) (step s e) := by
  obtain ⟨ip, iw, it⟩ := i
  have keep : ∀ o, h.find? decisive = some o →
      (h ++ [e]).find? decisive = some o := by intro o ho; simp [List.find?_append, ho]
  cases e with
  | resume => exact absurd rfl he
  | receive =>
    have : step s .receive = s ∨ ∃ q r, step s .receive = { s with queue := q, received := r } := by
      dsimp only [step]; split
      · exact .inl rfl
      · exact .inr ⟨_, _, rfl⟩
    have hd : (h ++ [Ev.receive]).find? decisive = h.find? decisive := by
      simp [List.find?_append, List.find?, decisive, completes]
    have ht : (h ++ [Ev.receive]).findSome? ending = h.findSome? ending := by
      simp [List.findSome?_append, List.findSome?, ending]
    rcases this with e | ⟨q, r, e⟩
    · rw [e]; exact ⟨ip, by rw [hd]; exact iw, by rw [ht]; exact it⟩
    · rw [e]; exact ⟨ip, by rw [hd]; exact iw, by rw [ht]; exact it⟩
  | stop =>
    have hd : (h ++ [Ev.stop]).find? decisive = h.find? decisive := by
      simp [List.find?_append, List.find?, decisive, completes]
    have ht : (h ++ [Ev.stop]).findSome? ending = h.findSome? ending := by
      simp [List.findSome?_append, List.findSome?, ending]
    have e : step s .stop = s := by dsimp only [step]; rw [ip]; rfl
    rw [e]; exact ⟨ip, by rw [hd]; exact iw, by rw [ht]; exact it⟩
  | timer =>
    have ht : (h ++ [Ev.timer]).findSome? ending = h.findSome? ending := by
      simp [List.findSome?_append, List.findSome?, ending]
    have e : step s .timer = cancel s := by dsimp only [step]; rw [ip]; simp
    rw [e]
    cases hf : h.find? decisive with
    | none =>
      rw [hf] at iw
      have : cancel s = { s with waiter := .cancelled } := by unfold cancel; rw [if_pos iw]
      rw [this]
      refine ⟨ip, ?_, by rw [ht]; exact it⟩
      simp [List.find?_append, hf, List.find?, decisive, completes]
    | some o =>
      rw [hf] at iw
      have : cancel s = s := by
        unfold cancel; rw [if_neg]; rw [iw]; dsimp only; split <;> simp
      rw [this]
      exact ⟨ip, by rw [keep o hf]; exact iw, by rw [ht]; exact it⟩
  | finish o =>
    cases hh : h.findSome? ending with
    | some x =>
      rw [hh] at it
      have e : step s (.finish o) = s := by dsimp only [step, finish]; rw [it]; rfl
      rw [e]
      have hd : ∃ y, h.find? decisive = some y := by
        obtain ⟨y, hy, hy2⟩ := List.exists_of_findSome?_eq_some hh
        have : (h.find? decisive).isSome := by
          rw [List.find?_isSome]; refine ⟨y, hy, ?_⟩
          cases y <;> simp [ending] at hy2 <;> rfl
        exact Option.isSome_iff_exists.1 this
      obtain ⟨y, hy⟩ := hd
      rw [hy] at iw
      exact ⟨ip, by rw [keep y hy]; exact iw, by simp [List.findSome?_append, hh, it]⟩
    | none =>
      rw [hh] at it
      have e : step s (.finish o) = cancel { s with task := some o } := by dsimp only [step, finish]; rw [if_pos it]
      rw [e]
      have ht : (h ++ [Ev.finish o]).findSome? ending = some o := by
        simp [List.findSome?_append, List.findSome?, hh, ending]
      cases hf : h.find? decisive with
      | none =>
        rw [hf] at iw
        have : cancel { s with task := some o } = { s with task := some o, waiter := .cancelled } := by
          unfold cancel; rw [if_pos (by exact iw)]
        rw [this]
        refine ⟨ip, ?_, ht.symm⟩
        simp [List.find?_append, hf, List.find?, decisive, completes]
      | some y =>
        rw [hf] at iw
        have : cancel { s with task := some o } = { s with task := some o } := by
          unfold cancel; rw [if_neg]; dsimp only; rw [iw]; dsimp only; split <;> simp
        rw [this]
        exact ⟨ip, by rw [keep y hf]; exact iw, ht.symm⟩
  | send m =>
    have ht : (h ++ [Ev.send m]).findSome? ending = h.findSome? ending := by
      simp [List.findSome?_append, List.findSome?, ending]
    have other : completes (.send m) = false → (∃ r, step s (.send m) = { s with raised := r }) → Start (h ++ [.send m]) (step s (.send m)) := by
      rintro hc ⟨r, e⟩
      have hd : (h ++ [Ev.send m]).find? decisive = h.find? decisive := by
        simp [List.find?_append, List.find?, decisive, hc]
      rw [e]; exact ⟨ip, by rw [hd]; exact iw, by rw [ht]; exact it⟩
    have ready : completes (.send m) = true → step s (.send m) =
        (if s.waiter = .pending then { s with waiter := .result } else { s with raised := s.raised ++ [.invalidState] }) →
        Start (h ++ [.send m]) (step s (.send m)) := by
      intro hc e
      rw [e]
      cases hf : h.find? decisive with
      | none =>
        rw [hf] at iw
        rw [if_pos iw]
        refine ⟨ip, ?_, by rw [ht]; exact it⟩
        simp [List.find?_append, hf, List.find?, decisive, hc]
      | some y =>
        rw [hf] at iw
        rw [if_neg (by rw [iw]; dsimp only; split <;> simp)]
        exact ⟨ip, by rw [keep y hf]; exact iw, by rw [ht]; exact it⟩
    cases m with
    | startupComplete => exact ready rfl rfl
    | shutdownComplete => exact ready rfl rfl
    | startupFailed t => exact other rfl ⟨_, rfl⟩
    | shutdownFailed t => exact other rfl ⟨_, rfl⟩
    | other t => exact other rfl ⟨_, rfl⟩

theorem start_run (h : List Ev) (hp : (run init h).phase = .starting) : Start h (run init h) := by
  induction h using snocInd with
  | h0 => exact ⟨rfl, rfl, rfl⟩
  | h1 h e ih =>
    rw [run_snoc] at hp ⊢
    by_cases he : e = .resume
    · subst he
      dsimp only [step] at hp ⊢
      have hs : worker (run init h) = run init h := by
        revert hp; unfold worker; split <;> (intro hp; first | rfl | cases hp)
      rw [hs] at hp ⊢
      have i := ih hp
      have hd : (h ++ [Ev.resume]).find? decisive = h.find? decisive := by
        simp [List.find?_append, List.find?, decisive, completes]
      have ht : (h ++ [Ev.resume]).findSome? ending = h.findSome? ending := by
        simp [List.findSome?_append, List.findSome?, ending]
      exact ⟨i.phase, by rw [hd]; exact i.waiter, by rw [ht]; exact i.task⟩
    · refine start_step (ih ?_) e he
      revert hp
      generalize run init h = s
      have hc : ∀ t : St, (cancel t).phase = t.phase := by intro t; unfold cancel; split <;> rfl
      cases e with
      | resume => exact absurd rfl he
      | receive => dsimp only [step]; split <;> exact id
      | stop =>
        dsimp only [step]; split
        · intro hp; cases hp
        · exact id
      | timer =>
        dsimp only [step]; split
        · rw [hc]; exact id
        · exact id
      | finish o =>
        dsimp only [step, finish]; split
        · rw [hc]; exact id
        · exact id
      | send m =>
        dsimp only [step, send]; split <;> (try split) <;> exact id

end Lifespan

/-- What a verdict makes of the worker. -/
def Lifespan.phase : Verdict → Phase
  | .waiting => .starting
  | .proceed => .serving
  | .fail t => .failed (some (.lifespan t))
  | .cancelled => .failed none

/-- C47 (what holds): whatever the application does, and whenever the timer fires, start-up ends as the history says: it goes
on if the application was ready first, and otherwise fails exactly if the application ended with a LifespanError, or was
cancelled. -/
theorem C47_partial (h : List Ev) (hp : (run init h).phase = .starting) :
    (run init (h ++ [.resume])).phase = Lifespan.phase (verdict h) := by
  have i := Lifespan.start_run h hp
  obtain ⟨ip, iw, it⟩ := i
  rw [Lifespan.run_snoc]
  generalize run init h = s at *
  dsimp only [step]
  unfold verdict
  cases hf : h.find? decisive with
  | none =>
    rw [hf] at iw
    unfold worker resume; rw [ip, iw]; exact ip
  | some e =>
    rw [hf] at iw
    cases hc : completes e with
    | true =>
      simp only [hc, if_true] at iw ⊢
      unfold worker resume; rw [ip, iw]; rfl
    | false =>
      simp only [hc, Bool.false_eq_true, if_false] at iw ⊢
      unfold worker resume; rw [ip, iw, it]
      rcases h.findSome? ending with _ | (_ | (t | _ | _ | t) | _) <;> rfl

/-- The hypothesis of `C47_partial` holds as long as the worker has not gone on. -/
theorem C47_starting (h : List Ev) (hr : .resume ∉ h) : (run init h).phase = .starting := by
  suffices Lifespan.Start h (run init h) from this.phase
  induction h using snocInd with
  | h0 => exact ⟨rfl, rfl, rfl⟩
  | h1 h e ih =>
    rw [Lifespan.run_snoc]
    exact Lifespan.start_step (ih fun x => hr (by simp [x])) e fun x => hr (by simp [x])

/-- An application that does not invent LifespanErrors makes start-up fail only by reporting it. -/
theorem C47_only_reported (h : List Ev) (hp : (run init h).phase = .starting) (ho : Honest h) (e : Option Exc)
    (hf : (run init (h ++ [.resume])).phase = .failed e) :
    ∃ t x, x ∈ h ∧ reports t x ∧ e = some (.lifespan t) := by
  rw [C47_partial h hp] at hf
  unfold verdict at hf
  split at hf
  · cases hf
  · split at hf
    · cases hf
    · split at hf
      · next t ht =>
        obtain ⟨y, hy, hy2⟩ := List.exists_of_findSome?_eq_some ht
        cases y <;> simp [ending] at hy2
        subst hy2
        obtain ⟨x, hx, hx2⟩ := ho.1 t hy
        cases hf
        exact ⟨t, x, hx, hx2, rfl⟩
      · next ht =>
        obtain ⟨y, hy, hy2⟩ := List.exists_of_findSome?_eq_some ht
        cases y <;> simp [ending] at hy2
        subst hy2
        exact absurd hy ho.2
      · cases hf

/-- An application that reports a failure, lets the LifespanError of `send` pass and has not been ready before makes start-up
fail, with its message; also if the time was over meanwhile. -/
theorem C47_reported (a b : List Ev) (t : String) (ha : ∀ x ∈ a, completes x = false ∧ ending x = none)
    (hp : (run init (a ++ .finish (.raised (.lifespan t)) :: b)).phase = .starting) :
    (run init (a ++ .finish (.raised (.lifespan t)) :: b ++ [.resume])).phase = .failed (some (.lifespan t)) := by
  rw [C47_partial _ hp]
  have h1 : a.findSome? ending = none := by
    rw [List.findSome?_eq_none_iff]; exact fun x hx => (ha x hx).2
  have h2 : (a ++ .finish (.raised (.lifespan t)) :: b).findSome? ending = some (.raised (.lifespan t)) := by
    simp only [List.findSome?_append, h1, Option.none_or]; rfl
  have h3 : ∃ y, (a ++ .finish (.raised (.lifespan t)) :: b).find? decisive = some y ∧ completes y = false := by
    cases hf : a.find? decisive with
    | none => exact ⟨_, by simp [List.find?_append, hf, decisive]; rfl, rfl⟩
    | some y => exact ⟨y, by simp [List.find?_append, hf], (ha y (List.mem_of_find?_eq_some hf)).1⟩
  obtain ⟨y, hy, hy2⟩ := h3
  unfold verdict
  rw [hy, h2]
  simp [hy2, Lifespan.phase]

/-- An application that ends without a LifespanError, or not at all, is tolerated: start-up goes on as soon as the
application is ready, has ended, or the time is over. -/
theorem C47_tolerated (h : List Ev) (hp : (run init h).phase = .starting) (hd : ∃ x ∈ h, decisive x = true)
    (he : ∀ o, .finish o ∈ h → o ≠ .cancelled ∧ ∀ t, o ≠ .raised (.lifespan t)) :
    (run init (h ++ [.resume])).phase = .serving := by
  rw [C47_partial h hp]
  have : (h.find? decisive).isSome := by rw [List.find?_isSome]; exact hd
  obtain ⟨y, hy⟩ := Option.isSome_iff_exists.1 this
  unfold verdict
  rw [hy]
  dsimp only
  split
  · rfl
  · split
    · next t ht =>
      obtain ⟨z, hz, hz2⟩ := List.exists_of_findSome?_eq_some ht
      cases z <;> simp [ending] at hz2
      subst hz2
      exact absurd rfl ((he _ hz).2 t)
    · next ht =>
      obtain ⟨z, hz, hz2⟩ := List.exists_of_findSome?_eq_some ht
      cases z <;> simp [ending] at hz2
      subst hz2
      exact absurd rfl (he _ hz).1
    · rfl

/-- An application that is ready first lets start-up go on, whatever it does afterwards. -/
theorem C47_complete (a b : List Ev) (m : Ev) (hm : completes m = true) (ha : ∀ x ∈ a, decisive x = false)
    (hp : (run init (a ++ m :: b)).phase = .starting) : (run init (a ++ m :: b ++ [.resume])).phase = .serving := by
  rw [C47_partial _ hp]
  have h1 : a.find? decisive = none := by rw [List.find?_eq_none]; intro x hx; simp [ha x hx]
  have h2 : decisive m = true := by cases m <;> simp_all [decisive, completes]
  unfold verdict
  simp [List.find?_append, h1, h2, hm, Lifespan.phase]

/-- Start-up is decided at the latest when the timer has fired. -/
theorem C47_decided (h : List Ev) (ht : .timer ∈ h) (hp : (run init h).phase = .starting) :
    (run init (h ++ [.resume])).phase ≠ .starting := by
  rw [C47_partial h hp]
  have : (h.find? decisive).isSome := by rw [List.find?_isSome]; exact ⟨_, ht, rfl⟩
  obtain ⟨y, hy⟩ := Option.isSome_iff_exists.1 this
  unfold verdict
  rw [hy]
  dsimp only
  split
  · simp [Lifespan.phase]
  · split <;> simp [Lifespan.phase]

/-- A failed start-up stays failed. -/
theorem C47_failed (s : St) (e : Option Exc) (hs : s.phase = .failed e) (es : List Ev) : (run s es).phase = .failed e := by
  induction es generalizing s with
  | nil => exact hs
  | cons x es ih =>
    refine ih _ ?_
    have hc : ∀ t : St, (cancel t).phase = t.phase := by intro t; unfold cancel; split <;> rfl
    cases x with
    | receive => dsimp only [step]; split <;> exact hs
    | send m => dsimp only [step, send]; split <;> (try split) <;> exact hs
    | finish o =>
      dsimp only [step, finish]; split
      · rw [hc]; exact hs
      · exact hs
    | timer => dsimp only [step]; rw [hs]; simp [hs]
    | resume => dsimp only [step]; unfold worker; rw [hs]; exact hs
    | stop => dsimp only [step]; rw [hs]; simp [hs]

namespace Lifespan

theorem cancel_queue (t : St) : (cancel t).queue = t.queue ∧ (cancel t).received = t.received ∧ (cancel t).phase = t.phase := by
  unfold cancel; split <;> exact ⟨rfl, rfl, rfl⟩

structure Items (s : St) : Prop where
  early : s.phase = .starting ∨ s.phase = .serving → s.received ++ s.queue = [.startup]
  all : s.received ++ s.queue = [.startup] ∨ s.received ++ s.queue = [.startup, .shutdown]

theorem worker_same (s : St) : (worker s).queue = s.queue ∧ (worker s).received = s.received ∧
    ((worker s).phase = .starting ∨ (worker s).phase = .serving → s.phase = .starting ∨ s.phase = .serving) := by
  unfold worker resume
  cases s.waiter <;> cases hp : s.phase <;> simp only [hp] <;> try simp
  all_goals (rcases s.task with _ | (_ | (_ | _ | _ | _) | _) <;> simp [judge])

theorem items_step {s : St} (i : Items s) (e : Ev) : Items (step s e) := by
  have same : ∀ t : St, t.queue = s.queue → t.received = s.received →
      (t.phase = .starting ∨ t.phase = .serving → s.phase = .starting ∨ s.phase = .serving) → Items t := by
    intro t h1 h2 h3
    exact ⟨fun h => by rw [h1, h2]; exact i.early (h3 h), by rw [h1, h2]; exact i.all⟩
  cases e with
  | receive =>
    dsimp only [step]; split
    · exact i
    · next x q hq =>
      have : s.received ++ s.queue = (s.received ++ [x]) ++ q := by rw [hq]; simp
      exact ⟨fun h => by dsimp only; rw [← this]; exact i.early h, by dsimp only; rw [← this]; exact i.all⟩
  | send m => dsimp only [step, send]; split <;> (try split) <;> exact same _ rfl rfl id
  | finish o =>
    dsimp only [step, finish]; split
    · have := cancel_queue { s with task := some o }
      exact same _ this.1 this.2.1 (by rw [this.2.2]; exact id)
    · exact i
  | timer =>
    dsimp only [step]; split
    · have := cancel_queue s
      exact same _ this.1 this.2.1 (by rw [this.2.2]; exact id)
    · exact i
  | resume => have := worker_same s; exact same _ this.1 this.2.1 this.2.2
  | stop =>
    dsimp only [step]; split
    · next hp =>
      refine ⟨fun h => (by rcases h with h | h <;> cases h), .inr ?_⟩
      have := i.early (.inr hp)
      dsimp only
      rw [← List.append_assoc, this]; rfl
    · exact i

theorem run_ind {P : St → Prop} (hs : ∀ s e, P s → P (step s e)) (es : List Ev) : ∀ s, P s → P (run s es) := by
  induction es with
  | nil => exact fun _ h => h
  | cons e es ih => exact fun s h => ih _ (hs s e h)

end Lifespan

/-- The application receives lifespan.startup once and then lifespan.shutdown at most once, the latter not before the worker
stops serving. -/
theorem C47_received (es : List Ev) :
    (run init es).received <+: [.startup, .shutdown] ∧
    ((run init es).phase = .starting ∨ (run init es).phase = .serving → (run init es).received <+: [.startup]) := by
  have i : Lifespan.Items (run init es) := 
    Lifespan.run_ind (P := Lifespan.Items) (fun s e h => Lifespan.items_step h e) es init ⟨fun _ => rfl, .inl rfl⟩
  refine ⟨?_, fun h => ⟨_, i.early h⟩⟩
  rcases i.all with h | h
  · exact ⟨(run init es).queue ++ [.shutdown], by rw [← List.append_assoc, h]; rfl⟩
  · exact ⟨_, h⟩

/-- Once the waiter is cancelled it stays so. -/
theorem Lifespan.cancelled_step {s : St} (h : s.waiter = .cancelled) (e : Ev) : (step s e).waiter = .cancelled := by
  have hc : ∀ t : St, t.waiter = .cancelled → (cancel t).waiter = .cancelled := by
    intro t ht; unfold cancel; rw [ht]; exact ht
  cases e with
  | receive => dsimp only [step]; split <;> exact h
  | send m =>
    cases m <;> dsimp only [step, send] <;> first
      | exact h
      | (rw [if_neg (by rw [h]; simp)]; exact h)
  | finish o => dsimp only [step, finish]; split <;> first | exact hc _ h | exact h
  | timer => dsimp only [step]; split <;> first | exact hc _ h | exact h
  | stop => dsimp only [step]; split <;> exact h
  | resume =>
    dsimp only [step, worker, resume]
    rw [h]
    rcases s.task with _ | (_ | (_ | _ | _ | _) | _) <;> cases s.phase <;> simp [judge, h]

/-- If the application was not ready first (the time was over, or it had ended), the worker does not wait for it at shutdown
either: whatever happens in between, `exception()` returns at once. -/
theorem C47_shutdown_no_wait (h b : List Ev) (e : Ev) (hp : (run init h).phase = .starting)
    (hf : h.find? decisive = some e) (he : completes e = false)
    (hs : (run init (h ++ [.resume] ++ b)).phase = .serving) :
    (run init (h ++ [.resume] ++ b ++ [.stop, .resume])).phase = .stopped ∨
    (run init (h ++ [.resume] ++ b ++ [.stop, .resume])).phase = .failed none := by
  have hw : (run init h).waiter = .cancelled := by
    have i := Lifespan.start_run h hp
    rw [i.waiter, hf]; simp [he]
  have hw2 : (run init (h ++ [.resume] ++ b)).waiter = .cancelled := by
    rw [List.append_assoc, Lifespan.run_append]
    exact Lifespan.run_ind (P := fun s => s.waiter = .cancelled) (fun s e x => Lifespan.cancelled_step x e) _ _ hw
  rw [Lifespan.run_append]
  generalize run init (h ++ [.resume] ++ b) = s at *
  have h1 : run s [.stop, .resume] = worker { s with phase := .stopping, queue := s.queue ++ [.shutdown] } := by
    simp [run, step, hs]
  rw [h1]
  unfold worker resume
  simp only [hw2]
  rcases s.task with _ | (_ | (_ | _ | _ | _) | _) <;> simp [judge]

namespace Lifespan

/-- Shutdown has begun; if the worker still waits and `b`, its waiter is done. -/
def Late (b : Bool) (s : St) : Prop :=
  (s.phase = .stopping ∧ (b = true → s.waiter ≠ .pending)) ∨ s.phase = .stopped ∨ ∃ e, s.phase = .failed e

theorem late_same {b : Bool} {s t : St} (h : Late b s) (hp : t.phase = s.phase) (hw : b = true → s.waiter ≠ .pending → t.waiter ≠ .pending) :
    Late b t := by
  rcases h with ⟨h1, h2⟩ | h | ⟨e, h⟩
  · exact .inl ⟨by rw [hp]; exact h1, fun hb => hw hb (h2 hb)⟩
  · exact .inr (.inl (by rw [hp]; exact h))
  · exact .inr (.inr ⟨e, by rw [hp]; exact h⟩)

theorem worker_stopping {s : St} (h : s.phase = .stopping) (hw : s.waiter ≠ .pending) :
    (worker s).phase = .stopped ∨ ∃ e, (worker s).phase = .failed e := by
  unfold worker resume
  rw [h]
  cases hx : s.waiter with
  | pending => exact absurd hx hw
  | result => exact .inl rfl
  | cancelled => rcases s.task with _ | (_ | (_ | _ | _ | _) | _) <;> simp [judge]

theorem worker_late {s : St} {b : Bool} (h : Late b s) : Late b (worker s) := by
  rcases h with ⟨h1, h2⟩ | h | ⟨e, h⟩
  · by_cases hw : s.waiter = .pending
    · have : worker s = s := by unfold worker resume; rw [h1, hw]
      rw [this]; exact .inl ⟨h1, h2⟩
    · exact .inr (worker_stopping h1 hw)
  · have : worker s = s := by unfold worker; rw [h]
    rw [this]; exact .inr (.inl h)
  · have : worker s = s := by unfold worker; rw [h]
    rw [this]; exact .inr (.inr ⟨e, h⟩)

theorem cancel_waiter (t : St) : (cancel t).waiter ≠ .pending := by
  unfold cancel; split
  · simp
  · assumption

theorem late_step {s : St} {b : Bool} (h : Late b s) (e : Ev) : Late b (step s e) := by
  cases e with
  | receive => dsimp only [step]; split <;> exact late_same h rfl fun _ => id
  | send m =>
    cases m <;> dsimp only [step, send] <;> (try split) <;> first
      | exact late_same h rfl fun _ => id
      | exact late_same h rfl fun _ _ => by simp
  | finish o =>
    dsimp only [step, finish]; split
    · exact late_same h (cancel_queue _).2.2 fun _ _ => cancel_waiter _
    · exact h
  | timer =>
    dsimp only [step]; split
    · exact late_same h (cancel_queue _).2.2 fun _ _ => cancel_waiter _
    · exact h
  | resume => exact worker_late h
  | stop =>
    dsimp only [step]; split
    · next hp => rcases h with ⟨h, _⟩ | h | ⟨e, h⟩ <;> rw [h] at hp <;> cases hp
    · exact h

theorem late_timer {s : St} (h : Late false s) : Late true (step s .timer) := by
  rcases h with ⟨h, _⟩ | h | h
  · dsimp only [step]; rw [if_pos (.inr h)]
    exact .inl ⟨by rw [(cancel_queue s).2.2]; exact h, fun _ => cancel_waiter _⟩
  · exact late_step (b := true) (.inr (.inl h)) .timer
  · exact late_step (b := true) (.inr (.inr h)) .timer

end Lifespan

/-- The worker's waiting at shutdown ends at the latest when the timer has fired. -/
theorem C47_shutdown_ends (s : St) (a : List Ev) (hs : s.phase = .stopping) (ha : .timer ∈ a) :
    (run s (a ++ [.resume])).phase = .stopped ∨ ∃ e, (run s (a ++ [.resume])).phase = .failed e := by
  obtain ⟨x, y, rfl⟩ := List.append_of_mem ha
  have h1 : Lifespan.Late false (run s x) :=
    Lifespan.run_ind (P := Lifespan.Late false) (fun s e h => Lifespan.late_step h e) x s (.inl ⟨hs, fun h => by cases h⟩)
  have h2 : Lifespan.Late true (run s (x ++ .timer :: y)) := by
    rw [Lifespan.run_append]
    exact Lifespan.run_ind (P := Lifespan.Late true) (fun s e h => Lifespan.late_step h e) y _ (Lifespan.late_timer h1)
  rw [Lifespan.run_append]
  generalize run s (x ++ .timer :: y) = t at *
  rcases h2 with ⟨h, hw⟩ | h | ⟨e, h⟩
  · exact Lifespan.worker_stopping h (hw rfl)
  · exact .inl (by show (worker t).phase = _; unfold worker; rw [h]; exact h)
  · exact .inr ⟨e, by show (worker t).phase = _; unfold worker; rw [h]; exact h⟩

namespace Lifespan

theorem worker_raised (s : St) : (worker s).raised = s.raised := by
  unfold worker resume
  cases s.waiter <;> cases s.phase <;> try rfl
  all_goals (rcases s.task with _ | (_ | (_ | _ | _ | _) | _) <;> rfl)

theorem cancel_raised (t : St) : (cancel t).raised = t.raised := by unfold cancel; split <;> rfl

theorem step_raised (s : St) (e : Ev) :
    (step s e).raised.filter (· ≠ .invalidState) = s.raised.filter (· ≠ .invalidState) ++ (raises e).toList := by
  cases e with
  | receive => dsimp only [step]; split <;> simp [raises]
  | resume => dsimp only [step]; rw [worker_raised]; simp [raises]
  | stop => dsimp only [step]; split <;> simp [raises]
  | timer => dsimp only [step]; split <;> simp [raises, cancel_raised]
  | finish o => dsimp only [step, finish]; split <;> simp [raises, cancel_raised]
  | send m =>
    rcases m with _ | _ | (_ | m) | (_ | m) | t
    · dsimp only [step, send]; split <;> simp [raises]
    · dsimp only [step, send]; split <;> simp [raises]
    all_goals simp [step, send, raises, text]

end Lifespan

/-- What `send` raises into the application, in order: a LifespanError with the text of the report for each failure that it
reports, LifespanProtocolUnsupported for each unknown message; InvalidStateError apart. -/
theorem C47_raises (es : List Ev) : (run init es).raised.filter (· ≠ .invalidState) = es.filterMap raises := by
  induction es using snocInd with
  | h0 => rfl
  | h1 es e ih =>
    rw [Lifespan.run_snoc, Lifespan.step_raised, ih, List.filterMap_append]
    congr 1

/-- InvalidStateError is what an application gets at start-up that reports to be ready although it did so before, or the
time is over, or it has ended. -/
theorem C47_ready_twice (h : List Ev) (m : Ev) (hm : completes m = true) (hp : (run init h).phase = .starting) :
    (run init (h ++ [m])).raised = (run init h).raised ++ (if h.any decisive then [.invalidState] else []) := by
  have iw := (Lifespan.start_run h hp).waiter
  rw [Lifespan.run_snoc]
  have e : (step (run init h) m).raised =
      if (run init h).waiter = .pending then (run init h).raised else (run init h).raised ++ [.invalidState] := by
    rcases m with _ | (_ | _ | _ | _ | _) | _ | _ | _ | _ <;> simp [completes] at hm <;>
      (dsimp only [step, send]; split <;> rfl)
  rw [e, iw]
  cases hf : h.find? decisive with
  | none =>
    have : h.any decisive = false := by
      rw [List.any_eq_false]; rw [List.find?_eq_none] at hf; exact hf
    simp [this]
  | some y =>
    have : h.any decisive = true := by
      rw [List.any_eq_true]; exact ⟨y, List.mem_of_find?_eq_some hf, List.find?_some hf⟩
    dsimp only
    rw [this]
    rw [if_neg (by split <;> simp)]; rfl

namespace Lifespan

/-- The worker waits for an application that has been ready; `f`: its task has not ended. -/
structure Kept (s : St) : Prop where
  waiter : s.waiter = .pending
  phase : s.phase = .serving ∨ s.phase = .stopping
  logged : s.logged = []

theorem kept_step {s : St} (h : Kept s) (e : Ev) (he : decisive e = false) :
    Kept (step s e) ∧ (step s e).task = s.task ∧ (s.phase = .stopping ∨ e = .stop → (step s e).phase = .stopping) := by
  obtain ⟨hw, hp, hl⟩ := h
  cases e with
  | receive => dsimp only [step]; split <;> exact ⟨⟨hw, hp, hl⟩, rfl, fun h => h.elim id (fun h => (by cases h))⟩
  | send m =>
    cases m <;> first
      | exact ⟨⟨hw, hp, hl⟩, rfl, fun h => h.elim id (fun h => (by cases h))⟩
      | cases he
  | finish o => cases he
  | timer => cases he
  | stop =>
    dsimp only [step]
    split
    · exact ⟨⟨hw, .inr rfl, hl⟩, rfl, fun _ => rfl⟩
    · next h =>
      rcases hp with hp | hp
      · exact absurd hp h
      · exact ⟨⟨hw, .inr hp, hl⟩, rfl, fun _ => hp⟩
  | resume =>
    have : worker s = s := by unfold worker resume; rw [hw]; cases s.phase <;> rfl
    dsimp only [step]; rw [this]
    exact ⟨⟨hw, hp, hl⟩, rfl, fun h => h.elim id (fun h => (by cases h))⟩

theorem kept_run {s : St} (h : Kept s) (b : List Ev) (hb : ∀ x ∈ b, decisive x = false) :
    Kept (run s b) ∧ (run s b).task = s.task ∧ (s.phase = .stopping ∨ .stop ∈ b → (run s b).phase = .stopping) := by
  induction b generalizing s with
  | nil => exact ⟨h, rfl, fun h => h.elim id (fun h => (by cases h))⟩
  | cons e b ih =>
    obtain ⟨k, t, p⟩ := kept_step h e (hb e (by simp))
    obtain ⟨k', t', p'⟩ := ih k (fun x hx => hb x (by simp [hx]))
    refine ⟨k', t'.trans t, fun hh => p' ?_⟩
    rcases hh with hh | hh
    · exact .inl (p (.inl hh))
    · rcases List.mem_cons.1 hh with hh | hh
      · exact .inl (p (.inr hh.symm))
      · exact .inr hh

theorem logged_start (h : List Ev) (hp : (run init h).phase = .starting) : (run init h).logged = [] := by
  have key : ∀ e s, (s.phase = .starting → s.logged = []) → ((step s e).phase = .starting → (step s e).logged = []) := by
    intro e s hs
    have hc : ∀ t : St, (cancel t).phase = t.phase ∧ (cancel t).logged = t.logged := by
      intro t; unfold cancel; split <;> exact ⟨rfl, rfl⟩
    cases e with
    | receive => dsimp only [step]; split <;> exact hs
    | send m => dsimp only [step, send]; split <;> (try split) <;> exact hs
    | finish o =>
      dsimp only [step, finish]; split
      · rw [(hc _).1, (hc _).2]; exact hs
      · exact hs
    | timer =>
      dsimp only [step]; split
      · rw [(hc _).1, (hc _).2]; exact hs
      · exact hs
    | stop =>
      dsimp only [step]; split
      · intro h; cases h
      · exact hs
    | resume =>
      dsimp only [step]
      unfold worker; split <;> first | exact hs | (intro h; cases h)
  exact run_ind (P := fun s => s.phase = .starting → s.logged = []) (fun s e => key e s) h init (fun _ => rfl) hp

theorem kept_start {h : List Ev} {e : Ev} (hp : (run init h).phase = .starting) (hf : h.find? decisive = some e)
    (he : completes e = true) : Kept (run init (h ++ [.resume])) ∧ (run init (h ++ [.resume])).task = h.findSome? ending := by
  have i := start_run h hp
  have hl := logged_start h hp
  have hw := i.waiter
  rw [hf] at hw
  simp only [he, if_true] at hw
  rw [run_snoc]
  generalize run init h = s at *
  have : step s .resume = { s with waiter := .pending, phase := .serving } := by
    dsimp only [step]; unfold worker resume; rw [hp, hw]
  rw [this]
  exact ⟨⟨rfl, .inl rfl, hl⟩, i.task⟩

end Lifespan

/-- If the application was ready first, the worker waits for it at shutdown: until it is ready again, ends, or the time is
over. -/
theorem C47_shutdown_waits (h b : List Ev) (e : Ev) (hp : (run init h).phase = .starting)
    (hf : h.find? decisive = some e) (he : completes e = true) (hb : ∀ x ∈ b, decisive x = false) (hs : .stop ∈ b) :
    (run init (h ++ [.resume] ++ b)).phase = .stopping := by
  rw [Lifespan.run_append]
  exact (Lifespan.kept_run (Lifespan.kept_start hp hf he).1 b hb).2.2 (.inr hs)

/-- And if it then ends with a LifespanError, that is logged and the worker stops. -/
theorem C47_shutdown_logged (h b : List Ev) (e : Ev) (t : String) (hp : (run init h).phase = .starting)
    (hf : h.find? decisive = some e) (he : completes e = true) (hn : h.findSome? ending = none)
    (hb : ∀ x ∈ b, decisive x = false) (hs : .stop ∈ b) :
    (run init (h ++ [.resume] ++ b ++ [.finish (.raised (.lifespan t)), .resume])).phase = .stopped ∧
    (run init (h ++ [.resume] ++ b ++ [.finish (.raised (.lifespan t)), .resume])).logged = [.lifespan t] := by
  have k := Lifespan.kept_start hp hf he
  obtain ⟨k1, k2, k3⟩ := Lifespan.kept_run k.1 b hb
  rw [Lifespan.run_append, Lifespan.run_append _ _ b]
  rw [k.2, hn] at k2
  have k3 := k3 (.inr hs)
  generalize run (run init (h ++ [.resume])) b = s at *
  have hw := k1.waiter
  have hl := k1.logged
  simp [run, step, finish, cancel, worker, resume, judge, k2, k3, hw, hl]

/-- C47 is false: an application that reports a failure and catches what `send` raises is served. -/
theorem C47_refuted_caught : (run init [.receive, .send (.startupFailed none), .finish .returned, .resume]).phase = .serving := by
  decide +kernel

/-- C47 is false: so is one that reports a failure after having been ready, before the worker goes on. -/
theorem C47_refuted_late : (run init [.receive, .send .startupComplete, .send (.startupFailed none),
    .finish (.raised (.lifespan "lifespan.startup.failed")), .resume]).phase = .serving := by
  decide +kernel

/-- C47 is false: start-up fails if the application is cancelled, or reports that *shutdown* failed. -/
theorem C47_refuted_cancelled : (run init [.receive, .finish .cancelled, .resume]).phase = .failed none := by
  decide +kernel

theorem C47_refuted_shutdown : (run init [.receive, .send (.shutdownFailed none),
    .finish (.raised (.lifespan "lifespan.shutdown.failed")), .resume]).phase = .failed (some (.lifespan "lifespan.shutdown.failed")) := by
  decide +kernel

/- Cases that meet the hypotheses. -/

/-- a failing application -/
def Lifespan.failing : List Ev := [.receive, .timer, .send (.startupFailed (some "no database")),
  .finish (.raised (.lifespan "lifespan.startup.failed: no database"))]

example : verdict Lifespan.failing = .fail "lifespan.startup.failed: no database" := by decide +kernel
example : (run init Lifespan.failing).phase = .starting := by decide +kernel
example : Honest Lifespan.failing := by
  constructor
  · intro t ht
    simp [Lifespan.failing] at ht
    subst ht
    exact ⟨.send (.startupFailed (some "no database")), by simp [Lifespan.failing], rfl⟩
  · simp [Lifespan.failing]
example : (run init (Lifespan.failing ++ [.resume])).phase = .failed (some (.lifespan "lifespan.startup.failed: no database")) := by
  decide +kernel
/-- an application that does not know lifespan, one that raises, one that is silent, one that is ready and stops later -/
example : (run init ([.send (.other "http.response.start"), .finish (.raised .unsupported)] ++ [.resume])).phase = .serving := by
  decide +kernel
example : (run init ([.finish (.raised (.any "KeyError"))] ++ [.resume])).phase = .serving := by decide +kernel
example : (run init ([.receive, .timer] ++ [.resume])).phase = .serving := by decide +kernel
example : run init [.receive, .send .startupComplete, .resume, .stop, .receive, .send .shutdownComplete, .resume] =
    { waiter := .pending, phase := .stopped, queue := [], received := [.startup, .shutdown] } := by decide +kernel
/-- a silent application, and its shutdown -/
example : (run init ([.receive, .timer] ++ [.resume] ++ [.send .startupComplete])).phase = .serving ∧
    (run init ([.receive, .timer] ++ [.resume] ++ [.send .startupComplete])).raised = [.invalidState] ∧
    (run init ([.receive, .timer] ++ [.resume] ++ [.send .startupComplete] ++ [.stop, .resume])).phase = .stopped := by decide +kernel
/-- an application that fails at shutdown -/
example : ([.send .startupComplete].find? decisive = some (Ev.send .startupComplete)) ∧
    (run init ([.send .startupComplete] ++ [.resume] ++ [.receive, .stop, .receive] ++
      [.finish (.raised (.lifespan "x")), .resume])).logged = [.lifespan "x"] := by decide +kernel
example : (run init [.send (.other "http.request"), .send .startupComplete, .send .startupComplete,
      .send (.startupFailed (some "no"))]).raised =
    [.unsupported, .invalidState, .lifespan "lifespan.startup.failed: no"] := by decide +kernel
example : (run init ([.send .startupComplete, .resume, .stop] ++ [.timer] ++ [.resume])).phase = .stopped := by decide +kernel

end Verif
