import Verif.Model.Locks
/-!
# C38: mutual exclusion by `ServerLock`
-/
namespace Verif
open Verif.Model.Locks

namespace Locks

def holds (e : Entry) : Prop := (e.fut = .sent true ∨ e.fut = .result true) ∧ e.task ≠ .left

structure Fine (e : Entry) : Prop where
  fut : e.fut = .pending ∨ e.fut = .sent true ∨ e.fut = .result true
  thread : e.thread = .queued ∨ e.thread = .trying ∨ e.thread = .ended
  run : e.fut = .pending ↔ e.thread ≠ .ended
  task : e.task ≠ .waiting → e.fut = .result true

structure Inv (s : St) : Prop where
  fine : ∀ (t : Nat) (e : Entry), s.entries[t]? = some e → Fine e
  lock : ∀ (t : Nat) (e : Entry), s.entries[t]? = some e → holds e → s.locks[e.idx]? = some true
  one : ∀ (t u : Nat) (e d : Entry), s.entries[t]? = some e → s.entries[u]? = some d → holds e → holds d → e.idx = d.idx → t = u
  held : ∀ i : Nat, s.locks[i]? = some true → ∃ (t : Nat) (e : Entry), s.entries[t]? = some e ∧ holds e ∧ e.idx = i

theorem get_set {s : St} {t : Nat} {e : Entry} (h : s.entries[t]? = some e) (x : Entry) (u : Nat) :
    (s.entries.set t x)[u]? = if u = t then some x else s.entries[u]? := by
  have hl : t < s.entries.length := by rw [List.getElem?_eq_some_iff] at h; exact h.1
  by_cases hu : u = t
  · subst hu; rw [List.getElem?_set_self hl, if_pos rfl]
  · rw [List.getElem?_set_ne (Ne.symm hu), if_neg hu]

/-- An entry changes without gaining or losing the lock. -/
theorem inv_set {s : St} (i : Inv s) {t : Nat} {e x : Entry} (h : s.entries[t]? = some e) (hx : Fine x) (hi : x.idx = e.idx)
    (hh : holds x ↔ holds e) : Inv (setEntry s t x) := by
  have old : ∀ (u : Nat) (d : Entry), (setEntry s t x).entries[u]? = some d → holds d → ∃ c, s.entries[u]? = some c ∧ holds c ∧ c.idx = d.idx := by
    intro u d hd hd2
    dsimp only [setEntry] at hd
    rw [get_set h] at hd
    split at hd
    · next e1 => cases hd; subst e1; exact ⟨e, h, hh.1 hd2, hi.symm⟩
    · exact ⟨d, hd, hd2, rfl⟩
  refine ⟨?_, ?_, ?_, ?_⟩
  · intro u d hd
    dsimp only [setEntry] at hd
    rw [get_set h] at hd
    split at hd
    · cases hd; exact hx
    · exact i.fine u d hd
  · intro u d hd hd2
    obtain ⟨c, hc, hc2, hc3⟩ := old u d hd hd2
    rw [← hc3]; exact i.lock u c hc hc2
  · intro u v d d' hd hd' h1 h2 h3
    obtain ⟨c, hc, hc2, hc3⟩ := old u d hd h1
    obtain ⟨c', hc', hc2', hc3'⟩ := old v d' hd' h2
    exact i.one u v c c' hc hc' hc2 hc2' (by rw [hc3, hc3', h3])
  · intro j hj
    obtain ⟨u, d, hd, hd2, hd3⟩ := i.held j hj
    by_cases hu : u = t
    · subst hu
      rw [h] at hd; cases hd
      exact ⟨u, x, by dsimp only [setEntry]; rw [get_set h, if_pos rfl], hh.2 hd2, by rw [hi, hd3]⟩
    · exact ⟨u, d, by dsimp only [setEntry]; rw [get_set h, if_neg hu]; exact hd, hd2, hd3⟩

/-- The lock becomes free when its holder leaves. -/
theorem inv_leave {s : St} (i : Inv s) {t : Nat} {e x : Entry} (h : s.entries[t]? = some e) (hx : Fine x) (hi : x.idx = e.idx)
    (he : holds e) (hn : ¬ holds x) : Inv (release e.idx (setEntry s t x)) := by
  have lk : ∀ j : Nat, (s.locks.set e.idx false)[j]? = some true → j ≠ e.idx ∧ s.locks[j]? = some true := by
    intro j hj
    by_cases hje : j = e.idx
    · subst hje
      have : e.idx < s.locks.length := by rw [List.getElem?_eq_some_iff] at hj; simpa using hj.1
      rw [List.getElem?_set_self this] at hj; cases hj
    · rw [List.getElem?_set_ne (Ne.symm hje)] at hj; exact ⟨hje, hj⟩
  have old : ∀ (u : Nat) (d : Entry), (release e.idx (setEntry s t x)).entries[u]? = some d → holds d → u ≠ t ∧ s.entries[u]? = some d := by
    intro u d hd hd2
    dsimp only [release, setEntry] at hd
    rw [get_set h] at hd
    split at hd
    · cases hd; exact absurd hd2 hn
    · next hne => exact ⟨hne, hd⟩
  refine ⟨?_, ?_, ?_, ?_⟩
  · intro u d hd
    dsimp only [release, setEntry] at hd
    rw [get_set h] at hd
    split at hd
    · cases hd; exact hx
    · exact i.fine u d hd
  · intro u d hd hd2
    obtain ⟨h1, h2⟩ := old u d hd hd2
    have hne : d.idx ≠ e.idx := fun hc => h1 (i.one u t d e h2 h hd2 he hc)
    dsimp only [release, setEntry]
    rw [List.getElem?_set_ne (Ne.symm hne)]
    exact i.lock u d h2 hd2
  · intro u v d d' hd hd' h1 h2 h3
    exact i.one u v d d' (old u d hd h1).2 (old v d' hd' h2).2 h1 h2 h3
  · intro j hj
    obtain ⟨h1, h2⟩ := lk j hj
    obtain ⟨u, d, hd, hd2, hd3⟩ := i.held j h2
    have : u ≠ t := by rintro rfl; rw [h] at hd; cases hd; exact h1 hd3.symm
    exact ⟨u, d, by dsimp only [release, setEntry]; rw [get_set h, if_neg this]; exact hd, hd2, hd3⟩

/-- A thread gets the free lock. -/
theorem inv_take {s : St} (i : Inv s) {t : Nat} {e x : Entry} (h : s.entries[t]? = some e) (hx : Fine x) (hi : x.idx = e.idx)
    (hf : s.locks[e.idx]? = some false) (hh : holds x) : Inv { (setEntry s t x) with locks := s.locks.set e.idx true } := by
  have hl : e.idx < s.locks.length := by rw [List.getElem?_eq_some_iff] at hf; exact hf.1
  have none : ∀ (u : Nat) (d : Entry), s.entries[u]? = some d → holds d → d.idx ≠ e.idx := by
    intro u d hd hd2 hc
    have := i.lock u d hd hd2
    rw [hc, hf] at this; cases this
  have old : ∀ (u : Nat) (d : Entry), (s.entries.set t x)[u]? = some d → (u = t ∧ d = x) ∨ (u ≠ t ∧ s.entries[u]? = some d) := by
    intro u d hd
    rw [get_set h] at hd
    split at hd
    · next hu => cases hd; exact .inl ⟨hu, rfl⟩
    · next hu => exact .inr ⟨hu, hd⟩
  refine ⟨?_, ?_, ?_, ?_⟩
  · intro u d hd
    rcases old u d hd with ⟨_, rfl⟩ | ⟨_, h2⟩
    · exact hx
    · exact i.fine u d h2
  · intro u d hd hd2
    dsimp only
    rcases old u d hd with ⟨_, rfl⟩ | ⟨_, h2⟩
    · rw [hi, List.getElem?_set_self hl]
    · rw [List.getElem?_set_ne (Ne.symm (none u d h2 hd2))]; exact i.lock u d h2 hd2
  · intro u v d d' hd hd' h1 h2 h3
    rcases old u d hd with ⟨hu, rfl⟩ | ⟨_, hu⟩ <;> rcases old v d' hd' with ⟨hv, rfl⟩ | ⟨_, hv⟩
    · rw [hu, hv]
    · exact absurd (h3.symm.trans hi) (none v d' hv h2)
    · exact absurd (h3.trans hi) (none u d hu h1)
    · exact i.one u v d d' hu hv h1 h2 h3
  · intro j hj
    dsimp only at hj
    by_cases hje : j = e.idx
    · exact ⟨t, x, by dsimp only [setEntry]; rw [get_set h, if_pos rfl], hh, by rw [hi, hje]⟩
    · rw [List.getElem?_set_ne (Ne.symm hje)] at hj
      obtain ⟨u, d, hd, hd2, hd3⟩ := i.held j hj
      by_cases hu : u = t
      · subst hu; rw [h] at hd; cases hd; exact absurd hd3.symm hje
      · exact ⟨u, d, by dsimp only [setEntry]; rw [get_set h, if_neg hu]; exact hd, hd2, hd3⟩

/-- No acquire fails: no timer fires, no thread gives up and no waiting task is cancelled. -/
def NoTimeout (es : List Ev) : Prop := ∀ t, .timer t ∉ es ∧ .giveUp t ∉ es ∧ .cancel t ∉ es

theorem inv_step {s : St} {ev : Ev} (i : Inv s) (h : NoTimeout [ev]) : Inv (step s ev) := by
  cases ev with
  | enter w n =>
    have old : ∀ (u : Nat) (d : Entry), (s.entries ++ [{ worker := w, idx := n % s.locks.length : Entry }])[u]? = some d →
        s.entries[u]? = some d ∨ (u = s.entries.length ∧ d = { worker := w, idx := n % s.locks.length }) := by
      intro u d hd
      rw [List.getElem?_append] at hd
      split at hd
      · exact .inl hd
      · next hu =>
        rw [List.getElem?_singleton] at hd
        split at hd
        · cases hd; exact .inr ⟨by omega, rfl⟩
        · cases hd
    have nh : ¬ holds { worker := w, idx := n % s.locks.length } := by rintro ⟨h | h, _⟩ <;> cases h
    refine ⟨?_, ?_, ?_, ?_⟩
    · intro u d hd
      rcases old u d hd with h | ⟨_, rfl⟩
      · exact i.fine u d h
      · exact ⟨.inl rfl, .inl rfl, by simp, by simp⟩
    · intro u d hd hd2
      rcases old u d hd with h | ⟨_, rfl⟩
      · exact i.lock u d h hd2
      · exact absurd hd2 nh
    · intro u v d d' hd hd' h1 h2 h3
      rcases old u d hd with hu | ⟨_, rfl⟩
      · rcases old v d' hd' with hv | ⟨_, rfl⟩
        · exact i.one u v d d' hu hv h1 h2 h3
        · exact absurd h2 nh
      · exact absurd h1 nh
    · intro j hj
      obtain ⟨u, d, hd, hd2, hd3⟩ := i.held j hj
      refine ⟨u, d, ?_, hd2, hd3⟩
      dsimp only [step, enter]
      rw [List.getElem?_append_left (by rw [List.getElem?_eq_some_iff] at hd; exact hd.1)]
      exact hd
  | begin t =>
    simp only [step]; unfold begin
    split
    · next e he =>
      split
      · next hc =>
        have f := i.fine t e he
        have hp : e.fut = .pending := f.run.2 (by rw [hc.1]; simp)
        refine inv_set i he ⟨.inl hp, .inr (.inl rfl), by simp [hp], f.task⟩ rfl (Iff.rfl)
      · exact i
    · exact i
  | take t =>
    simp only [step]; unfold take
    split
    · next e he =>
      split
      · next hc =>
        have f := i.fine t e he
        have hp : e.fut = .pending := f.run.2 (by rw [hc.1]; simp)
        have hw : e.task = .waiting := by
          rcases ht : e.task with _ | _ | _
          · rfl
          · have := f.task (by simp [ht]); rw [hp] at this; cases this
          · have := f.task (by simp [ht]); rw [hp] at this; cases this
        refine inv_take i he ⟨?_, .inr (.inr rfl), ?_, ?_⟩ rfl hc.2 ⟨?_, ?_⟩
        · simp [endFut, hp]
        · simp [endFut, hp]
        · simp [hw]
        · simp [endFut, hp]
        · simp [hw]
      · exact i
    · exact i
  | giveUp t => exact absurd (by simp) (h t).2.1
  | timer t => exact absurd (by simp) (h t).1
  | cancel t => exact absurd (by simp) (h t).2.2
  | deliver t =>
    simp only [step]; unfold deliver
    split
    · next e he =>
      have f := i.fine t e he
      split
      · next b hb =>
        have hb' : b = true := by rcases f.fut with h | h | h <;> rw [hb] at h <;> cases h; rfl
        subst hb'
        have hend : e.thread = .ended := by
          have := f.run
          rw [hb] at this
          simp at this; exact this
        refine inv_set i he ⟨.inr (.inr rfl), .inr (.inr hend), by simp [hend], fun _ => rfl⟩ rfl ?_
        simp [holds, hb]
      · exact i
    · exact i
  | resume t =>
    simp only [step]; unfold resume
    split
    · next e he =>
      have f := i.fine t e he
      split
      · next hw =>
        split
        · next hb => exact inv_set i he ⟨f.fut, f.thread, f.run, fun _ => hb⟩ rfl (by simp [holds, hb, hw])
        · next hb => rcases f.fut with h | h | h <;> rw [hb] at h <;> cases h
        · next hb => rcases f.fut with h | h | h <;> rw [hb] at h <;> cases h
        · exact i
      · exact i
    · exact i
  | leave t =>
    simp only [step]; unfold leave
    split
    · next e he =>
      have f := i.fine t e he
      split
      · next hin =>
        have hr := f.task (by simp [hin])
        exact inv_leave i he ⟨f.fut, f.thread, f.run, fun _ => hr⟩ rfl ⟨.inr hr, by simp [hin]⟩ (by simp [holds])
      · exact i
    · exact i

theorem inv_init (n : Nat) : Inv (init n) := by
  refine ⟨by simp [init], by simp [init], by simp [init], ?_⟩
  intro j hj
  dsimp only [init] at hj
  rw [List.getElem?_replicate] at hj
  split at hj <;> cases hj

theorem inv_run {es : List Ev} (h : NoTimeout es) : ∀ {s : St}, Inv s → Inv (run s es) := by
  induction es with
  | nil => intro s i; exact i
  | cons e r ih =>
    intro s i
    refine ih (fun t => ⟨?_, ?_, ?_⟩) (inv_step i (fun t => ⟨?_, ?_, ?_⟩))
    · exact fun hm => (h t).1 (List.mem_cons_of_mem _ hm)
    · exact fun hm => (h t).2.1 (List.mem_cons_of_mem _ hm)
    · exact fun hm => (h t).2.2 (List.mem_cons_of_mem _ hm)
    · exact fun hm => (h t).1 (by simp at hm; simp [hm])
    · exact fun hm => (h t).2.1 (by simp at hm; simp [hm])
    · exact fun hm => (h t).2.2 (by simp at hm; simp [hm])

end Locks
open Locks

/-- **C38** for schedules in which no acquire fails: two entries inside for the same lock are the same one, and the lock is
held while someone is inside. Missing: with timeouts and cancellations it is false (below). -/
theorem C38_partial {n : Nat} {es : List Ev} (h : NoTimeout es) {t u : Nat} {e d : Entry}
    (ht : (run (init n) es).entries[t]? = some e) (hu : (run (init n) es).entries[u]? = some d)
    (h1 : e.task = .inside) (h2 : d.task = .inside) (hi : e.idx = d.idx) :
    t = u ∧ (run (init n) es).locks[e.idx]? = some true := by
  have i := inv_run h (inv_init n)
  have a : holds e := ⟨.inr ((i.fine t e ht).task (by simp [h1])), by simp [h1]⟩
  have b : holds d := ⟨.inr ((i.fine u d hu).task (by simp [h2])), by simp [h2]⟩
  exact ⟨i.one t u e d ht hu a b hi, i.lock t e ht a⟩

/-- A lock is not left held: in such schedules a held lock has an entry that is inside, or that goes inside once the loop
has delivered the result and run it. -/
theorem C38_held_partial {n : Nat} {es : List Ev} (h : NoTimeout es) {i : Nat} (hl : (run (init n) es).locks[i]? = some true) :
    ∃ (t : Nat) (e : Entry), (run (init n) es).entries[t]? = some e ∧ e.idx = i ∧
      ∃ d : Entry, (run (init n) (es ++ [.deliver t, .resume t])).entries[t]? = some d ∧ d.task = .inside := by
  obtain ⟨t, e, he, hh, hi⟩ := (inv_run h (inv_init n)).held i hl
  have f := (inv_run h (inv_init n)).fine t e he
  refine ⟨t, e, he, hi, ?_⟩
  have hrun : run (init n) (es ++ [.deliver t, .resume t]) = resume t (deliver t (run (init n) es)) := by
    simp [run, step]
  rw [hrun]
  generalize run (init n) es = s at he
  have self : ∀ (s : St) (e x : Entry), s.entries[t]? = some e → (setEntry s t x).entries[t]? = some x := by
    intro s e x h; dsimp only [setEntry]; rw [get_set h, if_pos rfl]
  rcases hh.1 with hf | hf
  · have hw : e.task = .waiting := by
      rcases ht : e.task with _ | _ | _
      · rfl
      · have := f.task (by simp [ht]); rw [hf] at this; cases this
      · have := f.task (by simp [ht]); rw [hf] at this; cases this
    have hd : deliver t s = setEntry s t { e with fut := .result true } := by unfold deliver; rw [he]; simp only [hf]
    rw [hd]
    have g := self s e { e with fut := .result true } he
    refine ⟨{ e with fut := .result true, task := .inside }, ?_, rfl⟩
    unfold resume
    rw [g]; dsimp only
    rw [if_pos hw]
    exact self _ _ _ g
  · have hd : deliver t s = s := by unfold deliver; rw [he]; simp only [hf]
    rw [hd]
    unfold resume; rw [he]; dsimp only
    by_cases hw : e.task = .waiting
    · rw [if_pos hw]; simp only [hf]
      exact ⟨_, self _ _ _ he, rfl⟩
    · rw [if_neg hw]
      refine ⟨e, he, ?_⟩
      rcases ht : e.task with _ | _ | _
      · exact absurd ht hw
      · rfl
      · exact absurd ht hh.2

theorem first_of {p : Entry → Bool} (l : List Entry) : ∀ (t : Nat) (e : Entry), l[t]? = some e → p e = true →
    ∃ (u : Nat) (d : Entry), l[u]? = some d ∧ p d = true ∧ (l.take u).all (fun c => !p c) = true := by
  intro t
  induction t using Nat.strongRecOn with
  | _ t ih =>
    intro e he hp
    by_cases h : (l.take t).all (fun c => !p c) = true
    · exact ⟨t, e, he, hp, h⟩
    · simp only [Bool.not_eq_true, List.all_eq_false, Bool.not_eq_true', Bool.not_eq_false] at h
      obtain ⟨c, hc, hpc⟩ := h
      obtain ⟨u, hu⟩ := List.mem_iff_getElem?.1 hc
      rw [List.getElem?_take] at hu
      split at hu
      · next hlt => exact ih u hlt c hu hpc
      · cases hu

/-- A free lock is given to someone: in such schedules, when an entry waits for a lock that is free, then some entry for that
lock goes inside as soon as the executor and the loop run it. -/
theorem C38_progress_partial {n : Nat} {es : List Ev} (h : NoTimeout es) {t : Nat} {e : Entry}
    (ht : (run (init n) es).entries[t]? = some e) (hw : e.task = .waiting) (hl : (run (init n) es).locks[e.idx]? = some false) :
    ∃ (u : Nat) (d : Entry), (run (init n) (es ++ [.begin u, .take u, .deliver u, .resume u])).entries[u]? = some d ∧
      d.idx = e.idx ∧ d.task = .inside := by
  have i := inv_run h (inv_init n)
  have hp : e.fut = .pending := by
    rcases (i.fine t e ht).fut with h | h | h
    · exact h
    · have := i.lock t e ht ⟨.inl h, by simp [hw]⟩; rw [hl] at this; cases this
    · have := i.lock t e ht ⟨.inr h, by simp [hw]⟩; rw [hl] at this; cases this
  have hthr : e.thread = .queued ∨ e.thread = .trying := by
    have := (i.fine t e ht).run.1 hp
    rcases (i.fine t e ht).thread with h | h | h
    · exact .inl h
    · exact .inr h
    · exact absurd h this
  obtain ⟨u, d, hu, hpd, hall⟩ := first_of (p := fun d => d.worker == e.worker && d.idx == e.idx &&
      (d.thread == .queued || d.thread == .trying)) (run (init n) es).entries t e ht (by rcases hthr with h | h <;> simp [h])
  simp only [Bool.and_eq_true, beq_iff_eq, Bool.or_eq_true] at hpd
  obtain ⟨⟨hwk, hidx⟩, hth⟩ := hpd
  have f := i.fine u d hu
  have hdp : d.fut = .pending := f.run.2 (by rcases hth with h | h <;> simp [h])
  have hdw : d.task = .waiting := by
    rcases ht : d.task with _ | _ | _
    · rfl
    · have := f.task (by simp [ht]); rw [hdp] at this; cases this
    · have := f.task (by simp [ht]); rw [hdp] at this; cases this
  refine ⟨u, { d with thread := .ended, fut := .result true, task := .inside }, ?_, hidx, rfl⟩
  have hrun : run (init n) (es ++ [.begin u, .take u, .deliver u, .resume u]) =
      resume u (deliver u (take u (begin u (run (init n) es)))) := by simp [run, step]
  rw [hrun]
  generalize run (init n) es = s at *
  have self : ∀ (s : St) (e x : Entry), s.entries[u]? = some e → (setEntry s u x).entries[u]? = some x := by
    intro s e x h; dsimp only [setEntry]; rw [get_set h, if_pos rfl]
  have h1 : (begin u s).entries[u]? = some { d with thread := .trying } ∧ (begin u s).locks = s.locks := by
    unfold begin; rw [hu]; dsimp only
    rcases hth with hth | hth
    · rw [if_pos ⟨hth, by rw [hwk, hidx]; exact hall⟩]; exact ⟨self _ _ _ hu, rfl⟩
    · rw [if_neg (by rw [hth]; simp)]; refine ⟨?_, rfl⟩; rw [hu, ← hth]
  generalize begin u s = s1 at *
  have h2 : (take u s1).entries[u]? = some { d with thread := .ended, fut := .sent true } := by
    unfold take; rw [h1.1]; dsimp only
    rw [if_pos ⟨rfl, by rw [h1.2, hidx]; exact hl⟩]
    dsimp only
    rw [self _ _ _ h1.1]; simp [endFut, hdp]
  generalize take u s1 = s2 at *
  have h3 : (deliver u s2).entries[u]? = some { d with thread := .ended, fut := .result true } := by
    unfold deliver; rw [h2]; dsimp only
    rw [self _ _ _ h2]
  generalize deliver u s2 = s3 at *
  unfold resume; rw [h3]; dsimp only
  rw [if_pos hdw, self _ _ _ h3]

/-- Two tasks of one worker and one of another, one after the other. -/
example : NoTimeout [.enter 0 3, .enter 0 19, .enter 1 3, .begin 0, .take 0, .begin 2, .deliver 0, .resume 0, .leave 0, .take 2, .begin 1,
      .deliver 2, .resume 2] ∧
    ((run (init 16) [.enter 0 3, .enter 0 19, .enter 1 3, .begin 0, .take 0, .begin 2, .deliver 0, .resume 0, .leave 0, .take 2, .begin 1,
      .deliver 2, .resume 2]).entries.map (·.task)) = [.left, .waiting, .inside] := by
  refine ⟨fun t => ⟨by simp, by simp, by simp⟩, by decide⟩

/-- **C38 is false** with timeouts: an acquire that times out runs the body all the same, and releases the lock of the task that
is inside, so that a third one can take it as well. -/
theorem C38_refuted_timeout :
    (run (init 16) [.enter 0 3, .begin 0, .take 0, .deliver 0, .resume 0, .enter 0 3, .timer 1, .resume 1,
      .enter 1 3, .begin 2, .take 2, .deliver 2, .resume 2]).entries.map (·.task) = [.inside, .inside, .inside] := by decide

/-- **C38 is false** with cancellation: cancelling a task that waits for the lock lets it into the body. -/
theorem C38_refuted_cancel :
    (run (init 16) [.enter 0 3, .begin 0, .take 0, .deliver 0, .resume 0, .enter 0 3, .cancel 1, .resume 1]).entries.map (·.task) =
      [.inside, .inside] := by decide

/-- The entry with a cancelled future stays one, whatever happens next. -/
theorem Locks.stays (s : St) (t : Nat) (e : Entry) (h : s.entries[t]? = some e) (hc : e.fut = .cancelled) (ev : Ev) :
    ∃ d, (step s ev).entries[t]? = some d ∧ d.fut = .cancelled ∧ d.idx = e.idx := by
  have other : ∀ (u : Nat) (x y : Entry) (l : List Bool), s.entries[u]? = some x → (u = t → y.fut = .cancelled ∧ y.idx = e.idx) →
      ∃ d, ({ (setEntry s u y) with locks := l } : St).entries[t]? = some d ∧ d.fut = .cancelled ∧ d.idx = e.idx := by
    intro u x y l hx hy
    by_cases hu : u = t
    · subst hu
      exact ⟨y, by dsimp only [setEntry]; rw [get_set h, if_pos rfl], hy rfl⟩
    · exact ⟨e, by dsimp only [setEntry]; rw [get_set hx, if_neg (Ne.symm hu), h], hc, rfl⟩
  have same : ∃ d, s.entries[t]? = some d ∧ d.fut = .cancelled ∧ d.idx = e.idx := ⟨e, h, hc, rfl⟩
  cases ev with
  | enter w n =>
    refine ⟨e, ?_, hc, rfl⟩
    dsimp only [step, enter]
    have := (List.getElem?_eq_some_iff.1 h).1
    rw [List.getElem?_append_left this, h]
  | begin u =>
    dsimp only [step, begin]
    cases hx : s.entries[u]? with
    | none => exact same
    | some x =>
      dsimp only
      split
      · exact other u x _ s.locks hx (by rintro rfl; rw [h] at hx; cases hx; exact ⟨hc, rfl⟩)
      · exact same
  | take u =>
    dsimp only [step, take]
    cases hx : s.entries[u]? with
    | none => exact same
    | some x =>
      dsimp only
      split
      · exact other u x _ _ hx (by rintro rfl; rw [h] at hx; cases hx; exact ⟨by simp [endFut, hc], rfl⟩)
      · exact same
  | giveUp u =>
    dsimp only [step, giveUp]
    cases hx : s.entries[u]? with
    | none => exact same
    | some x =>
      dsimp only
      split
      · exact other u x _ s.locks hx (by rintro rfl; rw [h] at hx; cases hx; exact ⟨by simp [endFut, hc], rfl⟩)
      · exact same
  | deliver u =>
    dsimp only [step, deliver]
    cases hx : s.entries[u]? with
    | none => exact same
    | some x =>
      dsimp only
      cases hf : x.fut with
      | sent b => exact other u x _ s.locks hx (by rintro rfl; rw [h] at hx; cases hx; rw [hc] at hf; cases hf)
      | _ => exact same
  | timer u =>
    dsimp only [step, timer]
    cases hx : s.entries[u]? with
    | none => exact same
    | some x =>
      dsimp only
      cases hf : x.fut with
      | sent b => exact other u x _ s.locks hx (by rintro rfl; rw [h] at hx; cases hx; exact ⟨rfl, rfl⟩)
      | pending => exact other u x _ s.locks hx (by rintro rfl; rw [h] at hx; cases hx; exact ⟨rfl, rfl⟩)
      | _ => exact same
  | cancel u =>
    dsimp only [step, cancel]
    cases hx : s.entries[u]? with
    | none => exact same
    | some x =>
      dsimp only
      split
      · exact other u x _ s.locks hx (by rintro rfl; rw [h] at hx; cases hx; exact ⟨rfl, rfl⟩)
      · exact same
  | resume u =>
    dsimp only [step, resume]
    cases hx : s.entries[u]? with
    | none => exact same
    | some x =>
      dsimp only
      split
      · cases hf : x.fut with
        | result b =>
          cases b
          · exact other u x _ _ hx (by rintro rfl; rw [h] at hx; cases hx; rw [hc] at hf; cases hf)
          · exact other u x _ s.locks hx (by rintro rfl; rw [h] at hx; cases hx; rw [hc] at hf; cases hf)
        | cancelled => exact other u x _ _ hx (by rintro rfl; rw [h] at hx; cases hx; exact ⟨rfl, rfl⟩)
        | _ => exact same
      · exact same
  | leave u =>
    dsimp only [step, leave]
    cases hx : s.entries[u]? with
    | none => exact same
    | some x =>
      dsimp only
      split
      · exact other u x _ _ hx (by rintro rfl; rw [h] at hx; cases hx; exact ⟨hc, rfl⟩)
      · exact same

/-- **C38 (an acquire that fails).** In every schedule: a task whose wait for the lock was cut off by its timer or by a cancellation can
never get the lock for it, whatever its thread still does; and if it still waits, then it goes into the body as soon as it is run, and
leaves the lock free, whoever was inside. -/
theorem C38_aborted (n : Nat) (es es' : List Ev) (t : Nat) (e : Entry) (h : (run (init n) es).entries[t]? = some e)
    (hc : e.fut = .cancelled) :
    ∃ d, (run (init n) (es ++ es')).entries[t]? = some d ∧ d.idx = e.idx ∧ (∀ b, d.fut ≠ .result b) ∧
      (d.task = .waiting →
        (∃ x, (run (init n) (es ++ es' ++ [.resume t])).entries[t]? = some x ∧ x.task = .inside) ∧
        (run (init n) (es ++ es' ++ [.resume t])).locks[e.idx]? ≠ some true) := by
  have hrun : ∀ a b, run (init n) (a ++ b) = run (run (init n) a) b := by intro a b; simp [run]
  have key : ∀ (l : List Ev) (s : St) (x : Entry), s.entries[t]? = some x → x.fut = .cancelled →
      ∃ d, (run s l).entries[t]? = some d ∧ d.fut = .cancelled ∧ d.idx = x.idx := by
    intro l
    induction l with
    | nil => intro s x hx hf; exact ⟨x, hx, hf, rfl⟩
    | cons ev l ih =>
      intro s x hx hf
      obtain ⟨y, hy, hyf, hyi⟩ := Locks.stays s t x hx hf ev
      obtain ⟨d, hd, hdf, hdi⟩ := ih (step s ev) y hy hyf
      exact ⟨d, hd, hdf, hdi.trans hyi⟩
  obtain ⟨d, hd, hdf, hdi⟩ := key es' _ e h hc
  rw [← hrun] at hd
  refine ⟨d, hd, hdi, (by rw [hdf]; intro b hb; cases hb), ?_⟩
  intro hw
  rw [hrun (es ++ es')]
  generalize run (init n) (es ++ es') = s at hd
  have hstep : run s [.resume t] = release d.idx (setEntry s t { d with task := .inside }) := by
    simp only [run, List.foldl_cons, List.foldl_nil, step, resume, hd, hw, if_true, hdf]
  rw [hstep, ← hdi]
  refine ⟨⟨{ d with task := .inside }, ?_, rfl⟩, ?_⟩
  · dsimp only [release, setEntry]; rw [get_set hd, if_pos rfl]
  · dsimp only [release, setEntry]
    intro hl
    by_cases hlt : d.idx < s.locks.length
    · simp [List.getElem?_set, hlt] at hl
    · have := (List.getElem?_eq_some_iff.1 hl).1
      simp at this
      exact hlt this

/-- The case of the timer: the thread gets the lock after all, and the result does not reach the task. -/
example : ((run (init 16) [.enter 0 3, .begin 0, .timer 0]).entries[0]?).map (·.fut) = some .cancelled ∧
    ((run (init 16) ([.enter 0 3, .begin 0, .timer 0] ++ [.take 0, .deliver 0])).entries[0]?).map (·.fut) = some .cancelled := by
  decide

/-- A thread whose future timed out may still get the lock; then it stays held although nobody is inside or waiting. -/
theorem C38_refuted_orphan :
    let s := run (init 16) [.enter 0 3, .begin 0, .take 0, .deliver 0, .resume 0, .enter 1 3, .begin 1, .timer 1, .resume 1, .leave 1,
      .leave 0, .take 1]
    s.entries.map (·.task) = [.left, .left] ∧ s.locks[3]? = some true := by decide

/-- **C38 (an acquire that gives up).** In every schedule: a task whose thread gives up waiting for the lock goes into the body all the same as soon
as the loop has run it, and leaves the lock free, whoever was inside. -/
theorem C38_gave_up (n : Nat) (es : List Ev) (t : Nat) (e : Entry) (h : (run (init n) es).entries[t]? = some e) (hw : e.task = .waiting)
    (ht : e.thread = .trying) (hf : e.fut = .pending) :
    (∃ x, (run (init n) (es ++ [.giveUp t, .deliver t, .resume t])).entries[t]? = some x ∧ x.task = .inside) ∧
    (run (init n) (es ++ [.giveUp t, .deliver t, .resume t])).locks[e.idx]? ≠ some true := by
  have hrun : run (init n) (es ++ [.giveUp t, .deliver t, .resume t]) = resume t (deliver t (giveUp t (run (init n) es))) := by simp [run, step]
  rw [hrun]
  generalize run (init n) es = s at h
  have self : ∀ (s : St) (e x : Entry), s.entries[t]? = some e → (setEntry s t x).entries[t]? = some x := by
    intro s e x h; dsimp only [setEntry]; rw [get_set h, if_pos rfl]
  have e1 : giveUp t s = setEntry s t { e with thread := .ended, fut := .sent false } := by
    unfold giveUp; rw [h]; dsimp only; rw [if_pos ht, hf]; rfl
  have g1 := self s e { e with thread := .ended, fut := .sent false } h
  rw [← e1] at g1
  have e2 : deliver t (giveUp t s) = setEntry (giveUp t s) t { e with thread := .ended, fut := .result false } := by
    unfold deliver; rw [g1]
  have g2 := self _ _ { e with thread := .ended, fut := .result false } g1
  rw [← e2] at g2
  have e3 : resume t (deliver t (giveUp t s)) = release e.idx (setEntry (deliver t (giveUp t s)) t { e with thread := .ended, fut := .result false, task := .inside }) := by
    conv => lhs; unfold resume
    rw [g2]; dsimp only; rw [if_pos hw]
  rw [e3]
  refine ⟨⟨_, self _ _ _ g2, rfl⟩, ?_⟩
  dsimp only [release]
  intro hl
  have hlt := (List.getElem?_eq_some_iff.1 hl).1
  rw [List.length_set] at hlt
  rw [List.getElem?_set_self hlt] at hl
  cases hl

/-- The second worker gives up while the first is inside. -/
example : ((run (init 16) [.enter 0 3, .begin 0, .take 0, .deliver 0, .resume 0, .enter 1 3, .begin 1, .giveUp 1, .deliver 1, .resume 1]).entries.map (·.task),
    (run (init 16) [.enter 0 3, .begin 0, .take 0, .deliver 0, .resume 0, .enter 1 3, .begin 1, .giveUp 1, .deliver 1, .resume 1]).locks[3]?) =
    ([.inside, .inside], some false) := by decide
example := C38_gave_up 16 [.enter 0 3, .begin 0, .take 0, .deliver 0, .resume 0, .enter 1 3, .begin 1] 1 _ rfl rfl rfl rfl

theorem Locks.stays_dropped (s : St) (t : Nat) (e : Entry) (h : s.entries[t]? = some e) (hc : e.thread = .dropped) (ev : Ev) :
    ∃ d, (step s ev).entries[t]? = some d ∧ d.thread = .dropped := by
  have other : ∀ (u : Nat) (x y : Entry) (l : List Bool), s.entries[u]? = some x → (u = t → y.thread = .dropped) →
      ∃ d, ({ (setEntry s u y) with locks := l } : St).entries[t]? = some d ∧ d.thread = .dropped := by
    intro u x y l hx hy
    by_cases hu : u = t
    · subst hu
      exact ⟨y, by dsimp only [setEntry]; rw [get_set h, if_pos rfl], hy rfl⟩
    · exact ⟨e, by dsimp only [setEntry]; rw [get_set hx, if_neg (Ne.symm hu), h], hc⟩
  have same : ∃ d, s.entries[t]? = some d ∧ d.thread = .dropped := ⟨e, h, hc⟩
  have kept : ∀ {x : Entry}, s.entries[t]? = some x → x.thread = .dropped := by intro x hx; rw [h] at hx; cases hx; exact hc
  cases ev with
  | enter w n =>
    refine ⟨e, ?_, hc⟩
    dsimp only [step, enter]
    have := (List.getElem?_eq_some_iff.1 h).1
    rw [List.getElem?_append_left this, h]
  | begin u =>
    dsimp only [step, begin]
    cases hx : s.entries[u]? with
    | none => exact same
    | some x =>
      dsimp only
      split
      · next hq => exact other u x _ s.locks hx (by rintro rfl; have := kept hx; rw [hq.1] at this; cases this)
      · exact same
  | take u =>
    dsimp only [step, take]
    cases hx : s.entries[u]? with
    | none => exact same
    | some x =>
      dsimp only
      split
      · next hq => exact other u x _ _ hx (by rintro rfl; have := kept hx; rw [hq.1] at this; cases this)
      · exact same
  | giveUp u =>
    dsimp only [step, giveUp]
    cases hx : s.entries[u]? with
    | none => exact same
    | some x =>
      dsimp only
      split
      · next hq => exact other u x _ s.locks hx (by rintro rfl; have := kept hx; rw [hq] at this; cases this)
      · exact same
  | deliver u =>
    dsimp only [step, deliver]
    cases hx : s.entries[u]? with
    | none => exact same
    | some x =>
      dsimp only
      cases hf : x.fut with
      | sent b => exact other u x _ s.locks hx (by rintro rfl; have := kept hx; exact this)
      | _ => exact same
  | timer u =>
    dsimp only [step, timer]
    cases hx : s.entries[u]? with
    | none => exact same
    | some x =>
      dsimp only
      cases hf : x.fut with
      | sent b => exact other u x _ s.locks hx (by rintro rfl; have := kept hx; exact this)
      | pending => exact other u x _ s.locks hx (by rintro rfl; dsimp only; rw [kept hx]; rfl)
      | _ => exact same
  | cancel u =>
    dsimp only [step, cancel]
    cases hx : s.entries[u]? with
    | none => exact same
    | some x =>
      dsimp only
      split
      · exact other u x _ s.locks hx (by rintro rfl; dsimp only; rw [kept hx]; rfl)
      · exact same
  | resume u =>
    dsimp only [step, resume]
    cases hx : s.entries[u]? with
    | none => exact same
    | some x =>
      dsimp only
      split
      · cases hf : x.fut with
        | result b =>
          cases b
          · exact other u x _ _ hx (by rintro rfl; have := kept hx; exact this)
          · exact other u x _ s.locks hx (by rintro rfl; have := kept hx; exact this)
        | cancelled => exact other u x _ _ hx (by rintro rfl; have := kept hx; exact this)
        | _ => exact same
      · exact same
  | leave u =>
    dsimp only [step, leave]
    cases hx : s.entries[u]? with
    | none => exact same
    | some x =>
      dsimp only
      split
      · exact other u x _ _ hx (by rintro rfl; have := kept hx; exact this)
      · exact same

/-- **C38 (an acquire that has not begun).** In every schedule: when a task is cut off, by its timer or by a cancellation, while its thread has not
begun to wait for the lock, the thread never does: whatever happens later, it takes no lock. -/
theorem C38_unstarted (n : Nat) (es es' : List Ev) (t : Nat) (e : Entry) (ev : Ev) (h : (run (init n) es).entries[t]? = some e) (hw : e.task = .waiting)
    (ht : e.thread = .queued) (hf : e.fut = .pending) (hev : ev = .timer t ∨ ev = .cancel t) :
    run (init n) (es ++ [ev] ++ es' ++ [.begin t]) = run (init n) (es ++ [ev] ++ es') ∧
    run (init n) (es ++ [ev] ++ es' ++ [.take t]) = run (init n) (es ++ [ev] ++ es') := by
  have hrun : ∀ s a b, run s (a ++ b) = run (run s a) b := by intro s a b; simp [run]
  have h0 : (run (init n) (es ++ [ev])).entries[t]? = some { e with fut := .cancelled, thread := .dropped } := by
    rw [hrun]
    generalize run (init n) es = s at h
    have : run s [ev] = setEntry s t { e with fut := .cancelled, thread := .dropped } := by
      rcases hev with rfl | rfl
      · simp only [run, List.foldl_cons, List.foldl_nil, step, timer, h, hf, ht, if_true]
      · simp only [run, List.foldl_cons, List.foldl_nil, step, cancel, h, hw, ht, if_true]
    rw [this]
    dsimp only [setEntry]; rw [get_set h, if_pos rfl]
  have key : ∀ (l : List Ev) (s : St) (x : Entry), s.entries[t]? = some x → x.thread = .dropped → ∃ d, (run s l).entries[t]? = some d ∧ d.thread = .dropped := by
    intro l
    induction l with
    | nil => intro s x hx hf; exact ⟨x, hx, hf⟩
    | cons ev l ih =>
      intro s x hx hf
      obtain ⟨y, hy, hyf⟩ := Locks.stays_dropped s t x hx hf ev
      exact ih (step s ev) y hy hyf
  obtain ⟨d, hd, hdt⟩ := key es' _ _ h0 rfl
  rw [hrun (init n) (es ++ [ev] ++ es') [.begin t], hrun (init n) (es ++ [ev] ++ es') [.take t]]
  rw [← hrun] at hd
  generalize run (init n) (es ++ [ev] ++ es') = s at hd
  constructor
  · simp only [run, List.foldl_cons, List.foldl_nil, step, begin, hd, hdt, reduceCtorEq, false_and, if_false]
  · simp only [run, List.foldl_cons, List.foldl_nil, step, take, hd, hdt, reduceCtorEq, false_and, if_false]

/-- The second task of a worker is cancelled behind the first; when the lock is free, its thread does not take it. -/
example : (run (init 16) ([.enter 0 3, .begin 0, .take 0, .enter 0 3] ++ [.cancel 1] ++ [.deliver 0, .resume 0, .leave 0] ++ [.begin 1, .take 1])).locks[3]? = some false := by decide
example := C38_unstarted 16 [.enter 0 3, .begin 0, .take 0, .enter 0 3] [.deliver 0, .resume 0, .leave 0] 1 _ (.cancel 1) rfl rfl rfl rfl (.inr rfl)

end Verif
