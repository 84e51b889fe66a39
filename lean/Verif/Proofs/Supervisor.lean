import Verif.Model.Supervisor
/-! Invariants of the supervisor model. -/
namespace Verif.Proofs.Supervisor
open Verif.Model.Supervisor

theorem onSlot_slots (i : Nat) (f : Slot → Slot) (s : St) :
    (onSlot i f s).pc = s.pc ∧ (onSlot i f s).held = s.held ∧ (onSlot i f s).slots.length = s.slots.length := by
  unfold onSlot
  split <;> simp

theorem onSlot_get (i j : Nat) (f : Slot → Slot) (s : St) :
    (onSlot i f s).slots[j]? = if i = j then s.slots[j]?.map f else s.slots[j]? := by
  unfold onSlot
  cases h : s.slots[i]? with
  | none =>
    by_cases e : i = j
    · subst e; simp [h]
    · simp [e]
  | some x =>
    by_cases e : i = j
    · subst e
      have hl : i < s.slots.length := by
        rcases Nat.lt_or_ge i s.slots.length with c | c
        · exact c
        · rw [List.getElem?_eq_none c] at h; cases h
      rw [if_pos rfl, h]
      simp [List.getElem?_set_self hl]
    · simp [List.getElem?_set, e]

/-- What a property of one slot needs for all steps of the workers. -/
theorem onSlot_all {P : Slot → Prop} {i : Nat} {f : Slot → Slot} (hf : ∀ x, P x → P (f x)) {s : St}
    (h : ∀ (j : Nat) (x : Slot), s.slots[j]? = some x → P x) : ∀ (j : Nat) (x : Slot), (onSlot i f s).slots[j]? = some x → P x := by
  intro j x hx
  rw [onSlot_get] at hx
  split at hx
  · cases hj : s.slots[j]? with
    | none => rw [hj] at hx; cases hx
    | some y =>
      rw [hj] at hx
      cases hx
      exact hf y (h j y hj)
  · exact h j x hx

def serving : Child → Bool
  | .starting | .setup | .pinging | .polling _ | .receiving => true
  | _ => false

def Phase (x : Slot) : Prop :=
  match x.child with
  | .starting => x.pings = 0 ∧ x.replies = 0
  | .setup => x.pings = 0 ∧ x.replies = 0
  | .pinging => x.pings = x.replies
  | .polling k => x.pings = x.replies + 1 ∧ 1 ≤ k ∧ k ≤ 2 * x.num
  | .receiving => x.pings = x.replies + 1
  | .stopping _ => x.pings ≤ x.replies + 1
  | .exited _ => True

/-- Answers other than 0. -/
def answers (l : List Nat) : Nat := (l.filter (· != 0)).length

structure SlotOk (n : Nat) (x : Slot) : Prop where
  book : ended x.child = false → x.pings = x.replies + x.up.count .ping + answers x.down
  vals : ∀ m ∈ x.down, m = n ∨ (m = 0 ∧ x.closed = true)
  num : serving x.child = true → x.num = if x.replies = 0 then 1 else n
  phase : Phase x

theorem SlotOk.fresh (n k : Nat) (b : Bool) : SlotOk n { life := k, stale := b } :=
  ⟨fun _ => rfl, by simp, fun _ => rfl, ⟨rfl, rfl⟩⟩

theorem answers_nil : answers [] = 0 := rfl

theorem answers_cons (m : Nat) (d : List Nat) : answers (m :: d) = (if m = 0 then 0 else 1) + answers d := by
  unfold answers
  by_cases c : m = 0
  · simp [c]
  · simp [c]; omega

theorem answers_snoc (m : Nat) (d : List Nat) : answers (d ++ [m]) = answers d + (if m = 0 then 0 else 1) := by
  unfold answers
  by_cases c : m = 0 <;> simp [c]

theorem ok_pid {n : Nat} {x : Slot} (h : SlotOk n x) : SlotOk n (tellPid x) := by
  unfold tellPid
  split
  · next c =>
    have hp := h.phase
    rw [Phase, c] at hp
    refine ⟨fun _ => ?_, h.vals, fun _ => h.num (by rw [c]; rfl), hp⟩
    have := h.book (by rw [c]; rfl)
    simpa using this
  · exact h

theorem ok_up {n : Nat} {x : Slot} (h : SlotOk n x) : SlotOk n (comeUp x) := by
  unfold comeUp
  split
  · next c =>
    have hp := h.phase
    rw [Phase, c] at hp
    refine ⟨fun _ => h.book (by rw [c]; rfl), h.vals, fun _ => h.num (by rw [c]; rfl), ?_⟩
    show x.pings = x.replies
    rw [hp.1, hp.2]
  · exact h

theorem ok_ping {n : Nat} (hn : 1 ≤ n) {x : Slot} (h : SlotOk n x) : SlotOk n (sendPing x) := by
  unfold sendPing
  split
  · next c =>
    have hp := h.phase
    rw [Phase, c] at hp
    have hb := h.book (by rw [c]; rfl)
    have hm := h.num (by rw [c]; rfl)
    split
    · refine ⟨fun _ => hb, h.vals, fun g => (by cases g), ?_⟩
      show x.pings ≤ x.replies + 1
      have hp : x.pings = x.replies := hp
      omega
    · refine ⟨fun _ => ?_, h.vals, fun _ => hm, ?_⟩
      · simp
        omega
      · have : 1 ≤ x.num := by rw [hm]; split <;> omega
        have hp : x.pings = x.replies := hp
        exact ⟨by show x.pings + 1 = x.replies + 1; omega, by omega, Nat.le_refl _⟩
  · exact h

theorem ok_sec {n : Nat} {x : Slot} (h : SlotOk n x) : SlotOk n (second x) := by
  unfold second
  split
  · next k c =>
    have hp := h.phase
    rw [Phase, c] at hp
    obtain ⟨h1, h2, h3⟩ : x.pings = x.replies + 1 ∧ 1 ≤ k ∧ k ≤ 2 * x.num := hp
    have hb := h.book (by rw [c]; rfl)
    have hm := h.num (by rw [c]; rfl)
    by_cases d : x.down ≠ [] ∨ x.closed = true ∨ k ≤ 1
    · rw [if_pos d]
      exact ⟨fun _ => hb, h.vals, fun _ => hm, h1⟩
    · rw [if_neg d]
      refine ⟨fun _ => hb, h.vals, fun _ => hm, h1, ?_, ?_⟩
      · have : ¬ k ≤ 1 := fun g => d (.inr (.inr g))
        omega
      · show k - 1 ≤ 2 * x.num
        omega
  · exact h

theorem ok_recv {n : Nat} (hn : 1 ≤ n) {x : Slot} (h : SlotOk n x) : SlotOk n (receive x) := by
  unfold receive
  split
  · next c =>
    have hp := h.phase
    rw [Phase, c] at hp
    have hp : x.pings = x.replies + 1 := hp
    have hb := h.book (by rw [c]; rfl)
    have hm := h.num (by rw [c]; rfl)
    split
    · split
      · exact ⟨fun _ => hb, h.vals, fun g => (by cases g), by show x.pings ≤ x.replies + 1; omega⟩
      · exact h
    · next m d e =>
      rw [e, answers_cons] at hb
      have hv : m = n ∨ (m = 0 ∧ x.closed = true) := h.vals m (by rw [e]; exact List.mem_cons_self)
      have hv' : ∀ k ∈ d, k = n ∨ (k = 0 ∧ x.closed = true) := fun k hk => h.vals k (by rw [e]; exact List.mem_cons_of_mem _ hk)
      by_cases z : m = 0
      · simp only [z, if_pos]
        refine ⟨fun _ => ?_, hv', fun g => (by cases g), ?_⟩
        · simp only [z, if_pos] at hb
          show x.pings = x.replies + 0 + x.up.count .ping + answers d
          omega
        · show x.pings ≤ x.replies + 0 + 1
          omega
      · simp only [if_neg z]
        refine ⟨fun _ => ?_, hv', fun _ => ?_, ?_⟩
        · simp only [if_neg z] at hb
          show x.pings = x.replies + 1 + x.up.count .ping + answers d
          omega
        · show m = if x.replies + 1 = 0 then 1 else n
          rw [if_neg (by omega)]
          rcases hv with hv | hv
          · exact hv
          · exact absurd hv.1 z
        · show x.pings = x.replies + 1
          exact hp
  · exact h

theorem ok_leave {n : Nat} (code : Nat) {x : Slot} (h : SlotOk n x) : SlotOk n (leave code x) := by
  unfold leave
  split
  · next c =>
    cases hc : x.child with
    | polling k =>
      have hp := h.phase
      rw [Phase, hc] at hp
      have hp := hp.1
      exact ⟨fun _ => h.book (by rw [hc]; rfl), h.vals, fun g => (by cases g), by show x.pings ≤ x.replies + 1; omega⟩
    | _ => rw [hc] at c; cases c
  · exact h

theorem ok_stopped {n : Nat} {x : Slot} (h : SlotOk n x) :
    SlotOk n (finish x) := by
  unfold finish
  split
  · exact ⟨fun g => (by cases g), h.vals, fun g => (by cases g), trivial⟩
  · exact h

theorem ok_die {n : Nat} (code : Nat) {x : Slot} (h : SlotOk n x) :
    SlotOk n (kill code x) := by
  unfold kill
  split
  · exact h
  · exact ⟨fun g => (by cases g), h.vals, fun g => (by cases g), trivial⟩

/-- The parent is past starting the workers and has not been told to stop. -/
def looping : Pc → Bool
  | .await _ false | .visit _ | .answer _ => true
  | _ => false

/-- The parent has been told to stop, or an exception has ended it. -/
def closing : Pc → Bool
  | .stop _ | .join _ | .ended | .crashed => true
  | _ => false

/-- The pid is in the pipe, or still to come. -/
def silent (x : Slot) : Prop := x.child = .starting ∨ Up.pid ∈ x.up

def sized (n : Nat) (s : St) : Prop :=
  match s.pc with
  | .launch i => s.slots.length = i ∧ i ≤ n
  | .await i true => s.slots.length = i + 1 ∧ i < n
  | .await i false => s.slots.length = n ∧ i < n
  | .visit i => s.slots.length = n ∧ i < n
  | .answer i => s.slots.length = n ∧ i < n
  | .stop i => s.slots.length = n ∧ i ≤ n
  | .join i => s.slots.length = n ∧ i < n
  | .ended => s.slots.length = n
  | .crashed => s.slots.length ≤ n

structure Inv (n : Nat) (s : St) : Prop where
  size : sized n s
  ok : ∀ (i : Nat) (x : Slot), s.slots[i]? = some x → SlotOk n x
  mute : closing s.pc = false → ∀ (i : Nat) (x : Slot), s.slots[i]? = some x → silent x → ∃ b, s.pc = .await i b
  head : ∀ (i : Nat) (b : Bool) (x : Slot), s.pc = .await i b → s.slots[i]? = some x →
    (x.up = [] ∧ (x.child = .starting ∨ ended x.child = true)) ∨ ∃ r, x.up = .pid :: r ∧ Up.pid ∉ r ∧ x.child ≠ .starting
  opened : closing s.pc = false → ∀ (i : Nat) (x : Slot), s.slots[i]? = some x → x.closed = false
  stale : closing s.pc = false → ∀ (i : Nat) (x : Slot), s.slots[i]? = some x → x.stale = true → s.pc = .await i false

theorem Inv.init (n : Nat) : Inv n {} := by
  refine ⟨⟨rfl, Nat.zero_le _⟩, ?_, ?_, ?_, ?_, ?_⟩ <;> intros <;> simp_all

theorem silent_of {x y : Slot} (hc : y.child = .starting → x.child = .starting) (hu : y.up = x.up ∨ y.up = x.up ++ [.ping]) (h : silent y) : silent x := by
  rcases h with h | h
  · exact .inl (hc h)
  · rcases hu with e | e
    · exact .inr (e ▸ h)
    · rw [e] at h
      rcases List.mem_append.1 h with h | h
      · exact .inr h
      · simp at h

/-- A step of a worker that says nothing about its pid. -/
structure Local (n : Nat) (f : Slot → Slot) : Prop where
  ok : ∀ x, SlotOk n x → SlotOk n (f x)
  up : ∀ x, (f x).up = x.up ∨ ((f x).up = x.up ++ [.ping] ∧ x.child = .pinging)
  start : ∀ x, (f x).child = .starting → x.child = .starting
  still : ∀ x, x.child = .starting → (f x).child = .starting ∨ ended (f x).child = true
  dead : ∀ x, ended x.child = true → ended (f x).child = true
  closed : ∀ x, (f x).closed = x.closed
  stale : ∀ x, (f x).stale = x.stale

theorem sized_onSlot {n : Nat} {s : St} (i : Nat) (f : Slot → Slot) (h : sized n s) : sized n (onSlot i f s) := by
  obtain ⟨h1, _, h3⟩ := onSlot_slots i f s
  unfold sized at h ⊢
  rw [h1, h3]
  exact h

theorem inv_local {n : Nat} {s : St} {f : Slot → Slot} (hf : Local n f) (i : Nat) (h : Inv n s) : Inv n (onSlot i f s) := by
  obtain ⟨h1, h2, h3⟩ := onSlot_slots i f s
  refine ⟨sized_onSlot i f h.size, onSlot_all (fun x hx => hf.ok x hx) h.ok, ?_, ?_, ?_, ?_⟩
  · intro hc j x hx sx
    rw [h1] at hc ⊢
    rw [onSlot_get] at hx
    split at hx
    · cases hj : s.slots[j]? with
      | none => rw [hj] at hx; cases hx
      | some y =>
        rw [hj] at hx; cases hx
        refine h.mute hc j y hj (silent_of (hf.start y) ?_ sx)
        rcases hf.up y with e | e
        · exact .inl e
        · exact .inr e.1
    · exact h.mute hc j x hx sx
  · intro j b x hp hx
    rw [h1] at hp
    rw [onSlot_get] at hx
    split at hx
    · cases hj : s.slots[j]? with
      | none => rw [hj] at hx; cases hx
      | some y =>
        rw [hj] at hx; cases hx
        rcases h.head j b y hp hj with ⟨a1, a2⟩ | ⟨r, a1, a2, a3⟩
        · refine .inl ⟨?_, ?_⟩
          · rcases hf.up y with e | e
            · rw [e, a1]
            · rcases a2 with a2 | a2
              · rw [a2] at e; cases e.2
              · rw [e.2] at a2; cases a2
          · rcases a2 with a2 | a2
            · exact hf.still y a2
            · exact .inr (hf.dead y a2)
        · refine .inr ?_
          rcases hf.up y with e | e
          · exact ⟨r, by rw [e, a1], a2, fun g => a3 (hf.start y g)⟩
          · exact ⟨r ++ [.ping], by rw [e.1, a1]; rfl, by simp [a2], fun g => a3 (hf.start y g)⟩
    · exact h.head j b x hp hx
  · intro hc j x hx
    rw [h1] at hc
    rw [onSlot_get] at hx
    split at hx
    · cases hj : s.slots[j]? with
      | none => rw [hj] at hx; cases hx
      | some y =>
        rw [hj] at hx; cases hx
        rw [hf.closed]
        exact h.opened hc j y hj
    · exact h.opened hc j x hx
  · intro hc j x hx sx
    rw [h1] at hc ⊢
    rw [onSlot_get] at hx
    split at hx
    · cases hj : s.slots[j]? with
      | none => rw [hj] at hx; cases hx
      | some y =>
        rw [hj] at hx; cases hx
        rw [hf.stale] at sx
        exact h.stale hc j y hj sx
    · exact h.stale hc j x hx sx

theorem inv_pid {n : Nat} {s : St} (i : Nat) (h : Inv n s) : Inv n (step n s (.pid i)) := by
  show Inv n (onSlot i _ s)
  obtain ⟨h1, h2, h3⟩ := onSlot_slots i tellPid s
  refine ⟨sized_onSlot i _ h.size, onSlot_all (fun x hx => ok_pid hx) h.ok, ?_, ?_, ?_, ?_⟩
  · intro hc j x hx sx
    rw [h1] at hc ⊢
    rw [onSlot_get] at hx
    split at hx
    · cases hj : s.slots[j]? with
      | none => rw [hj] at hx; cases hx
      | some y =>
        rw [hj] at hx; cases hx
        refine h.mute hc j y hj ?_
        by_cases c : y.child = .starting
        · exact .inl c
        · rw [tellPid, if_neg c] at sx
          exact sx
    · exact h.mute hc j x hx sx
  · intro j b x hp hx
    rw [h1] at hp
    rw [onSlot_get] at hx
    split at hx
    · cases hj : s.slots[j]? with
      | none => rw [hj] at hx; cases hx
      | some y =>
        rw [hj] at hx; cases hx
        have := h.head j b y hp hj
        by_cases c : y.child = .starting
        · rw [tellPid, if_pos c]
          rcases this with ⟨a1, a2⟩ | ⟨r, a1, a2, a3⟩
          · exact .inr ⟨[], by simp [a1], by simp, by simp⟩
          · exact absurd c a3
        · rw [tellPid, if_neg c]
          exact this
    · exact h.head j b x hp hx
  · intro hc j x hx
    rw [h1] at hc
    rw [onSlot_get] at hx
    split at hx
    · cases hj : s.slots[j]? with
      | none => rw [hj] at hx; cases hx
      | some y =>
        rw [hj] at hx; cases hx
        have := h.opened hc j y hj
        unfold tellPid
        split <;> exact this
    · exact h.opened hc j x hx
  · intro hc j x hx sx
    rw [h1] at hc ⊢
    rw [onSlot_get] at hx
    split at hx
    · cases hj : s.slots[j]? with
      | none => rw [hj] at hx; cases hx
      | some y =>
        rw [hj] at hx; cases hx
        refine h.stale hc j y hj ?_
        revert sx
        unfold tellPid
        split <;> exact id
    · exact h.stale hc j x hx sx

theorem local_up (n : Nat) : Local n comeUp where
  ok _ h := ok_up h
  up x := by unfold comeUp; split <;> exact .inl rfl
  start x h := by
    unfold comeUp at h; split at h
    · cases h
    · exact h
  still x h := by unfold comeUp; rw [if_neg (by rw [h]; simp)]; exact .inl h
  dead x h := by
    unfold comeUp; rw [if_neg (by intro g; rw [g] at h; cases h)]; exact h
  closed x := by unfold comeUp; split <;> rfl
  stale x := by unfold comeUp; split <;> rfl

theorem local_ping {n : Nat} (hn : 1 ≤ n) : Local n sendPing where
  ok _ h := ok_ping hn h
  up x := by
    unfold sendPing; split
    · next c => split
                · exact .inl rfl
                · exact .inr ⟨rfl, c⟩
    · exact .inl rfl
  start x h := by
    unfold sendPing at h; split at h
    · split at h <;> cases h
    · exact h
  still x h := by unfold sendPing; rw [h]; exact .inl h
  dead x h := by
    unfold sendPing; split
    · next c => rw [c] at h; cases h
    · exact h
  closed x := by unfold sendPing; split <;> (try split) <;> rfl
  stale x := by unfold sendPing; split <;> (try split) <;> rfl

theorem local_sec (n : Nat) : Local n second where
  ok _ h := ok_sec h
  up x := by unfold second; split <;> exact .inl rfl
  start x h := by
    unfold second at h; split at h
    · dsimp only at h; split at h <;> cases h
    · exact h
  still x h := by unfold second; rw [h]; exact .inl h
  dead x h := by
    unfold second; split
    · next c => rw [c] at h; cases h
    · exact h
  closed x := by unfold second; split <;> rfl
  stale x := by unfold second; split <;> rfl

theorem local_recv {n : Nat} (hn : 1 ≤ n) : Local n receive where
  ok _ h := ok_recv hn h
  up x := by unfold receive; split <;> (try split) <;> (try split) <;> exact .inl rfl
  start x h := by
    unfold receive at h; split at h
    · next c =>
      split at h
      · split at h
        · cases h
        · exact h
      · dsimp only at h; split at h <;> cases h
    · exact h
  still x h := by unfold receive; rw [h]; exact .inl h
  dead x h := by
    unfold receive; split
    · next c => rw [c] at h; cases h
    · exact h
  closed x := by unfold receive; split <;> (try split) <;> (try split) <;> rfl
  stale x := by unfold receive; split <;> (try split) <;> (try split) <;> rfl

theorem local_leave (n code : Nat) : Local n (leave code) where
  ok _ h := ok_leave code h
  up x := by unfold leave; split <;> exact .inl rfl
  start x h := by
    unfold leave at h; split at h
    · cases h
    · exact h
  still x h := by unfold leave; rw [if_neg (by rw [h]; simp [waiting])]; exact .inl h
  dead x h := by
    unfold leave; split
    · next c => cases hx : x.child <;> rw [hx] at h c <;> simp [waiting, ended] at h c
    · exact h
  closed x := by unfold leave; split <;> rfl
  stale x := by unfold leave; split <;> rfl

theorem local_stopped (n : Nat) : Local n finish where
  ok _ h := ok_stopped h
  up x := by unfold finish; split <;> exact .inl rfl
  start x h := by
    unfold finish at h; split at h
    · cases h
    · exact h
  still x h := by unfold finish; rw [h]; exact .inl h
  dead x h := by
    unfold finish; split
    · rfl
    · exact h
  closed x := by unfold finish; split <;> rfl
  stale x := by unfold finish; split <;> rfl

theorem local_die (n code : Nat) : Local n (kill code) where
  ok _ h := ok_die code h
  up x := by unfold kill; split <;> exact .inl rfl
  start x h := by
    unfold kill at h; split at h
    · exact h
    · cases h
  still x h := by unfold kill; rw [if_neg (by rw [h]; simp [ended])]; exact .inr rfl
  dead x h := by unfold kill; rw [if_pos h]; exact h
  closed x := by unfold kill; split <;> rfl
  stale x := by unfold kill; split <;> rfl

theorem set_get {l : List Slot} {i j : Nat} {y x : Slot} (h : (l.set i y)[j]? = some x) : (i = j ∧ x = y) ∨ (i ≠ j ∧ l[j]? = some x) := by
  by_cases e : i = j
  · subst e
    have hl : i < l.length := by
      rcases Nat.lt_or_ge i (l.set i y).length with c | c
      · simpa using c
      · rw [List.getElem?_eq_none c] at h; cases h
    rw [List.getElem?_set_self hl] at h
    cases h
    exact .inl ⟨rfl, rfl⟩
  · rw [List.getElem?_set_ne e] at h
    exact .inr ⟨e, h⟩

theorem get_lt {l : List Slot} {i : Nat} {x : Slot} (h : l[i]? = some x) : i < l.length := by
  rcases Nat.lt_or_ge i l.length with c | c
  · exact c
  · rw [List.getElem?_eq_none c] at h; cases h

theorem next_visit (n i : Nat) : ∃ j, next n i = .visit j := by
  unfold next; split <;> exact ⟨_, rfl⟩

/-- A step that changes only where the parent is. -/
theorem Inv.goto {n : Nat} {s : St} (h : Inv n s) {pc : Pc} (hz : sized n { s with pc := pc }) (ha : ∀ i b, pc ≠ .await i b)
    (hs : closing pc = false → ∀ i b, s.pc ≠ .await i b) (hc : closing pc = false → closing s.pc = false) : Inv n { s with pc := pc } := by
  refine ⟨hz, h.ok, ?_, ?_, ?_, ?_⟩
  · intro g i x hx sx
    obtain ⟨b, hb⟩ := h.mute (hc g) i x hx sx
    exact absurd hb (hs g i b)
  · intro i b x g
    exact absurd g (ha i b)
  · intro g
    exact h.opened (hc g)
  · intro g i x hx sx
    exact absurd (h.stale (hc g) i x hx sx) (hs g i false)

/-- A step that changes one place and where the parent is; `await` only before. -/
theorem Inv.write {n : Nat} {s : St} (h : Inv n s) {pc : Pc} {i : Nat} {y : Slot} {hd : Option Nat}
    (hz : sized n { slots := s.slots.set i y, pc := pc, held := hd }) (ha : ∀ i b, pc ≠ .await i b)
    (hs : closing pc = false → ∀ j b, j ≠ i → s.pc ≠ .await j b) (hc : closing pc = false → closing s.pc = false)
    (hk : SlotOk n y) (hm : closing pc = false → ¬ silent y) (ho : closing pc = false → y.closed = false) (ht : closing pc = false → y.stale = false) :
    Inv n { slots := s.slots.set i y, pc := pc, held := hd } := by
  refine ⟨hz, ?_, ?_, ?_, ?_, ?_⟩
  · intro j x hx
    rcases set_get hx with ⟨_, e⟩ | ⟨_, e⟩
    · exact e ▸ hk
    · exact h.ok j x e
  · intro g j x hx sx
    rcases set_get hx with ⟨_, e⟩ | ⟨ne, e⟩
    · exact absurd (e ▸ sx) (hm g)
    · obtain ⟨b, hb⟩ := h.mute (hc g) j x e sx
      exact absurd hb (hs g j b (Ne.symm ne))
  · intro j b x g
    exact absurd g (ha j b)
  · intro g j x hx
    rcases set_get hx with ⟨_, e⟩ | ⟨_, e⟩
    · exact e ▸ ho g
    · exact h.opened (hc g) j x e
  · intro g j x hx sx
    rcases set_get hx with ⟨_, e⟩ | ⟨ne, e⟩
    · rw [e, ht g] at sx; cases sx
    · exact absurd (h.stale (hc g) j x e sx) (hs g j false (Ne.symm ne))

theorem sized_next {n : Nat} {l : List Slot} {hd : Option Nat} {i : Nat} (hn : 1 ≤ n) (hl : l.length = n) :
    sized n { slots := l, pc := next n i, held := hd } := by
  unfold next
  by_cases c : i + 1 < n
  · rw [if_pos c]; exact ⟨hl, c⟩
  · rw [if_neg c]; exact ⟨hl, hn⟩

theorem count_ping_pid (u : List Up) : (Up.pid :: u).count .ping = u.count .ping := by simp

theorem inv_parent {n : Nat} (hn : 1 ≤ n) {s : St} (fail : Bool) (h : Inv n s) : Inv n (parent n fail s) := by
  have hz := h.size
  unfold parent
  split
  · next i hp =>
    rw [sized, hp] at hz
    obtain ⟨h1, h2⟩ : s.slots.length = i ∧ i ≤ n := hz
    have hc0 : closing s.pc = false := by rw [hp]; rfl
    split
    · next c =>
      refine ⟨⟨by simp [h1], c⟩, ?_, ?_, ?_, ?_, ?_⟩
      · intro j x hx
        dsimp only at hx
        rw [List.getElem?_append] at hx
        split at hx
        · exact h.ok j x hx
        · rw [List.getElem?_singleton] at hx
          split at hx
          · cases hx; exact SlotOk.fresh n 0 false
          · cases hx
      · intro _ j x hx sx
        dsimp only at hx
        rw [List.getElem?_append] at hx
        split at hx
        · obtain ⟨b, hb⟩ := h.mute hc0 j x hx sx
          rw [hp] at hb; cases hb
        · next k =>
          rw [List.getElem?_singleton] at hx
          split at hx
          · next k2 => exact ⟨true, by have : j = i := by omega
                                       rw [this]⟩
          · cases hx
      · intro j b x g hx
        cases g
        dsimp only at hx
        rw [List.getElem?_append_right (by omega), h1, Nat.sub_self] at hx
        cases hx
        exact .inl ⟨rfl, .inl rfl⟩
      · intro _ j x hx
        dsimp only at hx
        rw [List.getElem?_append] at hx
        split at hx
        · exact h.opened hc0 j x hx
        · rw [List.getElem?_singleton] at hx
          split at hx
          · cases hx; rfl
          · cases hx
      · intro _ j x hx sx
        dsimp only at hx
        rw [List.getElem?_append] at hx
        split at hx
        · have := h.stale hc0 j x hx sx
          rw [hp] at this; cases this
        · rw [List.getElem?_singleton] at hx
          split at hx
          · cases hx; cases sx
          · cases hx
    · next c =>
      refine h.goto (pc := .visit 0) ⟨by show s.slots.length = n; omega, hn⟩ (by simp) ?_ (fun _ => hc0)
      intro _ i b; rw [hp]; simp
  · next i boot hp =>
    have hc0 : closing s.pc = false := by rw [hp]; rfl
    split
    · exact h
    · next x hx =>
      split
      · exact h
      · next a u hu =>
        have hh := h.head i boot x hp hx
        rw [hu] at hh
        obtain ⟨r, e1, e2, e3⟩ : ∃ r, a :: u = Up.pid :: r ∧ Up.pid ∉ r ∧ x.child ≠ .starting := by
          rcases hh with ⟨g, _⟩ | hh
          · cases g
          · exact hh
        cases e1
        have ok := h.ok i x hx
        refine h.write ?_ ?_ ?_ (fun _ => hc0) ?_ ?_ ?_ ?_
        · rw [sized, hp] at hz
          cases boot
          · obtain ⟨z1, z2⟩ : s.slots.length = n ∧ i < n := hz
            exact ⟨by simpa using z1, z2⟩
          · obtain ⟨z1, z2⟩ : s.slots.length = i + 1 ∧ i < n := hz
            exact ⟨by simpa using z1, z2⟩
        · intro j b; split <;> simp
        · intro _ j b ne e
          rw [hp] at e
          cases e
          exact ne rfl
        · refine ⟨fun g => ?_, ok.vals, ok.num, ok.phase⟩
          have := ok.book g
          rw [hu, count_ping_pid] at this
          exact this
        · rintro _ (g | g)
          · exact e3 g
          · exact e2 g
        · intro _; exact h.opened hc0 i x hx
        · intro _; rfl
  · next i hp =>
    have hc0 : closing s.pc = false := by rw [hp]; rfl
    rw [sized, hp] at hz
    obtain ⟨z1, z2⟩ : s.slots.length = n ∧ i < n := hz
    split
    · exact h
    · next x hx =>
      split
      · split
        · exact h.goto (pc := .crashed) (by show s.slots.length ≤ n; omega) (by simp) (by simp [closing]) (by simp [closing])
        · refine ⟨⟨by simpa using z1, z2⟩, ?_, ?_, ?_, ?_, ?_⟩
          · intro j y hy
            rcases set_get hy with ⟨_, e⟩ | ⟨_, e⟩
            · exact e ▸ SlotOk.fresh n _ _
            · exact h.ok j y e
          · intro _ j y hy sy
            rcases set_get hy with ⟨e, _⟩ | ⟨_, e⟩
            · exact ⟨false, by rw [e]⟩
            · obtain ⟨b, hb⟩ := h.mute hc0 j y e sy
              rw [hp] at hb; cases hb
          · intro j b y g hy
            cases g
            rcases set_get hy with ⟨_, e⟩ | ⟨ne, _⟩
            · rw [e]; exact .inl ⟨rfl, .inl rfl⟩
            · exact absurd rfl ne
          · intro _ j y hy
            rcases set_get hy with ⟨_, e⟩ | ⟨_, e⟩
            · rw [e]
            · exact h.opened hc0 j y e
          · intro _ j y hy sy
            rcases set_get hy with ⟨e, _⟩ | ⟨_, e⟩
            · rw [e]
            · have := h.stale hc0 j y e sy
              rw [hp] at this; cases this
      · exact h.goto (pc := .answer i) ⟨z1, z2⟩ (by simp) (by intro _ j b; rw [hp]; simp) (fun _ => hc0)
  · next i hp =>
    have hc0 : closing s.pc = false := by rw [hp]; rfl
    rw [sized, hp] at hz
    obtain ⟨z1, z2⟩ : s.slots.length = n ∧ i < n := hz
    have hnv : ∀ k b, next n i ≠ .await k b := by
      obtain ⟨j, hj⟩ := next_visit n i
      rw [hj]; simp
    split
    · exact h
    · next x hx =>
      have hns : ¬ silent x := by
        intro g
        obtain ⟨b, hb⟩ := h.mute hc0 i x hx g
        rw [hp] at hb; cases hb
      have ok := h.ok i x hx
      have hst : x.stale = false := by
        cases e : x.stale
        · rfl
        · have := h.stale hc0 i x hx e
          rw [hp] at this; cases this
      split
      · split
        · exact h.goto (pc := .crashed) (by show s.slots.length ≤ n; omega) (by simp) (by simp [closing]) (by simp [closing])
        · exact h.goto (sized_next hn z1) hnv (by intro _ j b; rw [hp]; simp) (fun _ => hc0)
      · next a u hu =>
        have ha : a = .ping := by
          cases a
          · exact absurd (.inr (by rw [hu]; exact List.mem_cons_self)) hns
          · rfl
        have hnu : ∀ y : Slot, y.child = x.child → y.up = u → ¬ silent y := by
          rintro y e1 e2 (g | g)
          · exact hns (.inl (e1 ▸ g))
          · exact hns (.inr (by rw [hu]; exact List.mem_cons_of_mem _ (e2 ▸ g)))
        split
        · next br =>
          have hend : ended x.child = true := by
            unfold broken at br
            revert br
            cases ended x.child <;> simp
          refine h.write (sized_next hn (by simpa using z1)) hnv (by intro _ j b _; rw [hp]; simp) (fun _ => hc0) ?_ (fun _ => hnu _ rfl rfl)
            (fun _ => h.opened hc0 i x hx) (fun _ => hst)
          exact ⟨fun g => (by rw [show ended x.child = false from g] at hend; cases hend), ok.vals, ok.num, ok.phase⟩
        · have := h.write (pc := .answer i) (i := i) (y := { x with up := u, down := x.down ++ [n] }) (hd := s.held) ⟨by simpa using z1, z2⟩ (by simp)
            (by intro _ j b _; rw [hp]; simp) (fun _ => hc0) ?_ (fun _ => hnu _ rfl rfl) (fun _ => h.opened hc0 i x hx) (fun _ => hst)
          · rw [← hp] at this; exact this
          · refine ⟨fun g => ?_, ?_, ok.num, ok.phase⟩
            · have := ok.book g
              rw [hu, ha] at this
              rw [List.count_cons_self] at this
              show x.pings = x.replies + u.count .ping + answers (x.down ++ [n])
              rw [answers_snoc, if_neg (by omega)]
              omega
            · intro m hm
              rcases List.mem_append.1 hm with hm | hm
              · exact ok.vals m hm
              · exact .inl (List.mem_singleton.1 hm)
  · next i hp =>
    rw [sized, hp] at hz
    obtain ⟨z1, z2⟩ : s.slots.length = n ∧ i ≤ n := hz
    split
    · exact h.goto (pc := .ended) z1 (by simp) (by simp [closing]) (by simp [closing])
    · next x hx =>
      have ok := h.ok i x hx
      split
      · exact h.goto (pc := .crashed) (by show s.slots.length ≤ n; omega) (by simp) (by simp [closing]) (by simp [closing])
      · refine h.write ⟨by simpa using z1, z1 ▸ get_lt hx⟩ (by simp) (by simp [closing]) (by simp [closing]) ?_ (by simp [closing]) (by simp [closing]) (by simp [closing])
        refine ⟨fun g => ?_, ?_, ok.num, ok.phase⟩
        · have := ok.book g
          show x.pings = x.replies + x.up.count .ping + answers (x.down ++ [0])
          rw [answers_snoc, if_pos rfl]
          omega
        · intro m hm
          rcases List.mem_append.1 hm with hm | hm
          · rcases ok.vals m hm with g | g
            · exact .inl g
            · exact .inr ⟨g.1, rfl⟩
          · exact .inr ⟨List.mem_singleton.1 hm, rfl⟩
  · next i hp =>
    rw [sized, hp] at hz
    obtain ⟨z1, z2⟩ : s.slots.length = n ∧ i < n := hz
    split
    · exact h
    · split
      · exact h.goto (pc := .stop (i + 1)) ⟨z1, z2⟩ (by simp) (by simp [closing]) (by simp [closing])
      · exact h
  · exact h
  · exact h

theorem inv_interrupt {n : Nat} {s : St} (h : Inv n s) : Inv n (step n s .interrupt) := by
  have hz := h.size
  have crash : s.slots.length ≤ n → Inv n { s with pc := .crashed } := fun g =>
    h.goto (pc := .crashed) g (by simp) (by simp [closing]) (by simp [closing])
  have stop : s.slots.length = n → Inv n { s with pc := .stop 0 } := fun g =>
    h.goto (pc := .stop 0) ⟨g, Nat.zero_le _⟩ (by simp) (by simp [closing]) (by simp [closing])
  unfold step
  dsimp only
  split <;> next hp => (rw [sized, hp] at hz; first | exact h | exact stop hz.1 | exact crash (by have := hz.1; have := hz.2; omega))

theorem inv_step {n : Nat} (hn : 1 ≤ n) {s : St} (h : Inv n s) (e : Ev) : Inv n (step n s e) := by
  cases e with
  | parent fail => exact inv_parent hn fail h
  | interrupt => exact inv_interrupt h
  | pid i => exact inv_pid i h
  | up i => exact inv_local (local_up n) i h
  | ping i => exact inv_local (local_ping hn) i h
  | sec i => exact inv_local (local_sec n) i h
  | recv i => exact inv_local (local_recv hn) i h
  | reload i => exact inv_local (local_leave n 0) i h
  | memory i => exact inv_local (local_leave n 1) i h
  | stopped i => exact inv_local (local_stopped n) i h
  | die i code => exact inv_local (local_die n code) i h

theorem inv_run {n : Nat} (hn : 1 ≤ n) {s : St} (h : Inv n s) (es : List Ev) : Inv n (run n s es) := by
  induction es generalizing s with
  | nil => exact h
  | cons e es ih => exact ih (inv_step hn h e)

/-! ## Without an interrupt -/

structure Calm (s : St) : Prop where
  pc : ∀ i, s.pc ≠ .stop i ∧ s.pc ≠ .join i
  opened : ∀ (i : Nat) (x : Slot), s.slots[i]? = some x → x.closed = false

theorem Calm.local {n : Nat} {s : St} {f : Slot → Slot} (hf : Local n f) (i : Nat) (h : Calm s) : Calm (onSlot i f s) := by
  refine ⟨by rw [(onSlot_slots i f s).1]; exact h.pc, onSlot_all (P := fun x => x.closed = false) (fun x hx => ?_) h.opened⟩
  rw [hf.closed]; exact hx

theorem calm_set {s : St} {i : Nat} {y : Slot} {pc : Pc} {hd : Option Nat} (h : Calm s) (hy : y.closed = false) (hp : ∀ i, pc ≠ .stop i ∧ pc ≠ .join i) :
    Calm { slots := s.slots.set i y, pc := pc, held := hd } := by
  refine ⟨hp, fun j x hx => ?_⟩
  rcases set_get hx with ⟨_, e⟩ | ⟨_, e⟩
  · exact e ▸ hy
  · exact h.opened j x e

theorem calm_parent {n : Nat} {s : St} (fail : Bool) (h : Calm s) : Calm (parent n fail s) := by
  have hnv : ∀ i k, next n i ≠ .stop k ∧ next n i ≠ .join k := by
    intro i k
    obtain ⟨j, hj⟩ := next_visit n i
    rw [hj]; simp
  unfold parent
  split
  · split
    · refine ⟨by simp, fun j x hx => ?_⟩
      dsimp only at hx
      rw [List.getElem?_append] at hx
      split at hx
      · exact h.opened j x hx
      · rw [List.getElem?_singleton] at hx
        split at hx
        · cases hx; rfl
        · cases hx
    · exact ⟨by simp, h.opened⟩
  · split
    · exact h
    · next x hx =>
      split
      · exact h
      · exact calm_set h (h.opened _ x hx) (by intro i; split <;> simp)
  · split
    · exact h
    · next x hx =>
      split
      · split
        · exact ⟨by simp, h.opened⟩
        · exact calm_set h rfl (by simp)
      · exact ⟨by simp, h.opened⟩
  · next i hp =>
    split
    · exact h
    · next x hx =>
      split
      · split
        · exact ⟨by simp, h.opened⟩
        · exact ⟨hnv _, h.opened⟩
      · split
        · exact calm_set h (h.opened _ x hx) (hnv _)
        · exact calm_set h (h.opened _ x hx) h.pc
  · next i hp => exact absurd hp (h.pc i).1
  · next i hp => exact absurd hp (h.pc i).2
  · exact h
  · exact h

theorem calm_pid {s : St} (i : Nat) (h : Calm s) : Calm (onSlot i tellPid s) := by
  refine ⟨by rw [(onSlot_slots i _ s).1]; exact h.pc, onSlot_all (P := fun x => x.closed = false) (fun x hx => ?_) h.opened⟩
  unfold tellPid; split <;> exact hx

theorem calm_step {n : Nat} (hn : 1 ≤ n) {s : St} (h : Calm s) {e : Ev} (he : e ≠ .interrupt) : Calm (step n s e) := by
  cases e with
  | parent fail => exact calm_parent fail h
  | interrupt => exact absurd rfl he
  | pid i => exact calm_pid i h
  | up i => exact h.local (local_up n) i
  | ping i => exact h.local (local_ping hn) i
  | sec i => exact h.local (local_sec n) i
  | recv i => exact h.local (local_recv hn) i
  | reload i => exact h.local (local_leave n 0) i
  | memory i => exact h.local (local_leave n 1) i
  | stopped i => exact h.local (local_stopped n) i
  | die i code => exact h.local (local_die n code) i

/-! ## How the parent changes one place -/

/-- A step of the parent leaves a place as it was, or reads from its pipe and may answer, or sends 0, or puts a new worker there. -/
inductive Change (n : Nat) (s : St) (i : Nat) (x : Slot) : Slot → Prop
  | same : Change n s i x x
  | pid (u : List Up) (a : Up) (b : Bool) : s.pc = .await i b → x.up = a :: u → Change n s i x { x with up := u, stale := false }
  | lost (u : List Up) (a : Up) : s.pc = .answer i → x.up = a :: u → broken s i x = true → Change n s i x { x with up := u }
  | answered (u : List Up) (a : Up) : s.pc = .answer i → x.up = a :: u → broken s i x = false → Change n s i x { x with up := u, down := x.down ++ [n] }
  | fresh : s.pc = .visit i → ended x.child = true → Change n s i x { life := x.life + 1, stale := true }
  | told : s.pc = .stop i → x.stale = false → broken s i x = false → Change n s i x { x with down := x.down ++ [0], closed := true }

theorem get_set {l : List Slot} {i j : Nat} {x y z : Slot} (hi : l[i]? = some x) (hj : l[j]? = some z) :
    (l.set i y)[j]? = some (if i = j then y else z) := by
  by_cases e : i = j
  · subst e
    rw [List.getElem?_set_self (get_lt hi), if_pos rfl]
  · rw [List.getElem?_set_ne e, if_neg e, hj]

theorem parent_change {n : Nat} {s : St} {fail : Bool} {j : Nat} {z : Slot} (hz : s.slots[j]? = some z) :
    ∃ z', (parent n fail s).slots[j]? = some z' ∧ Change n s j z z' := by
  have pick : ∀ {i : Nat} {x y : Slot}, s.slots[i]? = some x → (i = j → Change n s i x y) →
      ∃ z', (s.slots.set i y)[j]? = some z' ∧ Change n s j z z' := by
    intro i x y hx hc
    refine ⟨_, get_set hx hz, ?_⟩
    split
    · next e =>
      subst e
      rw [hx] at hz
      cases hz
      exact hc rfl
    · exact .same
  unfold parent
  split
  · split
    · exact ⟨z, by dsimp only; rw [List.getElem?_append_left (get_lt hz)]; exact hz, .same⟩
    · exact ⟨z, hz, .same⟩
  · next i boot hp =>
    split
    · exact ⟨z, hz, .same⟩
    · next x hx =>
      split
      · exact ⟨z, hz, .same⟩
      · next a u hu => exact pick hx (fun _ => .pid u a boot hp hu)
  · next i hp =>
    split
    · exact ⟨z, hz, .same⟩
    · next x hx =>
      split
      · next c =>
        split
        · exact ⟨z, hz, .same⟩
        · exact pick hx (fun _ => .fresh hp c)
      · exact ⟨z, hz, .same⟩
  · next i hp =>
    split
    · exact ⟨z, hz, .same⟩
    · next x hx =>
      split
      · split <;> exact ⟨z, hz, .same⟩
      · next a u hu =>
        split
        · next c => exact pick hx (fun _ => .lost u a hp hu c)
        · next c => exact pick hx (fun _ => .answered u a hp hu (by simpa using c))
  · next i hp =>
    split
    · exact ⟨z, hz, .same⟩
    · next x hx =>
      split
      · exact ⟨z, hz, .same⟩
      · next c =>
        have c : x.stale = false ∧ broken s i x = false := by simpa using c
        exact pick hx (fun _ => .told hp c.1 c.2)
  · split
    · exact ⟨z, hz, .same⟩
    · split <;> exact ⟨z, hz, .same⟩
  · exact ⟨z, hz, .same⟩
  · exact ⟨z, hz, .same⟩

/-- What a step of a worker does. -/
def act : Ev → Option (Nat × (Slot → Slot))
  | .pid i => some (i, tellPid)
  | .up i => some (i, comeUp)
  | .ping i => some (i, sendPing)
  | .sec i => some (i, second)
  | .recv i => some (i, receive)
  | .reload i => some (i, leave 0)
  | .memory i => some (i, leave 1)
  | .stopped i => some (i, finish)
  | .die i code => some (i, kill code)
  | _ => none

theorem step_act {n : Nat} {s : St} {e : Ev} {i : Nat} {f : Slot → Slot} (h : act e = some (i, f)) : step n s e = onSlot i f s := by
  cases e <;> simp only [act, Option.some.injEq, Prod.mk.injEq, reduceCtorEq] at h <;> obtain ⟨rfl, rfl⟩ := h <;> rfl

theorem act_local {n : Nat} (hn : 1 ≤ n) {e : Ev} {i : Nat} {f : Slot → Slot} (h : act e = some (i, f)) : (e = .pid i ∧ f = tellPid) ∨ Local n f := by
  cases e <;> simp only [act, Option.some.injEq, Prod.mk.injEq, reduceCtorEq] at h <;> obtain ⟨rfl, rfl⟩ := h
  · exact .inl ⟨rfl, rfl⟩
  · exact .inr (local_up n)
  · exact .inr (local_ping hn)
  · exact .inr (local_sec n)
  · exact .inr (local_recv hn)
  · exact .inr (local_leave n 0)
  · exact .inr (local_leave n 1)
  · exact .inr (local_stopped n)
  · exact .inr (local_die n _)

theorem act_none {e : Ev} (h : act e = none) : (∃ f, e = .parent f) ∨ e = .interrupt := by
  cases e <;> simp [act] at h ⊢

theorem interrupt_slots (n : Nat) (s : St) : (step n s .interrupt).slots = s.slots := by
  unfold step; dsimp only; split <;> rfl

end Verif.Proofs.Supervisor
