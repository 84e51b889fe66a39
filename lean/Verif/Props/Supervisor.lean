import Verif.Proofs.Supervisor
/-!
# C84, C85: the parent process and its workers
-/
namespace Verif
open Verif.Model.Supervisor Verif.Proofs.Supervisor

namespace Supervisor

/-- The worker in place `i`. -/
def worker (s : St) (i : Nat) : Option Child := s.slots[i]?.map (·.child)

/-- How many workers have been replaced in place `i`. -/
def replaced (s : St) (i : Nat) : Option Nat := s.slots[i]?.map (·.life)

/-- The worker has neither ended nor begun to end. -/
def atWork : Child → Bool
  | .stopping _ => false
  | .exited _ => false
  | _ => true

/-- The worker waits in `recv()`, with its event loop, and there is nothing to receive. -/
def blocked (s : St) (i : Nat) : Prop := ∃ x, s.slots[i]? = some x ∧ x.child = .receiving ∧ x.down = [] ∧ x.closed = false

/-- The worker in place `i` is ended from outside, by itself for changed code, or for its memory. -/
def ends (i : Nat) : Ev → Bool
  | .die j _ => i == j
  | .reload j => i == j
  | .memory j => i == j
  | _ => false

theorem atWork_serving (c : Child) : atWork c = serving c := by cases c <;> rfl

/-! ### Workers go on -/

structure Fine (s : St) (i : Nat) : Prop where
  calm : Calm s
  fine : ∀ x, s.slots[i]? = some x → atWork x.child = true ∧ x.life = 0

theorem onSlot_eq {i : Nat} {f : Slot → Slot} {s : St} {x : Slot} (h : (onSlot i f s).slots[i]? = some x) : ∃ y, s.slots[i]? = some y ∧ x = f y := by
  rw [onSlot_get, if_pos rfl] at h
  cases hy : s.slots[i]? with
  | none => rw [hy] at h; cases h
  | some y => rw [hy] at h; cases h; exact ⟨y, rfl, rfl⟩

theorem onSlot_ne {i j : Nat} {f : Slot → Slot} {s : St} (h : j ≠ i) : (onSlot j f s).slots[i]? = s.slots[i]? := by
  rw [onSlot_get, if_neg h]

theorem change_work {n : Nat} {s : St} {i : Nat} {x y : Slot} (h : Change n s i x y) (w : atWork x.child = true) : y.child = x.child ∧ y.life = x.life := by
  cases h with
  | fresh _ e =>
    cases hc : x.child <;> rw [hc] at e w <;> simp [ended, atWork] at e w
  | _ => exact ⟨rfl, rfl⟩

theorem parent_new {n : Nat} {s : St} {fail : Bool} {i : Nat} {x : Slot} (h0 : s.slots[i]? = none) (h : (parent n fail s).slots[i]? = some x) : x = {} := by
  have hl : s.slots.length ≤ i := by
    rcases Nat.lt_or_ge i s.slots.length with c | c
    · rw [List.getElem?_eq_getElem c] at h0; cases h0
    · exact c
  have no : ∀ (l : List Slot), l.length = s.slots.length → l[i]? = some x → False := by
    intro l e g
    have := get_lt g
    omega
  unfold parent at h
  split at h
  · split at h
    · dsimp only at h
      rw [List.getElem?_append_right hl, List.getElem?_singleton] at h
      split at h
      · cases h; rfl
      · cases h
    · exact (no _ rfl h).elim
  · split at h
    · exact (no _ rfl h).elim
    · split at h
      · exact (no _ rfl h).elim
      · exact (no _ (by simp) h).elim
  · split at h
    · exact (no _ rfl h).elim
    · split at h
      · split at h
        · exact (no _ rfl h).elim
        · exact (no _ (by simp) h).elim
      · exact (no _ rfl h).elim
  · split at h
    · exact (no _ rfl h).elim
    · split at h
      · split at h <;> exact (no _ rfl h).elim
      · split at h <;> exact (no _ (by simp) h).elim
  · split at h
    · exact (no _ rfl h).elim
    · split at h
      · exact (no _ rfl h).elim
      · exact (no _ (by simp) h).elim
  · split at h
    · exact (no _ rfl h).elim
    · split at h <;> exact (no _ rfl h).elim
  · exact (no _ rfl h).elim
  · exact (no _ rfl h).elim

theorem act_life {e : Ev} {i : Nat} {f : Slot → Slot} (h : act e = some (i, f)) (x : Slot) : (f x).life = x.life := by
  cases e <;> simp only [act, Option.some.injEq, Prod.mk.injEq, reduceCtorEq] at h <;> obtain ⟨rfl, rfl⟩ := h
  · unfold tellPid; split <;> rfl
  · unfold comeUp; split <;> rfl
  · unfold sendPing; split <;> (try split) <;> rfl
  · unfold second; split <;> rfl
  · unfold receive; split <;> (try split) <;> (try split) <;> rfl
  · unfold leave; split <;> rfl
  · unfold leave; split <;> rfl
  · unfold finish; split <;> rfl
  · unfold kill; split <;> rfl

theorem act_work {n : Nat} (hn : 1 ≤ n) {e : Ev} {i : Nat} {f : Slot → Slot} (h : act e = some (i, f)) (he : ends i e = false) {x : Slot} (ok : SlotOk n x)
    (hc : x.closed = false) (w : atWork x.child = true) : atWork (f x).child = true := by
  cases e <;> simp only [act, Option.some.injEq, Prod.mk.injEq, reduceCtorEq] at h <;> obtain ⟨rfl, rfl⟩ := h
  · unfold tellPid; split
    · rfl
    · exact w
  · unfold comeUp; split
    · rfl
    · exact w
  · unfold sendPing; split
    · rw [if_neg (by simp [hc])]; rfl
    · exact w
  · unfold second; split
    · dsimp only; split <;> rfl
    · exact w
  · unfold receive; split
    · split
      · rw [if_neg (by simp [hc])]; exact w
      · next m d e =>
        have : m ≠ 0 := by
          rcases ok.vals m (by rw [e]; exact List.mem_cons_self) with g | g
          · omega
          · rw [hc] at g; cases g.2
        dsimp only
        rw [if_neg this]; rfl
    · exact w
  · simp [ends] at he
  · simp [ends] at he
  · unfold finish; split
    · next c => rw [c] at w; cases w
    · exact w
  · simp [ends] at he

theorem fine_step {n : Nat} (hn : 1 ≤ n) {s : St} {i : Nat} (h : Fine s i) (iv : Inv n s) {e : Ev} (he : e ≠ .interrupt) (hi : ends i e = false) : Fine (step n s e) i := by
  refine ⟨calm_step hn h.calm he, fun x hx => ?_⟩
  cases ha : act e with
  | none =>
    rcases act_none ha with ⟨f, rfl⟩ | g
    · cases hs : s.slots[i]? with
      | none =>
        rw [parent_new hs hx]
        exact ⟨rfl, rfl⟩
      | some y =>
        obtain ⟨z, h1, h2⟩ := parent_change (n := n) (fail := f) hs
        rw [show step n s (.parent f) = parent n f s from rfl, h1] at hx
        cases hx
        obtain ⟨w, l⟩ := h.fine y hs
        obtain ⟨e1, e2⟩ := change_work h2 w
        rw [e1, e2]
        exact ⟨w, l⟩
    · exact absurd g he
  | some p =>
    obtain ⟨j, f⟩ := p
    rw [step_act ha] at hx
    by_cases e1 : j = i
    · subst e1
      obtain ⟨y, hy, rfl⟩ := onSlot_eq hx
      obtain ⟨w, l⟩ := h.fine y hy
      exact ⟨act_work hn ha hi (iv.ok j y hy) (h.calm.opened j y hy) w, by rw [act_life ha]; exact l⟩
    · rw [onSlot_ne e1] at hx
      exact h.fine x hx

theorem fine_run {n : Nat} (hn : 1 ≤ n) {s : St} {i : Nat} (h : Fine s i) (iv : Inv n s) {es : List Ev} (he : .interrupt ∉ es) (hi : ∀ e ∈ es, ends i e = false) : Fine (run n s es) i := by
  induction es generalizing s with
  | nil => exact h
  | cons e es ih =>
    refine ih (fine_step hn h iv (fun g => he (g ▸ List.mem_cons_self)) (hi e List.mem_cons_self)) (inv_step hn iv e) (fun g => he (List.mem_cons_of_mem _ g)) (fun a ha => hi a (List.mem_cons_of_mem _ ha))

/-! ### Replacing -/

/-- How many workers are visited before worker `i`, from worker `j`. -/
def dist (n i j : Nat) : Nat := if j ≤ i then i - j else i + n - j

/-- An upper bound of the steps the parent takes until it replaces worker `i`. -/
def todo (n i : Nat) (s : St) : Nat :=
  match s.pc with
  | .visit j => 3 * dist n i j + 1
  | .answer j => 3 * dist n i j - 1 + ((s.slots[j]?.map (·.up.length)).getD 0)
  | _ => 0

structure Pending (n i L : Nat) (s : St) : Prop where
  inv : Inv n s
  pc : (∃ j, s.pc = .visit j) ∨ ∃ j, s.pc = .answer j ∧ j ≠ i
  dead : ∃ x, s.slots[i]? = some x ∧ ended x.child = true ∧ x.life = L
  others : ∀ (j : Nat) (x : Slot), j ≠ i → s.slots[j]? = some x → ended x.child = false

/-- Nothing else ends: no worker, and not the parent. -/
def steady : Ev → Bool
  | .interrupt | .parent true | .stopped _ | .die _ _ => false
  | _ => true

def isParent : Ev → Bool
  | .parent _ => true
  | _ => false

theorem up_le {n : Nat} {s : St} (iv : Inv n s) (hc : closing s.pc = false) {j : Nat} {x : Slot} (hx : s.slots[j]? = some x) (ha : ∀ b, s.pc ≠ .await j b)
    (hl : ended x.child = false) : x.up.length ≤ 1 := by
  have ok := iv.ok j x hx
  have hns : Up.pid ∉ x.up := by
    intro g
    obtain ⟨b, hb⟩ := iv.mute hc j x hx (.inr g)
    exact ha b hb
  have hlen : x.up.length = x.up.count .ping := by
    symm
    rw [List.count_eq_length]
    intro b hb
    cases b
    · exact absurd hb hns
    · rfl
  have hb := ok.book hl
  have hp := ok.phase
  unfold Phase at hp
  revert hp
  split <;> intro hp <;> first | omega | skip
  next code c => rw [c] at hl; cases hl

theorem life_step {n : Nat} {s : St} {i L : Nat} (e : Ev) (h : ∃ x, s.slots[i]? = some x ∧ L ≤ x.life) : ∃ x, (step n s e).slots[i]? = some x ∧ L ≤ x.life := by
  obtain ⟨x, hx, hl⟩ := h
  cases ha : act e with
  | none =>
    rcases act_none ha with ⟨f, rfl⟩ | rfl
    · obtain ⟨z, h1, h2⟩ := parent_change (n := n) (fail := f) hx
      refine ⟨z, h1, ?_⟩
      cases h2 with
      | fresh _ _ => show L ≤ x.life + 1; omega
      | _ => exact hl
    · rw [interrupt_slots]; exact ⟨x, hx, hl⟩
  | some p =>
    obtain ⟨j, f⟩ := p
    rw [step_act ha]
    by_cases e1 : j = i
    · subst e1
      exact ⟨f x, by rw [onSlot_get, if_pos rfl, hx]; rfl, by rw [act_life ha]; exact hl⟩
    · exact ⟨x, by rw [onSlot_ne e1]; exact hx, hl⟩

theorem life_run {n : Nat} {s : St} {i L : Nat} (es : List Ev) (h : ∃ x, s.slots[i]? = some x ∧ L ≤ x.life) : ∃ x, (run n s es).slots[i]? = some x ∧ L ≤ x.life := by
  induction es generalizing s with
  | nil => exact h
  | cons e es ih => exact ih (life_step e h)

theorem act_dead {e : Ev} {i : Nat} {f : Slot → Slot} (h : act e = some (i, f)) {x : Slot} (hd : ended x.child = true) : (f x) = x := by
  cases hc : x.child <;> rw [hc] at hd <;> try cases hd
  cases e <;> simp only [act, Option.some.injEq, Prod.mk.injEq, reduceCtorEq] at h <;> obtain ⟨rfl, rfl⟩ := h <;>
    simp [tellPid, comeUp, sendPing, second, receive, leave, finish, kill, hc, waiting, ended]

theorem act_alive {e : Ev} {i : Nat} {f : Slot → Slot} (h : act e = some (i, f)) (hs : steady e = true) {x : Slot} (hd : ended x.child = false) : ended (f x).child = false := by
  cases e <;> simp only [act, Option.some.injEq, Prod.mk.injEq, reduceCtorEq] at h <;> obtain ⟨rfl, rfl⟩ := h <;> try cases hs
  · unfold tellPid; split
    · rfl
    · exact hd
  · unfold comeUp; split
    · rfl
    · exact hd
  · unfold sendPing; split
    · split <;> rfl
    · exact hd
  · unfold second; split
    · dsimp only; split <;> rfl
    · exact hd
  · unfold receive; split
    · split
      · split
        · rfl
        · exact hd
      · dsimp only; split <;> rfl
    · exact hd
  · unfold leave; split
    · rfl
    · exact hd
  · unfold leave; split
    · rfl
    · exact hd

theorem act_upLen {n : Nat} (hn : 1 ≤ n) {e : Ev} {i : Nat} {f : Slot → Slot} (h : act e = some (i, f)) (x : Slot) : (f x).up.length ≤ x.up.length + 1 := by
  rcases act_local hn h with ⟨_, rfl⟩ | hf
  · unfold tellPid; split
    · simp
    · omega
  · rcases hf.up x with g | g
    · rw [g]; omega
    · rw [g.1]; simp

theorem pending_worker {n i L : Nat} (hn : 1 ≤ n) {s : St} (h : Pending n i L s) {e : Ev} {j : Nat} {f : Slot → Slot} (ha : act e = some (j, f)) (hs : steady e = true) :
    Pending n i L (step n s e) ∧ todo n i (step n s e) ≤ todo n i s + 1 := by
  have iv := inv_step hn h.inv e
  rw [step_act ha] at iv ⊢
  obtain ⟨p1, p2, p3⟩ := onSlot_slots j f s
  refine ⟨⟨iv, by rw [p1]; exact h.pc, ?_, ?_⟩, ?_⟩
  · obtain ⟨x, hx, hd, hl⟩ := h.dead
    by_cases e1 : j = i
    · subst e1
      exact ⟨x, by rw [onSlot_get, if_pos rfl, hx]; exact congrArg some (act_dead ha hd), hd, hl⟩
    · exact ⟨x, by rw [onSlot_ne e1]; exact hx, hd, hl⟩
  · intro k x hk hx
    by_cases e1 : j = k
    · subst e1
      obtain ⟨y, hy, rfl⟩ := onSlot_eq hx
      exact act_alive ha hs (h.others j y hk hy)
    · rw [onSlot_ne e1] at hx
      exact h.others k x hk hx
  · unfold todo
    rw [p1]
    split
    · omega
    · next k hk =>
      rw [onSlot_get]
      split
      · next e1 =>
        subst e1
        cases hj : s.slots[j]? with
        | none => simp
        | some y =>
          have := act_upLen hn ha y
          simp only [Option.map_some, Option.getD_some]
          omega
      · omega
    · omega

theorem dist_next {n i j : Nat} (hi : i < n) (hj : j < n) (ne : j ≠ i) : ∃ k, next n j = .visit k ∧ dist n i k + 1 = dist n i j := by
  unfold next
  by_cases c : j + 1 < n
  · rw [if_pos c]
    refine ⟨j + 1, rfl, ?_⟩
    unfold dist
    split <;> split <;> omega
  · rw [if_neg c]
    refine ⟨0, rfl, ?_⟩
    unfold dist
    split <;> split <;> omega

theorem pending_parent {n i L : Nat} (hn : 1 ≤ n) {s : St} (h : Pending n i L s) :
    (∃ x, (step n s (.parent false)).slots[i]? = some x ∧ L + 1 ≤ x.life) ∨
    (Pending n i L (step n s (.parent false)) ∧ todo n i (step n s (.parent false)) + 1 ≤ todo n i s) := by
  have iv := inv_step hn h.inv (.parent false)
  obtain ⟨x, hx, hd, hl⟩ := h.dead
  have hz := h.inv.size
  rcases h.pc with ⟨j, hp⟩ | ⟨j, hp, ne⟩
  · rw [sized, hp] at hz
    obtain ⟨z1, z2⟩ : s.slots.length = n ∧ j < n := hz
    obtain ⟨y, hy⟩ : ∃ y, s.slots[j]? = some y := ⟨s.slots[j], List.getElem?_eq_getElem (by omega)⟩
    by_cases e : j = i
    · subst e
      left
      rw [hx] at hy; cases hy
      refine ⟨{ life := x.life + 1, stale := true }, ?_, by show L + 1 ≤ x.life + 1; omega⟩
      have : (step n s (.parent false)).slots = s.slots.set j { life := x.life + 1, stale := true } := by
        show (parent n false s).slots = _
        unfold parent
        rw [hp]; dsimp only
        rw [hx]; dsimp only
        rw [if_pos hd, if_neg (by simp)]
      rw [this, List.getElem?_set_self (by omega)]
    · right
      have hy' := h.others j y e hy
      have es : step n s (.parent false) = { s with pc := .answer j } := by
        show parent n false s = _
        unfold parent
        rw [hp]; dsimp only
        rw [hy]; dsimp only
        rw [if_neg (by rw [hy']; simp)]
      rw [es] at iv ⊢
      refine ⟨⟨iv, .inr ⟨j, rfl, e⟩, ⟨x, hx, hd, hl⟩, h.others⟩, ?_⟩
      have hu := up_le h.inv (by rw [hp]; rfl) hy (by rw [hp]; simp) hy'
      have hi : i < n := by have := get_lt hx; omega
      obtain ⟨k, _, hk⟩ := dist_next hi z2 e
      unfold todo
      rw [hp]
      dsimp only
      rw [hy]
      simp only [Option.map_some, Option.getD_some]
      omega
  · rw [sized, hp] at hz
    obtain ⟨z1, z2⟩ : s.slots.length = n ∧ j < n := hz
    obtain ⟨y, hy⟩ : ∃ y, s.slots[j]? = some y := ⟨s.slots[j], List.getElem?_eq_getElem (by omega)⟩
    have hy' := h.others j y ne hy
    have hbr : broken s j y = false := by unfold broken; rw [hy']; rfl
    have hi : i < n := by have := get_lt hx; omega
    obtain ⟨k, hn1, hk⟩ := dist_next hi z2 ne
    right
    cases hu : y.up with
    | nil =>
      have es : step n s (.parent false) = { s with pc := .visit k } := by
        show parent n false s = _
        unfold parent
        rw [hp]; dsimp only
        rw [hy]; dsimp only
        rw [hu]; dsimp only
        rw [hbr, if_neg (by simp), hn1]
      rw [es] at iv ⊢
      refine ⟨⟨iv, .inl ⟨k, rfl⟩, ⟨x, hx, hd, hl⟩, h.others⟩, ?_⟩
      unfold todo
      rw [hp]
      dsimp only
      omega
    | cons a u =>
      have es : step n s (.parent false) = { s with slots := s.slots.set j { y with up := u, down := y.down ++ [n] } } := by
        show parent n false s = _
        unfold parent
        rw [hp]; dsimp only
        rw [hy]; dsimp only
        rw [hu]; dsimp only
        rw [hbr, if_neg (by simp), ← hp]
      rw [es] at iv ⊢
      refine ⟨⟨iv, .inr ⟨j, hp, ne⟩, ⟨x, by dsimp only; rw [List.getElem?_set_ne ne]; exact hx, hd, hl⟩, ?_⟩, ?_⟩
      · intro m z hm hz
        rcases set_get hz with ⟨_, e⟩ | ⟨_, e⟩
        · rw [e]; exact hy'
        · exact h.others m z hm e
      · unfold todo
        dsimp only
        rw [hp]
        dsimp only
        rw [List.getElem?_set_self (by omega), hy, Option.map_some, Option.map_some, Option.getD_some, Option.getD_some, hu]
        simp only [List.length_cons]
        omega

theorem todo_pos {n i L : Nat} {s : St} (h : Pending n i L s) : 1 ≤ todo n i s := by
  rcases h.pc with ⟨j, hp⟩ | ⟨j, hp, ne⟩
  · unfold todo; rw [hp]; dsimp only; omega
  · have hz := h.inv.size
    rw [sized, hp] at hz
    obtain ⟨z1, z2⟩ : s.slots.length = n ∧ j < n := hz
    obtain ⟨x, hx, _⟩ := h.dead
    have hi : i < n := by have := get_lt hx; omega
    obtain ⟨k, _, hk⟩ := dist_next hi z2 ne
    unfold todo; rw [hp]; dsimp only; omega

theorem pending_run {n i L : Nat} (hn : 1 ≤ n) {s : St} (h : Pending n i L s) (es : List Ev) (hs : ∀ e ∈ es, steady e = true)
    (hc : todo n i s + es.countP (fun e => !isParent e) ≤ es.countP isParent) : ∃ x, (run n s es).slots[i]? = some x ∧ L + 1 ≤ x.life := by
  induction es generalizing s with
  | nil =>
    have := todo_pos h
    simp at hc
    omega
  | cons e es ih =>
    have hs' : ∀ e ∈ es, steady e = true := fun a ha => hs a (List.mem_cons_of_mem _ ha)
    have he := hs e List.mem_cons_self
    show ∃ x, (run n (step n s e) es).slots[i]? = some x ∧ L + 1 ≤ x.life
    cases ha : act e with
    | none =>
      rcases act_none ha with ⟨f, rfl⟩ | rfl
      · cases f
        · rcases pending_parent hn h with g | ⟨g1, g2⟩
          · exact life_run es g
          · refine ih g1 hs' ?_
            rw [List.countP_cons_of_neg (by simp [isParent]), List.countP_cons_of_pos (by rfl)] at hc
            omega
        · cases he
      · cases he
    | some p =>
      obtain ⟨j, f⟩ := p
      obtain ⟨g1, g2⟩ := pending_worker hn h ha he
      refine ih g1 hs' ?_
      have : isParent e = false := by cases e <;> first | rfl | cases ha
      rw [List.countP_cons_of_pos (by simp [this]), List.countP_cons_of_neg (by simp [this])] at hc
      omega

theorem todo_le {n i : Nat} (hn : 1 ≤ n) {s : St} {L : Nat} (h : Pending n i L s) : todo n i s ≤ 3 * n := by
  have hz := h.inv.size
  obtain ⟨x, hx, _⟩ := h.dead
  rcases h.pc with ⟨j, hp⟩ | ⟨j, hp, ne⟩ <;> rw [sized, hp] at hz <;> obtain ⟨z1, z2⟩ : s.slots.length = n ∧ j < n := hz
  · have hi : i < n := by have := get_lt hx; omega
    unfold todo; rw [hp]; dsimp only
    unfold dist; split <;> omega
  · have hi : i < n := by have := get_lt hx; omega
    obtain ⟨y, hy⟩ : ∃ y, s.slots[j]? = some y := ⟨s.slots[j], List.getElem?_eq_getElem (by omega)⟩
    have hu := up_le h.inv (by rw [hp]; rfl) hy (by rw [hp]; simp) (h.others j y ne hy)
    unfold todo; rw [hp]; dsimp only
    rw [hy, Option.map_some, Option.getD_some]
    unfold dist; split <;> omega

end Supervisor
open Supervisor

/-- A worker serves as long as nothing ends it: with no interrupt, and with nothing that ends worker `i` itself, it is never told to
stop, never replaced, and never stops by itself, in whatever order the parent and all workers take their steps. -/
theorem C84_serves (n : Nat) (hn : 1 ≤ n) (es : List Ev) (i : Nat) (he : .interrupt ∉ es) (hi : ∀ e ∈ es, ends i e = false) :
    (∀ c, worker (run n {} es) i = some c → atWork c = true) ∧ (∀ k, replaced (run n {} es) i = some k → k = 0) := by
  have h0 : Fine {} i := ⟨⟨by simp, by simp⟩, by simp⟩
  have h := fine_run hn h0 (Inv.init n) he hi
  constructor
  · intro c hc
    unfold worker at hc
    cases hx : (run n {} es).slots[i]? with
    | none => rw [hx] at hc; cases hc
    | some x =>
      rw [hx] at hc; cases hc
      exact (h.fine x hx).1
  · intro k hk
    unfold replaced at hk
    cases hx : (run n {} es).slots[i]? with
    | none => rw [hx] at hk; cases hk
    | some x =>
      rw [hx] at hk; cases hk
      exact (h.fine x hx).2

/-- Two workers, worker 1 dies: worker 0 has been at work all along. -/
example : worker (run 2 {} [.parent false, .pid 0, .parent false, .parent false, .pid 1, .parent false, .up 0, .ping 0, .die 1 1, .parent false, .sec 0, .parent false,
    .parent false, .sec 0, .recv 0]) 0 = some .pinging := by decide +kernel

/-- There is never a second worker in the place of one that has not ended. -/
theorem C84_one (n : Nat) (es : List Ev) (e : Ev) (i k : Nat) (c : Child) (hc : worker (run n {} es) i = some c) (hk : replaced (run n {} es) i = some k)
    (hd : replaced (run n {} (es ++ [e])) i ≠ some k) : ∃ code, c = .exited code := by
  have er : run n {} (es ++ [e]) = step n (run n {} es) e := List.foldl_append
  rw [er] at hd
  generalize run n {} es = s at *
  unfold worker at hc
  unfold replaced at hk hd
  cases hx : s.slots[i]? with
  | none => rw [hx] at hc; cases hc
  | some x =>
    rw [hx] at hc hk
    simp only [Option.map_some, Option.some.injEq] at hc hk
    cases ha : act e with
    | none =>
      rcases act_none ha with ⟨f, rfl⟩ | rfl
      · obtain ⟨z, h1, h2⟩ := parent_change (n := n) (fail := f) hx
        rw [show step n s (.parent f) = parent n f s from rfl, h1] at hd
        cases h2 with
        | fresh _ he =>
          rw [hc] at he
          cases c <;> first | exact ⟨_, rfl⟩ | cases he
        | _ => exact absurd (congrArg some hk) hd
      · rw [interrupt_slots, hx] at hd
        exact absurd (congrArg some hk) hd
    | some p =>
      obtain ⟨j, f⟩ := p
      rw [step_act ha] at hd
      by_cases g : j = i
      · subst g
        rw [onSlot_get, if_pos rfl, hx] at hd
        exact absurd (by simp only [Option.map_some, act_life ha, hk]) hd
      · rw [onSlot_ne g, hx] at hd
        exact absurd (congrArg some hk) hd

/-- An ended worker is replaced: the parent, at the top of its loop or answering another worker, replaces it within `3 * n` of its
steps, and one more for each step of a worker in between, if no other worker ends meanwhile and making the new process does not fail. -/
theorem C84_replaced_partial (n : Nat) (hn : 1 ≤ n) (es₀ es : List Ev) (i k : Nat)
    (hp : (∃ j, (run n {} es₀).pc = .visit j) ∨ ∃ j, (run n {} es₀).pc = .answer j ∧ j ≠ i)
    (hd : ∃ code, worker (run n {} es₀) i = some (.exited code)) (hk : replaced (run n {} es₀) i = some k)
    (ho : ∀ j c, j ≠ i → worker (run n {} es₀) j = some c → ended c = false)
    (hs : ∀ e ∈ es, steady e = true) (hc : 3 * n + es.countP (fun e => !isParent e) ≤ es.countP isParent) :
    ∃ k', replaced (run n {} (es₀ ++ es)) i = some k' ∧ k < k' := by
  have iv := inv_run hn (Inv.init n) es₀
  have er : run n {} (es₀ ++ es) = run n (run n {} es₀) es := List.foldl_append
  rw [er]
  generalize run n {} es₀ = s at *
  have hpend : Pending n i k s := by
    refine ⟨iv, hp, ?_, ?_⟩
    · obtain ⟨code, hd⟩ := hd
      unfold worker at hd
      unfold replaced at hk
      cases hx : s.slots[i]? with
      | none => rw [hx] at hd; cases hd
      | some x =>
        rw [hx] at hd hk
        simp only [Option.map_some, Option.some.injEq] at hd hk
        exact ⟨x, rfl, by rw [hd]; rfl, hk⟩
    · intro j x hj hx
      exact ho j x.child hj (by unfold worker; rw [hx]; rfl)
  have := todo_le hn hpend
  obtain ⟨x, hx, hl⟩ := pending_run hn hpend es hs (by omega)
  exact ⟨x.life, by unfold replaced; rw [hx]; rfl, hl⟩

/-- A place filled again. -/
example : worker (run 1 {} [.parent false, .pid 0, .parent false, .parent false, .die 0 3]) 0 = some (.exited 3) ∧
    replaced (run 1 {} [.parent false, .pid 0, .parent false, .parent false, .die 0 3, .parent false]) 0 = some 1 := by decide +kernel

/-- Three workers at work. -/
def Supervisor.three : List Ev :=
  [.parent false, .pid 0, .parent false, .parent false, .pid 1, .parent false, .parent false, .pid 2, .parent false, .parent false,
   .up 0, .up 1, .up 2, .ping 0, .ping 1, .ping 2]

/-- Worker 1 dies, the parent at worker 2: after a few steps there is a new worker 1. -/
example : worker (run 3 {} (three ++ [.parent false, .parent false, .parent false, .parent false, .parent false, .parent false, .parent false, .die 1 9])) 1 = some (.exited 9) ∧
    (run 3 {} (three ++ [.parent false, .parent false, .parent false, .parent false, .parent false, .parent false, .parent false, .die 1 9])).pc = .answer 2 ∧
    replaced (run 3 {} (three ++ [.parent false, .parent false, .parent false, .parent false, .parent false, .parent false, .parent false, .die 1 9] ++
      List.replicate 9 (.parent false))) 1 = some 1 := by decide +kernel

namespace Supervisor

/-! ### Shutting down -/

/-- No second interrupt, and no worker ends but by being told to. -/
def orderly : Ev → Bool
  | .interrupt | .die _ _ | .reload _ | .memory _ => false
  | _ => true

/-- Place `j` while the parent shuts down: before, at, and after it is told to stop. -/
def Told (s : St) (j : Nat) (x : Slot) : Prop :=
  match s.pc with
  | .stop i => if j < i then ended x.child = true else atWork x.child = true ∧ x.closed = false
  | .join i => if j < i then ended x.child = true else if j = i then x.closed = true else atWork x.child = true ∧ x.closed = false
  | .ended => ended x.child = true
  | _ => False

structure Closing (n : Nat) (s : St) : Prop where
  inv : Inv n s
  pc : (∃ i, s.pc = .stop i) ∨ (∃ i, s.pc = .join i) ∨ s.pc = .ended
  stale : ∀ (j : Nat) (x : Slot), s.slots[j]? = some x → x.stale = false
  told : ∀ (j : Nat) (x : Slot), s.slots[j]? = some x → Told s j x

theorem act_closed {n : Nat} (hn : 1 ≤ n) {e : Ev} {i : Nat} {f : Slot → Slot} (h : act e = some (i, f)) (x : Slot) : (f x).closed = x.closed ∧ (f x).stale = x.stale := by
  rcases act_local hn h with ⟨_, rfl⟩ | g
  · unfold tellPid; split <;> exact ⟨rfl, rfl⟩
  · exact ⟨g.closed x, g.stale x⟩

theorem orderly_ends {e : Ev} (h : orderly e = true) (i : Nat) : ends i e = false := by
  cases e <;> first | rfl | cases h

theorem told_act {n : Nat} (hn : 1 ≤ n) {s : St} {e : Ev} {i : Nat} {f : Slot → Slot} (ha : act e = some (i, f)) (ho : orderly e = true) {x : Slot} (ok : SlotOk n x) (h : Told s i x) :
    Told s i (f x) := by
  have work : (atWork x.child = true ∧ x.closed = false) → atWork (f x).child = true ∧ (f x).closed = false := by
    rintro ⟨a, b⟩
    exact ⟨act_work hn ha (orderly_ends ho i) ok b a, by rw [(act_closed hn ha x).1]; exact b⟩
  have dead : ended x.child = true → ended (f x).child = true := fun g => by rw [act_dead ha g]; exact g
  unfold Told at h ⊢
  split
  · next p =>
    rw [p] at h; dsimp only at h
    split
    · next c => rw [if_pos c] at h; exact dead h
    · next c => rw [if_neg c] at h; exact work h
  · next p =>
    rw [p] at h; dsimp only at h
    split
    · next c => rw [if_pos c] at h; exact dead h
    · next c =>
      rw [if_neg c] at h
      split
      · next d => rw [if_pos d] at h; rw [(act_closed hn ha x).1]; exact h
      · next d => rw [if_neg d] at h; exact work h
  · next p => rw [p] at h; exact dead h
  · next p1 p2 p3 =>
    cases hp : s.pc <;> rw [hp] at h <;> first | exact h | exact absurd hp (p1 _) | exact absurd hp (p2 _) | exact absurd hp p3

theorem atWork_ended {c : Child} (h : atWork c = true) : ended c = false := by cases c <;> first | rfl | cases h

/-- The steps of the parent while it shuts down. -/
theorem closing_parent {n : Nat} {s : St} (h : Closing n s) (fail : Bool) :
    (∃ i x, s.pc = .stop i ∧ s.slots[i]? = some x ∧ parent n fail s = { s with slots := s.slots.set i { x with down := x.down ++ [0], closed := true }, pc := .join i }) ∨
    (∃ i, s.pc = .stop i ∧ s.slots[i]? = none ∧ parent n fail s = { s with pc := .ended }) ∨
    (∃ i x, s.pc = .join i ∧ s.slots[i]? = some x ∧ ended x.child = true ∧ parent n fail s = { s with pc := .stop (i + 1) }) ∨
    (∃ i x, s.pc = .join i ∧ s.slots[i]? = some x ∧ ended x.child = false ∧ parent n fail s = s) ∨
    (s.pc = .ended ∧ parent n fail s = s) := by
  rcases h.pc with ⟨i, hp⟩ | ⟨i, hp⟩ | hp
  · cases hx : s.slots[i]? with
    | none =>
      refine .inr (.inl ⟨i, hp, hx, ?_⟩)
      unfold parent; rw [hp]; dsimp only; rw [hx]
    | some x =>
      refine .inl ⟨i, x, hp, hx, ?_⟩
      have ht := h.told i x hx
      rw [Told, hp] at ht
      dsimp only at ht
      rw [if_neg (by omega)] at ht
      unfold parent; rw [hp]; dsimp only; rw [hx]; dsimp only
      rw [if_neg]
      unfold broken
      rw [h.stale i x hx, atWork_ended ht.1]
      simp
  · have hz := h.inv.size
    rw [sized, hp] at hz
    obtain ⟨z1, z2⟩ : s.slots.length = n ∧ i < n := hz
    obtain ⟨x, hx⟩ : ∃ y, s.slots[i]? = some y := ⟨s.slots[i], List.getElem?_eq_getElem (by omega)⟩
    have ep : parent n fail s = if ended x.child then { s with pc := .stop (i + 1) } else s := by
      unfold parent; rw [hp]; dsimp only; rw [hx]
    cases he : ended x.child
    · rw [he] at ep
      exact .inr (.inr (.inr (.inl ⟨i, x, hp, hx, he, ep⟩)))
    · rw [he] at ep
      exact .inr (.inr (.inl ⟨i, x, hp, hx, he, ep⟩))
  · refine .inr (.inr (.inr (.inr ⟨hp, ?_⟩)))
    unfold parent; rw [hp]

theorem closing_step {n : Nat} (hn : 1 ≤ n) {s : St} (h : Closing n s) {e : Ev} (ho : orderly e = true) : Closing n (step n s e) := by
  have iv := inv_step hn h.inv e
  cases ha : act e with
  | none =>
    rcases act_none ha with ⟨fail, rfl⟩ | rfl
    · rw [show step n s (.parent fail) = parent n fail s from rfl] at iv ⊢
      rcases closing_parent h fail with ⟨i, x, hp, hx, e⟩ | ⟨i, hp, hx, e⟩ | ⟨i, x, hp, hx, hd, e⟩ | ⟨i, x, hp, hx, hd, e⟩ | ⟨hp, e⟩
      · rw [e] at iv ⊢
        refine ⟨iv, .inr (.inl ⟨i, rfl⟩), ?_, ?_⟩
        · intro j y hy
          rcases set_get hy with ⟨_, g⟩ | ⟨_, g⟩
          · rw [g]; exact h.stale i x hx
          · exact h.stale j y g
        · intro j y hy
          rcases set_get hy with ⟨g1, g⟩ | ⟨g1, g⟩
          · subst g1
            rw [g]
            show if i < i then _ else if i = i then _ else _
            rw [if_neg (Nat.lt_irrefl _), if_pos rfl]
          · have := h.told j y g
            rw [Told, hp] at this
            dsimp only at this
            show if j < i then _ else if j = i then _ else _
            split
            · next c => rw [if_pos c] at this; exact this
            · next c =>
              rw [if_neg c] at this
              rw [if_neg (fun k => g1 k.symm)]
              exact this
      · rw [e] at iv ⊢
        refine ⟨iv, .inr (.inr rfl), h.stale, ?_⟩
        intro j y hy
        have := h.told j y hy
        rw [Told, hp] at this
        dsimp only at this
        have hj : j < i := by
          rcases Nat.lt_or_ge j i with c | c
          · exact c
          · have : i < s.slots.length := by have := get_lt hy; dsimp only at this; omega
            rw [List.getElem?_eq_getElem this] at hx
            cases hx
        rw [if_pos hj] at this
        exact this
      · rw [e] at iv ⊢
        refine ⟨iv, .inl ⟨i + 1, rfl⟩, h.stale, ?_⟩
        intro j y hy
        have := h.told j y hy
        rw [Told, hp] at this
        dsimp only at this
        show if j < i + 1 then _ else _
        by_cases c : j < i
        · rw [if_pos c] at this
          rw [if_pos (by omega)]; exact this
        · rw [if_neg c] at this
          by_cases d : j = i
          · subst d
            rw [show s.slots[j]? = some y from hy] at hx
            cases hx
            rw [if_pos (by omega)]; exact hd
          · rw [if_neg d] at this
            rw [if_neg (by omega)]; exact this
      · rw [e]; exact h
      · rw [e]; exact h
    · cases ho
  | some p =>
    obtain ⟨i, f⟩ := p
    rw [step_act ha] at iv ⊢
    obtain ⟨p1, p2, p3⟩ := onSlot_slots i f s
    refine ⟨iv, by rw [p1]; exact h.pc, ?_, ?_⟩
    · intro j y hy
      by_cases c : i = j
      · subst c
        obtain ⟨x, hx, rfl⟩ := onSlot_eq hy
        rw [(act_closed hn ha x).2]; exact h.stale i x hx
      · rw [onSlot_ne c] at hy; exact h.stale j y hy
    · intro j y hy
      have key : Told s j y := by
        by_cases c : i = j
        · subst c
          obtain ⟨x, hx, rfl⟩ := onSlot_eq hy
          exact told_act hn ha ho (h.inv.ok i x hx) (h.told i x hx)
        · rw [onSlot_ne c] at hy; exact h.told j y hy
      unfold Told at key ⊢
      rw [p1]; exact key

theorem closing_run {n : Nat} (hn : 1 ≤ n) {s : St} (h : Closing n s) (es : List Ev) (ho : ∀ e ∈ es, orderly e = true) : Closing n (run n s es) := by
  induction es generalizing s with
  | nil => exact h
  | cons e es ih => exact ih (closing_step hn h (ho e List.mem_cons_self)) (fun a ha => ho a (List.mem_cons_of_mem _ ha))

/-- How many of the steps change something. -/
def changes (n : Nat) : St → List Ev → Nat
  | _, [] => 0
  | s, e :: es => (if step n s e = s then 0 else 1) + changes n (step n s e) es

def phaseW (n : Nat) : Child → Nat
  | .starting => 2 * n + 7
  | .setup => 2 * n + 6
  | .pinging => 2 * n + 5
  | .polling k => k + 3
  | .receiving => 3
  | .stopping _ => 1
  | .exited _ => 0

def slotW (n : Nat) (x : Slot) : Nat := answers x.down * (2 * n + 3) + phaseW n x.child

def pcW (n : Nat) : Pc → Nat
  | .stop i => 2 * (n - i) + 1
  | .join i => 2 * (n - i)
  | _ => 0

def total (n : Nat) (l : List Slot) : Nat := (l.map (slotW n)).sum

/-- The changes left until all has ended. -/
def left (n : Nat) (s : St) : Nat := total n s.slots + pcW n s.pc

theorem total_set {n : Nat} {l : List Slot} {i : Nat} {x y : Slot} (hx : l[i]? = some x) : total n (l.set i y) + slotW n x = total n l + slotW n y := by
  induction l generalizing i with
  | nil => cases hx
  | cons a l ih =>
    cases i with
    | zero =>
      cases hx
      simp only [total, List.set_cons_zero, List.map_cons, List.sum_cons]
      omega
    | succ i =>
      have := ih (i := i) hx
      simp only [total, List.set_cons_succ, List.map_cons, List.sum_cons] at this ⊢
      omega

theorem act_less {n : Nat} (hn : 1 ≤ n) {e : Ev} {i : Nat} {f : Slot → Slot} (ha : act e = some (i, f)) (ho : orderly e = true) {x : Slot} (ok : SlotOk n x) (hne : f x ≠ x) :
    slotW n (f x) + 1 ≤ slotW n x := by
  cases e <;> simp only [act, Option.some.injEq, Prod.mk.injEq, reduceCtorEq] at ha <;> obtain ⟨rfl, rfl⟩ := ha <;> try cases ho
  · unfold tellPid at hne ⊢; split
    · next c => simp only [slotW, c, phaseW]; omega
    · next c => rw [if_neg c] at hne; exact absurd rfl hne
  · unfold comeUp at hne ⊢; split
    · next c => simp only [slotW, c, phaseW]; omega
    · next c => rw [if_neg c] at hne; exact absurd rfl hne
  · unfold sendPing at hne ⊢; split
    · next c =>
      split
      · simp only [slotW, c, phaseW]; omega
      · have hm := ok.num (by rw [c]; rfl)
        have : x.num ≤ n := by rw [hm]; split <;> omega
        simp only [slotW, c, phaseW]; omega
    · next c =>
      exfalso; apply hne; split
      · next d => exact absurd d c
      · rfl
  · unfold second at hne ⊢; split
    · next k c =>
      have hp := ok.phase
      rw [Phase, c] at hp
      have hp := hp.2.1
      split
      · simp only [slotW, c, phaseW]; omega
      · simp only [slotW, c, phaseW]; omega
    · next c =>
      exfalso; apply hne; split
      · next d => exact absurd d (c _)
      · rfl
  · unfold receive at hne ⊢; split
    · next c =>
      split
      · next e =>
        split
        · simp only [slotW, c, phaseW]; omega
        · next g =>
          exfalso; apply hne
          rw [c]; dsimp only; rw [e]; dsimp only; rw [if_neg g]
      · next m d e =>
        by_cases z : m = 0
        · simp only [slotW, c, phaseW, e, answers_cons, z, if_pos, Nat.zero_add]
          omega
        · simp only [slotW, c, phaseW, e, answers_cons, if_neg z, Nat.add_mul]
          omega
    · next c =>
      exfalso; apply hne; split
      · next d => exact absurd d c
      · rfl
  · unfold finish at hne ⊢; split
    · next c => simp only [slotW, c, phaseW]; omega
    · next c =>
      exfalso; apply hne; split
      · next d => exact absurd d (c _)
      · rfl

theorem left_step {n : Nat} (hn : 1 ≤ n) {s : St} (h : Closing n s) {e : Ev} (ho : orderly e = true) : left n (step n s e) + (if step n s e = s then 0 else 1) ≤ left n s := by
  split
  · next c => rw [c]; omega
  · next c =>
    cases ha : act e with
    | none =>
      rcases act_none ha with ⟨fail, rfl⟩ | rfl
      · rw [show step n s (.parent fail) = parent n fail s from rfl] at c ⊢
        rcases closing_parent h fail with ⟨i, x, hp, hx, e⟩ | ⟨i, hp, hx, e⟩ | ⟨i, x, hp, hx, hd, e⟩ | ⟨i, x, hp, hx, hd, e⟩ | ⟨hp, e⟩
        · rw [e]
          have := total_set (n := n) (y := { x with down := x.down ++ [0], closed := true }) hx
          have hw : slotW n { x with down := x.down ++ [0], closed := true } = slotW n x := by
            simp only [slotW, answers_snoc, if_pos]; rfl
          simp only [left, hp, pcW]
          omega
        · rw [e]
          simp only [left, hp, pcW]
          omega
        · rw [e]
          have hz := h.inv.size
          rw [sized, hp] at hz
          obtain ⟨z1, z2⟩ : s.slots.length = n ∧ i < n := hz
          simp only [left, hp, pcW]
          omega
        · exact absurd e c
        · exact absurd e c
      · cases ho
    | some p =>
      obtain ⟨i, f⟩ := p
      rw [step_act ha] at c ⊢
      cases hx : s.slots[i]? with
      | none =>
        exfalso; apply c
        unfold onSlot; rw [hx]
      | some x =>
        have es : onSlot i f s = { s with slots := s.slots.set i (f x) } := by unfold onSlot; rw [hx]
        rw [es] at c ⊢
        have hne : f x ≠ x := by
          intro g
          apply c
          rw [g]
          have : s.slots.set i x = s.slots := by
            apply List.ext_getElem?
            intro j
            by_cases d : i = j
            · subst d; rw [List.getElem?_set_self (get_lt hx), hx]
            · rw [List.getElem?_set_ne d]
          rw [this]
        have h1 := total_set (n := n) (y := f x) hx
        have h2 := act_less hn ha ho (h.inv.ok i x hx) hne
        simp only [left]
        omega

theorem changes_le {n : Nat} (hn : 1 ≤ n) {s : St} (h : Closing n s) (es : List Ev) (ho : ∀ e ∈ es, orderly e = true) : changes n s es ≤ left n s := by
  induction es generalizing s with
  | nil => exact Nat.zero_le _
  | cons e es ih =>
    have h1 := left_step hn h (ho e List.mem_cons_self)
    have h2 := ih (closing_step hn h (ho e List.mem_cons_self)) (fun a ha => ho a (List.mem_cons_of_mem _ ha))
    show (if step n s e = s then 0 else 1) + changes n (step n s e) es ≤ left n s
    omega

theorem child_moves {n : Nat} (hn : 1 ≤ n) {s : St} {i : Nat} {x : Slot} (hx : s.slots[i]? = some x) (hc : x.closed = true) (hd : ended x.child = false) :
    ∃ e, orderly e = true ∧ step n s e ≠ s := by
  have move : ∀ (e : Ev) (f : Slot → Slot), act e = some (i, f) → orderly e = true → (f x).child ≠ x.child → ∃ e, orderly e = true ∧ step n s e ≠ s := by
    intro e f ha ho hne
    refine ⟨e, ho, ?_⟩
    rw [step_act ha]
    intro g
    have h1 : (onSlot i f s).slots[i]? = some (f x) := by rw [onSlot_get, if_pos rfl, hx]; rfl
    rw [g, hx] at h1
    injection h1 with h1
    exact hne (congrArg Slot.child h1.symm)
  cases hx' : x.child with
  | starting => exact move (.pid i) _ rfl rfl (by simp [tellPid, hx'])
  | setup => exact move (.up i) _ rfl rfl (by simp [comeUp, hx'])
  | pinging => exact move (.ping i) _ rfl rfl (by simp [sendPing, hx', hc])
  | polling k => exact move (.sec i) _ rfl rfl (by simp [second, hx', hc])
  | receiving =>
    refine move (.recv i) _ rfl rfl ?_
    unfold receive
    rw [hx']
    dsimp only
    split
    · rw [hc]; simp
    · dsimp only; split <;> simp
  | stopping code => exact move (.stopped i) _ rfl rfl (by simp [finish, hx'])
  | exited code => rw [hx'] at hd; cases hd

theorem closing_moves {n : Nat} (hn : 1 ≤ n) {s : St} (h : Closing n s) (hp : s.pc ≠ .ended) : ∃ e, orderly e = true ∧ step n s e ≠ s := by
  have pcne : ∀ {t : St}, t.pc ≠ s.pc → t ≠ s := fun g k => g (congrArg St.pc k)
  rcases closing_parent h false with ⟨i, x, hp', hx, e⟩ | ⟨i, hp', hx, e⟩ | ⟨i, x, hp', hx, hd, e⟩ | ⟨i, x, hp', hx, hd, e⟩ | ⟨hp', e⟩
  · exact ⟨.parent false, rfl, pcne (by show (parent n false s).pc ≠ _; rw [e, hp']; simp)⟩
  · exact ⟨.parent false, rfl, pcne (by show (parent n false s).pc ≠ _; rw [e, hp']; simp)⟩
  · exact ⟨.parent false, rfl, pcne (by show (parent n false s).pc ≠ _; rw [e, hp']; simp)⟩
  · have ht := h.told i x hx
    rw [Told, hp'] at ht
    dsimp only at ht
    rw [if_neg (Nat.lt_irrefl _), if_pos rfl] at ht
    exact child_moves hn hx ht hd
  · exact absurd hp' hp

theorem closing_start {n : Nat} {s : St} (iv : Inv n s) (hp : (∃ j, s.pc = .visit j) ∨ ∃ j, s.pc = .answer j)
    (hw : ∀ (j : Nat) (x : Slot), s.slots[j]? = some x → atWork x.child = true) : Closing n (step n s .interrupt) := by
  have iv' := inv_interrupt iv
  have es : step n s .interrupt = { s with pc := .stop 0 } := by
    rcases hp with ⟨j, hp⟩ | ⟨j, hp⟩ <;> (unfold step; dsimp only; rw [hp])
  have hc : closing s.pc = false := by rcases hp with ⟨j, hp⟩ | ⟨j, hp⟩ <;> rw [hp] <;> rfl
  rw [es] at iv' ⊢
  refine ⟨iv', .inl ⟨0, rfl⟩, ?_, ?_⟩
  · intro j x hx
    cases e : x.stale
    · rfl
    · have := iv.stale hc j x hx e
      rcases hp with ⟨k, hp⟩ | ⟨k, hp⟩ <;> rw [hp] at this <;> cases this
  · intro j x hx
    show if j < 0 then ended x.child = true else atWork x.child = true ∧ x.closed = false
    rw [if_neg (Nat.not_lt_zero _)]
    exact ⟨hw j x hx, iv.opened hc j x hx⟩

end Supervisor

/-- An interrupt ends the server in order: if at that time no worker has ended or is about to, the parent not just replacing one, and none
ends meanwhile without being told to, then in whatever order the steps are taken the parent never fails, only so many steps change anything, and when
no step changes anything any more, the parent has gone through its loop and all workers have ended. -/
theorem C84_shutdown_partial (n : Nat) (hn : 1 ≤ n) (es₀ : List Ev) (hp : (∃ j, (run n {} es₀).pc = .visit j) ∨ ∃ j, (run n {} es₀).pc = .answer j)
    (hw : ∀ j c, worker (run n {} es₀) j = some c → atWork c = true) :
    ∃ bound, ∀ es : List Ev, (∀ e ∈ es, orderly e = true) →
      (run n {} (es₀ ++ .interrupt :: es)).pc ≠ .crashed ∧
      changes n (run n {} (es₀ ++ [.interrupt])) es ≤ bound ∧
      ((∀ e, orderly e = true → step n (run n {} (es₀ ++ .interrupt :: es)) e = run n {} (es₀ ++ .interrupt :: es)) →
        (run n {} (es₀ ++ .interrupt :: es)).pc = .ended ∧
        ∀ j, j < n → ∃ code, worker (run n {} (es₀ ++ .interrupt :: es)) j = some (.exited code)) := by
  have iv := inv_run hn (Inv.init n) es₀
  have er : ∀ es, run n {} (es₀ ++ .interrupt :: es) = run n (step n (run n {} es₀) .interrupt) es := fun es => by
    unfold run; rw [List.foldl_append]; rfl
  rw [show run n {} (es₀ ++ [.interrupt]) = step n (run n {} es₀) .interrupt from er []]
  have h := closing_start iv hp (fun j x hx => hw j x.child (by unfold worker; rw [hx]; rfl))
  refine ⟨left n (step n (run n {} es₀) .interrupt), fun es ho => ?_⟩
  rw [er]
  have h' := closing_run hn h es ho
  refine ⟨?_, changes_le hn h es ho, fun q => ?_⟩
  · rcases h'.pc with ⟨i, e⟩ | ⟨i, e⟩ | e <;> rw [e] <;> simp
  · have hp' : (run n (step n (run n {} es₀) .interrupt) es).pc = .ended := by
      apply Classical.byContradiction
      intro g
      obtain ⟨e, h1, h2⟩ := closing_moves hn h' g
      exact h2 (q e h1)
    refine ⟨hp', fun j hj => ?_⟩
    have hz := h'.inv.size
    rw [sized, hp'] at hz
    have hz : (run n (step n (run n {} es₀) .interrupt) es).slots.length = n := hz
    obtain ⟨x, hx⟩ : ∃ y, (run n (step n (run n {} es₀) .interrupt) es).slots[j]? = some y := ⟨_, List.getElem?_eq_getElem (by omega)⟩
    have ht := h'.told j x hx
    rw [Told, hp'] at ht
    unfold worker
    rw [hx]
    have ht : ended x.child = true := ht
    cases hc : x.child <;> rw [hc] at ht <;> first | exact ⟨_, congrArg some hc⟩ | cases ht

/-- Three workers, interrupted and ended. -/
example : (run 3 {} (three ++ [.interrupt] ++ [.parent false, .sec 0, .recv 0, .stopped 0, .parent false, .parent false, .sec 1, .recv 1, .stopped 1, .parent false,
    .parent false, .sec 2, .recv 2, .stopped 2, .parent false, .parent false])).pc = .ended := by decide +kernel

/-- A worker that ended just before: sending 0 to it raises BrokenPipeError, and the other worker, at work, is not told, whatever happens after. -/
theorem C84_refuted_stop : ∃ es₀, (run 2 {} es₀).pc = .crashed ∧ .interrupt ∈ es₀ ∧ (∀ e ∈ es₀, ends 1 e = false) ∧
    ∀ es, .interrupt ∉ es → (∀ e ∈ es, ends 1 e = false) → ∀ c, worker (run 2 (run 2 {} es₀) es) 1 = some c → atWork c = true := by
  refine ⟨[.parent false, .pid 0, .parent false, .parent false, .pid 1, .parent false, .parent false, .up 0, .up 1, .ping 0, .ping 1, .die 0 1, .interrupt, .parent false],
    by decide +kernel, by decide, by decide, ?_⟩
  intro es he hi c hc
  have iv := inv_run (by omega) (Inv.init 2) [.parent false, .pid 0, .parent false, .parent false, .pid 1, .parent false, .parent false, .up 0, .up 1, .ping 0, .ping 1, .die 0 1, .interrupt, .parent false]
  have e0 : run 2 {} [.parent false, .pid 0, .parent false, .parent false, .pid 1, .parent false, .parent false, .up 0, .up 1, .ping 0, .ping 1, .die 0 1, .interrupt, .parent false] =
      { slots := [{ child := .exited 1, up := [.ping], pings := 1 }, { child := .polling 2, up := [.ping], pings := 1 }], pc := .crashed, held := some 1 } := by decide +kernel
  rw [e0] at iv hc
  have h0 : Fine { slots := [{ child := .exited 1, up := [.ping], pings := 1 }, { child := .polling 2, up := [.ping], pings := 1 }], pc := .crashed, held := some 1 } 1 := by
    refine ⟨⟨by simp, ?_⟩, ?_⟩
    · intro i x hx
      match i, hx with
      | 0, hx => cases hx; rfl
      | 1, hx => cases hx; rfl
    · intro x hx
      cases hx
      exact ⟨rfl, rfl⟩
  have h := fine_run (by omega) h0 iv he hi
  unfold worker at hc
  cases hx : (run 2 { slots := [{ child := .exited 1, up := [.ping], pings := 1 }, { child := .polling 2, up := [.ping], pings := 1 }], pc := .crashed, held := some 1 } es).slots[1]? with
  | none => rw [hx] at hc; cases hc
  | some x =>
    rw [hx] at hc; cases hc
    exact (h.fine x hx).1

/-- An interrupt while the parent waits for the pid of a new worker: `processes` still has the closed pipe, sending on it raises OSError. -/
theorem C84_refuted_replacing : ∃ es, (run 2 {} (es ++ [.interrupt, .parent false])).pc = .crashed ∧ (∀ c, worker (run 2 {} (es ++ [.interrupt, .parent false])) 1 = some c → atWork c = true) ∧
    (∀ c, worker (run 2 {} es) 0 = some c → atWork c = true) ∧ (∀ c, worker (run 2 {} es) 1 = some c → atWork c = true) :=
  ⟨[.parent false, .pid 0, .parent false, .parent false, .pid 1, .parent false, .parent false, .up 0, .up 1, .ping 0, .ping 1, .die 0 1, .parent false],
    by decide +kernel, by decide +kernel, by decide +kernel, by decide +kernel⟩

/-- A worker that ends between the look at it and the look at its pipe: reading raises EOFError, which ends the parent. No interrupt is needed. -/
theorem C84_refuted_race : ∃ es, .interrupt ∉ es ∧ .parent true ∉ es ∧ (run 2 {} es).pc = .crashed :=
  ⟨[.parent false, .pid 0, .parent false, .parent false, .pid 1, .parent false, .parent false, .up 0, .up 1, .parent false, .die 0 1, .parent false], by decide, by decide, by decide +kernel⟩

/-- With one worker this cannot happen: the parent holds the other end of the pipe itself. -/
theorem C84_single (es : List Ev) (he : .interrupt ∉ es) (hf : .parent true ∉ es) : (run 1 {} es).pc ≠ .crashed := by
  have key : ∀ (s : St) (es : List Ev), .interrupt ∉ es → .parent true ∉ es → s.pc ≠ .crashed → (s.pc = .launch 0 ∨ s.held = some 0) → Inv 1 s → Calm s → (run 1 s es).pc ≠ .crashed := by
    intro s es
    induction es generalizing s with
    | nil => exact fun _ _ h _ _ _ => h
    | cons e es ih =>
      intro he hf hp hh iv ca
      have he' : e ≠ .interrupt := fun g => he (g ▸ List.mem_cons_self)
      have hnext : (step 1 s e).pc ≠ .crashed ∧ ((step 1 s e).pc = .launch 0 ∨ (step 1 s e).held = some 0) := by
        cases ha : act e with
        | none =>
          rcases act_none ha with ⟨f, rfl⟩ | rfl
          · cases f
            · show (parent 1 false s).pc ≠ _ ∧ ((parent 1 false s).pc = _ ∨ (parent 1 false s).held = _)
              have hz := iv.size
              unfold parent
              split
              · next i hi =>
                rw [sized, hi] at hz
                split
                · next c => exact ⟨by simp, .inr (by rw [show i = 0 by omega])⟩
                · next c =>
                  refine ⟨by simp, .inr ?_⟩
                  rcases hh with hh | hh
                  · rw [hi] at hh; cases hh; omega
                  · exact hh
              · next i boot hi =>
                have hh : s.held = some 0 := by
                  rcases hh with hh | hh
                  · rw [hi] at hh; cases hh
                  · exact hh
                split
                · exact ⟨hp, .inr hh⟩
                · split
                  · exact ⟨hp, .inr hh⟩
                  · refine ⟨?_, .inr hh⟩
                    dsimp only; split <;> simp
              · next i hi =>
                have hh : s.held = some 0 := by
                  rcases hh with hh | hh
                  · rw [hi] at hh; cases hh
                  · exact hh
                rw [sized, hi] at hz
                obtain ⟨z1, z2⟩ : s.slots.length = 1 ∧ i < 1 := hz
                split
                · exact ⟨hp, .inr hh⟩
                · split
                  · rw [if_neg (by simp)]
                    exact ⟨by simp, .inr (by rw [show i = 0 by omega])⟩
                  · exact ⟨by simp, .inr hh⟩
              · next i hi =>
                have hh : s.held = some 0 := by
                  rcases hh with hh | hh
                  · rw [hi] at hh; cases hh
                  · exact hh
                rw [sized, hi] at hz
                obtain ⟨z1, z2⟩ : s.slots.length = 1 ∧ i < 1 := hz
                obtain ⟨j, hj⟩ := next_visit 1 i
                split
                · exact ⟨hp, .inr hh⟩
                · next x hx =>
                  have hb : broken s i x = false := by
                    unfold broken; rw [hh, show i = 0 by omega]; simp
                  rw [hb]
                  split
                  · rw [if_neg (by simp), hj]; exact ⟨by simp, .inr hh⟩
                  · rw [if_neg (by simp)]; exact ⟨by dsimp only; rw [hi]; simp, .inr hh⟩
              · next i hi => exact absurd hi (ca.pc i).1
              · next i hi => exact absurd hi (ca.pc i).2
              · exact ⟨hp, hh⟩
              · next hi => exact absurd hi hp
            · exact absurd List.mem_cons_self hf
          · exact absurd rfl he'
        | some p =>
          obtain ⟨i, f⟩ := p
          rw [step_act ha]
          obtain ⟨p1, p2, _⟩ := onSlot_slots i f s
          rw [p1, p2]
          exact ⟨hp, hh⟩
      exact ih _ (fun g => he (List.mem_cons_of_mem _ g)) (fun g => hf (List.mem_cons_of_mem _ g)) hnext.1 hnext.2 (inv_step (by omega) iv e) (calm_step (by omega) ca he')
  exact key {} es he hf (by simp) (.inl rfl) (Inv.init 1) ⟨by simp, by simp⟩

example : (run 1 {} [.parent false, .pid 0, .parent false, .parent false, .parent false, .die 0 1, .parent false]).pc = .visit 0 := by decide +kernel

/-- A worker that ends before it told its pid: the parent waits for the pid for ever, as it holds the other end of the pipe itself. No worker is
replaced or answered any more. -/
theorem C84_refuted_silent (n i : Nat) (b : Bool) (s : St) (x : Slot) (hp : s.pc = .await i b) (hx : s.slots[i]? = some x) (hd : ended x.child = true) (hu : x.up = [])
    (es : List Ev) (he : .interrupt ∉ es) : (run n s es).pc = .await i b ∧ ∀ f, step n (run n s es) (.parent f) = run n s es := by
  have stuck : ∀ (t : St), t.pc = .await i b → t.slots[i]? = some x → ∀ f, step n t (.parent f) = t := by
    intro t h1 h2 f
    show parent n f t = t
    unfold parent
    rw [h1]; dsimp only; rw [h2]; dsimp only; rw [hu]
  have key : (run n s es).pc = .await i b ∧ (run n s es).slots[i]? = some x := by
    induction es generalizing s with
    | nil => exact ⟨hp, hx⟩
    | cons e es ih =>
      have he2 : Ev.interrupt ∉ es := fun g => he (List.mem_cons_of_mem _ g)
      show (run n (step n s e) es).pc = _ ∧ (run n (step n s e) es).slots[i]? = _
      cases ha : act e with
      | none =>
        rcases act_none ha with ⟨f, rfl⟩ | rfl
        · rw [stuck s hp hx f]; exact ih s hp hx he2
        · exact absurd List.mem_cons_self he
      | some p =>
        obtain ⟨j, f⟩ := p
        rw [step_act ha]
        obtain ⟨p1, _, _⟩ := onSlot_slots j f s
        refine ih _ (by rw [p1]; exact hp) ?_ he2
        by_cases c : j = i
        · subst c
          rw [onSlot_get, if_pos rfl, hx]
          exact congrArg some (act_dead ha hd)
        · rw [onSlot_ne c]; exact hx
  exact ⟨key.1, stuck _ key.1 key.2⟩

/-- Reachable: of two workers, the first dies at work, the one put in its place dies before it told its pid. -/
example : (run 2 {} [.parent false, .pid 0, .parent false, .parent false, .pid 1, .parent false, .parent false, .up 0, .up 1, .ping 0, .ping 1, .die 0 1, .parent false, .die 0 1]).pc =
      .await 0 false ∧
    worker (run 2 {} [.parent false, .pid 0, .parent false, .parent false, .pid 1, .parent false, .parent false, .up 0, .up 1, .ping 0, .ping 1, .die 0 1, .parent false, .die 0 1]) 0 =
      some (.exited 1) := by decide +kernel

/-- Pings and answers: of a worker that has not ended, every ping is in the pipe, answered in the pipe, or its answer has been received, there is at most one
ping without an answer received, and every answer is the number of workers. -/
theorem C85_heartbeat (n : Nat) (hn : 1 ≤ n) (es : List Ev) (i : Nat) (x : Slot) (hx : (run n {} es).slots[i]? = some x) (hd : ended x.child = false) :
    x.pings = x.replies + x.up.count .ping + x.down.countP (· != 0) ∧ x.pings ≤ x.replies + 1 ∧ (∀ m ∈ x.down, m ≠ 0 → m = n) ∧
    (atWork x.child = true → x.num = 1 ∨ x.num = n) := by
  have ok := (inv_run hn (Inv.init n) es).ok i x hx
  refine ⟨by rw [List.countP_eq_length_filter]; exact ok.book hd, ?_, ?_, ?_⟩
  · have hp := ok.phase
    unfold Phase at hp
    revert hp
    split <;> intro hp <;> first | omega | skip
    next code c => rw [c] at hd; cases hd
  · intro m hm hz
    rcases ok.vals m hm with g | g
    · exact g
    · exact absurd g.1 hz
  · intro w
    rw [atWork_serving] at w
    have := ok.num w
    split at this
    · exact .inl this
    · exact .inr this

example : ((run 3 {} (three ++ [.parent false, .parent false])).slots[0]?).map (fun x => (x.pings, x.replies, x.up, x.down)) = some (1, 0, [], [3]) := by decide +kernel

namespace Supervisor

/-- The parent looks at the pipe of worker `i` and finds it empty: all pings of this worker are answered. -/
def looks (s : St) (i : Nat) : Ev → Bool
  | .parent _ => decide (s.pc = .answer i) && decide ((s.slots[i]?.map (·.up)) = some [])
  | _ => false

/-- The seconds worker `i` has waited since. -/
def clock (n i : Nat) (p : St × Nat) (e : Ev) : St × Nat := (step n p.1 e, if e = .sec i then p.2 + 1 else if looks p.1 i e then 0 else p.2)

def unseen (n i : Nat) (es : List Ev) : Nat := (es.foldl (clock n i) ({}, 0)).2

def Overdue (x : Slot) (a : Nat) : Prop :=
  x.closed = false → Up.ping ∈ x.up → match x.child with
    | .polling k => 2 * x.num ≤ a + k
    | .receiving => 2 * x.num ≤ a
    | _ => True

theorem overdue_change {n : Nat} {s : St} {i : Nat} {x y : Slot} {a : Nat} (ok : SlotOk n x) (hn : 1 ≤ n) (h : Overdue x a) (hc : Change n s i x y) (hm : x.up.length ≤ 1 ∨ s.pc ≠ .answer i) : Overdue y a := by
  cases hc with
  | same => exact h
  | pid u b _ _ hu =>
    intro h1 h2
    exact h h1 (by rw [hu]; exact List.mem_cons_of_mem _ h2)
  | lost u b hp hu _ =>
    rcases hm with hm | hm
    · rw [hu] at hm
      simp at hm
      intro _ h2
      dsimp only at h2
      rw [hm] at h2; cases h2
    · exact absurd hp hm
  | answered u b hp hu _ =>
    rcases hm with hm | hm
    · rw [hu] at hm
      simp at hm
      intro _ h2
      dsimp only at h2
      rw [hm] at h2; cases h2
    · exact absurd hp hm
  | fresh _ _ => intro _ h2; cases h2
  | told _ _ _ => intro h1; cases h1

theorem answers_pos {n : Nat} (hn : 1 ≤ n) {x : Slot} (ok : SlotOk n x) (hc : x.closed = false) (hd : x.down ≠ []) : 1 ≤ answers x.down := by
  cases e : x.down with
  | nil => exact absurd e hd
  | cons m d =>
    rw [answers_cons]
    have : m ≠ 0 := by
      rcases ok.vals m (by rw [e]; exact List.mem_cons_self) with g | g
      · omega
      · rw [hc] at g; cases g.2
    rw [if_neg this]; omega

theorem overdue_sec {n : Nat} (hn : 1 ≤ n) {x : Slot} {a : Nat} (ok : SlotOk n x) (h : Overdue x a) : Overdue (second x) (a + 1) := by
  unfold second
  split
  · next k c =>
    intro h1 h2
    have h1 : x.closed = false := h1
    have h2 : Up.ping ∈ x.up := h2
    have := h h1 h2
    rw [c] at this
    dsimp only at this
    have hp := ok.phase
    rw [Phase, c] at hp
    obtain ⟨q1, q2, q3⟩ : x.pings = x.replies + 1 ∧ 1 ≤ k ∧ k ≤ 2 * x.num := hp
    have hb := ok.book (by rw [c]; rfl)
    have hcnt : 1 ≤ x.up.count .ping := List.count_pos_iff.2 h2
    by_cases d : x.down ≠ [] ∨ x.closed = true ∨ k ≤ 1
    · dsimp only
      rw [if_pos d]
      dsimp only
      rcases d with d | d | d
      · have := answers_pos hn ok h1 d
        omega
      · rw [h1] at d; cases d
      · omega
    · dsimp only
      rw [if_neg d]
      dsimp only
      omega
  · next c =>
    intro h1 h2
    have := h h1 h2
    revert this
    split
    · next k e => exact absurd e (c k)
    · intro this; omega
    · exact id

theorem overdue_act {n : Nat} (hn : 1 ≤ n) {e : Ev} {i : Nat} {f : Slot → Slot} (ha : act e = some (i, f)) (hs : e ≠ .sec i) {x : Slot} {a : Nat} (ok : SlotOk n x) (h : Overdue x a) : Overdue (f x) a := by
  cases e <;> simp only [act, Option.some.injEq, Prod.mk.injEq, reduceCtorEq] at ha <;> obtain ⟨rfl, rfl⟩ := ha
  · unfold tellPid; split
    · exact fun _ _ => trivial
    · exact h
  · unfold comeUp; split
    · exact fun _ _ => trivial
    · exact h
  · unfold sendPing; split
    · split
      · exact fun _ _ => trivial
      · intro _ _
        dsimp only
        omega
    · exact h
  · exact absurd rfl hs
  · unfold receive; split
    · split
      · split
        · exact fun _ _ => trivial
        · exact h
      · intro _ _
        dsimp only
        split
        · next e => split at e <;> cases e
        · next e => split at e <;> cases e
        · trivial
    · exact h
  · unfold leave; split
    · exact fun _ _ => trivial
    · exact h
  · unfold leave; split
    · exact fun _ _ => trivial
    · exact h
  · unfold finish; split
    · exact fun _ _ => trivial
    · exact h
  · unfold kill; split
    · exact h
    · exact fun _ _ => trivial

theorem overdue_clock {n : Nat} (hn : 1 ≤ n) {i : Nat} {p : St × Nat} (iv : Inv n p.1) (h : ∀ x, p.1.slots[i]? = some x → Overdue x p.2) (e : Ev) :
    ∀ x, (clock n i p e).1.slots[i]? = some x → Overdue x (clock n i p e).2 := by
  intro x hx
  unfold clock at hx ⊢
  dsimp only at hx ⊢
  cases ha : act e with
  | none =>
    rcases act_none ha with ⟨f, rfl⟩ | rfl
    · rw [if_neg (by simp)]
      rw [show step n p.1 (.parent f) = parent n f p.1 from rfl] at hx
      cases hs : p.1.slots[i]? with
      | none =>
        rw [parent_new hs hx]
        intro _ g; cases g
      | some y =>
        obtain ⟨z, h1, h2⟩ := parent_change (n := n) (fail := f) hs
        rw [h1] at hx; cases hx
        by_cases hl : looks p.1 i (.parent f) = true
        · rw [if_pos hl]
          unfold looks at hl
          rw [hs] at hl
          simp only [Option.map_some, Option.some.injEq, Bool.and_eq_true, decide_eq_true_eq] at hl
          have hx0 : x.up = [] := by
            cases h2 with
            | same => exact hl.2
            | pid u b _ _ hu => rw [hl.2] at hu; cases hu
            | lost u b _ hu _ => rw [hl.2] at hu; cases hu
            | answered u b _ hu _ => rw [hl.2] at hu; cases hu
            | fresh _ _ => rfl
            | told hq _ _ => rw [hl.1] at hq; cases hq
          intro _ g
          rw [hx0] at g; cases g
        · rw [if_neg hl]
          by_cases hp : p.1.pc = .answer i
          · by_cases hd : ended y.child = true
            · intro h3 h4
              have : x.child = y.child := by
                cases h2 with
                | fresh hq _ => rw [hp] at hq; cases hq
                | _ => rfl
              cases hc : y.child <;> rw [hc] at hd <;> try cases hd
              rw [this, hc]
              trivial
            · have hu := up_le iv (by rw [hp]; rfl) hs (by rw [hp]; simp) (by simpa using hd)
              exact overdue_change (iv.ok i y hs) hn (h y hs) h2 (.inl hu)
          · exact overdue_change (iv.ok i y hs) hn (h y hs) h2 (.inr hp)
    · rw [interrupt_slots] at hx
      rw [if_neg (by simp), if_neg (by simp [looks])]
      exact h x hx
  | some q =>
    obtain ⟨j, f⟩ := q
    rw [step_act ha] at hx
    have hl : looks p.1 i e = false := by cases e <;> first | rfl | cases ha
    by_cases c : j = i
    · subst c
      obtain ⟨y, hy, rfl⟩ := onSlot_eq hx
      by_cases d : e = .sec j
      · subst d
        rw [if_pos rfl]
        simp only [act, Option.some.injEq, Prod.mk.injEq] at ha
        rw [← ha.2]
        exact overdue_sec hn (iv.ok j y hy) (h y hy)
      · rw [if_neg d, hl, if_neg (by simp)]
        exact overdue_act hn ha d (iv.ok j y hy) (h y hy)
    · rw [onSlot_ne c] at hx
      have d : e ≠ .sec i := by
        rintro rfl
        simp only [act, Option.some.injEq, Prod.mk.injEq] at ha
        exact c ha.1.symm
      rw [if_neg d, hl, if_neg (by simp)]
      exact h x hx

theorem clock_run {n : Nat} (hn : 1 ≤ n) {i : Nat} {p : St × Nat} (iv : Inv n p.1) (h : ∀ x, p.1.slots[i]? = some x → Overdue x p.2) (es : List Ev) :
    (es.foldl (clock n i) p).1 = run n p.1 es ∧ ∀ x, (es.foldl (clock n i) p).1.slots[i]? = some x → Overdue x (es.foldl (clock n i) p).2 := by
  induction es generalizing p with
  | nil => exact ⟨rfl, h⟩
  | cons e es ih =>
    have := ih (p := clock n i p e) (inv_step hn iv e) (overdue_clock hn iv h e)
    exact this

end Supervisor

/-- A worker stands still in `recv()` only if the parent has not looked at its pipe for `2 * n` seconds, or, in its first wait, for two seconds. -/
theorem C85_blocked_partial (n : Nat) (hn : 1 ≤ n) (es : List Ev) (i : Nat) (hb : blocked (run n {} es) i) :
    2 * n ≤ unseen n i es ∨ ∃ x, (run n {} es).slots[i]? = some x ∧ x.replies = 0 ∧ 2 ≤ unseen n i es := by
  obtain ⟨x, hx, h1, h2, h3⟩ := hb
  obtain ⟨e1, e2⟩ := clock_run hn (i := i) (p := ({}, 0)) (Inv.init n) (by simp) es
  have iv := inv_run hn (Inv.init n) es
  have ok := iv.ok i x hx
  have hp := ok.phase
  rw [Phase, h1] at hp
  have hp : x.pings = x.replies + 1 := hp
  have hbk := ok.book (by rw [h1]; rfl)
  rw [h2, answers_nil] at hbk
  have hm : Up.ping ∈ x.up := List.count_pos_iff.1 (by omega)
  have ho := e2 x (by rw [e1]; exact hx) h3 hm
  rw [h1] at ho
  have ho : 2 * x.num ≤ unseen n i es := ho
  have hnum := ok.num (by rw [h1]; rfl)
  by_cases c : x.replies = 0
  · right
    rw [if_pos c] at hnum
    exact ⟨x, hx, c, by omega⟩
  · left
    rw [if_neg c] at hnum
    omega

/-- Worker 0 of three, answered once, waits again, and the parent does not come back. -/
example : blocked (run 3 {} (three ++ [.parent false, .parent false, .parent false, .sec 0, .recv 0, .ping 0, .sec 0, .sec 0, .sec 0, .sec 0, .sec 0, .sec 0])) 0 ∧
    unseen 3 0 (three ++ [.parent false, .parent false, .parent false, .sec 0, .recv 0, .ping 0, .sec 0, .sec 0, .sec 0, .sec 0, .sec 0, .sec 0]) = 7 :=
  ⟨⟨_, rfl, by decide +kernel, by decide +kernel, by decide +kernel⟩, by decide +kernel⟩

/-- The first wait is too short: with three workers the parent, one second at each worker, comes to worker 2 after two seconds, and by then this
worker stands still. -/
theorem C85_refuted_start : ∃ es, blocked (run 3 {} es) 2 ∧ unseen 3 2 es = 2 ∧ .interrupt ∉ es ∧ (∀ e ∈ es, ends 2 e = false) :=
  ⟨three ++ [.parent false, .parent false, .parent false, .sec 0, .sec 1, .sec 2, .parent false, .parent false, .parent false, .sec 0, .sec 1, .sec 2],
    ⟨_, rfl, by decide +kernel, by decide +kernel, by decide +kernel⟩, by decide +kernel, by decide +kernel, by decide +kernel⟩

end Verif
