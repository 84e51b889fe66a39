import Verif.Model.Sockets
/-!
# C99: listening sockets
-/
namespace Verif
open Model.Sockets

namespace C99

def idOf : W → Option Nat
  | .making id _ => some id
  | .up id => some id
  | _ => none

def pid : P → Option Nat
  | .boot id _ => some id
  | .renew _ id _ => some id
  | _ => none

/-- The parent has not reached the place `j` for the first time. -/
def Later : P → Nat → Prop
  | .boot _ _, _ => True
  | .spawn k, j => k ≤ j
  | _, _ => False

theorem getset {ws : List W} {i : Nat} {w0 : W} (h : ws[i]? = some w0) (w : W) (j : Nat) : (ws.set i w)[j]? = if j = i then some w else ws[j]? := by
  have hi := (List.getElem?_eq_some_iff.1 h).1
  rw [List.getElem?_set]
  by_cases e : i = j
  · subst e; simp [hi]
  · rw [if_neg e, if_neg (fun h => e h.symm)]

/-- The processes use different sockets; the sockets that listen are those of the workers that are up. -/
structure Inv (s : St) : Prop where
  lt : ∀ (i : Nat) (w : W) (id : Nat), s.ws[i]? = some w → idOf w = some id → id < s.next
  inj : ∀ (i j : Nat) (w w' : W) (id : Nat), s.ws[i]? = some w → s.ws[j]? = some w' → idOf w = some id → idOf w' = some id → i = j
  par : ∀ id, pid s.parent = some id → id < s.next ∧ ∀ (i : Nat) (w : W), s.ws[i]? = some w → idOf w ≠ some id
  path : ∀ id, s.net.path = .sock id → id < s.next
  lis : ∀ id, id ∈ s.net.listening ↔ ∃ i : Nat, s.ws[i]? = some (.up id)
  later : ∀ (j : Nat) (w : W), Later s.parent j → s.ws[j]? = some w → w = .none
  ren : ∀ (i id : Nat) (pc : Pc), s.parent = .renew i id pc → s.ws[i]? = some (.dead false)

theorem inv_init (n : Nat) {p : Path} (hp : ∀ id, p ≠ .sock id) : Inv (init n p) := by
  have hn : ∀ (i : Nat) (w : W), (init n p).ws[i]? = some w → w = .none := fun i w h => by
    have := List.mem_of_getElem? h
    exact (List.mem_replicate.1 this).2
  refine ⟨fun i w id h1 h2 => ?_, fun i j w w' id h1 h2 h3 => ?_, fun id h => ?_, fun id h => absurd h (hp id), fun id => ?_, fun j w _ h => hn j w h, fun i id pc h => by cases h⟩
  · rw [hn i w h1] at h2; cases h2
  · rw [hn i w h1] at h3; cases h3
  · cases h
    refine ⟨Nat.lt_succ_self 0, fun i w h => ?_⟩
    rw [hn i w h]; exact fun h => by cases h
  · constructor
    · intro h; cases h
    · rintro ⟨i, h⟩; have := hn i _ h; cases this

theorem inv_set {s : St} (inv : Inv s) {i : Nat} {w0 w : W} (hi : s.ws[i]? = some w0) (hw : idOf w0 ≠ none) (hid : ∀ id, idOf w = some id → idOf w0 = some id) {net : Net}
    (hp : ∀ id, net.path = .sock id → id < s.next)
    (hl : ∀ id, id ∈ net.listening ↔ w = .up id ∨ ∃ j : Nat, j ≠ i ∧ s.ws[j]? = some (.up id)) : Inv { s with ws := s.ws.set i w, net := net } := by
  have hb : ∀ (j : Nat) (x : W) (id : Nat), (s.ws.set i w)[j]? = some x → idOf x = some id → ∃ y, s.ws[j]? = some y ∧ idOf y = some id := by
    intro j x id h1 h2
    rw [getset hi] at h1
    split at h1
    · next e => subst e; cases h1; exact ⟨w0, hi, hid _ h2⟩
    · exact ⟨x, h1, h2⟩
  refine ⟨fun j x id h1 h2 => ?_, fun j k x y id h1 h2 h3 h4 => ?_, fun id h => ?_, hp, fun id => ?_, fun j x hl h => ?_, fun j id pc h => ?_⟩
  · obtain ⟨y, a, b⟩ := hb j x id h1 h2
    exact inv.lt j y id a b
  · obtain ⟨a, a1, a2⟩ := hb j x id h1 h3
    obtain ⟨b, b1, b2⟩ := hb k y id h2 h4
    exact inv.inj j k a b id a1 b1 a2 b2
  · refine ⟨(inv.par id h).1, fun j x h1 h2 => ?_⟩
    obtain ⟨y, a, b⟩ := hb j x id h1 h2
    exact (inv.par id h).2 j y a b
  · show id ∈ net.listening ↔ ∃ j : Nat, (s.ws.set i w)[j]? = some (.up id)
    rw [hl]
    constructor
    · rintro (rfl | ⟨j, h1, h2⟩)
      · exact ⟨i, by rw [getset hi, if_pos rfl]⟩
      · exact ⟨j, by rw [getset hi, if_neg h1, h2]⟩
    · rintro ⟨j, h⟩
      rw [getset hi] at h
      split at h
      · cases h; exact .inl rfl
      · next e => exact .inr ⟨j, e, h⟩
  · rw [getset hi] at h
    split at h
    · next e => subst e; exact absurd (by rw [inv.later j w0 hl hi]; rfl) hw
    · exact inv.later j x hl h
  · show (s.ws.set i w)[j]? = _
    have := inv.ren j id pc h
    rw [getset hi, if_neg, this]
    rintro rfl
    rw [this] at hi; cases hi; exact hw rfl

theorem inv_start {s : St} (inv : Inv s) {i : Nat} {w0 : W} (hi : s.ws[i]? = some w0) (hn : ∀ id, w0 ≠ .up id) {p : P}
    (hp : ∀ id, pid p ≠ some id) (hlat : ∀ j, Later p j → j ≠ i ∧ Later s.parent j) : Inv { start s i with parent := p } := by
  have hb : ∀ (j : Nat) (x : W) (id : Nat), (s.ws.set i (.making s.next (.bind 0)))[j]? = some x → idOf x = some id →
      (j = i ∧ id = s.next) ∨ s.ws[j]? = some x := by
    intro j x id h1 h2
    rw [getset hi] at h1
    split at h1
    · next e => subst e; cases h1; cases h2; exact .inl ⟨rfl, rfl⟩
    · exact .inr h1
  refine ⟨fun j x id h1 h2 => ?_, fun j k x y id h1 h2 h3 h4 => ?_, fun id h => absurd h (hp id), fun id h => ?_, fun id => ?_, fun j x hl h => ?_, fun j id pc h => ?_⟩
  · show id < s.next + 1
    rcases hb j x id h1 h2 with ⟨_, rfl⟩ | h
    · exact Nat.lt_succ_self _
    · exact Nat.lt_succ_of_lt (inv.lt j x id h h2)
  · rcases hb j x id h1 h3 with ⟨e1, e2⟩ | a <;> rcases hb k y id h2 h4 with ⟨f1, f2⟩ | b
    · exact e1.trans f1.symm
    · have := inv.lt k y id b h4; omega
    · have := inv.lt j x id a h3; omega
    · exact inv.inj j k x y id a b h3 h4
  · exact Nat.lt_succ_of_lt (inv.path id h)
  · show id ∈ s.net.listening ↔ ∃ j : Nat, (s.ws.set i _)[j]? = some (.up id)
    rw [inv.lis]
    constructor
    · rintro ⟨j, h⟩
      refine ⟨j, ?_⟩
      rw [getset hi, if_neg, h]
      rintro rfl
      rw [hi] at h; cases h; exact hn id rfl
    · rintro ⟨j, h⟩
      rw [getset hi] at h
      split at h
      · cases h
      · exact ⟨j, h⟩
  · have h' : (s.ws.set i (.making s.next (.bind 0)))[j]? = some x := h
    rw [getset hi, if_neg (hlat j hl).1] at h'
    exact inv.later j x (hlat j hl).2 h'
  · have h' : p = .renew j id pc := h
    exact absurd (by rw [h']; rfl) (hp id)

theorem inv_parent {s : St} (inv : Inv s) {p : P} (hp : ∀ id, pid p = some id → pid s.parent = some id)
    (hl : ∀ j, Later p j → Later s.parent j) (hr : ∀ i id pc, p = .renew i id pc → ∃ pc', s.parent = .renew i id pc') {net : Net}
    (hn : ∀ id, net.path = .sock id → id < s.next) (hl2 : net.listening = s.net.listening) : Inv { s with parent := p, net := net } :=
  ⟨inv.lt, inv.inj, fun id h => inv.par id (hp id h), hn, fun id => (by show id ∈ net.listening ↔ _; rw [hl2]; exact inv.lis id),
    fun j w h1 h2 => inv.later j w (hl j h1) h2, fun i id pc h => (by obtain ⟨pc', h'⟩ := hr i id pc h; exact inv.ren i id pc' h')⟩

theorem call_listening (kind : Kind) (id : Nat) (pc : Pc) (net : Net) : (call kind id pc net).2.listening = net.listening := by
  unfold call
  cases pc <;> dsimp only
  · cases kind <;> dsimp only <;> split <;> rfl
  · split <;> rfl
  · split <;> rfl
  · split <;> rfl

theorem call_path {kind : Kind} {id : Nat} {pc : Pc} {net : Net} {x : Nat} (h : (call kind id pc net).2.path = .sock x) : x = id ∨ net.path = .sock x := by
  unfold call at h
  cases pc <;> dsimp only at h
  · cases kind <;> dsimp only at h <;> split at h
    · exact .inr h
    · exact .inr h
    · cases h; exact .inl rfl
    · exact .inr h
  · split at h <;> exact .inr h
  · split at h <;> exact .inr h
  · split at h
    · exact .inr h
    · cases h
  · exact .inr h
  · exact .inr h

theorem start_eq (s : St) (i : Nat) : start s i = { start s i with parent := s.parent } := rfl


theorem inv_step {kind : Kind} {s : St} (inv : Inv s) (e : Ev) : Inv (step kind s e) := by
  have cp : ∀ {id pc}, id < s.next → ∀ x, (call kind id pc s.net).2.path = .sock x → x < s.next := fun {id pc} hid x h => by
    rcases call_path h with rfl | h
    · exact hid
    · exact inv.path x h
  cases e with
  | parent =>
    dsimp only [step]
    split
    · next id b hp => exact inv_parent inv (by intro _ h; cases h) (fun _ _ => by rw [hp]; trivial) (fun _ _ _ h => by cases h) inv.path rfl
    · next id hp => exact inv_parent inv (by intro _ h; cases h) (by intro _ h; exact h.elim) (fun _ _ _ h => by cases h) inv.path rfl
    · next id pc _ _ hp =>
      exact inv_parent inv (fun _ h => by rw [hp]; exact h) (fun _ _ => by rw [hp]; trivial) (fun _ _ _ h => by cases h)
        (cp (inv.par id (by rw [hp]; rfl)).1) (call_listening _ _ _ _)
    · next i hp =>
      split
      · next hi =>
        obtain ⟨w0, h0⟩ : ∃ w0, s.ws[i]? = some w0 := ⟨_, List.getElem?_eq_getElem hi⟩
        have := inv.later i w0 (by rw [hp]; exact Nat.le_refl i) h0
        refine inv_start inv h0 (fun id h => by rw [this] at h; cases h) (by intro _ h; cases h) (fun j h => ?_)
        have h' : i + 1 ≤ j := h
        refine ⟨by omega, ?_⟩
        rw [hp]; show i ≤ j; omega
      · exact inv_parent inv (by intro _ h; cases h) (by intro _ h; exact h.elim) (fun _ _ _ h => by cases h) inv.path rfl
    · next i id b hp =>
      exact inv_start inv (inv.ren i id _ hp) (by intro _ h; cases h) (by intro _ h; cases h) (by intro _ h; exact h.elim)
    · exact inv_parent inv (by intro _ h; cases h) (by intro _ h; exact h.elim) (fun _ _ _ h => by cases h) inv.path rfl
    · next i id pc _ _ hp =>
      exact inv_parent inv (fun _ h => by rw [hp]; exact h) (by intro _ h; exact h.elim) (fun i' id' pc' h => by cases h; exact ⟨pc, hp⟩)
        (cp (inv.par id (by rw [hp]; rfl)).1) (call_listening _ _ _ _)
    · exact inv
  | worker i =>
    dsimp only [step]
    split
    · next id b h0 =>
      have hno : ∀ x : Nat, s.ws[i]? ≠ some (.up x) := fun x h => by rw [h0] at h; cases h
      split
      · refine inv_set inv h0 (by simp [idOf]) (by intro x h; exact h) inv.path (fun x => ?_)
        show x ∈ id :: s.net.listening ↔ _
        rw [List.mem_cons, inv.lis]
        constructor
        · rintro (rfl | ⟨j, hj⟩)
          · exact .inl rfl
          · exact .inr ⟨j, fun e => hno x (e ▸ hj), hj⟩
        · rintro (h | ⟨j, _, hj⟩)
          · cases h; exact .inl rfl
          · exact .inr ⟨j, hj⟩
      · refine inv_set inv h0 (by simp [idOf]) (by intro x h; cases h) inv.path (fun x => ?_)
        rw [inv.lis]
        constructor
        · rintro ⟨j, hj⟩; exact .inr ⟨j, fun e => hno x (e ▸ hj), hj⟩
        · rintro (h | ⟨j, _, hj⟩)
          · cases h
          · exact ⟨j, hj⟩
    · next id h0 =>
      refine inv_set inv h0 (by simp [idOf]) (by intro x h; cases h) inv.path (fun x => ?_)
      rw [inv.lis]
      constructor
      · rintro ⟨j, hj⟩; exact .inr ⟨j, fun e => (by subst e; rw [h0] at hj; cases hj), hj⟩
      · rintro (h | ⟨j, _, hj⟩)
        · cases h
        · exact ⟨j, hj⟩
    · next id pc _ _ h0 =>
      refine inv_set inv h0 (by simp [idOf]) (by intro x h; exact h) (cp (inv.lt i _ id h0 rfl)) (fun x => ?_)
      rw [call_listening, inv.lis]
      constructor
      · rintro ⟨j, hj⟩; exact .inr ⟨j, fun e => (by subst e; rw [h0] at hj; cases hj), hj⟩
      · rintro (h | ⟨j, _, hj⟩)
        · cases h
        · exact ⟨j, hj⟩
    · exact inv
  | die i clean =>
    dsimp only [step]
    split
    · next id pc h0 =>
      refine inv_set inv h0 (by simp [idOf]) (by intro x h; cases h) inv.path (fun x => ?_)
      rw [inv.lis]
      constructor
      · rintro ⟨j, hj⟩; exact .inr ⟨j, fun e => (by subst e; rw [h0] at hj; cases hj), hj⟩
      · rintro (h | ⟨j, _, hj⟩)
        · cases h
        · exact ⟨j, hj⟩
    · next id h0 =>
      refine inv_set inv h0 (by simp [idOf]) (by intro x h; cases h) inv.path (fun x => ?_)
      show x ∈ s.net.listening.filter (· ≠ id) ↔ _
      rw [List.mem_filter, inv.lis]
      constructor
      · rintro ⟨⟨j, hj⟩, hx⟩
        refine .inr ⟨j, fun e => ?_, hj⟩
        subst e
        rw [h0] at hj; cases hj; simp at hx
      · rintro (h | ⟨j, h1, hj⟩)
        · cases h
        · refine ⟨⟨j, hj⟩, ?_⟩
          simp only [ne_eq, decide_not, Bool.not_eq_eq_eq_not, Bool.not_true, decide_eq_false_iff_not]
          rintro rfl
          exact h1 (inv.inj j i _ _ x hj h0 rfl rfl)
    · exact inv
  | visit i =>
    dsimp only [step]
    split
    · next hp h0 =>
      rw [start_eq]
      exact inv_start inv h0 (by intro _ h; cases h) (fun _ h => by rw [hp] at h; cases h) (fun _ h => by rw [hp] at h; exact h.elim)
    · next hp h0 =>
      refine ⟨fun j w id h1 h2 => Nat.lt_succ_of_lt (inv.lt j w id h1 h2), inv.inj, fun id h => ?_, fun id h => Nat.lt_succ_of_lt (inv.path id h), inv.lis,
        fun j w h => h.elim, fun j id pc h => ?_⟩
      · cases h
        exact ⟨Nat.lt_succ_self _, fun j w h1 h2 => Nat.lt_irrefl _ (inv.lt j w _ h1 h2)⟩
      · cases h; exact h0
    · exact inv

theorem inv_run {kind : Kind} {n : Nat} {p : Path} (hp : ∀ id, p ≠ .sock id) (es : List Ev) : Inv (run kind (init n p) es) := by
  induction es using snocInd with
  | h0 => exact inv_init n hp
  | h1 es e ih => unfold run at *; rw [List.foldl_append]; exact inv_step ih e

end C99

open C99

/-- Connections reach worker `i`: it listens, on the port or at the path. -/
def Reached (kind : Kind) (s : St) (i : Nat) : Prop :=
  ∃ id, s.ws[i]? = some (.up id) ∧ id ∈ s.net.listening ∧ (kind = .unix → s.net.path = .sock id)

/-! ## A worker that listens -/

namespace C99

theorem run_snoc (kind : Kind) (s : St) (es : List Ev) (e : Ev) : run kind s (es ++ [e]) = step kind (run kind s es) e := by
  unfold run; rw [List.foldl_append]; rfl

theorem run_app (kind : Kind) (s : St) (es fs : List Ev) : run kind s (es ++ fs) = run kind (run kind s es) fs := by
  unfold run; rw [List.foldl_append]

theorem inv_from {kind : Kind} {s : St} (inv : Inv s) (es : List Ev) : Inv (run kind s es) := by
  induction es using snocInd with
  | h0 => exact inv
  | h1 es e ih => rw [run_snoc]; exact inv_step ih e

theorem start_other {s : St} {i j : Nat} {w0 : W} (hi : s.ws[i]? = some w0) (hj : j ≠ i) : (start s i).ws[j]? = s.ws[j]? := by
  show (s.ws.set i _)[j]? = _
  rw [getset hi, if_neg hj]

/-- Only its end changes a worker that is up. -/
theorem up_step {kind : Kind} {s : St} (inv : Inv s) {i id : Nat} (hu : s.ws[i]? = some (.up id)) {e : Ev} (he : ∀ b, e ≠ .die i b) :
    (step kind s e).ws[i]? = some (.up id) := by
  cases e with
  | parent =>
    dsimp only [step]
    split
    all_goals first
      | exact hu
      | skip
    · next k hp =>
      split
      · next hk =>
        obtain ⟨w0, h0⟩ : ∃ w0, s.ws[k]? = some w0 := ⟨_, List.getElem?_eq_getElem hk⟩
        have := inv.later k w0 (by rw [hp]; exact Nat.le_refl k) h0
        have hne : i ≠ k := by
          rintro rfl
          rw [hu] at h0; cases h0; cases this
        exact (start_other h0 hne).trans hu
      · exact hu
    · next k id' b hp =>
      have h0 := inv.ren k id' _ hp
      have hne : i ≠ k := by
        rintro rfl
        rw [hu] at h0; cases h0
      exact (start_other h0 hne).trans hu
  | worker j =>
    dsimp only [step]
    have hne : ∀ {x pc}, s.ws[j]? = some (.making x pc) → i ≠ j := by
      intro x pc h h'
      rw [← h', hu] at h; cases h
    split
    · next h0 =>
      split
      · show (s.ws.set j _)[i]? = _
        rw [getset h0, if_neg (hne h0), hu]
      · show (s.ws.set j _)[i]? = _
        rw [getset h0, if_neg (hne h0), hu]
    · next h0 =>
      show (s.ws.set j _)[i]? = _
      rw [getset h0, if_neg (hne h0), hu]
    · next h0 =>
      show (s.ws.set j _)[i]? = _
      rw [getset h0, if_neg (hne h0), hu]
    · exact hu
  | die j b =>
    have hne : i ≠ j := fun h => he b (by rw [h])
    dsimp only [step]
    split
    · next h0 =>
      show (s.ws.set j _)[i]? = _
      rw [getset h0, if_neg hne, hu]
    · next h0 =>
      show (s.ws.set j _)[i]? = _
      rw [getset h0, if_neg hne, hu]
    · exact hu
  | visit j =>
    dsimp only [step]
    split
    · next hp h0 =>
      have hne : i ≠ j := by
        rintro rfl
        rw [hu] at h0; cases h0
      exact (start_other h0 hne).trans hu
    · exact hu
    · exact hu

theorem up_run {kind : Kind} {s : St} (inv : Inv s) {i id : Nat} (hu : s.ws[i]? = some (.up id)) {es : List Ev} (he : ∀ b, Ev.die i b ∉ es) :
    (run kind s es).ws[i]? = some (.up id) := by
  induction es using snocInd with
  | h0 => exact hu
  | h1 es e ih =>
    rw [run_snoc]
    exact up_step (inv_from inv es) (ih (fun b h => he b (by simp [h]))) (fun b h => he b (by simp [h]))

/-! ## TCP -/

/-- `create_sock` of a TCP socket has not failed. -/
def Good (pc : Pc) : Prop := pc = .bind 0 ∨ pc = .made true

structure Tcp (s : St) : Prop where
  alive : s.parent ≠ .crashed
  boot : ∀ id pc, s.parent = .boot id pc → Good pc
  renew : ∀ i id pc, s.parent = .renew i id pc → Good pc
  work : ∀ (i id : Nat) pc, s.ws[i]? = some (.making id pc) → Good pc

theorem call_good {r : Bool} {id : Nat} {pc : Pc} {net : Net} (hg : Good pc) (hf : free r net = true) :
    (call (.tcp r) id pc net) = (.made true, net) := by
  rcases hg with rfl | rfl
  · show (if free r net = true then _ else _) = _
    rw [if_pos hf]
  · rfl

theorem free_of {s : St} (inv : Inv s) {r : Bool} (hr : r = true ∨ ∀ (j id : Nat), s.ws[j]? ≠ some (.up id)) : free r s.net = true := by
  rcases hr with rfl | h
  · rfl
  · have : s.net.listening = [] := by
      rw [List.eq_nil_iff_forall_not_mem]
      intro x hx
      obtain ⟨i, hi⟩ := (inv.lis x).1 hx
      exact h i x hi
    simp [free, this]

theorem lone {s : St} (hl : s.ws.length ≤ 1) {i : Nat} {w : W} (hi : s.ws[i]? = some w) (hw : ∀ id, w ≠ .up id) (j id : Nat) : s.ws[j]? ≠ some (.up id) := by
  intro h
  have h1 := (List.getElem?_eq_some_iff.1 hi).1
  have h2 := (List.getElem?_eq_some_iff.1 h).1
  have : i = j := by omega
  subst this
  rw [hi] at h
  exact hw id (Option.some.inj h)

theorem len_step (kind : Kind) (s : St) (e : Ev) : (step kind s e).ws.length = s.ws.length := by
  cases e <;> dsimp only [step] <;> split <;> (try split) <;> simp [start]

theorem len_run (kind : Kind) (s : St) (es : List Ev) : (run kind s es).ws.length = s.ws.length := by
  induction es using snocInd with
  | h0 => rfl
  | h1 es e ih => rw [run_snoc, len_step, ih]

theorem tcp_step {r : Bool} {s : St} (inv : Inv s) (t : Tcp s) (hr : r = true ∨ s.ws.length ≤ 1) (e : Ev) : Tcp (step (.tcp r) s e) := by
  have g0 : Good (.bind 0) := .inl rfl
  have g1 : Good (.made true) := .inr rfl
  have fslot : ∀ {i : Nat} {w : W}, s.ws[i]? = some w → (∀ id, w ≠ .up id) → free r s.net = true := fun {i w} h1 h2 =>
    free_of inv (hr.imp_right (fun hl => lone hl h1 h2))
  have wset : ∀ {i : Nat} {w0 w : W}, s.ws[i]? = some w0 → (∀ id pc, w = .making id pc → Good pc) →
      ∀ (j id : Nat) pc, (s.ws.set i w)[j]? = some (.making id pc) → Good pc := by
    intro i w0 w h0 hw j id pc h
    rw [getset h0] at h
    split at h
    · exact hw id pc (Option.some.inj h)
    · exact t.work j id pc h
  cases e with
  | parent =>
    dsimp only [step]
    split
    · exact ⟨fun h => (by cases h), fun _ _ h => (by cases h), fun _ _ _ h => (by cases h), t.work⟩
    · next id hp => have := t.boot id _ hp; rcases this with h | h <;> cases h
    · next id pc _ _ hp =>
      have hf : free r s.net = true := free_of inv (.inr (fun j x h => by
        have := inv.later j _ (by rw [hp]; trivial) h; cases this))
      rw [call_good (t.boot id pc hp) hf]
      exact ⟨fun h => (by cases h), fun _ _ h => (by cases h; exact g1), fun _ _ _ h => (by cases h), t.work⟩
    · next i hp =>
      split
      · next hi =>
        exact ⟨fun h => (by cases h), fun _ _ h => (by cases h), fun _ _ _ h => (by cases h),
          wset (List.getElem?_eq_getElem hi) (fun _ _ h => by cases h; exact g0)⟩
      · exact ⟨fun h => (by cases h), fun _ _ h => (by cases h), fun _ _ _ h => (by cases h), t.work⟩
    · next i id b hp =>
      exact ⟨fun h => (by cases h), fun _ _ h => (by cases h), fun _ _ _ h => (by cases h), wset (inv.ren i id _ hp) (fun _ _ h => by cases h; exact g0)⟩
    · next i id hp => have := t.renew i id _ hp; rcases this with h | h <;> cases h
    · next i id pc _ _ hp =>
      have hf : free r s.net = true := fslot (inv.ren i id _ hp) (fun _ h => by cases h)
      rw [call_good (t.renew i id pc hp) hf]
      exact ⟨fun h => (by cases h), fun _ _ h => (by cases h), fun _ _ _ h => (by cases h; exact g1), t.work⟩
    · exact t
  | worker i =>
    dsimp only [step]
    split
    · next id b h0 =>
      split
      · exact ⟨t.alive, t.boot, t.renew, wset h0 (fun _ _ h => by cases h)⟩
      · exact ⟨t.alive, t.boot, t.renew, wset h0 (fun _ _ h => by cases h)⟩
    · exact ⟨t.alive, t.boot, t.renew, wset (by assumption) (fun _ _ h => by cases h)⟩
    · next id pc _ _ h0 =>
      have hf : free r s.net = true := fslot h0 (fun _ h => by cases h)
      rw [call_good (t.work i id pc h0) hf]
      exact ⟨t.alive, t.boot, t.renew, wset h0 (fun _ _ h => by cases h; exact g1)⟩
    · exact t
  | die i b =>
    dsimp only [step]
    split
    · exact ⟨t.alive, t.boot, t.renew, wset (by assumption) (fun _ _ h => by cases h)⟩
    · exact ⟨t.alive, t.boot, t.renew, wset (by assumption) (fun _ _ h => by cases h)⟩
    · exact t
  | visit i =>
    dsimp only [step]
    split
    · next hp h0 => exact ⟨t.alive, t.boot, t.renew, wset h0 (fun _ _ h => by cases h; exact g0)⟩
    · exact ⟨fun h => (by cases h), fun _ _ h => (by cases h), fun _ _ _ h => (by cases h; exact g0), t.work⟩
    · exact t

theorem tcp_init (n : Nat) (p : Path) : Tcp (init n p) := by
  refine ⟨fun h => (by cases h), fun _ _ h => (by cases h; exact .inl rfl), fun _ _ _ h => (by cases h), fun i id pc h => ?_⟩
  have := (List.mem_replicate.1 (List.mem_of_getElem? h)).2
  cases this

theorem tcp_run {r : Bool} {n : Nat} (hr : r = true ∨ n ≤ 1) (es : List Ev) : Tcp (run (.tcp r) (init n .absent) es) := by
  induction es using snocInd with
  | h0 => exact tcp_init n _
  | h1 es e ih =>
    rw [run_snoc]
    refine tcp_step (inv_run (fun _ h => by cases h) es) ih (hr.imp_right fun h => ?_) e
    rw [len_run]; simpa [init] using h

end C99

/-- **C99 (TCP).** With `reuse_port`, any number of workers, and in every history of starts, ends and restarts: creating the socket
never fails, in the parent or in a worker, and a worker that is started listens after its two system calls. The same holds
without `reuse_port` for one worker. -/
theorem C99_tcp {r : Bool} {n : Nat} (hr : r = true ∨ n ≤ 1) (es : List Ev) :
    (run (.tcp r) (init n .absent) es).parent ≠ .crashed ∧
    ∀ (i id : Nat) pc, (run (.tcp r) (init n .absent) es).ws[i]? = some (.making id pc) →
      ∃ m, m ≤ 2 ∧ Reached (.tcp r) (run (.tcp r) (init n .absent) (es ++ List.replicate m (.worker i))) i := by
  have t := tcp_run hr es
  have inv := inv_run (kind := .tcp r) (n := n) (p := .absent) (fun _ h => by cases h) es
  refine ⟨t.alive, fun i id pc h => ?_⟩
  have hl : r = true ∨ (run (.tcp r) (init n .absent) es).ws.length ≤ 1 := hr.imp_right fun h => by rw [len_run]; simpa [init] using h
  have hf : free r (run (.tcp r) (init n .absent) es).net = true := free_of inv (hl.imp_right (fun hl => lone hl h (fun _ h => by cases h)))
  generalize hs : run (.tcp r) (init n .absent) es = s at *
  have last : ∀ s : St, s.ws[i]? = some (.making id (.made true)) → free r s.net = true → Reached (.tcp r) (step (.tcp r) s (.worker i)) i := by
    intro s h hf
    have : step (.tcp r) s (.worker i) = { s with ws := s.ws.set i (.up id), net := { s.net with listening := id :: s.net.listening } } := by
      dsimp only [step]; rw [h]; dsimp only; rw [if_pos (show listens (.tcp r) true s.net = true from hf)]
    rw [this]
    exact ⟨id, by show (s.ws.set i _)[i]? = _; rw [getset h, if_pos rfl], List.mem_cons_self, fun h => by cases h⟩
  rcases t.work i id pc h with rfl | rfl
  · refine ⟨2, Nat.le_refl _, ?_⟩
    rw [run_app, hs]
    show Reached _ (step (.tcp r) (step (.tcp r) s (.worker i)) (.worker i)) i
    have e1 : step (.tcp r) s (.worker i) = { s with ws := s.ws.set i (.making id (.made true)), net := s.net } := by
      dsimp only [step]; rw [h]; dsimp only; rw [call_good (.inl rfl) hf]
    rw [e1]
    exact last _ (by show (s.ws.set i _)[i]? = _; rw [getset h, if_pos rfl]) hf
  · refine ⟨1, by omega, ?_⟩
    rw [run_app, hs]
    exact last s h hf

/-- A worker that is reached stays so until it ends (TCP). -/
theorem C99_tcp_stays {r : Bool} {n : Nat} {es fs : List Ev} {i : Nat} (h : Reached (.tcp r) (run (.tcp r) (init n .absent) es) i) (hd : ∀ b, Ev.die i b ∉ fs) :
    Reached (.tcp r) (run (.tcp r) (init n .absent) (es ++ fs)) i := by
  obtain ⟨id, h1, _, _⟩ := h
  have inv := inv_run (kind := .tcp r) (n := n) (p := .absent) (fun _ h => by cases h) es
  have := up_run (kind := .tcp r) inv h1 hd
  rw [← run_app] at this
  exact ⟨id, this, ((inv_run (fun _ h => by cases h) (es ++ fs)).lis id).2 ⟨i, this⟩, fun h => by cases h⟩

namespace C99

theorem excl_step {s : St} (h : s.net.listening.length ≤ 1) (e : Ev) : (step (.tcp false) s e).net.listening.length ≤ 1 := by
  cases e with
  | parent =>
    dsimp only [step]
    split
    all_goals first
      | exact h
      | (rw [call_listening]; exact h)
      | (split <;> exact h)
  | worker i =>
    dsimp only [step]
    split
    · split
      · next hl =>
        have : s.net.listening = [] := by simpa [listens, free] using hl
        show (_ :: s.net.listening).length ≤ 1
        rw [this]; exact Nat.le_refl 1
      · exact h
    · exact h
    · rw [call_listening]; exact h
    · exact h
  | die i b =>
    dsimp only [step]
    split
    · exact h
    · exact Nat.le_trans (List.length_filter_le _ _) h
    · exact h
  | visit i =>
    dsimp only [step]
    split <;> exact h

theorem excl_run (n : Nat) (es : List Ev) : (run (.tcp false) (init n .absent) es).net.listening.length ≤ 1 := by
  induction es using snocInd with
  | h0 => exact Nat.zero_le 1
  | h1 es e ih => rw [run_snoc]; exact excl_step ih e

end C99

/-- Without `reuse_port` at most one worker listens at any time. -/
theorem C99_exclusive {n : Nat} (es : List Ev) {i j : Nat} (hi : Reached (.tcp false) (run (.tcp false) (init n .absent) es) i)
    (hj : Reached (.tcp false) (run (.tcp false) (init n .absent) es) j) : i = j := by
  have key := excl_run n es
  obtain ⟨a, a1, a2, _⟩ := hi
  obtain ⟨b, b1, b2, _⟩ := hj
  have : a = b := by
    generalize (run (.tcp false) (init n .absent) es).net.listening = l at key a2 b2
    match l, key with
    | [], _ => cases a2
    | [x], _ => rw [List.mem_singleton.1 a2, List.mem_singleton.1 b2]
    | _ :: _ :: _, h => simp at h
  subst this
  exact (inv_run (kind := .tcp false) (n := n) (p := .absent) (fun _ h => by cases h) es).inj i j _ _ a a1 b1 rfl rfl

/-- **C99 fails** without `reuse_port` for two workers: the second one dies since the first listens, and then the renewal of the
socket ends the parent with the same error. -/
theorem C99_refuted_exclusive : (run (.tcp false) (init 2 .absent)
    [.parent, .parent, .parent, .worker 0, .worker 0, .parent, .parent, .worker 1, .worker 1, .visit 1, .parent, .parent]).parent = .crashed := by decide +kernel

example : Reached (.tcp true) (run (.tcp true) (init 2 .absent) [.parent, .parent, .parent, .worker 0, .parent, .worker 0, .worker 1, .worker 1]) 0 ∧
    Reached (.tcp true) (run (.tcp true) (init 2 .absent) [.parent, .parent, .parent, .worker 0, .parent, .worker 0, .worker 1, .worker 1]) 1 :=
  ⟨⟨1, by decide +kernel, by decide +kernel, fun h => (by cases h)⟩, ⟨2, by decide +kernel, by decide +kernel, fun h => (by cases h)⟩⟩

/-! ## Unix sockets -/

namespace C99

/-- Where `create_sock` is and what is at the path, when no other process touches the path meanwhile. -/
def Ok (id : Nat) : Pc → Path → Prop
  | .bind 0, _ => True
  | .bind 1, p => p = .absent
  | .exist 0, p => p ≠ .absent
  | .stat 0, p => p ≠ .absent
  | .unlink 0, p => p ≠ .absent
  | .made true, p => p = .sock id
  | _, _ => False

/-- The path is free, or what is there has size 0. -/
def Light (p : Path) : Prop := ∀ k, p ≠ .file (k + 1)

/-- How many system calls are left until the worker listens. -/
def rank : Pc → Nat
  | .bind 0 => 6
  | .exist _ => 5
  | .stat _ => 4
  | .unlink _ => 3
  | .bind _ => 2
  | _ => 1

theorem call_ok {id : Nat} {pc : Pc} {net : Net} (hl : Light net.path) (ho : Ok id pc net.path) :
    Ok id (call .unix id pc net).1 (call .unix id pc net).2.path ∧ Light (call .unix id pc net).2.path ∧
    (pc ≠ .made true → rank (call .unix id pc net).1 < rank pc) := by
  unfold call
  match pc, ho with
  | .bind 0, _ =>
    dsimp only
    split
    · exact ⟨rfl, fun k h => (by cases h), fun _ => (by simp [rank])⟩
    · next h => exact ⟨h, hl, fun _ => (by simp [rank])⟩
  | .bind 1, ho =>
    have ho' : net.path = .absent := ho
    dsimp only
    rw [if_pos ho']
    exact ⟨rfl, fun k h => (by cases h), fun _ => (by simp [rank])⟩
  | .exist 0, ho =>
    have ho' : net.path ≠ .absent := ho
    dsimp only
    rw [if_neg ho']
    exact ⟨ho', hl, fun _ => (by simp [rank])⟩
  | .stat 0, ho =>
    have ho' : net.path ≠ .absent := ho
    dsimp only
    split
    · next h => exact absurd h ho'
    · exact ⟨ho', hl, fun _ => (by simp [rank])⟩
    · exact ⟨ho', hl, fun _ => (by simp [rank])⟩
    · next k h => exact absurd h (hl k)
  | .unlink 0, ho =>
    have ho' : net.path ≠ .absent := ho
    dsimp only
    split
    · next h => exact absurd h ho'
    · exact ⟨rfl, fun k h => (by cases h), fun _ => (by simp [rank, again])⟩
  | .made true, ho => exact ⟨ho, hl, fun h => absurd rfl h⟩

structure Unix1 (s : St) : Prop where
  alive : s.parent ≠ .crashed
  light : Light s.net.path
  boot : ∀ id pc, s.parent = .boot id pc → Ok id pc s.net.path
  renew : ∀ i id pc, s.parent = .renew i id pc → Ok id pc s.net.path
  work : ∀ (i id : Nat) pc, s.ws[i]? = some (.making id pc) → Ok id pc s.net.path
  up : ∀ (i id : Nat), s.ws[i]? = some (.up id) → s.net.path = .sock id

theorem one {s : St} (hl : s.ws.length ≤ 1) {i j : Nat} {w w' : W} (hi : s.ws[i]? = some w) (hj : s.ws[j]? = some w') : i = j := by
  have h1 := (List.getElem?_eq_some_iff.1 hi).1
  have h2 := (List.getElem?_eq_some_iff.1 hj).1
  omega

theorem unix_step {s : St} (inv : Inv s) (u : Unix1 s) (hl : s.ws.length ≤ 1) (e : Ev) : Unix1 (step .unix s e) := by
  have w1 : ∀ {i : Nat} {w0 w : W}, s.ws[i]? = some w0 → ∀ (j : Nat) (x : W), (s.ws.set i w)[j]? = some x → x = w := by
    intro i w0 w h0 j x h
    rw [getset h0] at h
    split at h
    · exact (Option.some.inj h).symm
    · next hne => exact absurd (one hl h h0) hne
  cases e with
  | parent =>
    dsimp only [step]
    split
    · exact ⟨fun h => (by cases h), u.light, fun _ _ h => (by cases h), fun _ _ _ h => (by cases h), u.work, u.up⟩
    · next id hp => exact (u.boot id _ hp).elim
    · next id pc _ _ hp =>
      obtain ⟨c1, c2, _⟩ := call_ok u.light (u.boot id pc hp)
      have hn : ∀ (j : Nat) (w : W), s.ws[j]? = some w → w = .none := fun j w => inv.later j w (by rw [hp]; trivial)
      exact ⟨fun h => (by cases h), c2, fun _ _ h => (by cases h; exact c1), fun _ _ _ h => (by cases h),
        fun j x pc' h => (by cases hn j _ h), fun j x h => (by cases hn j _ h)⟩
    · next i hp =>
      split
      · next hi =>
        have h0 := List.getElem?_eq_getElem hi
        exact ⟨fun h => (by cases h), u.light, fun _ _ h => (by cases h), fun _ _ _ h => (by cases h),
          fun j x pc h => (by cases w1 h0 j _ h; trivial), fun j x h => (by cases w1 h0 j _ h)⟩
      · exact ⟨fun h => (by cases h), u.light, fun _ _ h => (by cases h), fun _ _ _ h => (by cases h), u.work, u.up⟩
    · next i id b hp =>
      have h0 := inv.ren i id _ hp
      exact ⟨fun h => (by cases h), u.light, fun _ _ h => (by cases h), fun _ _ _ h => (by cases h),
        fun j x pc h => (by cases w1 h0 j _ h; trivial), fun j x h => (by cases w1 h0 j _ h)⟩
    · next i id hp => exact (u.renew i id _ hp).elim
    · next i id pc _ _ hp =>
      obtain ⟨c1, c2, _⟩ := call_ok u.light (u.renew i id pc hp)
      have h0 := inv.ren i id _ hp
      have hn : ∀ (j : Nat) (w : W), s.ws[j]? = some w → w = .dead false := fun j w h => by
        have := one hl h h0
        subst this
        rw [h0] at h; exact (Option.some.inj h).symm
      exact ⟨fun h => (by cases h), c2, fun _ _ h => (by cases h), fun _ _ _ h => (by cases h; exact c1),
        fun j x pc' h => (by cases hn j _ h), fun j x h => (by cases hn j _ h)⟩
    · exact u
  | worker i =>
    have pb : ∀ {id pc}, s.ws[i]? = some (.making id pc) → (∀ id' pc', s.parent ≠ .boot id' pc') ∧ ∀ k id' pc', s.parent ≠ .renew k id' pc' := by
      intro id pc h0
      refine ⟨fun id' pc' hp => ?_, fun k id' pc' hp => ?_⟩
      · cases inv.later i _ (by rw [hp]; trivial) h0
      · have h1 := inv.ren k id' pc' hp
        have := one hl h0 h1
        subst this
        rw [h0] at h1; cases h1
    dsimp only [step]
    split
    · next id b h0 =>
      obtain ⟨p1, p2⟩ := pb h0
      have ok := u.work i id _ h0
      split
      · refine ⟨u.alive, u.light, fun _ _ h => absurd h (p1 _ _), fun _ _ _ h => absurd h (p2 _ _ _), fun j x pc h => (by cases w1 h0 j _ h), fun j x h => ?_⟩
        have := w1 h0 j _ h
        injection this with this
        subst this
        cases b with
        | true => exact ok
        | false => exact ok.elim
      · next hb => cases b with
        | true => exact absurd rfl hb
        | false => exact ok.elim
    · next id h0 => exact (u.work i id _ h0).elim
    · next id pc _ _ h0 =>
      obtain ⟨p1, p2⟩ := pb h0
      obtain ⟨c1, c2, _⟩ := call_ok u.light (u.work i id _ h0)
      exact ⟨u.alive, c2, fun _ _ h => absurd h (p1 _ _), fun _ _ _ h => absurd h (p2 _ _ _), fun j x pc' h => (by cases w1 h0 j _ h; exact c1), fun j x h => (by cases w1 h0 j _ h)⟩
    · exact u
  | die i b =>
    dsimp only [step]
    split
    · next h0 => exact ⟨u.alive, u.light, u.boot, u.renew, fun j x pc h => (by cases w1 h0 j _ h), fun j x h => (by cases w1 h0 j _ h)⟩
    · next h0 => exact ⟨u.alive, u.light, u.boot, u.renew, fun j x pc h => (by cases w1 h0 j _ h), fun j x h => (by cases w1 h0 j _ h)⟩
    · exact u
  | visit i =>
    dsimp only [step]
    split
    · next hp h0 => exact ⟨u.alive, u.light, u.boot, u.renew, fun j x pc h => (by cases w1 h0 j _ h; trivial), fun j x h => (by cases w1 h0 j _ h)⟩
    · next hp h0 => exact ⟨fun h => (by cases h), u.light, fun _ _ h => (by cases h), fun _ _ _ h => (by cases h; trivial), u.work, u.up⟩
    · exact u

theorem unix_run {n : Nat} {p : Path} (hn : n ≤ 1) (hp : ∀ id, p ≠ .sock id) (hlt : Light p) (es : List Ev) : Unix1 (run .unix (init n p) es) := by
  induction es using snocInd with
  | h0 =>
    have hn : ∀ (i : Nat) (w : W), (init n p).ws[i]? = some w → w = .none := fun i w h => (List.mem_replicate.1 (List.mem_of_getElem? h)).2
    exact ⟨fun h => (by cases h), hlt, fun _ _ h => (by cases h; trivial), fun _ _ _ h => (by cases h), fun i x pc h => (by cases hn i _ h), fun i x h => (by cases hn i _ h)⟩
  | h1 es e ih =>
    rw [run_snoc]
    refine unix_step (inv_run hp es) ih ?_ e
    rw [len_run]; simpa [init] using hn

/-- A worker alone comes to listen. -/
theorem unix_up : ∀ (m : Nat) {s : St} {i id : Nat} {pc : Pc}, Inv s → Unix1 s → s.ws.length ≤ 1 → s.ws[i]? = some (.making id pc) → rank pc ≤ m →
    ∃ k, k ≤ m ∧ (run .unix s (List.replicate k (.worker i))).ws[i]? = some (.up id)
  | 0, _, _, _, pc, _, _, _, _, hr => by
    have : 1 ≤ rank pc := by unfold rank; split <;> omega
    omega
  | m + 1, s, i, id, pc, inv, u, hl, h0, hr => by
    by_cases hm : pc = .made true
    · subst hm
      refine ⟨1, by omega, ?_⟩
      show (step .unix s (.worker i)).ws[i]? = _
      dsimp only [step]
      rw [h0]
      show (s.ws.set i _)[i]? = _
      rw [getset h0, if_pos rfl]
    · obtain ⟨c1, c2, c3⟩ := call_ok u.light (u.work i id pc h0)
      have hc := c3 hm
      have e1 : step .unix s (.worker i) = { s with ws := s.ws.set i (.making id (call .unix id pc s.net).1), net := (call .unix id pc s.net).2 } := by
        dsimp only [step]
        rw [h0]
        have ok := u.work i id pc h0
        match pc, ok, hm with
        | .bind 0, _, _ => rfl
        | .bind 1, _, _ => rfl
        | .exist 0, _, _ => rfl
        | .stat 0, _, _ => rfl
        | .unlink 0, _, _ => rfl
        | .made true, _, hm => exact absurd rfl hm
      have h1 : (step .unix s (.worker i)).ws[i]? = some (.making id (call .unix id pc s.net).1) := by
        rw [e1]; show (s.ws.set i _)[i]? = _; rw [getset h0, if_pos rfl]
      obtain ⟨k, k1, k2⟩ := unix_up m (inv_step inv (.worker i)) (unix_step inv u hl (.worker i)) (by rw [len_step]; exact hl) h1 (by omega)
      exact ⟨k + 1, by omega, k2⟩

end C99

/-- **C99 (Unix, one worker).** If the path is free at first, or what is there has size 0 (as a socket left behind has), then in
every history of starts, ends and restarts: creating the socket never fails; a worker that is started is reached within six
system calls; and a worker that listens is reached. -/
theorem C99_unix_partial {p : Path} (hp : ∀ id, p ≠ .sock id) (hlt : ∀ k, p ≠ .file (k + 1)) (es : List Ev) :
    (run .unix (init 1 p) es).parent ≠ .crashed ∧
    (∀ (i id : Nat) pc, (run .unix (init 1 p) es).ws[i]? = some (.making id pc) →
      ∃ m, m ≤ 6 ∧ Reached .unix (run .unix (init 1 p) (es ++ List.replicate m (.worker i))) i) ∧
    ∀ (i id : Nat), (run .unix (init 1 p) es).ws[i]? = some (.up id) → Reached .unix (run .unix (init 1 p) es) i := by
  have u := unix_run (Nat.le_refl 1) hp hlt es
  have inv := inv_run (kind := .unix) (n := 1) hp es
  refine ⟨u.alive, fun i id pc h => ?_, fun i id h => ⟨id, h, (inv.lis id).2 ⟨i, h⟩, fun _ => u.up i id h⟩⟩
  obtain ⟨m, m1, m2⟩ := unix_up 6 inv u (by rw [len_run]; exact Nat.le_refl 1) h (by unfold rank; split <;> omega)
  rw [← run_app] at m2
  exact ⟨m, m1, id, m2, ((inv_run hp _).lis id).2 ⟨i, m2⟩, fun _ => (unix_run (Nat.le_refl 1) hp hlt _).up i id m2⟩

/-- A socket file was left behind; the worker listens, dies, and is started again. -/
example : (run .unix (init 1 (.file 0)) ([.parent, .parent, .parent, .parent, .parent, .parent, .parent, .parent] ++ List.replicate 6 (.worker 0) ++
    [.die 0 false, .visit 0, .parent, .parent, .parent, .parent, .parent, .parent] ++ List.replicate 6 (.worker 0))) =
    { net := { path := .sock 3, listening := [3] }, next := 4, parent := .loop, ws := [.up 3] } := by decide +kernel

/-! ## Restarts -/

namespace C99

theorem renew_step {kind : Kind} {net : Net} {nx i id : Nat} {pc : Pc} {ws : List W} (h1 : ∀ b, pc ≠ .made b) (h2 : pc ≠ .failed) :
    step kind ⟨net, nx, .renew i id pc, ws⟩ .parent = ⟨(call kind id pc net).2, nx, .renew i id (call kind id pc net).1, ws⟩ := by
  cases pc with
  | made b => exact absurd rfl (h1 b)
  | failed => exact absurd rfl h2
  | _ => rfl

/-- The parent alone gets through `create_sock` at a path. -/
theorem renew_unix (net : Net) (nx i id : Nat) (ws : List W) :
    ∃ m net' b, m ≤ 6 ∧ run .unix ⟨net, nx, .renew i id (.bind 0), ws⟩ (List.replicate m .parent) = ⟨net', nx, .renew i id (.made b), ws⟩ := by
  obtain ⟨path, lis⟩ := net
  cases path with
  | absent => exact ⟨1, ⟨.sock id, lis⟩, true, by decide, rfl⟩
  | sock x => exact ⟨5, ⟨.sock id, lis⟩, true, by decide, rfl⟩
  | file k => cases k with
    | zero => exact ⟨5, ⟨.sock id, lis⟩, true, by decide, rfl⟩
    | succ k => exact ⟨6, ⟨.file (k + 1), lis⟩, false, by decide, rfl⟩

/-- Worker `i` has just been started. -/
def Started (s : St) (i : Nat) : Prop := ∃ id, s.ws[i]? = some (.making id (.bind 0)) ∧ s.parent = .loop

theorem started {s : St} {i : Nat} {w : W} (h : s.ws[i]? = some w) : Started { start s i with parent := .loop } i :=
  ⟨s.next, by show (s.ws.set i _)[i]? = _; rw [getset h, if_pos rfl], rfl⟩

end C99

/-- **C99 (restart).** A worker that has ended, with whatever exit code, is started again when the parent visits its place and
makes its next system calls, at most seven: always at a path, and with TCP if `reuse_port` is set or there is one worker. -/
theorem C99_restart {kind : Kind} {n : Nat} {p : Path} (hp : ∀ id, p ≠ .sock id) (hk : kind = .tcp false → n ≤ 1) {es : List Ev} {i : Nat} {c : Bool}
    (hl : (run kind (init n p) es).parent = .loop) (hd : (run kind (init n p) es).ws[i]? = some (.dead c)) :
    ∃ m, m ≤ 7 ∧ Started (run kind (init n p) (es ++ .visit i :: List.replicate m .parent)) i := by
  have inv := inv_run (kind := kind) (n := n) hp es
  have hlen : (run kind (init n p) es).ws.length = n := by rw [len_run]; simp [init]
  simp only [run_app]
  generalize run kind (init n p) es = s at *
  cases c with
  | true =>
    refine ⟨0, by decide, ?_⟩
    have : run kind s (.visit i :: List.replicate 0 .parent) = { start s i with parent := .loop } := by
      show step kind s (.visit i) = _
      dsimp only [step]; rw [hl, hd]
      show start s i = _
      simp only [start]; rw [hl]
    rw [this]
    exact started hd
  | false =>
    have e0 : ∀ m, run kind s (.visit i :: List.replicate m .parent) = run kind ⟨s.net, s.next + 1, .renew i s.next (.bind 0), s.ws⟩ (List.replicate m .parent) := by
      intro m
      show run kind (step kind s (.visit i)) _ = _
      dsimp only [step]; rw [hl, hd]
    have fin : ∀ (m : Nat) (net : Net) (b : Bool), run kind ⟨s.net, s.next + 1, .renew i s.next (.bind 0), s.ws⟩ (List.replicate m .parent) =
        ⟨net, s.next + 1, .renew i s.next (.made b), s.ws⟩ → Started (run kind s (.visit i :: List.replicate (m + 1) .parent)) i := by
      intro m net b h
      rw [e0, List.replicate_succ', run_app, h]
      exact started (s := ⟨net, s.next + 1, .renew i s.next (.made b), s.ws⟩) hd
    cases kind with
    | unix =>
      obtain ⟨m, net, b, m1, m2⟩ := renew_unix s.net (s.next + 1) i s.next s.ws
      exact ⟨m + 1, by omega, fin m net b m2⟩
    | tcp r =>
      have hf : free r s.net = true := free_of inv (by
        cases r with
        | true => exact .inl rfl
        | false => exact .inr (lone (by rw [hlen]; exact hk rfl) hd (fun _ h => by cases h)))
      refine ⟨2, by decide, fin 1 s.net true ?_⟩
      have e1 := renew_step (kind := .tcp r) (net := s.net) (nx := s.next + 1) (i := i) (id := s.next) (pc := .bind 0) (ws := s.ws) (fun _ h => by cases h) (fun h => by cases h)
      rw [call_good (.inl rfl) hf] at e1
      exact e1

example : Started (run (.tcp true) (init 2 .absent) ([.parent, .parent, .parent, .worker 0, .parent, .worker 0, .worker 1, .worker 1, .parent, .die 0 false] ++
    .visit 0 :: List.replicate 2 .parent)) 0 := ⟨4, by decide +kernel, by decide +kernel⟩

/-- With any number of workers at most one is reached. -/
theorem C99_unix_one {n : Nat} {p : Path} (hp : ∀ id, p ≠ .sock id) (es : List Ev) {i j : Nat}
    (hi : Reached .unix (run .unix (init n p) es) i) (hj : Reached .unix (run .unix (init n p) es) j) : i = j := by
  obtain ⟨a, a1, _, a3⟩ := hi
  obtain ⟨b, b1, _, b3⟩ := hj
  have : a = b := by
    have := (a3 rfl).symm.trans (b3 rfl)
    cases this; rfl
  subst this
  exact (inv_run (kind := .unix) hp es).inj i j _ _ a a1 b1 rfl rfl

namespace C99

/-- What is at the path after a step: as before, nothing, or the socket of a process that is not worker `i`. -/
theorem lost_step {kind : Kind} {s : St} (inv : Inv s) {i id : Nat} (hu : s.ws[i]? = some (.up id)) (hp : s.net.path ≠ .sock id) (e : Ev) :
    (step kind s e).net.path ≠ .sock id := by
  cases e with
  | parent =>
    dsimp only [step]
    split
    all_goals first
      | exact hp
      | skip
    · next x pc _ _ hq =>
      intro h
      rcases call_path h with rfl | h
      · exact (inv.par id (by rw [hq]; rfl)).2 i _ hu rfl
      · exact hp h
    · split <;> exact hp
    · next k x pc _ _ hq =>
      intro h
      rcases call_path h with rfl | h
      · exact (inv.par id (by rw [hq]; rfl)).2 i _ hu rfl
      · exact hp h
  | worker j =>
    dsimp only [step]
    split
    · split <;> exact hp
    · exact hp
    · next x pc _ _ h0 =>
      intro h
      rcases call_path h with rfl | h
      · have := inv.inj j i _ _ id h0 hu rfl rfl
        subst this
        rw [hu] at h0; cases h0
      · exact hp h
    · exact hp
  | die j b =>
    dsimp only [step]
    split <;> exact hp
  | visit j =>
    dsimp only [step]
    split <;> exact hp

end C99

/-- **C99**: a worker that listens but is not reached is never reached again, as long as it lives. -/
theorem C99_unix_lost {n : Nat} {p : Path} (hp : ∀ id, p ≠ .sock id) {es fs : List Ev} {i id : Nat}
    (hu : (run .unix (init n p) es).ws[i]? = some (.up id)) (hr : ¬ Reached .unix (run .unix (init n p) es) i) (hd : ∀ b, Ev.die i b ∉ fs) :
    (run .unix (init n p) (es ++ fs)).ws[i]? = some (.up id) ∧ ¬ Reached .unix (run .unix (init n p) (es ++ fs)) i := by
  have inv := inv_run (kind := .unix) (n := n) hp es
  have h0 : (run .unix (init n p) es).net.path ≠ .sock id := fun h => hr ⟨id, hu, (inv.lis id).2 ⟨i, hu⟩, fun _ => h⟩
  have key : (run .unix (run .unix (init n p) es) fs).ws[i]? = some (.up id) ∧ (run .unix (run .unix (init n p) es) fs).net.path ≠ .sock id := by
    induction fs using snocInd with
    | h0 => exact ⟨hu, h0⟩
    | h1 fs e ih =>
      obtain ⟨a, b⟩ := ih (fun b h => hd b (by simp [h]))
      rw [run_snoc]
      exact ⟨up_step (inv_from inv fs) a (fun b h => hd b (by simp [h])), lost_step (inv_from inv fs) a b e⟩
  rw [run_app]
  refine ⟨key.1, ?_⟩
  rintro ⟨id', h1, _, h3⟩
  rw [key.1] at h1
  cases h1
  exact key.2 (h3 rfl)

/-! ## Two and more workers at a path -/

/-- The parent makes its socket; then each worker makes its socket and listens before the next one starts. -/
def oneByOne (n : Nat) : List Ev := [.parent, .parent] ++ (List.range n).flatMap (fun i => .parent :: List.replicate 6 (.worker i))

namespace C99

theorem calm_boot {s : St} {i x : Nat} (hp : s.parent = .spawn i) (hi : i < s.ws.length) (hs : s.net.path = .sock x) :
    run .unix s (.parent :: List.replicate 6 (.worker i)) =
      { s with net := { path := .sock s.next, listening := s.next :: s.net.listening }, next := s.next + 1, parent := .spawn (i + 1), ws := s.ws.set i (.up s.next) } := by
  have h0 : step .unix s .parent = { start s i with parent := .spawn (i + 1) } := by
    dsimp only [step]; rw [hp]; dsimp only; rw [if_pos hi]
  have wk : ∀ (t : St) (w : W), t.ws.length = s.ws.length → (t.ws.set i w)[i]? = some w := fun t w ht => by
    rw [List.getElem?_set]; simp [ht, hi]
  show run .unix (step .unix s .parent) (List.replicate 6 (.worker i)) = _
  rw [h0]
  obtain ⟨net, next, par, ws⟩ := s
  obtain ⟨path, lis⟩ := net
  dsimp only at hs hp hi
  subst hs hp
  have wk' : ∀ (v : List W) (w : W), v.length = ws.length → (v.set i w)[i]? = some w := fun v w ht => by
    rw [List.getElem?_set]; simp [ht, hi]
  have st : ∀ (net : Net) (nx : Nat) (id : Nat) (pc : Pc), (∀ b, pc ≠ .made b) → pc ≠ .failed →
      step .unix ⟨net, nx, .spawn (i + 1), ws.set i (.making id pc)⟩ (.worker i) =
        ⟨(call .unix id pc net).2, nx, .spawn (i + 1), ws.set i (.making id (call .unix id pc net).1)⟩ := by
    intro net nx id pc h1 h2
    dsimp only [step]
    rw [wk' ws _ rfl]
    cases pc with
    | made b => exact absurd rfl (h1 b)
    | failed => exact absurd rfl h2
    | _ => dsimp only; rw [List.set_set]
  show step .unix (step .unix (step .unix (step .unix (step .unix (step .unix ⟨⟨.sock x, lis⟩, next + 1, .spawn (i + 1), ws.set i (.making next (.bind 0))⟩ (.worker i)) (.worker i)) (.worker i)) (.worker i)) (.worker i)) (.worker i) = _
  rw [st _ _ _ _ (fun _ h => by cases h) (fun h => by cases h)]
  show step .unix (step .unix (step .unix (step .unix (step .unix ⟨⟨.sock x, lis⟩, next + 1, .spawn (i + 1), ws.set i (.making next (.exist 0))⟩ (.worker i)) (.worker i)) (.worker i)) (.worker i)) (.worker i) = _
  rw [st _ _ _ _ (fun _ h => by cases h) (fun h => by cases h)]
  show step .unix (step .unix (step .unix (step .unix ⟨⟨.sock x, lis⟩, next + 1, .spawn (i + 1), ws.set i (.making next (.stat 0))⟩ (.worker i)) (.worker i)) (.worker i)) (.worker i) = _
  rw [st _ _ _ _ (fun _ h => by cases h) (fun h => by cases h)]
  show step .unix (step .unix (step .unix ⟨⟨.sock x, lis⟩, next + 1, .spawn (i + 1), ws.set i (.making next (.unlink 0))⟩ (.worker i)) (.worker i)) (.worker i) = _
  rw [st _ _ _ _ (fun _ h => by cases h) (fun h => by cases h)]
  show step .unix (step .unix ⟨⟨.absent, lis⟩, next + 1, .spawn (i + 1), ws.set i (.making next (.bind 1))⟩ (.worker i)) (.worker i) = _
  rw [st _ _ _ _ (fun _ h => by cases h) (fun h => by cases h)]
  show step .unix ⟨⟨.sock next, lis⟩, next + 1, .spawn (i + 1), ws.set i (.making next (.made true))⟩ (.worker i) = _
  dsimp only [step]
  rw [wk' ws _ rfl]
  show St.mk ⟨.sock next, next :: lis⟩ _ _ ((ws.set i _).set i _) = _
  rw [List.set_set]

theorem calm_run (n : Nat) : ∀ k, k ≤ n →
    ∃ s, run .unix (init n .absent) ([.parent, .parent] ++ (List.range k).flatMap (fun i => .parent :: List.replicate 6 (.worker i))) = s ∧
      s.parent = .spawn k ∧ s.next = k + 1 ∧ s.net.path = .sock k ∧ s.ws.length = n ∧ ∀ j, j < k → s.ws[j]? = some (.up (j + 1))
  | 0, _ => ⟨_, rfl, rfl, rfl, rfl, by simp [init, run, step, call], fun j h => by omega⟩
  | k + 1, hk => by
    obtain ⟨s, e, h1, h2, h3, h4, h5⟩ := calm_run n k (by omega)
    have hcb := calm_boot h1 (by omega) h3
    refine ⟨_, rfl, ?_⟩
    have e2 : run .unix (init n .absent) ([.parent, .parent] ++ (List.range (k + 1)).flatMap (fun i => .parent :: List.replicate 6 (.worker i))) =
        run .unix s (.parent :: List.replicate 6 (.worker k)) := by
      rw [List.range_succ, List.flatMap_append, ← List.append_assoc, run_app, e]; simp
    rw [e2, hcb]
    refine ⟨rfl, by show s.next + 1 = _; rw [h2], by show Path.sock s.next = _; rw [h2], by simp [h4], fun j hj => ?_⟩
    show (s.ws.set k _)[j]? = _
    obtain ⟨w0, h0⟩ : ∃ w0, s.ws[k]? = some w0 := ⟨_, List.getElem?_eq_getElem (by omega)⟩
    rw [getset h0]
    split
    · next e => rw [h2, e]
    · exact h5 j (by omega)

end C99

/-- **C99 fails** at a path for every number of workers above one: even if the workers start one after the other without any
accident, all of them listen and only the last one is reached. -/
theorem C99_refuted_workers {n : Nat} (hn : 1 ≤ n) {i : Nat} (hi : i < n) :
    (∃ id, (run .unix (init n .absent) (oneByOne n)).ws[i]? = some (.up id)) ∧
    (Reached .unix (run .unix (init n .absent) (oneByOne n)) i ↔ i = n - 1) := by
  obtain ⟨s, e, h1, h2, h3, h4, h5⟩ := calm_run n n (Nat.le_refl n)
  have e' : run .unix (init n .absent) (oneByOne n) = s := e
  rw [e']
  refine ⟨⟨_, h5 i hi⟩, ?_⟩
  constructor
  · rintro ⟨id, a, _, c⟩
    rw [h5 i hi] at a
    cases a
    have := (c rfl).symm.trans h3
    injection this with this
    omega
  · intro h
    have inv := inv_run (kind := .unix) (n := n) (p := .absent) (fun _ h => by cases h) (oneByOne n)
    rw [e'] at inv
    refine ⟨i + 1, h5 i hi, (inv.lis _).2 ⟨i, h5 i hi⟩, fun _ => ?_⟩
    rw [h3]; congr 1; omega

example : Reached .unix (run .unix (init 3 .absent) (oneByOne 3)) 2 ∧ ¬ Reached .unix (run .unix (init 3 .absent) (oneByOne 3)) 0 :=
  ⟨(C99_refuted_workers (by decide) (by decide)).2.2 rfl, fun h => absurd ((C99_refuted_workers (n := 3) (by decide) (by decide)).2.1 h) (by decide)⟩

/-- Two workers that start at the same time: the second one removes the socket of the first, and then has none itself. One
worker listens, and nothing is at the path. -/
theorem C99_refuted_race : (run .unix (init 2 .absent)
    ([.parent, .parent, .parent, .parent, .parent, .worker 0, .worker 1, .worker 0, .worker 0, .worker 0, .worker 1, .worker 0, .worker 0,
      .worker 1, .worker 1, .worker 1, .worker 1, .worker 1])) =
    { net := { path := .absent, listening := [1] }, next := 3, parent := .loop, ws := [.up 1, .dead false] } := by decide +kernel

/-! ## A file at the path -/

namespace C99

/-- `create_sock` before a file that it does not remove. -/
def Stuck : Pc → Prop
  | .bind _ | .exist _ | .stat _ | .made false => True
  | _ => False

theorem call_stuck {id k : Nat} {pc : Pc} {net : Net} (hp : net.path = .file (k + 1)) (h : Stuck pc) : Stuck (call .unix id pc net).1 ∧ (call .unix id pc net).2 = net := by
  match pc, h with
  | .bind j, _ => simp [call, hp, Stuck]
  | .exist j, _ => simp [call, hp, Stuck]
  | .stat j, _ =>
    simp only [call, hp]
    cases j <;> simp [again, Stuck]
  | .made false, _ => exact ⟨trivial, rfl⟩

structure Blocked (k : Nat) (s : St) : Prop where
  path : s.net.path = .file (k + 1)
  alive : s.parent ≠ .crashed
  boot : ∀ id pc, s.parent = .boot id pc → Stuck pc
  renew : ∀ i id pc, s.parent = .renew i id pc → Stuck pc
  work : ∀ (i id : Nat) pc, s.ws[i]? = some (.making id pc) → Stuck pc
  up : ∀ (i id : Nat), s.ws[i]? ≠ some (.up id)

theorem blocked_step {k : Nat} {s : St} (inv : Inv s) (u : Blocked k s) (e : Ev) : Blocked k (step .unix s e) := by
  have wset : ∀ {i : Nat} {w0 w : W}, s.ws[i]? = some w0 → (∀ id pc, w = .making id pc → Stuck pc) →
      ∀ (j id : Nat) pc, (s.ws.set i w)[j]? = some (.making id pc) → Stuck pc := by
    intro i w0 w h0 hw j id pc h
    rw [getset h0] at h
    split at h
    · exact hw id pc (Option.some.inj h)
    · exact u.work j id pc h
  have uset : ∀ {i : Nat} {w0 w : W}, s.ws[i]? = some w0 → (∀ id, w ≠ .up id) → ∀ (j id : Nat), (s.ws.set i w)[j]? ≠ some (.up id) := by
    intro i w0 w h0 hw j id h
    rw [getset h0] at h
    split at h
    · exact hw id (Option.some.inj h)
    · exact u.up j id h
  cases e with
  | parent =>
    dsimp only [step]
    split
    · exact ⟨u.path, fun h => (by cases h), fun _ _ h => (by cases h), fun _ _ _ h => (by cases h), u.work, u.up⟩
    · next id hp => exact (u.boot id _ hp).elim
    · next id pc _ _ hp =>
      obtain ⟨c1, c2⟩ := call_stuck (id := id) u.path (u.boot id pc hp)
      rw [c2]
      exact ⟨u.path, fun h => (by cases h), fun _ _ h => (by cases h; exact c1), fun _ _ _ h => (by cases h), u.work, u.up⟩
    · next i hp =>
      split
      · next hi =>
        have h0 := List.getElem?_eq_getElem hi
        exact ⟨u.path, fun h => (by cases h), fun _ _ h => (by cases h), fun _ _ _ h => (by cases h),
          wset h0 (fun _ _ h => (by cases h; trivial)), uset h0 (fun _ h => (by cases h))⟩
      · exact ⟨u.path, fun h => (by cases h), fun _ _ h => (by cases h), fun _ _ _ h => (by cases h), u.work, u.up⟩
    · next i id b hp =>
      have h0 := inv.ren i id _ hp
      exact ⟨u.path, fun h => (by cases h), fun _ _ h => (by cases h), fun _ _ _ h => (by cases h),
        wset h0 (fun _ _ h => (by cases h; trivial)), uset h0 (fun _ h => (by cases h))⟩
    · next i id hp => exact (u.renew i id _ hp).elim
    · next i id pc _ _ hp =>
      obtain ⟨c1, c2⟩ := call_stuck (id := id) u.path (u.renew i id pc hp)
      rw [c2]
      exact ⟨u.path, fun h => (by cases h), fun _ _ h => (by cases h), fun _ _ _ h => (by cases h; exact c1), u.work, u.up⟩
    · exact u
  | worker i =>
    dsimp only [step]
    split
    · next id b h0 =>
      split
      · next hb => cases b with
        | true => exact (u.work i id _ h0).elim
        | false => cases hb
      · exact ⟨u.path, u.alive, u.boot, u.renew, wset h0 (fun _ _ h => (by cases h)), uset h0 (fun _ h => (by cases h))⟩
    · next id h0 => exact (u.work i id _ h0).elim
    · next id pc _ _ h0 =>
      obtain ⟨c1, c2⟩ := call_stuck (id := id) u.path (u.work i id pc h0)
      rw [c2]
      exact ⟨u.path, u.alive, u.boot, u.renew, wset h0 (fun _ _ h => (by cases h; exact c1)), uset h0 (fun _ h => (by cases h))⟩
    · exact u
  | die i b =>
    dsimp only [step]
    split
    · next h0 => exact ⟨u.path, u.alive, u.boot, u.renew, wset h0 (fun _ _ h => (by cases h)), uset h0 (fun _ h => (by cases h))⟩
    · next h0 => exact absurd h0 (u.up i _)
    · exact u
  | visit i =>
    dsimp only [step]
    split
    · next hp h0 => exact ⟨u.path, u.alive, u.boot, u.renew, wset h0 (fun _ _ h => (by cases h; trivial)), uset h0 (fun _ h => (by cases h))⟩
    · exact ⟨u.path, fun h => (by cases h), fun _ _ h => (by cases h), fun _ _ _ h => (by cases h; trivial), u.work, u.up⟩
    · exact u

end C99

/-- **C99 (file).** If there is a file that is not empty at the path, it is left alone; no worker ever listens, and the parent
goes on restarting workers. -/
theorem C99_file {n k : Nat} (es : List Ev) : (run .unix (init n (.file (k + 1))) es).net.path = .file (k + 1) ∧
    (run .unix (init n (.file (k + 1))) es).parent ≠ .crashed ∧ ∀ (i id : Nat), (run .unix (init n (.file (k + 1))) es).ws[i]? ≠ some (.up id) := by
  have : Blocked k (run .unix (init n (.file (k + 1))) es) := by
    induction es using snocInd with
    | h0 =>
      have hn : ∀ (i : Nat) (w : W), (init n (.file (k + 1))).ws[i]? = some w → w = .none := fun i w h => (List.mem_replicate.1 (List.mem_of_getElem? h)).2
      exact ⟨rfl, fun h => (by cases h), fun _ _ h => (by cases h; trivial), fun _ _ _ h => (by cases h), fun i x pc h => (by cases hn i _ h), fun i x h => (by cases hn i _ h)⟩
    | h1 es e ih => rw [run_snoc]; exact blocked_step (inv_run (fun _ h => by cases h) es) ih e
  exact ⟨this.path, this.alive, this.up⟩

/-- An empty file of someone else is removed. -/
theorem C99_refuted_empty : (run .unix (init 1 (.file 0)) [.parent, .parent, .parent, .parent, .parent]).net.path = .sock 0 := by decide +kernel

/-- **C99 (the end).** `close_sock` closes the socket and leaves what is at the path, so the file of the socket stays. -/
theorem C99_left (k : Sock) (net : Net) : (closeSock k net).1.closed = true ∧ (closeSock k net).2 = net := by
  unfold closeSock
  cases k.kind <;> exact ⟨rfl, rfl⟩

end Verif
