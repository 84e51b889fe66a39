import Verif.Props.ConnMore
import Verif.Spec.Stream
/-!
# C15, C16: where the bytes of a connection go
-/
namespace Verif
open Verif.Py Verif.Model.Conn Conn

namespace Flow

/-- The bytes of a head that come before anything queued. -/
def front : HTask → Bytes
  | .new d _ => d
  | .feeding _ _ raw => raw
  | _ => []

/-- The bytes behind a head that are not queued yet. -/
def back : HTask → Bytes
  | .feeding f _ _ => f.rest
  | _ => []

def rback : RTask → Bytes
  | .waiting d _ => d
  | .feeding f => f.rest
  | .done => []

def q0b (s : St) : Bytes := (s.q0.map (·.getD [])).flatten

/-- Bytes received that neither belong to a request handled nor were taken by a handler, in order. -/
def pending (s : St) : Bytes :=
  s.hb.getD [] ++ ((s.heads.map front).flatten ++ (q0b s ++ ((s.heads.map back).flatten ++ (s.recvs.map rback).flatten)))

/-- Bytes of requests handled and bytes taken by handlers, in order. -/
def eaten (s : St) : Bytes := (s.log.map Act.bytes).flatten

/-- The request whose head comes last. -/
def lastHead (l : List Act) : Option Nat := (l.reverse.findSome? (fun | .head k _ => some k | .body _ _ => none))

open Spec.Stream (Minimal)

def good : HTask → Prop
  | .failing _ | .done => False
  | _ => True

/-- No body was too large, the server did not close the connection, and no head was refused. -/
def Good (s : St) : Prop := s.tooLarge = false ∧ s.noWrite = false ∧ ∀ h ∈ s.heads, good h

/-- The request last received asks for `100 Continue`, and the marker that ends that response was not taken yet. -/
def Expecting (s : St) : Prop := ∃ k r, s.cur = some k ∧ s.reqs[k]? = some r ∧ r.req.httpContinue = true

/-- A handler takes bytes only while it runs. It queues a marker before its last one only to end the response
`100 Continue` that its request asked for, once. When the send task takes a marker that does not end such a response, no
segment is still being queued, and the body of the request, if it has one, was read. -/
def calm (s : St) : Ev → Prop
  | .mark k _ => k ∈ s.running ∧ s.cur = some k ∧ Expecting s ∧ none ∉ s.q1
  | .take k => k ∈ s.running
  | .send => s.q1.head? = some none → Expecting s ∨ ((∀ r ∈ s.recvs, r = .done) ∧
      ∀ k r, s.cur = some k → s.reqs[k]? = some r → r.req.hasBody = true → s.q0 = [])
  | _ => True

def Calm (c : Cfg) : St → List Ev → Prop
  | _, [] => True
  | s, e :: es => calm s e ∧ Good (step c s e) ∧ Calm c (step c s e) es

/-- The segments are queued one after the other. -/
structure Chain (recvs : List RTask) (receive : Option Waiter) : Prop where
  feed : ∀ (i : Nat) f, recvs[i]? = some (.feeding f) → ∀ (j : Nat), j < i → recvs[j]? = some .done
  wait : ∀ (i : Nat) d w, recvs[i]? = some (.waiting d w) → (∀ (j : Nat), j < i → recvs[j]? = some .done) ∨ ∃ (j : Nat), i = j + 1 ∧ w = .task j
  done : ∀ (i j : Nat), j < i → recvs[i]? = some .done → recvs[j]? = some .done
  last : (∃ r ∈ recvs, r ≠ .done) → receive = some (.task (recvs.length - 1))

/-- No segment can be queued. -/
structure Held (s : St) : Prop where
  fut : s.futDone[s.gen]? = some false
  feed : ∀ f, RTask.feeding f ∉ s.recvs
  wait : ∀ d w, RTask.waiting d w ∈ s.recvs → waited s w = false
  last : s.receive = none ∨ (s.receive = some (.task (s.recvs.length - 1)) ∧ ∃ d w, s.recvs[s.recvs.length - 1]? = some (.waiting d w))

/-- A marker that ends a response `100 Continue` is queued. -/
structure Interim (s : St) : Prop where
  load : load s ≤ 2
  hb : s.hb = none
  heads : ∀ x ∈ s.heads, busy x = false
  exp : Expecting s
  mark : none ∈ s.q1

/-- At most one handler can come, apart from a marker that ends a response `100 Continue`. -/
def Ok (s : St) : Prop := load s ≤ 1 ∨ Interim s

/-- `ext`: bytes received that were taken from `queue[0]` to be looked at again (lines 500-502). -/
structure Inv (ext : Bytes) (s : St) : Prop where
  one : Ok s
  good : ∀ h ∈ s.heads, good h
  eq : s.rx = eaten s ++ (pending s ++ ext)
  futs : s.futDone.length = s.gen + 1
  idle : s.hb.isSome = true → q0b s = [] ∧ (∀ r ∈ s.recvs, r = .done) ∧ s.receive = none ∧ s.futDone[s.gen]? = some false
  early : (∃ h ∈ s.heads, busy h = true) → Held s
  new : ∀ d n, HTask.new d n ∈ s.heads → q0b s = [] ∧ ∃ m, n = m + 2 ∧ Spec.Head.FirstBlank d m
  raw : ∀ f k raw, HTask.feeding f k raw ∈ s.heads → Minimal raw
  chain : Chain s.recvs s.receive
  logs : ∀ k raw, Act.head k raw ∈ s.log → Minimal raw
  cur : ∀ k ∈ s.running, lastHead s.log = some k
  grouped : ∀ pre k b post, s.log = pre ++ Act.body k b :: post → lastHead pre = some k
  fresh : s.closing = false → (s.hb.isSome = true ∨ ∃ d n, HTask.new d n ∈ s.heads) → s.q0 = []
  blank : s.noWrite = false → ∀ buf, s.hb = some buf → Spec.Head.NoBlank buf

/-! ## Lists -/

theorem flat_nil {α : Type} {l : List α} {f : α → Bytes} (h : ∀ x ∈ l, f x = []) : (l.map f).flatten = [] := by
  induction l with
  | nil => rfl
  | cons x l ih => simp only [List.map_cons, List.flatten_cons]; rw [h x (by simp), ih (fun y hy => h y (by simp [hy]))]; rfl

theorem flat_one {α : Type} {f : α → Bytes} : ∀ {l : List α} {i : Nat} {x : α}, l[i]? = some x →
    (∀ (j : Nat) y, l[j]? = some y → j ≠ i → f y = []) → (l.map f).flatten = f x
  | [], _, _, h, _ => by simp at h
  | a :: l, 0, x, h, h' => by
    simp at h; subst h
    have : (l.map f).flatten = [] := flat_nil (fun y hy => by
      obtain ⟨j, hj⟩ := List.getElem?_of_mem hy
      exact h' (j + 1) y (by simpa using hj) (by omega))
    simp [this]
  | a :: l, i + 1, x, h, h' => by
    have h1 : f a = [] := h' 0 a rfl (by omega)
    have := flat_one (f := f) (l := l) (i := i) (x := x) (by simpa using h) (fun j y hj hn => h' (j + 1) y (by simpa using hj) (by omega))
    simp [h1, this]

/-- All before `i` contribute nothing. -/
theorem flat_from {α : Type} {f : α → Bytes} : ∀ {l : List α} {i : Nat} {x : α}, l[i]? = some x →
    (∀ (j : Nat) y, l[j]? = some y → j < i → f y = []) → (l.map f).flatten = f x ++ ((l.drop (i + 1)).map f).flatten
  | [], _, _, h, _ => by simp at h
  | a :: l, 0, x, h, h' => by simp at h; subst h; simp
  | a :: l, i + 1, x, h, h' => by
    have h1 : f a = [] := h' 0 a rfl (by omega)
    have := flat_from (f := f) (l := l) (i := i) (x := x) (by simpa using h) (fun j y hj hn => h' (j + 1) y (by simpa using hj) (by omega))
    simp [h1, this]

theorem lastHead_head (l : List Act) (k : Nat) (raw : Bytes) : lastHead (l ++ [.head k raw]) = some k := by simp [lastHead]
theorem lastHead_body (l : List Act) (k : Nat) (b : Item) : lastHead (l ++ [.body k b]) = lastHead l := by simp [lastHead]

/-- At most one head is busy. -/
theorem others {s : St} (h : load s ≤ 1) {i : Nat} {x : HTask} (hx : s.heads[i]? = some x) (hb : busy x = true) :
    (∀ (j : Nat) y, s.heads[j]? = some y → j ≠ i → busy y = false) ∧ s.running = [] ∧ s.hb = none := by
  have h0 := countP_set_busy (y := .done) hx hb
  simp only [busy, Bool.false_eq_true, if_false] at h0
  unfold load at h
  have hz : (s.heads.set i .done).countP busy = 0 := by omega
  have h1 : 1 ≤ s.heads.countP busy := by omega
  refine ⟨fun j y hj hn => ?_, ?_, ?_⟩
  · have := List.countP_eq_zero.1 hz y (List.mem_of_getElem? (i := j) (by rw [List.getElem?_set_ne (Ne.symm hn)]; exact hj))
    simpa using this
  · exact List.length_eq_zero_iff.1 (by omega)
  · cases hb : s.hb with
    | none => rfl
    | some b => rw [hb] at h; simp only [wish] at h; omega

theorem front_idle {h : HTask} (hb : busy h = false) : front h = [] ∧ back h = [] := by
  cases h <;> first | exact ⟨rfl, rfl⟩ | cases hb

theorem heads_one {s : St} (h : load s ≤ 1) {i : Nat} {x : HTask} (hx : s.heads[i]? = some x) (hb : busy x = true) :
    (s.heads.map front).flatten = front x ∧ (s.heads.map back).flatten = back x ∧
    ∀ y, ((s.heads.set i y).map front).flatten = front y ∧ ((s.heads.set i y).map back).flatten = back y := by
  obtain ⟨ho, _, _⟩ := others h hx hb
  obtain ⟨hl, _⟩ := List.getElem?_eq_some_iff.1 hx
  refine ⟨flat_one hx (fun j y hj hn => (front_idle (ho j y hj hn)).1), flat_one hx (fun j y hj hn => (front_idle (ho j y hj hn)).2), fun y => ?_⟩
  have hs : (s.heads.set i y)[i]? = some y := by simp [hl]
  refine ⟨flat_one hs (fun j z hj hn => ?_), flat_one hs (fun j z hj hn => ?_)⟩ <;> rw [List.getElem?_set_ne (Ne.symm hn)] at hj
  · exact (front_idle (ho j z hj hn)).1
  · exact (front_idle (ho j z hj hn)).2

theorem heads_none {l : List HTask} (h : ∀ x ∈ l, busy x = false) : (l.map front).flatten = [] ∧ (l.map back).flatten = [] :=
  ⟨flat_nil (fun x hx => (front_idle (h x hx)).1), flat_nil (fun x hx => (front_idle (h x hx)).2)⟩

theorem no_busy {s : St} (h : s.heads.countP busy = 0) : ∀ x ∈ s.heads, busy x = false := by
  intro x hx; simpa using List.countP_eq_zero.1 h x hx

theorem Ok.busy {s : St} (h : Ok s) {x : HTask} (hx : x ∈ s.heads) (hb : busy x = true) : load s ≤ 1 := by
  rcases h with h | h
  · exact h
  · rw [h.heads x hx] at hb; cases hb

theorem Ok.wish {s : St} (h : Ok s) (hb : s.hb.isSome = true) : load s ≤ 1 := by
  rcases h with h | h
  · exact h
  · rw [h.hb] at hb; cases hb

/-- While a handler runs. -/
theorem Ok.run {s : St} (h : Ok s) (hr : s.running ≠ []) : s.heads.countP Conn.busy = 0 ∧ s.hb = none := by
  rcases h with h | h
  · have h2 : 0 < s.running.length := List.length_pos_iff.2 hr
    unfold load at h
    refine ⟨by omega, ?_⟩
    cases hb : s.hb with
    | none => rfl
    | some b => rw [hb] at h; simp only [Conn.wish] at h; omega
  · exact ⟨List.countP_eq_zero.2 (fun x hx => by rw [h.heads x hx]; decide), h.hb⟩

theorem Ok.runs {s : St} (h : Ok s) : s.running.length ≤ 1 := by
  rcases h with h | h
  · unfold load at h; omega
  · have h1 := h.load
    have h2 : 0 < s.q1.countP Option.isNone := List.countP_pos_iff.2 ⟨none, h.mark, rfl⟩
    unfold load at h1; omega

theorem Ok.only {s : St} (h : Ok s) {k : Nat} (hk : k ∈ s.running) : s.running = [k] := by
  have h2 := h.runs
  cases hr : s.running with
  | nil => rw [hr] at hk; cases hk
  | cons a t =>
    rw [hr] at h2 hk
    have : t = [] := List.eq_nil_of_length_eq_zero (by simpa using h2)
    subst this; simp at hk; rw [hk]

theorem Ok.congr {s s' : St} (h : Ok s) (h1 : s'.running = s.running) (h2 : s'.heads = s.heads) (h3 : s'.q1 = s.q1) (h4 : s'.hb = s.hb)
    (h5 : Expecting s → Expecting s') : Ok s' := by
  rcases h with h | h
  · left; rw [load_congr h1 h2 h3 h4]; exact h
  · right; exact ⟨by rw [load_congr h1 h2 h3 h4]; exact h.load, h4.trans h.hb, by rw [h2]; exact h.heads, h5 h.exp, by rw [h3]; exact h.mark⟩

theorem exp_set {s : St} {k : Nat} {r : Rq} {f : Rq → Rq} (hf : ∀ r, (f r).req.httpContinue = r.req.httpContinue) (hr : s.reqs[k]? = some r)
    (h : Expecting s) : Expecting { s with reqs := s.reqs.set k (f r) } := by
  obtain ⟨k', r', h1, h2, h3⟩ := h
  by_cases e : k = k'
  · subst e
    rw [hr] at h2; cases h2
    obtain ⟨hl, _⟩ := List.getElem?_eq_some_iff.1 hr
    exact ⟨k, f r, h1, by simp [hl], by rw [hf]; exact h3⟩
  · exact ⟨k', r', h1, by dsimp only; rw [List.getElem?_set_ne e]; exact h2, h3⟩

theorem exp_setReq {s : St} (k : Nat) {f : Rq → Rq} (hf : ∀ r, (f r).req.httpContinue = r.req.httpContinue) (h : Expecting s) : Expecting (setReq k f s) := by
  unfold setReq
  split
  · next r hr => exact exp_set hf hr h
  · exact h

theorem exp_of {s s' : St} (h1 : s'.cur = s.cur) (h2 : s'.reqs = s.reqs) (h : Expecting s) : Expecting s' := by
  unfold Expecting; rw [h1, h2]; exact h

/-! ## The chain of segments -/

theorem Chain.append {l : List RTask} {rc : Option Waiter} (h : Chain l rc) (d : Bytes) (g : Nat) :
    Chain (l ++ [.waiting d (rc.getD (.fut g))]) (some (.task l.length)) := by
  have at_ : ∀ (i : Nat) x, (l ++ [RTask.waiting d (rc.getD (.fut g))])[i]? = some x → (i < l.length ∧ l[i]? = some x) ∨ (i = l.length ∧ x = .waiting d (rc.getD (.fut g))) := by
    intro i x hx
    rcases Nat.lt_trichotomy i l.length with hi | hi | hi
    · left; rw [List.getElem?_append_left hi] at hx; exact ⟨hi, hx⟩
    · right; subst hi; simp at hx; exact ⟨rfl, hx.symm⟩
    · rw [List.getElem?_eq_none (by simp; omega)] at hx; cases hx
  have up : ∀ (j : Nat) x, l[j]? = some x → (l ++ [RTask.waiting d (rc.getD (.fut g))])[j]? = some x := by
    intro j x hx
    obtain ⟨hj, _⟩ := List.getElem?_eq_some_iff.1 hx
    rw [List.getElem?_append_left hj]; exact hx
  refine ⟨?_, ?_, ?_, ?_⟩
  · intro i f hi j hj
    rcases at_ i _ hi with ⟨_, h1⟩ | ⟨_, h1⟩
    · exact up _ _ (h.feed i f h1 j hj)
    · cases h1
  · intro i d' w hi
    rcases at_ i _ hi with ⟨_, h1⟩ | ⟨h0, h1⟩
    · exact (h.wait i d' w h1).imp (fun x j hj => up _ _ (x j hj)) id
    · by_cases hd : ∃ r ∈ l, r ≠ .done
      · right
        have hl := h.last hd
        obtain ⟨r, hr, _⟩ := hd
        have : 0 < l.length := List.length_pos_of_mem hr
        refine ⟨l.length - 1, by omega, ?_⟩
        cases h1; rw [hl]; rfl
      · left
        intro j hj
        subst h0
        have hx : l[j]? = some l[j] := List.getElem?_eq_getElem hj
        refine up _ _ ?_
        rw [hx]
        by_cases hz : l[j] = .done
        · rw [hz]
        · exact absurd ⟨l[j], List.getElem_mem hj, hz⟩ hd
  · intro i j hj hi
    rcases at_ i _ hi with ⟨_, h1⟩ | ⟨_, h1⟩
    · exact up _ _ (h.done i j hj h1)
    · cases h1
  · intro _; simp

/-- The segment in front is being queued, or is queued. -/
theorem Chain.set {l : List RTask} {rc : Option Waiter} (h : Chain l rc) {i : Nat} {x : RTask} (hx : l[i]? = some x) (hn : x ≠ .done)
    (hp : ∀ (j : Nat), j < i → l[j]? = some .done) {y : RTask} (hy : y = .done ∨ ∃ f, y = .feeding f) : Chain (l.set i y) rc := by
  obtain ⟨hl, _⟩ := List.getElem?_eq_some_iff.1 hx
  have at_ : ∀ (j : Nat), (l.set i y)[j]? = if j = i then some y else l[j]? := by
    intro j
    by_cases hj : j = i
    · subst hj; simp [hl]
    · rw [if_neg hj, List.getElem?_set_ne (Ne.symm hj)]
  have after : ∀ (j : Nat), i < j → l[j]? ≠ some .done := by
    intro j hj hd; have := h.done j i hj hd; rw [hx] at this; cases this; exact hn rfl
  refine ⟨?_, ?_, ?_, ?_⟩
  · intro j f hj k hk
    rw [at_] at hj
    split at hj
    · next e => subst e; rw [at_, if_neg (by omega)]; exact hp k hk
    · next e =>
      rcases Nat.lt_or_gt_of_ne e with hlt | hgt
      · rw [hp j hlt] at hj; cases hj
      · have := h.feed j f hj i hgt; rw [hx] at this; cases this; exact absurd rfl hn
  · intro j d w hj
    rw [at_] at hj
    split at hj
    · next e => rcases hy with hy | ⟨f, hy⟩ <;> rw [hy] at hj <;> cases hj
    · next e =>
      rcases Nat.lt_or_gt_of_ne e with hlt | hgt
      · rw [hp j hlt] at hj; cases hj
      · rcases h.wait j d w hj with h1 | h1
        · have := h1 i hgt; rw [hx] at this; cases this; exact absurd rfl hn
        · exact .inr h1
  · intro j k hk hj
    rw [at_] at hj
    split at hj
    · next e => subst e; rw [at_, if_neg (by omega)]; exact hp k hk
    · next e =>
      rcases Nat.lt_or_gt_of_ne e with hlt | hgt
      · rw [at_, if_neg (by omega)]; exact hp k (by omega)
      · exact absurd hj (after j hgt)
  · intro _
    rw [List.length_set]
    exact h.last ⟨x, List.mem_of_getElem? hx, hn⟩

/-- A segment may be queued only when those before it are. -/
theorem Chain.ready {s : St} (h : Chain s.recvs s.receive) {i : Nat} {d : Bytes} {w : Waiter} (hi : s.recvs[i]? = some (.waiting d w))
    (hw : waited s w = true) : ∀ (j : Nat), j < i → s.recvs[j]? = some .done := by
  rcases h.wait i d w hi with h1 | ⟨j, h1, h2⟩
  · exact h1
  · subst h1 h2
    simp only [waited, beq_iff_eq] at hw
    intro k hk
    by_cases e : k = j
    · rw [e]; exact hw
    · exact h.done j k (by omega) hw

/-! ## Steps -/

theorem minimal_take {d : Bytes} {m : Nat} (h : Spec.Head.FirstBlank d m) : Minimal (d.take (m + 4)) := by
  obtain ⟨⟨a, b, e, hl⟩, hmin⟩ := h
  have hc : CRLF2.length = 4 := rfl
  have ht : d.take (m + 4) = a ++ CRLF2 := by
    rw [e, ← hl]; exact List.take_left' (by simp [hc])
  refine ⟨m, ⟨⟨a, [], by rw [ht]; simp, hl⟩, fun a' b' e' => hmin a' (b' ++ b) ?_⟩, ?_⟩
  · rw [ht] at e'; rw [e, e']; simp [List.append_assoc]
  · rw [ht]; simp [hc, hl]

theorem minimal_len {d : Bytes} {m : Nat} (h : Spec.Head.FirstBlank d m) : m + 4 ≤ d.length := by
  obtain ⟨⟨a, b, e, hl⟩, _⟩ := h
  rw [e]; simp [hl]

/-- The fields that `Inv` is about. -/
structure Plain (s s' : St) : Prop where
  hb : s'.hb = s.hb
  heads : s'.heads = s.heads
  q0b : q0b s' = q0b s
  recvs : s'.recvs = s.recvs
  gen : s'.gen = s.gen
  fut : s'.futDone = s.futDone
  receive : s'.receive = s.receive
  rx : s'.rx = s.rx
  log : s'.log = s.log
  running : s'.running = s.running
  closing : s'.closing = false → s.closing = false
  noWrite : s'.noWrite = false → s.noWrite = false

theorem Plain.refl (s : St) : Plain s s := ⟨rfl, rfl, rfl, rfl, rfl, rfl, rfl, rfl, rfl, rfl, id, id⟩
theorem Plain.trans {a b c : St} (h : Plain a b) (h' : Plain b c) : Plain a c :=
  ⟨h'.hb.trans h.hb, h'.heads.trans h.heads, h'.q0b.trans h.q0b, h'.recvs.trans h.recvs, h'.gen.trans h.gen, h'.fut.trans h.fut,
    h'.receive.trans h.receive, h'.rx.trans h.rx, h'.log.trans h.log, h'.running.trans h.running, 
    fun x => h.closing (h'.closing x), fun x => h.noWrite (h'.noWrite x)⟩

theorem Held.congr {s s' : St} (h : Held s) (h1 : s'.recvs = s.recvs) (h2 : s'.gen = s.gen) (h3 : s'.futDone = s.futDone) (h4 : s'.receive = s.receive) : Held s' := by
  have hw : ∀ w, waited s' w = waited s w := by intro w; cases w <;> simp only [waited, h1, h3]
  refine ⟨by rw [h3, h2]; exact h.fut, by rw [h1]; exact h.feed, ?_, by rw [h4, h1]; exact h.last⟩
  rw [h1]; intro d w hd; rw [hw]; exact h.wait d w hd

theorem Inv.plain {ext : Bytes} {s s' : St} (h : Inv ext s) (p : Plain s s') (one : Ok s') (hq : s'.closing = false → s'.q0 = s.q0) : Inv ext s' := by
  refine ⟨one, by rw [p.heads]; exact h.good, ?_, by rw [p.fut, p.gen]; exact h.futs, ?_, ?_, ?_, by rw [p.heads]; exact h.raw, by rw [p.recvs, p.receive]; exact h.chain,
    by rw [p.log]; exact h.logs, by rw [p.running, p.log]; exact h.cur, by rw [p.log]; exact h.grouped,
    fun hc hx => (hq hc).trans (h.fresh (p.closing hc) (by rw [p.hb, p.heads] at hx; exact hx)), fun hw buf hb => h.blank (p.noWrite hw) buf (by rw [← p.hb]; exact hb)⟩
  · have := h.eq
    unfold eaten pending at this ⊢
    rw [p.rx, p.log, p.hb, p.heads, p.q0b, p.recvs]; exact this
  · rw [p.hb, p.q0b, p.recvs, p.receive, p.fut, p.gen]; exact h.idle
  · rw [p.heads]; intro hx; exact (h.early hx).congr p.recvs p.gen p.fut p.receive
  · rw [p.heads, p.q0b]; exact h.new

theorem q0b_put0 (x : Item) (s : St) : q0b (put0 x s) = q0b s ++ x.getD [] := by simp [q0b, put0]

theorem plain_setReq (k : Nat) (f : Rq → Rq) (s : St) : Plain s (setReq k f s) := by
  unfold setReq; split <;> exact ⟨rfl, rfl, rfl, rfl, rfl, rfl, rfl, rfl, rfl, rfl, id, id⟩
theorem plain_close (s : St) : Plain s (close s) := by
  unfold close
  split
  · exact .refl _
  · exact ⟨rfl, rfl, rfl, rfl, rfl, rfl, rfl, rfl, rfl, rfl, fun x => (by cases x), fun x => (by cases x)⟩
theorem close_q0 (s : St) : (close s).q0 = s.q0 := by unfold close; split <;> rfl
theorem setReq_q0 (k : Nat) (f : Rq → Rq) (s : St) : (setReq k f s).q0 = s.q0 := by unfold setReq; split <;> rfl
theorem plain_put0 {x : Item} (hx : x.getD [] = []) (s : St) : Plain s (put0 x s) :=
  ⟨rfl, rfl, by rw [q0b_put0, hx, List.append_nil], rfl, rfl, rfl, rfl, rfl, rfl, rfl, id, id⟩
theorem plain_put1 (x : Item) (s : St) : Plain s (put1 x s) := ⟨rfl, rfl, rfl, rfl, rfl, rfl, rfl, rfl, rfl, rfl, id, id⟩

theorem plain_account (c : Cfg) (n : Nat) (s : St) : Plain s (account c n s) := by
  unfold account
  split
  · exact .refl _
  · next k _ =>
    split
    · exact .refl _
    · next r _ =>
      split
      · exact ⟨rfl, rfl, rfl, rfl, rfl, rfl, rfl, rfl, rfl, rfl, id, id⟩
      · dsimp only
        have h0 : Plain s { s with reqs := s.reqs.set k { r with bodySize := r.bodySize + n } } := ⟨rfl, rfl, rfl, rfl, rfl, rfl, rfl, rfl, rfl, rfl, id, id⟩
        split
        · exact h0.trans (plain_put0 rfl _)
        · split
          · exact ⟨rfl, rfl, rfl, rfl, rfl, rfl, rfl, rfl, rfl, rfl, id, id⟩
          · refine h0.trans ((plain_setReq k noKeep _).trans (.trans ?_ (plain_put1 none _)))
            exact ⟨rfl, rfl, rfl, rfl, rfl, rfl, rfl, rfl, rfl, rfl, id, id⟩

/-- What `feed` leaves. -/
theorem feed_flow (c : Cfg) (bs : Nat) (f : Feed) (s : St) :
    (f.rest = [] ∧ (feed c bs f s).2 = none ∧ Plain s (feed c bs f s).1) ∨ (feed c bs f s).1.noWrite = true ∨
    ((feed c bs f s).2 = some { f with rest := f.rest.drop bs } ∧ (feed c bs f s).1 = put0 (some (f.rest.take bs)) s) := by
  unfold feed
  split
  · next h => exact .inl ⟨h, rfl, plain_account c _ s⟩
  · right
    dsimp only
    split
    · exact .inl rfl
    · exact .inr ⟨rfl, rfl⟩

theorem grouped_snoc {l : List Act} {a : Act} (h : ∀ pre k b post, l = pre ++ Act.body k b :: post → lastHead pre = some k)
    (ha : ∀ k b, a = .body k b → lastHead l = some k) : ∀ pre k b post, l ++ [a] = pre ++ Act.body k b :: post → lastHead pre = some k := by
  intro pre k b post e
  rcases List.eq_nil_or_concat post with hp | ⟨post', z, hp⟩
  · subst hp
    have := List.append_inj' e rfl
    rw [← this.1]
    exact ha k b (by simpa using this.2)
  · subst hp
    have e' : l ++ [a] = (pre ++ Act.body k b :: post') ++ [z] := by rw [e]; simp
    exact h pre k b post' (List.append_inj' e' rfl).1

theorem inv_data {c : Cfg} {d ext : Bytes} {s : St} (h : Inv (d ++ ext) s) : Inv ext (dataReceived c d s) := by
  rcases data_cases c d s with ⟨hd, e⟩ | ⟨hd, hb, e⟩ | ⟨buf, hd, hb, hc⟩
  · rw [e]; rw [hd] at h; exact h
  · rw [e]
    have hw : ∀ w, waited s w = false → waited { s with reading := false, recvs := s.recvs ++ [.waiting d (s.receive.getD (.fut s.gen))], receive := some (.task s.recvs.length) } w = false := by
      intro w hw
      cases w with
      | fut g => exact hw
      | task t =>
        simp only [waited, beq_eq_false_iff_ne, ne_eq] at hw ⊢
        rcases Nat.lt_trichotomy t s.recvs.length with ht | ht | ht
        · rw [List.getElem?_append_left ht]; exact hw
        · subst ht; simp
        · rw [List.getElem?_eq_none (by simp; omega)]; simp
    refine ⟨?_, h.good, ?_, h.futs, ?_, ?_, h.new, h.raw, h.chain.append d s.gen, h.logs, h.cur, h.grouped, h.fresh, h.blank⟩
    · exact h.one.congr rfl rfl rfl rfl (exp_of rfl rfl)
    · have := h.eq
      simp only [eaten, pending, q0b] at this ⊢
      rw [this]; simp [rback, List.append_assoc]
    · intro x; rw [hb] at x; cases x
    · intro hx
      have he := h.early hx
      refine ⟨he.fut, ?_, ?_, ?_⟩
      · intro f hf
        rcases List.mem_append.1 hf with hf | hf
        · exact he.feed f hf
        · simp at hf
      · intro d' w hd'
        rcases List.mem_append.1 hd' with hf | hf
        · exact hw _ (he.wait d' w hf)
        · simp only [List.mem_singleton, RTask.waiting.injEq] at hf
          rw [hf.2]
          refine hw _ ?_
          rcases he.last with hl | ⟨hl, d2, w2, h2⟩
          · rw [hl]; simp [waited, he.fut]
          · rw [hl]; simp only [Option.getD_some, waited, h2]; rfl
      · right
        refine ⟨by simp, d, s.receive.getD (.fut s.gen), by simp⟩
  · obtain ⟨i1, i2, i3, i4⟩ := h.idle (by rw [hb]; rfl)
    have hz : s.heads.countP busy = 0 := by
      have := h.one.wish (by rw [hb]; rfl); unfold load at this; rw [hb] at this; simp only [wish] at this; omega
    have nb := no_busy hz
    have hrb : (s.recvs.map rback).flatten = [] := flat_nil (fun r hr => by rw [i2 r hr]; rfl)
    have hp : pending s = buf := by
      unfold pending
      rw [(heads_none nb).1, (heads_none nb).2, i1, hb, hrb]; simp
    have heq := h.eq
    rw [hp] at heq
    have wt : ∀ s' : St, s'.hb = some (buf ++ d) → s'.heads = s.heads → s'.q0 = s.q0 → s'.recvs = s.recvs → s'.gen = s.gen → s'.futDone = s.futDone → s'.receive = s.receive →
        s'.rx = s.rx → s'.log = s.log → s'.running = s.running → s'.q1 = s.q1 → (s'.closing = false → s.closing = false) →
        (s'.noWrite = false → Spec.Head.NoBlank (buf ++ d)) → Inv ext s' := by
      intro s' e1 e2 e3 e4 e5 e6 e7 e8 e9 e10 e11 e12 e13
      have eq0 : q0b s' = q0b s := by unfold q0b; rw [e3]
      refine ⟨?_, by rw [e2]; exact h.good, ?_, by rw [e6, e5]; exact h.futs, ?_, ?_, ?_, by rw [e2]; exact h.raw, by rw [e4, e7]; exact h.chain, by rw [e9]; exact h.logs,
        by rw [e10, e9]; exact h.cur, by rw [e9]; exact h.grouped, fun hc _ => e3.trans (h.fresh (e12 hc) (.inl (by rw [hb]; rfl))),
        fun hw b hb' => (by rw [e1] at hb'; cases hb'; exact e13 hw)⟩
      · have := h.one.wish (by rw [hb]; rfl)
        left; unfold load at this ⊢; rw [e10, e2, e11, e1]; rw [hb] at this; exact this
      · unfold eaten pending at *
        rw [e8, e9, e1, e2, eq0, e4, (heads_none nb).1, (heads_none nb).2, i1, hrb, heq]; simp [List.append_assoc]
      · rw [eq0, e4, e7, e6, e5]; exact fun _ => ⟨i1, i2, i3, i4⟩
      · rw [e2]; rintro ⟨x, hx, hbx⟩; rw [nb x hx] at hbx; cases hbx
      · rw [e2, eq0]; exact h.new
    rcases hc with ⟨n, hf, hn, e⟩ | e | ⟨hf, e⟩ <;> rw [e]
    · refine ⟨?_, ?_, ?_, h.futs, ?_, ?_, ?_, ?_, h.chain, h.logs, h.cur, h.grouped,
        fun hc _ => h.fresh hc (.inl (by rw [hb]; rfl)), fun _ b hb' => (by cases hb')⟩
      · have := h.one.wish (by rw [hb]; rfl)
        left; unfold load at this ⊢; rw [hb] at this
        simp only [List.countP_append, List.countP_singleton, busy, wish, if_true] at this ⊢
        omega
      · intro x hx
        rcases List.mem_append.1 hx with hx | hx
        · exact h.good x hx
        · simp at hx; subst hx; trivial
      · unfold eaten pending at *
        simp only [q0b] at i1 ⊢
        simp only [List.map_append, List.flatten_append, (heads_none nb).1, (heads_none nb).2, i1, List.map_cons, List.map_nil]
        rw [hrb, heq]
        simp [front, back, List.append_assoc]
      · intro x; cases x
      · intro _
        refine ⟨i4, fun f hf => (by have := i2 _ hf; cases this), fun d' w hd' => (by have := i2 _ hd'; cases this), .inl i3⟩
      · intro d' n' hd'
        rcases List.mem_append.1 hd' with hx | hx
        · have := nb _ hx; cases this
        · simp only [List.mem_singleton, HTask.new.injEq] at hx
          refine ⟨i1, n, hx.2, ?_⟩
          rw [hx.1]; exact Proofs.Head.firstBlank_iff.2 hf
      · intro f k raw hx
        rcases List.mem_append.1 hx with hx | hx
        · exact h.raw f k raw hx
        · simp at hx
    · exact wt _ rfl rfl rfl rfl rfl rfl rfl rfl rfl rfl rfl (fun x => (by cases x)) (fun x => (by cases x))
    · exact wt _ rfl rfl rfl rfl rfl rfl rfl rfl rfl rfl rfl id (fun _ => Proofs.Head.noBlank_iff.2 hf)

theorem inv_drain {c : Cfg} : ∀ (l : List Item) {s : St}, Inv (l.map (·.getD [])).flatten s → Inv [] (drain c l s)
  | [], _, h => h
  | x :: l, s, h => by
    have : Inv ((l.map (·.getD [])).flatten) (dataReceived c (x.getD []) s) := inv_data (by simpa using h)
    exact inv_drain l this

theorem split_rest (n : Nat) (l z : Bytes) : l ++ z = l.take n ++ (l.drop n ++ z) := by
  rw [← List.append_assoc, List.take_append_drop]

/-- A task of a head queues what is behind the head. -/
theorem inv_feed {c : Cfg} {bs i k : Nat} {f : Feed} {raw ext : Bytes} {x : HTask} {s s1 : St} {p : St × Option Feed} (h : Inv ext s) (hx : s.heads[i]? = some x)
    (hb : busy x = true) (pl : Plain s s1) (hm : Minimal raw) (hr : front x ++ (q0b s ++ back x) = raw ++ (q0b s ++ f.rest))
    (hp : p = feed c bs f s1 ∨ (f.rest = [] ∧ p = (s1, none))) (hg : (fed i k raw p).noWrite = false) (one : Ok (fed i k raw p)) :
    Inv ext (fed i k raw p) := by
  have h1 := h.one.busy (List.mem_of_getElem? hx) hb
  obtain ⟨ho, hrun, hhb⟩ := others h1 hx hb
  obtain ⟨hf1, hf2, hf3⟩ := heads_one h1 hx hb
  obtain ⟨hl, hxl⟩ := List.getElem?_eq_some_iff.1 hx
  have held := h.early ⟨x, List.mem_of_getElem? hx, hb⟩
  have mem_set : ∀ y z, z ∈ s.heads.set i y → z = y ∨ busy z = false := by
    intro y z hz
    obtain ⟨j, hj⟩ := List.getElem?_of_mem hz
    by_cases e : j = i
    · subst e; simp [hl] at hj; exact .inl hj.symm
    · rw [List.getElem?_set_ne (Ne.symm e)] at hj; exact .inr (ho j z hj e)
  have gd : ∀ y, good y → ∀ z ∈ s.heads.set i y, good z := by
    intro y hy z hz
    rcases List.mem_or_eq_of_mem_set hz with hz | hz
    · exact h.good z hz
    · rw [hz]; exact hy
  have heq : s.rx = eaten s ++ (raw ++ (q0b s ++ (f.rest ++ ((s.recvs.map rback).flatten ++ ext)))) := by
    have e0 : s.rx = eaten s ++ ((front x ++ (q0b s ++ back x)) ++ ((s.recvs.map rback).flatten ++ ext)) := by
      rw [h.eq]; unfold pending; rw [hf1, hf2, hhb]; simp [List.append_assoc]
    rw [e0, hr]; simp [List.append_assoc]
  -- it ends
  have ended : ∀ s2 : St, Plain s s2 → f.rest = [] → Ok (fed i k raw (s2, none)) → Inv ext (fed i k raw (s2, none)) := by
    intro s2 p2 hn one
    rw [hn] at heq
    have nb : ∀ z ∈ s.heads.set i (.handling k), busy z = false := by
      intro z hz; rcases mem_set _ z hz with e | e
      · rw [e]; rfl
      · exact e
    refine ⟨one, ?_, ?_, ?_, ?_, ?_, ?_, ?_, ?_, ?_, ?_, ?_, ?_, ?_⟩
    · simp only [fed, begin, p2.heads]; exact gd _ trivial
    · have hq := p2.q0b
      unfold q0b at hq
      simp only [eaten, pending, q0b, fed, begin, p2.rx, p2.log, p2.hb, p2.heads, hq, p2.recvs, hhb, (hf3 _).1, (hf3 _).2]
      rw [heq]; simp [eaten, q0b, front, back, Act.bytes, List.append_assoc]
    · have : (fed i k raw (s2, none)).futDone.length = s2.futDone.length := by simp only [fed, begin]; split <;> simp
      rw [this, p2.fut]; simp only [fed, begin, p2.gen]; exact h.futs
    · simp only [fed, begin, p2.hb, hhb]; intro e; cases e
    · simp only [fed, begin, p2.heads]; rintro ⟨z, hz, hbz⟩; rw [nb z hz] at hbz; cases hbz
    · simp only [fed, begin, p2.heads]; intro d n hz; have := nb _ hz; cases this
    · simp only [fed, begin, p2.heads]; intro f k raw hz; have := nb _ hz; cases this
    · simp only [fed, begin, p2.recvs, p2.receive]; exact h.chain
    · simp only [fed, begin, p2.log]
      intro k' raw' hz
      rcases List.mem_append.1 hz with hz | hz
      · exact h.logs k' raw' hz
      · simp only [List.mem_singleton, Act.head.injEq] at hz; rw [hz.2]; exact hm
    · simp only [fed, begin, p2.log, p2.running, hrun]
      intro k' hk'
      simp at hk'; rw [hk']; exact lastHead_head _ _ _
    · simp only [fed, begin, p2.log]
      exact grouped_snoc h.grouped (fun k b e => by cases e)
    · simp only [fed, begin, p2.heads, p2.hb, hhb]
      rintro _ (e | ⟨d, n, hz⟩)
      · cases e
      · have := nb _ hz; cases this
    · simp only [fed, begin, p2.hb, hhb]; intro _ b e; cases e
  rcases hp with hp | ⟨hn, hp⟩
  · rcases feed_flow c bs f s1 with ⟨hn, h2, hpl⟩ | hw | ⟨h2, h1⟩
    · have : p = ((feed c bs f s1).1, none) := by rw [hp, ← h2]
      rw [this] at one ⊢
      exact ended _ (pl.trans hpl) hn one
    · exfalso
      have : (fed i k raw p).noWrite = (feed c bs f s1).1.noWrite := by
        rw [hp]; rcases feed c bs f s1 with ⟨a, _ | b⟩ <;> rfl
      rw [this, hw] at hg; cases hg
    · have e : p = (put0 (some (f.rest.take bs)) s1, some { f with rest := f.rest.drop bs }) := by rw [hp, ← h1, ← h2]
      subst e
      refine ⟨one, ?_, ?_, ?_, ?_, ?_, ?_, ?_, ?_, ?_, ?_, ?_, ?_, ?_⟩
      · simp only [fed, put0, pl.heads]; exact gd _ trivial
      · have hq : q0b (fed i k raw (put0 (some (f.rest.take bs)) s1, some { f with rest := f.rest.drop bs })) = q0b s ++ f.rest.take bs := by
          rw [← pl.q0b]; simp [fed, q0b, put0]
        unfold eaten pending
        rw [hq]
        simp only [fed, put0, pl.rx, pl.log, pl.hb, pl.heads, pl.recvs, hhb, (hf3 _).1, (hf3 _).2, front, back]
        rw [heq, split_rest bs f.rest]
        simp [eaten, List.append_assoc]
      · simp only [fed, put0, pl.fut, pl.gen]; exact h.futs
      · simp only [fed, put0, pl.hb, hhb]; intro e; cases e
      · intro _; exact held.congr pl.recvs pl.gen pl.fut pl.receive
      · simp only [fed, put0, pl.heads]; intro d n hz
        rcases mem_set _ _ hz with e | e <;> cases e
      · simp only [fed, put0, pl.heads]; intro f' k' raw' hz
        rcases mem_set _ _ hz with e | e
        · cases e; exact hm
        · cases e
      · simp only [fed, put0, pl.recvs, pl.receive]; exact h.chain
      · simp only [fed, put0, pl.log]; exact h.logs
      · simp only [fed, put0, pl.running, hrun]; intro k' hk'; cases hk'
      · simp only [fed, put0, pl.log]; exact h.grouped
      · simp only [fed, put0, pl.heads, pl.hb, hhb]
        rintro _ (e | ⟨d, n, hz⟩)
        · cases e
        · rcases mem_set _ _ hz with e | e <;> cases e
      · simp only [fed, put0, pl.hb, hhb]; intro _ b e; cases e
  · rw [hp] at one ⊢
    exact ended _ pl hn one

theorem inv_head {c : Cfg} {i : Nat} {s : St} (h : Inv [] s) (hg : Good (headStep c i s)) (one : Ok (headStep c i s)) : Inv [] (headStep c i s) := by
  revert hg one
  unfold headStep
  split
  · next d n hi =>
    obtain ⟨hl, _⟩ := List.getElem?_eq_some_iff.1 hi
    obtain ⟨hq, m, hn, hfb⟩ := h.new d n (List.mem_of_getElem? hi)
    have ml := minimal_len hfb
    unfold startHead
    dsimp only
    have bad : ∀ (x : HTask) (s' : St), ¬ good x → s'.heads = s.heads.set i x → Good s' → False := by
      intro x s' hx hs hgood
      exact hx (hgood.2.2 x (by rw [hs]; exact List.mem_set hl x))
    split
    · intro hg _; exact (bad .done _ id rfl hg).elim
    · intro hg _; exact (bad .done _ id rfl hg).elim
    · split
      · intro hg _; exact (bad (.failing s.reqs.length) _ id rfl hg).elim
      · intro hg _; exact (bad .done _ id rfl hg).elim
    · next r hacc =>
      have pl : Plain s (if r.hasBody = true then newReq r s else put0 (some []) (newReq r s)) := by
        split
        · exact ⟨rfl, rfl, rfl, rfl, rfl, rfl, rfl, rfl, rfl, rfl, id, id⟩
        · exact ⟨rfl, rfl, by rw [q0b_put0]; simp [q0b, newReq], rfl, rfl, rfl, rfl, rfl, rfl, rfl, id, id⟩
      have hm : Minimal (d.take (n + 2)) := by rw [hn]; exact minimal_take hfb
      split
      · next hc =>
        intro hg one
        refine inv_feed (f := { rest := d.drop (n + 2), size := (d.drop (n + 2)).length }) h hi rfl pl hm ?_ (.inl rfl) hg.2.1 one
        simp [front, back, hq]
      · next hc =>
        intro hg one
        have hd : d.drop (n + 2) = [] := List.drop_eq_nil_of_le (by simp only [not_or] at hc; omega)
        refine inv_feed (c := c) (bs := 0) (f := { rest := [], size := 0 }) h hi rfl pl hm ?_ (.inr ⟨rfl, rfl⟩) hg.2.1 one
        have := List.take_append_drop (n + 2) d
        rw [hd] at this
        simpa [front, back, hq] using this.symm
  · next f k raw hi =>
    intro hg one
    exact inv_feed h hi rfl (.refl s) (h.raw f k raw (List.mem_of_getElem? hi)) rfl (.inl rfl) hg.2.1 one
  · intro _ _; exact h

/-- A segment is queued. -/
theorem inv_recvFed {c : Cfg} {bs i : Nat} {f : Feed} {x : RTask} {s : St} (h : Inv [] s) (hx : s.recvs[i]? = some x) (hn : x ≠ .done)
    (hp : ∀ (j : Nat), j < i → s.recvs[j]? = some .done) (hf : rback x = f.rest) (nb : ∀ z ∈ s.heads, busy z = false)
    (hg : (recvFed i (feed c bs f s)).noWrite = false) (one : Ok (recvFed i (feed c bs f s))) : Inv [] (recvFed i (feed c bs f s)) := by
  have hhb : s.hb = none := by
    cases hb : s.hb with
    | none => rfl
    | some b => exact absurd ((h.idle (by rw [hb]; rfl)).2.1 x (List.mem_of_getElem? hx)) hn
  obtain ⟨hl, _⟩ := List.getElem?_eq_some_iff.1 hx
  have hpre : ∀ (j : Nat) y, s.recvs[j]? = some y → j < i → rback y = [] := by
    intro j y hy hj; rw [hp j hj] at hy; cases hy; rfl
  have hset : ∀ y, ((s.recvs.set i y).map rback).flatten = rback y ++ ((s.recvs.drop (i + 1)).map rback).flatten := by
    intro y
    rw [flat_from (i := i) (x := y) (by simp [hl])]
    · rw [List.drop_set_of_lt (by omega)]
    · intro j z hz hj; rw [List.getElem?_set_ne (by omega)] at hz; exact hpre j z hz hj
  have heq : s.rx = eaten s ++ (q0b s ++ (f.rest ++ ((s.recvs.drop (i + 1)).map rback).flatten)) := by
    rw [h.eq]; unfold pending; rw [flat_from hx hpre, hf, hhb, (heads_none nb).1, (heads_none nb).2]; simp
  rcases feed_flow c bs f s with ⟨hr, h2, hpl⟩ | hw | ⟨h2, h1⟩
  · have e : feed c bs f s = ((feed c bs f s).1, none) := by rw [← h2]
    rw [e] at one ⊢
    generalize (feed c bs f s).1 = s2 at *
    refine ⟨one, ?_, ?_, ?_, ?_, ?_, ?_, ?_, ?_, ?_, ?_, ?_, ?_, ?_⟩
    · simp only [recvFed, hpl.heads]; exact h.good
    · have hq := hpl.q0b
      unfold q0b at hq
      simp only [eaten, pending, q0b, recvFed, hpl.rx, hpl.log, hpl.hb, hpl.heads, hq, hpl.recvs, hhb, (heads_none nb).1, (heads_none nb).2, hset]
      rw [heq, hr]; simp [eaten, q0b, rback]
    · simp only [recvFed, hpl.fut, hpl.gen]; exact h.futs
    · simp only [recvFed, hpl.hb, hhb]; intro e; cases e
    · simp only [recvFed, hpl.heads]; rintro ⟨z, hz, hbz⟩; rw [nb z hz] at hbz; cases hbz
    · simp only [recvFed, hpl.heads]; intro d n hz; have := nb _ hz; cases this
    · simp only [recvFed, hpl.heads]; exact h.raw
    · simp only [recvFed, hpl.recvs, hpl.receive]; exact h.chain.set hx hn hp (.inl rfl)
    · simp only [recvFed, hpl.log]; exact h.logs
    · simp only [recvFed, hpl.log, hpl.running]; exact h.cur
    · simp only [recvFed, hpl.log]; exact h.grouped
    · simp only [recvFed, hpl.heads, hpl.hb, hhb]
      rintro _ (e | ⟨d, n, hz⟩)
      · cases e
      · have := nb _ hz; cases this
    · simp only [recvFed, hpl.hb, hhb]; intro _ b e; cases e
  · exfalso
    have : (recvFed i (feed c bs f s)).noWrite = (feed c bs f s).1.noWrite := by
      rcases feed c bs f s with ⟨a, _ | b⟩ <;> rfl
    rw [this, hw] at hg; cases hg
  · have e : feed c bs f s = (put0 (some (f.rest.take bs)) s, some { f with rest := f.rest.drop bs }) := by rw [← h1, ← h2]
    rw [e] at one ⊢
    refine ⟨one, h.good, ?_, h.futs, ?_, ?_, ?_, h.raw, h.chain.set hx hn hp (.inr ⟨_, rfl⟩), h.logs, h.cur, h.grouped, ?_, ?_⟩
    · have hq : q0b (recvFed i (put0 (some (f.rest.take bs)) s, some { f with rest := f.rest.drop bs })) = q0b s ++ f.rest.take bs := by
        simp [recvFed, q0b, put0]
      unfold eaten pending
      rw [hq]
      simp only [recvFed, put0, hhb, (heads_none nb).1, (heads_none nb).2, hset, rback]
      rw [heq, split_rest bs f.rest]
      simp [eaten, List.append_assoc]
    · simp only [recvFed, put0, hhb]; intro e; cases e
    · simp only [recvFed, put0]; rintro ⟨z, hz, hbz⟩; rw [nb z hz] at hbz; cases hbz
    · simp only [recvFed, put0]; intro d n hz; have := nb _ hz; cases this
    · simp only [recvFed, put0, hhb]
      rintro _ (e | ⟨d, n, hz⟩)
      · cases e
      · have := nb _ hz; cases this
    · simp only [recvFed, put0, hhb]; intro _ b e; cases e

theorem inv_recv {c : Cfg} {i : Nat} {s : St} (h : Inv [] s) (hg : Good (recvStep c i s)) (one : Ok (recvStep c i s)) : Inv [] (recvStep c i s) := by
  revert hg one
  unfold recvStep
  have idleHeads : (∀ (hs : Held s), False) → ∀ z ∈ s.heads, busy z = false := by
    intro hf z hz
    cases hb : busy z with
    | false => rfl
    | true => exact (hf (h.early ⟨z, hz, hb⟩)).elim
  split
  · next d w hi =>
    split
    · next hw =>
      intro hg one
      refine inv_recvFed h hi (by simp) (h.chain.ready hi hw) rfl (idleHeads (fun hs => ?_)) hg.2.1 one
      have := hs.wait d w (List.mem_of_getElem? hi); rw [hw] at this; cases this
    · intro _ _; exact h
  · next f hi =>
    intro hg one
    exact inv_recvFed h hi (by simp) (h.chain.feed i f hi) rfl (idleHeads (fun hs => hs.feed f (List.mem_of_getElem? hi))) hg.2.1 one
  · intro _ _; exact h

/-- The send task takes a marker. -/
theorem inv_keep {c : Cfg} {k : Nat} {r : Rq} {s : St} (h : Inv [] s) (hl1 : load s ≤ 1) (hc : r.req.httpContinue = true ∨ (load s = 0 ∧
    (∀ x ∈ s.recvs, x = .done) ∧ (r.req.hasBody = true → s.q0 = []))) : Inv [] (handleKeepalive c k r s) := by
  have pl : ∀ s', Plain s s' → s'.q1 = s.q1 → s'.q0 = s.q0 → Inv [] s' := fun s' p e e' => h.plain p (by
    left; rw [load_congr p.running p.heads e p.hb]; exact hl1) (fun _ => e')
  have p0 : Plain s { s with registered := s.registered || s.first } := ⟨rfl, rfl, rfl, rfl, rfl, rfl, rfl, rfl, rfl, rfl, id, id⟩
  have last : ∀ s' : St, Plain s' { s' with reading := true } := fun s' => ⟨rfl, rfl, rfl, rfl, rfl, rfl, rfl, rfl, rfl, rfl, id, id⟩
  by_cases hx : r.req.httpContinue = true
  · unfold handleKeepalive
    dsimp only
    split
    · exact pl _ (p0.trans (plain_close _)) (close_fields _).2.2.2.1 (close_q0 _)
    · exact pl _ ((p0.trans (plain_setReq _ _ _)).trans (last _)) (setReq_fields _ _ _).2.2.2.1 (setReq_q0 _ _ _)
  obtain ⟨hz, hr, hq⟩ := hc.resolve_left hx
  clear hx hc
  have hhb : s.hb = none := by
    cases hb : s.hb with
    | none => rfl
    | some b => unfold load at hz; rw [hb] at hz; simp only [wish] at hz; omega
  have hrun : s.running = [] := List.length_eq_zero_iff.1 (by unfold load at hz; omega)
  have nb := no_busy (s := s) (by unfold load at hz; omega)
  have hrb : (s.recvs.map rback).flatten = [] := flat_nil (fun x hx => by rw [hr x hx]; rfl)
  have heq : s.rx = eaten s ++ q0b s := by
    rw [h.eq]; unfold pending; rw [hhb, (heads_none nb).1, (heads_none nb).2, hrb]; simp
  unfold handleKeepalive
  dsimp only
  split
  · exact pl _ (p0.trans (plain_close _)) (close_fields _).2.2.2.1 (close_q0 _)
  · split
    · exact pl _ ((p0.trans (plain_setReq _ _ _)).trans (last _)) (setReq_fields _ _ _).2.2.2.1 (setReq_q0 _ _ _)
    · split
      · split
        · refine ⟨.inl hl1, h.good, h.eq, h.futs, ?_, ?_, h.new, h.raw, ?_, h.logs, h.cur, h.grouped, h.fresh, h.blank⟩
          · intro e; rw [hhb] at e; cases e
          · rintro ⟨z, hz, hbz⟩; rw [nb z hz] at hbz; cases hbz
          · exact ⟨h.chain.feed, h.chain.wait, h.chain.done, fun ⟨x, hx, hn⟩ => absurd (hr x hx) hn⟩
        · exact pl _ ((p0.trans (plain_close _)).trans (last _)) (close_fields _).2.2.2.1 (close_q0 _)
      · generalize hs0 : { s with registered := s.registered || s.first } = s0 at p0 ⊢
        have e0 : s0.q0 = s.q0 ∧ s0.q1 = s.q1 := by subst hs0; exact ⟨rfl, rfl⟩
        have ps := p0.trans (plain_setReq k (fun r => { r with bodySize := 0 }) s0)
        have hq1 : (setReq k (fun r => { r with bodySize := 0 }) s0).q1 = s.q1 := (setReq_fields k _ s0).2.2.2.1.trans e0.2
        have hq0 : (setReq k (fun r => { r with bodySize := 0 }) s0).q0 = s.q0 := by
          rw [← e0.1]; unfold setReq; split <;> rfl
        -- the state that is ready for a new head
        have base : ∀ ext, s.rx = eaten s ++ ext → Inv ext { (reset k s0) with q0 := [] } := by
          intro ext hx
          refine ⟨?_, ?_, ?_, ?_, ?_, ?_, ?_, ?_, ?_, ?_, ?_, ?_, fun _ _ => rfl, ?_⟩
          · left; unfold load; simp only [reset, ps.running, ps.heads, hq1, wish]
            unfold load at hz; omega
          · simp only [reset, ps.heads]; exact h.good
          · simp only [eaten, pending, q0b, reset, ps.rx, ps.log, ps.heads, ps.recvs, (heads_none nb).1, (heads_none nb).2, hrb]
            rw [hx]; simp [eaten]
          · simp only [reset, p0.fut, p0.gen, List.length_append, List.length_singleton, h.futs]
          · intro _
            refine ⟨rfl, ?_, rfl, ?_⟩
            · simp only [reset, ps.recvs]; exact hr
            · simp only [reset, p0.fut, p0.gen]; rw [← h.futs]; simp
          · simp only [reset, ps.heads]; rintro ⟨z, hz, hbz⟩; rw [nb z hz] at hbz; cases hbz
          · simp only [reset, ps.heads]; intro d n hz; have := nb _ hz; cases this
          · simp only [reset, ps.heads]; intro f k raw hz; have := nb _ hz; cases this
          · simp only [reset, ps.recvs]
            exact ⟨h.chain.feed, h.chain.wait, h.chain.done, fun ⟨x, hx, hn⟩ => absurd (hr x hx) hn⟩
          · simp only [reset, ps.log]; exact h.logs
          · simp only [reset, ps.running, hrun]; intro k hk; cases hk
          · simp only [reset, ps.log]; exact h.grouped
          · intro _ b hb
            cases hb
            intro a b e
            have := congrArg List.length e
            simp at this
        have fin : ∀ s', Inv [] s' → Inv [] { s' with reading := true } := fun s' hs => hs.plain (last s') (hs.one.congr rfl rfl rfl rfl (exp_of rfl rfl)) (fun _ => rfl)
        refine fin _ ?_
        split
        · next hbd =>
          have hb := base [] (by rw [heq]; simp [q0b, hq hbd])
          have : (reset k s0).q0 = [] := by show (setReq k (fun r => { r with bodySize := 0 }) s0).q0 = []; rw [hq0, hq hbd]
          have e : { (reset k s0) with q0 := [] } = reset k s0 := by rw [← this]
          rw [← e]; exact hb
        · refine inv_drain _ ?_
          have : (reset k s0).q0 = s.q0 := hq0
          rw [this]
          exact base _ heq

theorem inv_send {c : Cfg} {s : St} (h : Inv [] s) (hc : calm s .send) : Inv [] (sendStep c s) := by
  unfold sendStep
  split
  · exact h
  · split
    · exact h
    · next x q hq =>
      have p0 : Plain s { s with q1 := q, sent := s.sent ++ [x] } := ⟨rfl, rfl, rfl, rfl, rfl, rfl, rfl, rfl, rfl, rfl, id, id⟩
      have hl : load { s with q1 := q, sent := s.sent ++ [x] } + (if x.isNone then 1 else 0) = load s := by
        unfold load; dsimp only; rw [hq]; simp only [List.countP_cons]; omega
      cases x with
      | some b =>
        have hk : Ok { s with q1 := q, sent := s.sent ++ [some b] } := by
          simp at hl
          rcases h.one with h1 | h1
          · left; omega
          · exact .inr ⟨by have := h1.load; omega, h1.hb, h1.heads, exp_of rfl rfl h1.exp, by have := h1.mark; rw [hq] at this; simpa using this⟩
        have h0 : Inv [] { s with q1 := q, sent := s.sent ++ [some b] } := h.plain p0 hk (fun _ => rfl)
        dsimp only
        split
        · exact h0
        · exact h0.plain ⟨rfl, rfl, rfl, rfl, rfl, rfl, rfl, rfl, rfl, rfl, id, id⟩ (hk.congr rfl rfl rfl rfl (exp_of rfl rfl)) (fun _ => rfl)
      | none =>
        have l1 : load { s with q1 := q, sent := s.sent ++ [none] } ≤ 1 := by
          simp at hl
          rcases h.one with h1 | h1
          · omega
          · have := h1.load; omega
        have h0 : Inv [] { s with q1 := q, sent := s.sent ++ [none] } := h.plain p0 (.inl l1) (fun _ => rfl)
        have pl : ∀ s', Plain { s with q1 := q, sent := s.sent ++ [none] } s' → s'.q1 = q → s'.q0 = s.q0 → Inv [] s' := fun s' p e e' => h0.plain p (by
          left; rw [load_congr p.running p.heads e p.hb]; exact l1) (fun _ => e')
        dsimp only
        have hc' := hc (by rw [hq]; rfl)
        unfold marker
        dsimp only
        split
        · refine pl _ ((plain_close _).trans ⟨rfl, rfl, rfl, rfl, rfl, rfl, rfl, rfl, rfl, rfl, id, id⟩) (close_fields _).2.2.2.1 (close_q0 _)
        · next k hk =>
          split
          · exact h0
          · next r hr' =>
            split
            · refine inv_keep h0 l1 ?_
              have ex : Expecting s → r.req.httpContinue = true := by
                rintro ⟨k', r', e1, e2, e3⟩
                have e1' : some k = some k' := hk.symm.trans e1
                cases e1'
                have e2' : some r = some r' := hr'.symm.trans e2
                cases e2'
                exact e3
              by_cases he : Expecting s
              · exact .inl (ex he)
              · obtain ⟨hr, hb⟩ := hc'.resolve_left he
                refine .inr ⟨?_, hr, fun hbd => hb k r hk hr' hbd⟩
                simp at hl
                rcases h.one with h1 | h1
                · omega
                · exact absurd h1.exp he
            · refine pl _ (((plain_setReq _ _ _).trans (plain_close _)).trans ⟨rfl, rfl, rfl, rfl, rfl, rfl, rfl, rfl, rfl, rfl, id, id⟩) ?_ ?_
              · exact (close_fields _).2.2.2.1.trans (setReq_fields _ _ _).2.2.2.1
              · exact (close_q0 _).trans (setReq_q0 _ _ _)

theorem finish_heads {k : Nat} {l : List HTask} (h : ∀ x ∈ l, good x) : l.map (fun h => if h = .failing k then .done else h) = l := by
  conv => rhs; rw [← List.map_id l]
  refine List.map_congr_left (fun x hx => ?_)
  split
  · next e => rw [e] at hx; exact (h _ hx).elim
  · rfl

theorem ok_finish {k : Nat} {s : St} (h : Ok s) (hg : ∀ x ∈ s.heads, good x) : Ok (finish k s) := by
  have hh := finish_heads (k := k) hg
  rcases h with h | h
  · exact .inl (Nat.le_trans (finish_load k s).1 h)
  · exact .inr ⟨Nat.le_trans (finish_load k s).1 h.load, h.hb, by simp only [finish]; rw [hh]; exact h.heads, exp_of rfl rfl h.exp, h.mark⟩

theorem exp_account {c : Cfg} {n : Nat} {s : St} (h : Expecting s) : Expecting (account c n s) := by
  unfold account
  split
  · exact h
  · next k _ =>
    split
    · exact h
    · next r hr =>
      split
      · exact exp_of rfl rfl h
      · dsimp only
        have h0 : Expecting { s with reqs := s.reqs.set k { r with bodySize := r.bodySize + n } } := exp_set (f := fun r => { r with bodySize := r.bodySize + n }) (fun _ => rfl) hr h
        split
        · exact exp_of rfl rfl h0
        · split
          · exact exp_of rfl rfl h0
          · exact exp_of rfl rfl (exp_setReq k (f := noKeep) (fun _ => rfl) h0)

theorem exp_feed {c : Cfg} {bs : Nat} {f : Feed} {s : St} (h : Expecting s) : Expecting (feed c bs f s).1 := by
  unfold feed
  split
  · exact exp_account h
  · dsimp only; split <;> exact exp_of rfl rfl h

theorem ok_step {c : Cfg} {s : St} {e : Ev} (h : Ok s) (hg0 : ∀ x ∈ s.heads, good x) (hs : e ≠ .send) (hc : calm s e) (hg : Good (step c s e)) : Ok (step c s e) := by
  rcases Classical.em (∃ k keep, e = .mark k keep) with ⟨k, keep, he⟩ | he
  · subst he
    obtain ⟨h1, h2, h3, h4⟩ := hc
    have h5 : s.q1.countP Option.isNone = 0 := List.countP_eq_zero.2 (fun x hx => by
      cases x with
      | none => exact absurd hx h4
      | some b => simp)
    obtain ⟨hb, hn⟩ := h.run (List.ne_nil_of_mem h1)
    have hl : load s ≤ 1 := by
      rcases h with h | h
      · exact h
      · exact absurd h.mark h4
    simp only [step]
    have fin : ∀ s' : St, s'.running = s.running → s'.heads = s.heads → s'.q1 = s.q1 → s'.hb = s.hb → Expecting s' → Ok (put1 none s') := by
      intro s' e1 e2 e3 e4 e5
      right
      refine ⟨?_, e4.trans hn, ?_, exp_of rfl rfl e5, by simp [put1]⟩
      · have : load (put1 none s') = load s' + 1 := by unfold load put1; dsimp only; rw [List.countP_append]; simp; omega
        rw [this, load_congr e1 e2 e3 e4]; omega
      · show ∀ x ∈ s'.heads, busy x = false
        rw [e2]; exact no_busy hb
    unfold closeResponse
    split
    · exact fin _ rfl rfl rfl rfl h3
    · obtain ⟨_, b, c', d, e⟩ := setReq_fields k noKeep s
      exact fin _ b c' d e (exp_setReq k (f := noKeep) (fun _ => rfl) h3)
  · have he' : ∀ k keep, e ≠ .mark k keep := fun k keep hk => he ⟨k, keep, hk⟩
    have h' := h
    rcases h with h | h
    · rcases one_step (c := c) he' (.inr h) with h1 | h1
      · rw [hg.1] at h1; cases h1
      · exact .inl h1
    · cases e with
      | mark k keep => exact absurd rfl (he' k keep)
      | data d =>
        simp only [step]
        split
        · have h1 : Ok { s with rx := s.rx ++ d } := h'.congr rfl rfl rfl rfl (exp_of rfl rfl)
          rcases data_cases c d { s with rx := s.rx ++ d } with ⟨_, e⟩ | ⟨_, _, e⟩ | ⟨buf, _, hb, _⟩
          · rw [e]; exact h1
          · rw [e]; exact h1.congr rfl rfl rfl rfl (exp_of rfl rfl)
          · have := h.hb; dsimp only at hb; rw [hb] at this; cases this
        · exact h'
      | eof drop => exact h'.congr rfl rfl rfl rfl (exp_of rfl rfl)
      | head i =>
        simp only [step]; unfold headStep
        split
        · next hi => have := h.heads _ (List.mem_of_getElem? hi); cases this
        · next hi => have := h.heads _ (List.mem_of_getElem? hi); cases this
        · exact h'
      | recv i =>
        have key : ∀ bs f, Good (recvFed i (feed c bs f s)) → Ok (recvFed i (feed c bs f s)) := by
          intro bs f hgd
          have ht : (recvFed i (feed c bs f s)).tooLarge = (feed c bs f s).1.tooLarge := by rcases feed c bs f s with ⟨a, _ | b⟩ <;> rfl
          have hx := exp_feed (c := c) (bs := bs) (f := f) h.exp
          rcases feed_fields c bs f s with h1 | ⟨_, e1, e2, e3, e4⟩
          · have := hgd.1; rw [ht, h1] at this; cases this
          · have h2 : Ok (feed c bs f s).1 := h'.congr e1 e2 e3 e4 (fun _ => hx)
            revert h2
            rcases feed c bs f s with ⟨a, _ | b⟩ <;> intro h2 <;> exact h2.congr rfl rfl rfl rfl (exp_of rfl rfl)
        revert hg
        simp only [step]; unfold recvStep
        split
        · split
          · exact fun hg => key _ _ hg
          · exact fun _ => h'
        · exact fun hg => key _ _ hg
        · exact fun _ => h'
      | send => exact absurd rfl hs
      | emit k b =>
        refine .inr ⟨?_, h.hb, h.heads, exp_of rfl rfl h.exp, List.mem_append_left _ h.mark⟩
        have := h.load
        simpa [step, put1, load, List.countP_append] using this
      | take k => simp only [step]; split <;> exact h'.congr rfl rfl rfl rfl (exp_of rfl rfl)
      | upgrade k => obtain ⟨_, b, c', d, e⟩ := setReq_fields k (fun r => { r with upgraded := true }) s; exact h'.congr b c' d e (exp_setReq k (f := fun r => { r with upgraded := true }) (fun _ => rfl))
      | clear k => obtain ⟨_, b, c', d, e⟩ := setReq_fields k (fun r => { r with bodySize := 0 }) s; exact h'.congr b c' d e (exp_setReq k (f := fun r => { r with bodySize := 0 }) (fun _ => rfl))
      | finish k => exact ok_finish h' hg0
      | leave k keep =>
        simp only [step]
        split
        · next ha =>
          have hh := finish_heads (k := k) hg0
          have hl := (finish_load k s).2 ha
          have := h.load
          have fin : ∀ s' : St, s'.running = (finish k s).running → s'.heads = (finish k s).heads → s'.q1 = s.q1 → s'.hb = s.hb → Expecting s' → Ok (put1 none s') := by
            intro s' e1 e2 e3 e4 e5
            right
            refine ⟨?_, e4.trans h.hb, ?_, exp_of rfl rfl e5, by simp [put1]⟩
            · have e : load (put1 none s') = load s' + 1 := by unfold load put1; dsimp only; rw [List.countP_append]; simp; omega
              have : load s' = load (finish k s) := load_congr e1 e2 e3 e4
              omega
            · show ∀ x ∈ s'.heads, busy x = false
              rw [e2]; simp only [finish]; rw [hh]; exact h.heads
          have hf : Expecting (finish k s) := exp_of rfl rfl h.exp
          unfold closeResponse
          split
          · exact fin _ rfl rfl rfl rfl hf
          · obtain ⟨_, b, c', d, e⟩ := setReq_fields k noKeep (finish k s)
            exact fin _ b c' d e (exp_setReq k (f := noKeep) (fun _ => rfl) hf)
        · exact h'
      | abort => exact h'.congr rfl rfl rfl rfl (exp_of rfl rfl)
      | kick => exact h'.congr rfl rfl rfl rfl (exp_of rfl rfl)

theorem inv_finish {k : Nat} {s : St} (h : Inv [] s) : Inv [] (finish k s) := by
  have hh := finish_heads (k := k) h.good
  refine ⟨ok_finish h.one h.good, ?_, ?_, h.futs, h.idle, ?_, ?_, ?_, h.chain, h.logs, ?_, h.grouped, ?_, h.blank⟩
  · simp only [finish]; rw [hh]; exact h.good
  · have := h.eq
    simp only [finish, eaten, pending, q0b] at this ⊢; rw [hh]; exact this
  · simp only [finish]; rw [hh]; intro hx; exact (h.early hx).congr rfl rfl rfl rfl
  · simp only [finish]; rw [hh]; exact h.new
  · simp only [finish]; rw [hh]; exact h.raw
  · intro k' hk'; exact h.cur k' ((List.mem_filter.1 hk').1)
  · simp only [finish]; rw [hh]; exact h.fresh

theorem inv_step {c : Cfg} {s : St} {e : Ev} (h : Inv [] s) (hc : calm s e) (ht : s.tooLarge = false) (hg : Good (step c s e)) : Inv [] (step c s e) := by
  by_cases hs : e = .send
  · subst hs; exact inv_send h hc
  have one : Ok (step c s e) := ok_step h.one h.good hs hc hg
  cases e with
  | mark k keep =>
    refine h.plain ?_ one (fun _ => ?_) <;> simp only [step] <;> unfold closeResponse <;> split
    · exact plain_put1 _ _
    · exact (plain_setReq _ _ _).trans (plain_put1 _ _)
    · rfl
    · exact setReq_q0 _ _ _
  | data d =>
    simp only [step]
    split
    · refine inv_data ⟨?_, h.good, ?_, h.futs, h.idle, ?_, h.new, h.raw, h.chain, h.logs, h.cur, h.grouped, h.fresh, h.blank⟩
      · exact h.one.congr rfl rfl rfl rfl (exp_of rfl rfl)
      · have := h.eq
        simp only [eaten, pending, q0b] at this ⊢
        rw [this]; simp [List.append_assoc]
      · intro hx; exact (h.early hx).congr rfl rfl rfl rfl
    · exact h
  | eof drop =>
    refine h.plain ((plain_put0 rfl s).trans ⟨rfl, rfl, rfl, rfl, rfl, rfl, rfl, rfl, rfl, rfl, fun x => (by cases x), fun x => ?_⟩) one (fun x => (by cases x))
    dsimp only [step] at x; rw [Bool.or_eq_false_iff] at x; exact x.1
  | head i => exact inv_head h hg one
  | recv i => exact inv_recv h hg one
  | send => exact inv_send h hc
  | emit k b => exact h.plain (plain_put1 _ _) one (fun _ => rfl)
  | take k =>
    revert one
    simp only [step]
    obtain ⟨hz, hhb⟩ := h.one.run (List.ne_nil_of_mem hc)
    have nb := no_busy hz
    split
    · next x q hq =>
      intro one
      refine ⟨one, h.good, ?_, h.futs, ?_, ?_, ?_, h.raw, h.chain, ?_, ?_, ?_, ?_, ?_⟩
      · have := h.eq
        simp only [eaten, pending, q0b, hhb, (heads_none nb).1, (heads_none nb).2, hq] at this ⊢
        rw [this]; simp [Act.bytes, List.append_assoc]
      · intro e; dsimp only at e; rw [hhb] at e; cases e
      · rintro ⟨z, hz, hbz⟩; rw [nb z hz] at hbz; cases hbz
      · intro d n hz; have := nb _ hz; cases this
      · intro k' raw hm
        rcases List.mem_append.1 hm with hm | hm
        · exact h.logs k' raw hm
        · simp at hm
      · intro k' hk'; dsimp only; rw [lastHead_body]; exact h.cur k' hk'
      · refine grouped_snoc h.grouped (fun k' b e => ?_)
        cases e; exact h.cur k hc
      · rintro _ (e | ⟨d, n, hz⟩)
        · dsimp only at e; rw [hhb] at e; cases e
        · have := nb _ hz; cases this
      · intro _ b e; dsimp only at e; rw [hhb] at e; cases e
    · intro _; exact h
  | upgrade k => exact h.plain (plain_setReq _ _ _) one (fun _ => setReq_q0 _ _ _)
  | clear k => exact h.plain (plain_setReq _ _ _) one (fun _ => setReq_q0 _ _ _)
  | finish k => exact inv_finish h
  | leave k keep =>
    revert one
    simp only [step]
    split
    · intro one
      refine (inv_finish (k := k) h).plain ?_ one (fun _ => ?_) <;> unfold closeResponse <;> split
      · exact plain_put1 _ _
      · exact (plain_setReq _ _ _).trans (plain_put1 _ _)
      · rfl
      · exact setReq_q0 _ _ _
    · intro _; exact h
  | abort => exact h.plain ⟨rfl, rfl, rfl, rfl, rfl, rfl, rfl, rfl, rfl, rfl, fun x => (by cases x), fun x => (by cases x)⟩ one (fun _ => rfl)
  | kick => exact h.plain ⟨rfl, rfl, rfl, rfl, rfl, rfl, rfl, rfl, rfl, rfl, id, id⟩ one (fun _ => rfl)

theorem inv_init : Inv [] {} := by
  refine ⟨.inl (by decide), fun h hh => (by cases hh), rfl, rfl, fun _ => ⟨rfl, fun r hr => (by cases hr), rfl, rfl⟩, fun ⟨x, hx, _⟩ => (by cases hx), fun d n hd => (by cases hd),
    fun f k raw hf => (by cases hf), ⟨fun i f hi => (by simp at hi), fun i d w hi => (by simp at hi), fun i j _ hi => (by simp at hi), fun ⟨x, hx, _⟩ => (by cases hx)⟩,
    fun k raw h => (by cases h), fun k h => (by cases h), fun pre k b post e => (by simp at e),
    fun _ _ => rfl, fun _ buf hb => (by cases hb; exact Proofs.Head.noBlank_iff.2 rfl)⟩

theorem inv_run {c : Cfg} : ∀ (es : List Ev) {s : St}, Inv [] s → s.tooLarge = false → Calm c s es → Inv [] (run c s es)
  | [], _, h, _, _ => h
  | e :: es, _, h, ht, hc => inv_run es (s := step c _ e) (inv_step h hc.1 ht hc.2.1) hc.2.1.1 hc.2.2

end Flow
end Verif
