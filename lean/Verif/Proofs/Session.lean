import Verif.Spec.Session
import Verif.Py.Util
/-!
# Invariants of the calls made for a connection
-/
namespace Verif.Proofs.Session
open Verif.Model.App (Opts HookRet Ret)
open Verif.Py
open Verif.Model.HttpParser Verif.Model.Session Verif.Spec.Session

variable {V : Type}

/-! ## Properties of every call -/

/-- `P pre x` holds for every call `x` of the list, `pre` being the calls before it. -/
def Each (P : List (Call V) → Call V → Prop) (t : List (Call V)) : Prop := ∀ pre x post, t = pre ++ x :: post → P pre x

theorem each_nil (P : List (Call V) → Call V → Prop) : Each P [] := by
  intro pre x post h; simp at h

theorem each_snoc {P : List (Call V) → Call V → Prop} {t : List (Call V)} {x : Call V} (h : Each P t) (hx : P t x) : Each P (t ++ [x]) := by
  intro pre y post e
  rcases List.eq_nil_or_concat post with rfl | ⟨q, z, rfl⟩
  · obtain ⟨rfl, e2⟩ := List.append_inj' e rfl
    cases e2; exact hx
  · rw [List.concat_eq_append, ← List.cons_append, ← List.append_assoc] at e
    obtain ⟨rfl, -⟩ := List.append_inj' e rfl
    exact h _ _ _ rfl

/-! ## The objects -/

theorem handshake_true {c : Cfg V} {q : Req V} (hb : q.hasBody = false) :
    handshake c.ws q.headers = some true ↔ c.ws = true ∧ Handshake q := by
  unfold handshake Handshake hmem
  constructor
  · intro h
    split at h
    · next hc =>
      simp only [Bool.and_eq_true, Option.isSome_iff_ne_none] at hc
      obtain ⟨⟨⟨h1, h2⟩, h3⟩, h4⟩ := hc
      split at h
      · next v hv => exact ⟨h1, hb, ⟨v, hv, by simpa using h⟩, h3, h4⟩
      · cases h
    · cases h
  · rintro ⟨h1, -, ⟨v, hv, hl⟩, h3, h4⟩
    rw [if_pos (by simp [h1, hv, Option.isSome_iff_ne_none, h3, h4])]
    simp [hv, hl]

/-- The request of the call wants a WebSocket, or events. -/
def WantsWs (c : Cfg V) (q : Req V) (o : Opts V) : Prop := c.ws = true ∧ Handshake q ∧ Dict.get o b!"websocket" ≠ none
def WantsSse (q : Req V) (o : Opts V) : Prop := q.hasBody = false ∧ Dict.get o b!"sse" ≠ none

theorem objects_spec {c : Cfg V} {n : Nat} {q : Req V} {o : Opts V} {ws sse w e : Option Nat} (h : objects c n q o ws sse = some (w, e)) :
    ((WantsWs c q o ∧ w = some n) ∨ (¬ WantsWs c q o ∧ w = ws)) ∧ ((WantsSse q o ∧ e = some n) ∨ (¬ WantsSse q o ∧ e = sse)) := by
  unfold objects at h
  split at h
  · next hb =>
    cases h
    exact ⟨.inr ⟨fun h => by have := h.2.1.1; simp [hb] at this, rfl⟩, .inr ⟨fun h => by have := h.1; simp [hb] at this, rfl⟩⟩
  · next hb =>
    have hb : q.hasBody = false := by simpa using hb
    dsimp only at h
    obtain ⟨w', hw, h⟩ := Option.map_eq_some_iff.1 h
    cases h
    constructor
    · by_cases hm : Dict.mem o b!"websocket" = true
      · rw [if_pos hm] at hw
        obtain ⟨b, hh, hw⟩ := Option.map_eq_some_iff.1 hw
        have hm' : Dict.get o b!"websocket" ≠ none := by simpa [Dict.mem, Option.isSome_iff_ne_none] using hm
        cases b with
        | true => exact .inl ⟨⟨((handshake_true hb).1 hh).1, ((handshake_true hb).1 hh).2, hm'⟩, by simpa using hw.symm⟩
        | false =>
          refine .inr ⟨fun hw' => ?_, by simpa using hw.symm⟩
          rw [(handshake_true hb).2 ⟨hw'.1, hw'.2.1⟩] at hh; cases hh
      · rw [if_neg hm] at hw
        cases hw
        exact .inr ⟨fun h => hm (by simpa [Dict.mem, Option.isSome_iff_ne_none] using h.2.2), rfl⟩
    · by_cases hm : Dict.mem o b!"sse" = true
      · rw [if_pos hm]
        exact .inl ⟨⟨hb, by simpa [Dict.mem, Option.isSome_iff_ne_none] using hm⟩, rfl⟩
      · rw [if_neg hm]
        exact .inr ⟨fun h => hm (by simpa [Dict.mem, Option.isSome_iff_ne_none] using h.2), rfl⟩

theorem wsFor_snoc (c : Cfg V) (t : List (Call V)) (x : Call V) (n : Nat) :
    WsFor c (t ++ [x]) n ↔ WsFor c t n ∨ ∃ q o w e, x = .handler n q o w e ∧ WantsWs c q o := by
  unfold WsFor WantsWs
  constructor
  · rintro ⟨q, o, w, e, hm, h⟩
    rcases List.mem_append.1 hm with hm | hm
    · exact .inl ⟨q, o, w, e, hm, h⟩
    · exact .inr ⟨q, o, w, e, (List.mem_singleton.1 hm).symm, h⟩
  · rintro (⟨q, o, w, e, hm, h⟩ | ⟨q, o, w, e, rfl, h⟩)
    · exact ⟨q, o, w, e, List.mem_append_left _ hm, h⟩
    · exact ⟨q, o, w, e, by simp, h⟩

theorem sseFor_snoc (t : List (Call V)) (x : Call V) (n : Nat) :
    SseFor (t ++ [x]) n ↔ SseFor t n ∨ ∃ q o w e, x = .handler n q o w e ∧ WantsSse q o := by
  unfold SseFor WantsSse
  constructor
  · rintro ⟨q, o, w, e, hm, h⟩
    rcases List.mem_append.1 hm with hm | hm
    · exact .inl ⟨q, o, w, e, hm, h⟩
    · exact .inr ⟨q, o, w, e, (List.mem_singleton.1 hm).symm, h⟩
  · rintro (⟨q, o, w, e, hm, h⟩ | ⟨q, o, w, e, rfl, h⟩)
    · exact ⟨q, o, w, e, List.mem_append_left _ hm, h⟩
    · exact ⟨q, o, w, e, by simp, h⟩

theorem latest_congr {p q : Nat → Prop} {r : Option Nat} (h : ∀ n, p n ↔ q n) (hl : Latest p r) : Latest q r := by
  cases r with
  | none => exact fun n hq => hl n ((h n).2 hq)
  | some m => exact ⟨(h m).1 hl.1, fun n hq => hl.2 n ((h n).2 hq)⟩

/-- A new greatest number. -/
theorem latest_new {p q : Nat → Prop} {n : Nat} (h : q n) (hq : ∀ k, q k → p k ∨ k = n) (hp : ∀ k, p k → k ≤ n) : Latest q (some n) :=
  ⟨h, fun k hk => (hq k hk).elim (hp k) (fun h => by omega)⟩

/-- Whether the call is that of a handler. -/
def isHandler : Call V → Bool
  | .handler .. => true
  | _ => false

/-- The objects fit the calls. -/
def Fits (c : Cfg V) (t : List (Call V)) (w e : Option Nat) : Prop := Latest (WsFor c t) w ∧ Latest (SseFor t) e

theorem fits_other {c : Cfg V} {t : List (Call V)} {w e : Option Nat} {x : Call V} (hx : isHandler x = false) (h : Fits c t w e) :
    Fits c (t ++ [x]) w e := by
  have hno : ∀ n q o w e, x ≠ .handler n q o w e := by rintro n q o w e rfl; cases hx
  refine ⟨latest_congr (fun n => ?_) h.1, latest_congr (fun n => ?_) h.2⟩
  · rw [wsFor_snoc]; exact ⟨.inl, fun h => h.elim id (fun ⟨q, o, w, e, he, _⟩ => (hno _ _ _ _ _ he).elim)⟩
  · rw [sseFor_snoc]; exact ⟨.inl, fun h => h.elim id (fun ⟨q, o, w, e, he, _⟩ => (hno _ _ _ _ _ he).elim)⟩

theorem fits_handler {c : Cfg V} {t : List (Call V)} {ws sse w e : Option Nat} {n : Nat} {q : Req V} {o : Opts V}
    (h : Fits c t ws sse) (hn : ∀ k q o w e, .handler k q o w e ∈ t → k < n) (ho : objects c n q o ws sse = some (w, e)) :
    Fits c (t ++ [.handler n q o w e]) w e := by
  obtain ⟨h1, h2⟩ := objects_spec ho
  constructor
  · rcases h1 with ⟨hw, rfl⟩ | ⟨hw, rfl⟩
    · refine latest_new (p := WsFor c t) ((wsFor_snoc ..).2 (.inr ⟨q, o, some n, e, rfl, hw⟩)) (fun k hk => ?_) (fun k hk => ?_)
      · rcases (wsFor_snoc ..).1 hk with h | ⟨_, _, _, _, he, _⟩
        · exact .inl h
        · cases he; exact .inr rfl
      · obtain ⟨q', o', w', e', hm, -⟩ := hk
        exact Nat.le_of_lt (hn _ _ _ _ _ hm)
    · refine latest_congr (fun k => ?_) h.1
      rw [wsFor_snoc]
      exact ⟨.inl, fun h => h.elim id (fun ⟨_, _, _, _, he, hh⟩ => by cases he; exact absurd hh hw)⟩
  · rcases h2 with ⟨hw, rfl⟩ | ⟨hw, rfl⟩
    · refine latest_new (p := SseFor t) ((sseFor_snoc ..).2 (.inr ⟨q, o, w, some n, rfl, hw⟩)) (fun k hk => ?_) (fun k hk => ?_)
      · rcases (sseFor_snoc ..).1 hk with h | ⟨_, _, _, _, he, _⟩
        · exact .inl h
        · cases he; exact .inr rfl
      · obtain ⟨q', o', w', e', hm, -⟩ := hk
        exact Nat.le_of_lt (hn _ _ _ _ _ hm)
    · refine latest_congr (fun k => ?_) h.2
      rw [sseFor_snoc]
      exact ⟨.inl, fun h => h.elim id (fun ⟨_, _, _, _, he, hh⟩ => by cases he; exact absurd hh hw)⟩

/-! ## The invariant -/

/-- What is shown of every call. -/
def Ok (c : Cfg V) (pre : List (Call V)) (x : Call V) : Prop :=
  .cleanup ∉ pre ∧ (∀ n, ofRequest x = some n → Connected c pre ∧ ∀ y ∈ pre, ∀ m, ofRequest y = some m → m ≤ n) ∧
  match x with
  | .connect i => i < c.connect ∧ connects pre = List.range i ∧ connecteds pre = (List.range i).map (fun i => (i, .falsy))
  | .connected i _ => i < c.connect ∧ connects pre = List.range (i + 1) ∧ connecteds pre = (List.range i).map (fun i => (i, .falsy))
  | .middleware _ _ w e => Fits c pre w e
  | .handler n q o w e => Fits c (pre ++ [.handler n q o w e]) w e ∧ ∀ k q o w e, .handler k q o w e ∈ pre → k < n
  | .response _ _ w e => Fits c pre w e
  | .close i w e => i < c.close ∧ closes pre = lastDown c.close (c.close - 1 - i) ∧
      closeds pre = (lastDown c.close (c.close - 1 - i)).map (fun i => (i, .falsy)) ∧ Fits c pre w e
  | .closed i _ => i < c.close ∧ closes pre = lastDown c.close (c.close - i) ∧
      closeds pre = (lastDown c.close (c.close - 1 - i)).map (fun i => (i, .falsy))
  | .cleanup => c.close = 0 ∨ closes pre ≠ []

/-- The connect hooks so far. -/
def HooksInv (c : Cfg V) (t : List (Call V)) : Hooks → Prop
  | .todo => 0 < c.connect ∧ connects t = [] ∧ connecteds t = []
  | .inside i => i < c.connect ∧ connects t = List.range (i + 1) ∧ connecteds t = (List.range i).map (fun i => (i, .falsy))
  | .done => Connected c t
  | .failed => ¬ Connected c t

/-- The close hooks so far. -/
def CloserInv (c : Cfg V) (t : List (Call V)) : Closer → Prop
  | .none => closes t = [] ∧ closeds t = []
  | .todo => 0 < c.close ∧ closes t = [] ∧ closeds t = []
  | .inside i => i < c.close ∧ closes t = lastDown c.close (c.close - i) ∧
      closeds t = (lastDown c.close (c.close - 1 - i)).map (fun i => (i, .falsy))
  | .done => True

/-- The handler of the request has not been called. -/
def fresh : Stage V → Bool
  | .begin _ | .mids .. | .inMid .. => true
  | _ => false

/-- Functions of the request may be called. -/
def served : Stage V → Bool
  | .idle | .begin _ => false
  | _ => true

def busy : Stage V → Bool
  | .idle => false
  | _ => true

structure Inv (c : Cfg V) (s : St V) : Prop where
  each : Each (Ok c) s.trace
  fits : Fits c s.trace s.ws s.sse
  reqs : ∀ y ∈ s.trace, ∀ m, ofRequest y = some m → m < s.reqs
  fresh : fresh s.stage = true → ∀ k q o w e, .handler k q o w e ∈ s.trace → k + 1 < s.reqs
  pos : busy s.stage = true → 0 < s.reqs
  hooks : HooksInv c s.trace s.hooks
  served : served s.stage = true → s.hooks = .done
  closer : CloserInv c s.trace s.closer
  clean : (s.cleaned = false ∧ .cleanup ∉ s.trace) ∨
    (s.cleaned = true ∧ s.stage = .idle ∧ s.closer = .done ∧ (s.hooks = .done ∨ s.hooks = .failed))

theorem inv_init (c : Cfg V) : Inv c (init c) where
  each := each_nil _
  fits := ⟨fun n ⟨_, _, _, _, h, _⟩ => (by cases h), fun n ⟨_, _, _, _, h, _⟩ => (by cases h)⟩
  reqs := fun _ h => by cases h
  fresh := fun h => by cases h
  pos := fun h => by cases h
  hooks := by
    unfold init
    by_cases h : c.connect = 0
    · simp only [h, if_true]; exact .inl ⟨by simp [h, connects], by simp [h, connecteds]⟩
    · simp only [h, if_false]; exact ⟨by omega, rfl, rfl⟩
  served := fun h => by cases h
  closer := ⟨rfl, rfl⟩
  clean := .inl ⟨rfl, by simp [init]⟩

theorem lastDown_succ (n k : Nat) : lastDown n (k + 1) = lastDown n k ++ [n - 1 - k] := by
  simp [lastDown, List.range_succ]

/-- A call that is none of a request, with the rest of the invariant given. -/
theorem Inv.other {c : Cfg V} {s : St V} {x : Call V} {h' : Hooks} {cl : Closer} (h : Inv c s) (hx : ofRequest x = none)
    (hc : s.cleaned = false) (hok : Ok c s.trace x) (hcl : x ≠ .cleanup) (hh : HooksInv c (s.trace ++ [x]) h')
    (hcc : CloserInv c (s.trace ++ [x]) cl) (hs : Session.served s.stage = true → h' = .done) :
    Inv c { s with hooks := h', closer := cl, trace := s.trace ++ [x] } where
  each := each_snoc h.each hok
  fits := fits_other (by cases x <;> first | rfl | cases hx) h.fits
  reqs := fun y hy m hm => by
    rcases List.mem_append.1 hy with hy | hy
    · exact h.reqs y hy m hm
    · rw [List.mem_singleton.1 hy, hx] at hm; cases hm
  fresh := fun hf k q o w e hm => by
    rcases List.mem_append.1 hm with hm | hm
    · exact h.fresh hf k q o w e hm
    · rw [← List.mem_singleton.1 hm] at hx; cases hx
  pos := h.pos
  hooks := hh
  served := hs
  closer := hcc
  clean := .inl ⟨hc, fun hm => by
    rcases List.mem_append.1 hm with hm | hm
    · rcases h.clean with ⟨_, h1⟩ | ⟨h1, _⟩
      · exact h1 hm
      · rw [hc] at h1; cases h1
    · exact hcl (List.mem_singleton.1 hm).symm⟩

theorem Inv.noCleanup {c : Cfg V} {s : St V} (h : Inv c s) (hc : s.cleaned = false) : .cleanup ∉ s.trace := by
  rcases h.clean with ⟨_, h1⟩ | ⟨h1, _⟩
  · exact h1
  · rw [hc] at h1; cases h1

theorem Inv.hooksLive {c : Cfg V} {s : St V} (h : Inv c s) (hh : s.hooks ≠ .done ∧ s.hooks ≠ .failed) : s.cleaned = false := by
  rcases h.clean with ⟨h1, _⟩ | ⟨_, _, _, h1 | h1⟩
  · exact h1
  · exact absurd h1 hh.1
  · exact absurd h1 hh.2

theorem Inv.closerLive {c : Cfg V} {s : St V} (h : Inv c s) (hh : s.closer ≠ .done) : s.cleaned = false := by
  rcases h.clean with ⟨h1, _⟩ | ⟨_, _, h1, _⟩
  · exact h1
  · exact absurd h1 hh

theorem Inv.stageLive {c : Cfg V} {s : St V} (h : Inv c s) (hh : busy s.stage = true) : s.cleaned = false := by
  rcases h.clean with ⟨h1, _⟩ | ⟨_, h1, _⟩
  · exact h1
  · rw [h1] at hh; cases hh

@[simp] theorem connects_append (t u : List (Call V)) : connects (t ++ u) = connects t ++ connects u := by simp [connects]
@[simp] theorem connecteds_append (t u : List (Call V)) : connecteds (t ++ u) = connecteds t ++ connecteds u := by simp [connecteds]
@[simp] theorem closes_append (t u : List (Call V)) : closes (t ++ u) = closes t ++ closes u := by simp [closes]
@[simp] theorem closeds_append (t u : List (Call V)) : closeds (t ++ u) = closeds t ++ closeds u := by simp [closeds]
@[simp] theorem connects_connect (i : Nat) : connects [(.connect i : Call V)] = [i] := rfl
@[simp] theorem connects_connected (i : Nat) (r : HookRet) : connects [(.connected i r : Call V)] = [] := rfl
@[simp] theorem connecteds_connect (i : Nat) : connecteds [(.connect i : Call V)] = [] := rfl
@[simp] theorem connecteds_connected (i : Nat) (r : HookRet) : connecteds [(.connected i r : Call V)] = [(i, r)] := rfl
@[simp] theorem closes_close (i : Nat) (w e : Option Nat) : closes [(.close i w e : Call V)] = [i] := rfl
@[simp] theorem closes_closed (i : Nat) (r : HookRet) : closes [(.closed i r : Call V)] = [] := rfl
@[simp] theorem closeds_close (i : Nat) (w e : Option Nat) : closeds [(.close i w e : Call V)] = [] := rfl
@[simp] theorem closeds_closed (i : Nat) (r : HookRet) : closeds [(.closed i r : Call V)] = [(i, r)] := rfl

theorem connected_other {c : Cfg V} {t : List (Call V)} {x : Call V} (h1 : connects [x] = []) (h2 : connecteds [x] = []) (h : Connected c t) :
    Connected c (t ++ [x]) := by
  unfold Connected at *; simpa [h1, h2] using h

theorem hooksInv_other {c : Cfg V} {t : List (Call V)} {x : Call V} {k : Hooks} (h1 : connects [x] = []) (h2 : connecteds [x] = [])
    (h : HooksInv c t k) : HooksInv c (t ++ [x]) k := by
  cases k with
  | done => exact connected_other h1 h2 h
  | failed => intro hc; exact h (by unfold Connected at *; simpa [h1, h2] using hc)
  | todo => simpa [HooksInv, h1, h2] using h
  | inside i => simpa [HooksInv, h1, h2] using h

theorem closerInv_other {c : Cfg V} {t : List (Call V)} {x : Call V} {k : Closer} (h1 : closes [x] = []) (h2 : closeds [x] = [])
    (h : CloserInv c t k) : CloserInv c (t ++ [x]) k := by
  cases k with
  | none => simpa [CloserInv, h1, h2] using h
  | done => trivial
  | todo => simpa [CloserInv, h1, h2] using h
  | inside i => simpa [CloserInv, h1, h2] using h

theorem not_connected {c : Cfg V} {t : List (Call V)} {k : Hooks} (h : HooksInv c t k) (hk : k ≠ .done) : ¬ Connected c t := by
  intro hc
  cases k with
  | done => exact hk rfl
  | failed => exact h hc
  | todo =>
    obtain ⟨h1, h2, h3⟩ := h
    rcases hc with ⟨a, -⟩ | ⟨k, -, a, -⟩
    · rw [h2] at a; have := congrArg List.length a; simp at this; omega
    · rw [h2] at a; have := congrArg List.length a; simp at this
  | inside i =>
    obtain ⟨h1, h2, h3⟩ := h
    rcases hc with ⟨a, b⟩ | ⟨k, -, a, b⟩
    · rw [h2] at a; rw [h3] at b; have := congrArg List.length a; have := congrArg List.length b; simp at *; omega
    · rw [h2] at a; rw [h3] at b; have := congrArg List.length a; have := congrArg List.length b; simp at *; omega

theorem not_mid {c : Cfg V} {t : List (Call V)} {i : Nat} (hf : connecteds t = (List.range (i + 1)).map (fun i => (i, HookRet.falsy)))
    (hg : connects t = List.range (i + 1)) (hlt : i + 1 < c.connect) : ¬ Connected c t := by
  rintro (⟨a, -⟩ | ⟨k, -, -, b⟩)
  · rw [hg] at a; have := congrArg List.length a; simp at this; omega
  · have : (k, HookRet.truthy) ∈ (List.range (i + 1)).map (fun i => (i, HookRet.falsy)) := by rw [← hf, b]; simp
    simp at this

theorem not_connected_raised {c : Cfg V} {t : List (Call V)} {i : Nat} : ¬ Connected c (t ++ [.connected i .raises]) := by
  rintro (⟨-, b⟩ | ⟨k, -, -, b⟩)
  · have : (i, HookRet.raises) ∈ (List.range c.connect).map (fun i => (i, HookRet.falsy)) := by rw [← b]; simp
    simp at this
  · have : (i, HookRet.raises) ∈ (List.range k).map (fun i => (i, HookRet.falsy)) ++ [(k, .truthy)] := by rw [← b]; simp
    simp at this

/-! ## The steps -/

theorem inv_hookCall {c : Cfg V} {s : St V} (h : Inv c s) : Inv c (step c s .hookCall) := by
  simp only [step]
  split
  · next hk =>
    have hh := h.hooks; rw [hk] at hh
    have hs : Session.served s.stage ≠ true := fun hs => by rw [h.served hs] at hk; cases hk
    have hl := h.hooksLive (by rw [hk]; decide)
    exact h.other rfl hl ⟨h.noCleanup hl, fun n hn => (by cases hn), hh.1, hh.2.1, hh.2.2⟩ (by simp)
      ⟨hh.1, by simp [hh.2.1, List.range_succ], by simp [hh.2.2]⟩ (closerInv_other rfl rfl h.closer) (fun x => absurd x hs)
  · exact h

theorem inv_hookRet {c : Cfg V} {s : St V} (h : Inv c s) (r : HookRet) : Inv c (step c s (.hookRet r)) := by
  simp only [step]
  split
  · next i hk =>
    have hh := h.hooks; rw [hk] at hh
    have hs : Session.served s.stage ≠ true := fun hs => by rw [h.served hs] at hk; cases hk
    have hl := h.hooksLive (by rw [hk]; simp)
    obtain ⟨h1, h2, h3⟩ := hh
    have hok : ∀ r, Ok c s.trace (.connected i r) := fun r => ⟨h.noCleanup hl, fun n hn => (by cases hn), h1, h2, h3⟩
    cases r with
    | falsy =>
      dsimp only
      split
      · next hlt =>
        have hf : connecteds (s.trace ++ [.connected i .falsy]) = (List.range (i + 1)).map (fun i => (i, HookRet.falsy)) := by
          simp [h3, List.range_succ]
        have hg : connects (s.trace ++ [Model.Session.Call.connected i .falsy]) = List.range (i + 1) := by simp [h2]
        have a := h.other (x := .connected i .falsy) (h' := .failed) (cl := s.closer) rfl hl (hok _) (by simp) (not_mid hf hg hlt) (closerInv_other rfl rfl h.closer) (fun x => absurd x hs)
        have b := a.other (x := .connect (i + 1)) (h' := .inside (i + 1)) (cl := s.closer) rfl hl ⟨a.noCleanup hl, fun n hn => (by cases hn), hlt, hg, hf⟩ (by simp)
          ⟨hlt, by simp only [connects_append (s.trace ++ _), hg]; simp [List.range_succ], by simp only [connecteds_append (s.trace ++ _), hf]; simp⟩
          (closerInv_other rfl rfl a.closer) (fun x => absurd x hs)
        simpa using b
      · next hge =>
        have e : c.connect = i + 1 := by omega
        refine h.other rfl hl (hok _) (by simp) (.inl ⟨?_, ?_⟩) (closerInv_other rfl rfl h.closer) (fun _ => rfl)
        · simp [h2, e]
        · simp [h3, e, List.range_succ]
    | truthy =>
      refine h.other rfl hl (hok _) (by simp) (.inr ⟨i, h1, ?_, ?_⟩) (closerInv_other rfl rfl h.closer) (fun _ => rfl)
      · simp [h2]
      · simp [h3]
    | raises => exact h.other rfl hl (hok _) (by simp) not_connected_raised (closerInv_other rfl rfl h.closer) (fun x => absurd x hs)
  · exact h

theorem inv_head {c : Cfg V} {s : St V} (h : Inv c s) (q : Req V) : Inv c (step c s (.head q)) := by
  simp only [step]
  split
  · next hi =>
    split
    · exact h
    · next hc =>
      have hc : s.cleaned = false := by simpa using hc
      exact { h with
        reqs := fun y hy m hm => Nat.lt_succ_of_lt (h.reqs y hy m hm)
        fresh := fun _ k q o w e hm => Nat.succ_lt_succ (h.reqs _ hm k rfl)
        pos := fun _ => Nat.succ_pos _
        served := fun hs => by cases hs
        clean := .inl ⟨hc, h.noCleanup hc⟩ }
  · exact h

/-- The stage becomes one in which no function of the request has to be called. -/
theorem Inv.idle {c : Cfg V} {s : St V} (h : Inv c s) : Inv c { s with stage := .idle } :=
  { h with
    fresh := fun hs => by cases hs
    pos := fun hs => by cases hs
    served := fun hs => by cases hs
    clean := by
      rcases h.clean with ⟨h1, h2⟩ | ⟨h1, h2, h3⟩
      · exact .inl ⟨h1, h2⟩
      · exact .inr ⟨h1, rfl, h3⟩ }

/-- A call of a function of the request. -/
theorem Inv.call {c : Cfg V} {s : St V} {x : Call V} {st : Stage V} {w e : Option Nat} (h : Inv c s) (hb : Session.served s.stage = true)
    (hx : ofRequest x = some (s.reqs - 1)) (hok : Ok c s.trace x) (hf : Fits c (s.trace ++ [x]) w e)
    (hst : Session.fresh st = true → Session.fresh s.stage = true ∧ isHandler x = false) :
    Inv c { s with ws := w, sse := e, stage := st, trace := s.trace ++ [x] } := by
  have hbusy : busy s.stage = true := by revert hb; cases s.stage <;> simp [Session.served, busy]
  have hl := h.stageLive hbusy
  have hp := h.pos hbusy
  have hn : connects [x] = [] ∧ connecteds [x] = [] ∧ closes [x] = [] ∧ closeds [x] = [] ∧ x ≠ .cleanup := by
    cases x <;> first | (cases hx; done) | exact ⟨rfl, rfl, rfl, rfl, by simp⟩
  exact {
    each := each_snoc h.each hok
    fits := hf
    reqs := fun y hy m hm => by
      rcases List.mem_append.1 hy with hy | hy
      · exact h.reqs y hy m hm
      · rw [List.mem_singleton.1 hy, hx] at hm; cases hm; show s.reqs - 1 < s.reqs; omega
    fresh := fun hf k q o w e hm => by
      obtain ⟨h1, h2⟩ := hst hf
      rcases List.mem_append.1 hm with hm | hm
      · exact h.fresh h1 k q o w e hm
      · rw [← List.mem_singleton.1 hm] at h2; cases h2
    pos := fun _ => hp
    hooks := hooksInv_other hn.1 hn.2.1 h.hooks
    served := fun _ => h.served hb
    closer := closerInv_other hn.2.2.1 hn.2.2.2.1 h.closer
    clean := .inl ⟨hl, fun hm => by
      rcases List.mem_append.1 hm with hm | hm
      · exact h.noCleanup hl hm
      · exact hn.2.2.2.2 (List.mem_singleton.1 hm).symm⟩ }

/-- The stage changes between two calls. -/
theorem Inv.stage {c : Cfg V} {s : St V} {st : Stage V} (h : Inv c s) (hb : busy s.stage = true) (hd : s.hooks = .done)
    (hst : Session.fresh st = true → Session.fresh s.stage = true) : Inv c { s with stage := st } :=
  { h with
    fresh := fun hf => h.fresh (hst hf)
    pos := fun _ => h.pos hb
    served := fun _ => hd
    clean := .inl ⟨h.stageLive hb, h.noCleanup (h.stageLive hb)⟩ }

theorem Inv.okRequest {c : Cfg V} {s : St V} (h : Inv c s) (hb : Session.served s.stage = true) :
    .cleanup ∉ s.trace ∧ ∀ n, some (s.reqs - 1) = some n → Connected c s.trace ∧ ∀ y ∈ s.trace, ∀ m, ofRequest y = some m → m ≤ n := by
  have hbusy : busy s.stage = true := by revert hb; cases s.stage <;> simp [Session.served, busy]
  refine ⟨h.noCleanup (h.stageLive hbusy), fun n hn => ⟨?_, fun y hy m hm => ?_⟩⟩
  · have := h.hooks; rw [h.served hb] at this; exact this
  · have := h.reqs y hy m hm; cases hn; omega

theorem inv_go {c : Cfg V} {s : St V} (h : Inv c s) : Inv c (step c s .go) := by
  simp only [step]
  split
  · next q hs =>
    split
    · next hd => exact h.stage (by rw [hs]; rfl) hd (fun _ => by rw [hs]; rfl)
    · exact h.idle
    · exact h
  · next q i o hs =>
    have hb : Session.served s.stage = true := by rw [hs]; rfl
    have hf : Session.fresh s.stage = true := by rw [hs]; rfl
    obtain ⟨k1, k2⟩ := h.okRequest hb
    split
    · next m hm =>
      exact h.call (w := s.ws) (e := s.sse) hb rfl ⟨k1, k2, h.fits⟩ (fits_other rfl h.fits) (fun _ => ⟨hf, rfl⟩)
    · split
      · next w e ho =>
        have hp := h.pos (by rw [hs]; rfl)
        have hn : ∀ k q o w e, .handler k q o w e ∈ s.trace → k < s.reqs - 1 := fun k q o w e hm => by
          have := h.fresh hf k q o w e hm; omega
        have hfit := fits_handler h.fits hn ho
        exact h.call hb rfl ⟨k1, k2, hfit, hn⟩ hfit (fun x => by cases x)
      · exact h.idle
  · next i o hs =>
    have hb : Session.served s.stage = true := by rw [hs]; rfl
    obtain ⟨k1, k2⟩ := h.okRequest hb
    split
    · exact h.idle
    · exact h.call (w := s.ws) (e := s.sse) hb rfl ⟨k1, k2, h.fits⟩ (fits_other rfl h.fits) (fun x => by cases x)
  · exact h

theorem inv_ret {c : Cfg V} {s : St V} (h : Inv c s) (r : Ret) : Inv c (step c s (.ret r)) := by
  simp only [step]
  split
  · next q i o hs =>
    split
    · exact h.stage (by rw [hs]; rfl) (h.served (by rw [hs]; rfl)) (fun _ => by rw [hs]; rfl)
    · exact h.idle
  · next o hs =>
    split
    · exact h.stage (by rw [hs]; rfl) (h.served (by rw [hs]; rfl)) (fun x => by cases x)
    · exact h.idle
  · next i o hs =>
    split
    · exact h.stage (by rw [hs]; rfl) (h.served (by rw [hs]; rfl)) (fun x => by cases x)
    · exact h.idle
  · exact h

theorem inv_timeout {c : Cfg V} {s : St V} (h : Inv c s) : Inv c (step c s .timeout) := by
  simp only [step]
  split
  · exact h
  · next q hs =>
    have hl := h.stageLive (by rw [hs]; rfl)
    refine { h.idle with hooks := ?_, served := fun x => (by cases x), clean := .inl ⟨hl, h.noCleanup hl⟩ }
    have := h.hooks
    revert this
    cases s.hooks <;> intro hh <;> first | exact not_connected hh (by simp) | exact hh
  · exact h.idle

theorem inv_cleanup {c : Cfg V} {s : St V} (h : Inv c s) (hl : s.cleaned = false) (hok : c.close = 0 ∨ closes s.trace ≠ []) :
    Inv c (cleanup s) where
  each := each_snoc h.each ⟨h.noCleanup hl, fun n hn => (by cases hn), hok⟩
  fits := fits_other rfl h.fits
  reqs := fun y hy m hm => by
    rcases List.mem_append.1 hy with hy | hy
    · exact h.reqs y hy m hm
    · rw [List.mem_singleton.1 hy] at hm; cases hm
  fresh := fun hf => by cases hf
  pos := fun hf => by cases hf
  hooks := by
    have := h.hooks
    unfold cleanup
    revert this
    cases s.hooks <;> intro hh
    · exact hooksInv_other (k := .failed) rfl rfl (not_connected hh (by simp))
    · exact hooksInv_other (k := .failed) rfl rfl (not_connected hh (by simp))
    · exact connected_other rfl rfl hh
    · exact hooksInv_other (k := .failed) rfl rfl hh
  served := fun hf => by cases hf
  closer := trivial
  clean := .inr ⟨rfl, rfl, rfl, by unfold cleanup; cases s.hooks <;> simp⟩

theorem inv_lost {c : Cfg V} {s : St V} (h : Inv c s) (hn : s.closer = .none ↔ s.lost = false) : Inv c (step c s .lost) := by
  simp only [step]
  split
  · exact h
  · next hlost =>
    have hcn := hn.2 (by simpa using hlost)
    have hl := h.closerLive (by rw [hcn]; decide)
    split
    · next hc =>
      have hi : Inv c { s with lost := true } := { h with }
      exact inv_cleanup hi hl (.inl hc)
    · next hc =>
      have := h.closer; rw [hcn] at this
      exact { h with closer := ⟨by omega, this.1, this.2⟩, clean := .inl ⟨hl, h.noCleanup hl⟩ }

theorem inv_closeCall {c : Cfg V} {s : St V} (h : Inv c s) : Inv c (step c s .closeCall) := by
  simp only [step]
  split
  · next hk =>
    have hh := h.closer; rw [hk] at hh
    obtain ⟨h1, h2, h3⟩ := hh
    have hl := h.closerLive (by rw [hk]; decide)
    have e1 : c.close - 1 - (c.close - 1) = 0 := by omega
    have e2 : c.close - (c.close - 1) = 0 + 1 := by omega
    refine h.other (x := .close (c.close - 1) s.ws s.sse) rfl hl ⟨h.noCleanup hl, fun n hn => (by cases hn), by omega, ?_, ?_, h.fits⟩
      (by simp) (hooksInv_other rfl rfl h.hooks) ⟨by omega, ?_, ?_⟩ h.served
    · rw [e1, h2]; rfl
    · rw [e1, h3]; rfl
    · rw [e2, lastDown_succ, closes_append, h2]; simp [lastDown]
    · rw [e1, closeds_append, h3]; rfl
  · exact h

theorem inv_closeRet {c : Cfg V} {s : St V} (h : Inv c s) (r : HookRet) : Inv c (step c s (.closeRet r)) := by
  simp only [step]
  split
  · next i hk =>
    have hh := h.closer; rw [hk] at hh
    obtain ⟨h1, h2, h3⟩ := hh
    have hl := h.closerLive (by rw [hk]; simp)
    have hok : ∀ r, Ok c s.trace (.closed i r) := fun r => ⟨h.noCleanup hl, fun n hn => (by cases hn), h1, h2, h3⟩
    have hne : closes s.trace ≠ [] := by
      rw [h2, show c.close - i = (c.close - i - 1) + 1 by omega, lastDown_succ]; simp
    have hclosed : ∀ r, Inv c { s with closer := .done, trace := s.trace ++ [.closed i r] } := fun r =>
      h.other rfl hl (hok r) (by simp) (hooksInv_other rfl rfl h.hooks) trivial h.served
    have hend : ∀ r, Inv c (cleanup { s with trace := s.trace ++ [.closed i r] }) := fun r =>
      inv_cleanup (s := { s with closer := .done, trace := s.trace ++ [.closed i r] }) (hclosed r) hl (.inr (by simp [hne]))
    cases r with
    | falsy =>
      cases i with
      | zero => exact hend _
      | succ i =>
        dsimp only
        have e1 : c.close - 1 - i = c.close - (i + 1) := by omega
        have e2 : c.close - i = c.close - (i + 1) + 1 := by omega
        have e3 : c.close - (i + 1) = c.close - 1 - (i + 1) + 1 := by omega
        have e4 : c.close - 1 - (c.close - 1 - (i + 1)) = i + 1 := by omega
        have e5 : c.close - 1 - (c.close - (i + 1)) = i := by omega
        have hg : closes (s.trace ++ [Model.Session.Call.closed (i + 1) .falsy]) = lastDown c.close (c.close - 1 - i) := by
          rw [e1, closes_append, h2]; simp
        have hf : closeds (s.trace ++ [Model.Session.Call.closed (i + 1) .falsy]) = (lastDown c.close (c.close - 1 - i)).map (fun i => (i, HookRet.falsy)) := by
          rw [e1, e3, lastDown_succ, e4, closeds_append, h3]; simp
        have a := hclosed .falsy
        have b := a.other (x := .close i s.ws s.sse) (h' := s.hooks) (cl := .inside i) rfl hl
          ⟨a.noCleanup hl, fun n hn => (by cases hn), by omega, hg, hf, a.fits⟩ (by simp) (hooksInv_other rfl rfl a.hooks)
          ⟨by omega, by rw [e2, lastDown_succ, e5, closes_append, hg, e1]; simp, by rw [closeds_append, hf]; simp⟩ h.served
        simpa using b
    | truthy => exact hend _
    | raises => exact hend _
  · exact h

theorem inv_closeTimeout {c : Cfg V} {s : St V} (h : Inv c s) : Inv c (step c s .closeTimeout) := by
  simp only [step]
  split
  · next i hk =>
    have hh := h.closer; rw [hk] at hh
    obtain ⟨h1, h2, h3⟩ := hh
    refine inv_cleanup h (h.closerLive (by rw [hk]; simp)) (.inr ?_)
    rw [h2, show c.close - i = (c.close - i - 1) + 1 by omega, lastDown_succ]; simp
  · exact h

/-- The close hooks start when the connection is lost. -/
theorem lost_step {c : Cfg V} {s : St V} (e : Ev V) (h : s.closer = .none ↔ s.lost = false) :
    (step c s e).closer = .none ↔ (step c s e).lost = false := by
  cases e <;> simp only [step]
  case lost => repeat' split
               all_goals simp_all [cleanup]
  all_goals
    repeat' split
    all_goals first | exact h | (simp_all [cleanup])

theorem inv_run (c : Cfg V) (es : List (Ev V)) : Inv c (run c es) ∧ ((run c es).closer = .none ↔ (run c es).lost = false) := by
  induction es using snocInd with
  | h0 => exact ⟨inv_init c, by simp [run, init]⟩
  | h1 es e ih =>
    have er : run c (es ++ [e]) = step c (run c es) e := by simp [run]
    rw [er]
    obtain ⟨h, hl⟩ := ih
    refine ⟨?_, lost_step e hl⟩
    cases e with
    | hookCall => exact inv_hookCall h
    | hookRet r => exact inv_hookRet h r
    | head q => exact inv_head h q
    | go => exact inv_go h
    | ret r => exact inv_ret h r
    | timeout => exact inv_timeout h
    | lost => exact inv_lost h hl
    | closeCall => exact inv_closeCall h
    | closeRet r => exact inv_closeRet h r
    | closeTimeout => exact inv_closeTimeout h

end Verif.Proofs.Session
