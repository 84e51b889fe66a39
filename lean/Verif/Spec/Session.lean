import Verif.Model.Session
/-!
# What C94 and C95 say about the calls made for a connection

All notions here are about the list of calls; none mentions the state of the model.
-/
namespace Verif.Spec.Session
open Verif.Model.App (Opts HookRet)
open Verif.Py
open Verif.Model.HttpParser Verif.Model.Session

variable {V : Type}

/-- The request asks for a WebSocket: it has no body, one Upgrade field that says `websocket`, a Connection field and a key. -/
def Handshake (q : Req V) : Prop :=
  q.hasBody = false ∧ (∃ v, hget q.headers b!"upgrade" = some (.one v) ∧ lower v = b!"websocket") ∧
    hget q.headers b!"connection" ≠ none ∧ hget q.headers b!"sec-websocket-key" ≠ none

/-- The handler of request `n` was called for a handshake on a WebSocket route. -/
def WsFor (c : Cfg V) (t : List (Call V)) (n : Nat) : Prop :=
  ∃ q o w e, .handler n q o w e ∈ t ∧ c.ws = true ∧ Handshake q ∧ Dict.get o b!"websocket" ≠ none

/-- The handler of request `n` was called for a request without a body on a route for events. -/
def SseFor (t : List (Call V)) (n : Nat) : Prop :=
  ∃ q o w e, .handler n q o w e ∈ t ∧ q.hasBody = false ∧ Dict.get o b!"sse" ≠ none

/-- `r` is the greatest number with the property, `none` if there is none. -/
def Latest (p : Nat → Prop) : Option Nat → Prop
  | none => ∀ n, ¬ p n
  | some m => p m ∧ ∀ n, p n → n ≤ m

/-- The objects that a call is given. -/
def given : Call V → Option (Option Nat × Option Nat)
  | .middleware _ _ w e | .handler _ _ _ w e | .response _ _ w e | .close _ w e => some (w, e)
  | _ => none

/-- The number of the request a call belongs to. -/
def ofRequest : Call V → Option Nat
  | .middleware n _ _ _ | .handler n _ _ _ _ | .response n _ _ _ => some n
  | _ => none

/-- The connect hooks called, and how those that have ended did. -/
def connects (t : List (Call V)) : List Nat := t.filterMap (fun | .connect i => some i | _ => none)
def connecteds (t : List (Call V)) : List (Nat × HookRet) := t.filterMap (fun | .connected i r => some (i, r) | _ => none)

/-- The same for the close hooks. -/
def closes (t : List (Call V)) : List Nat := t.filterMap (fun | .close i _ _ => some i | _ => none)
def closeds (t : List (Call V)) : List (Nat × HookRet) := t.filterMap (fun | .closed i r => some (i, r) | _ => none)

/-- Every connect hook up to one that returned a true value, or every one, was called and has ended, and none raised. -/
def Connected (c : Cfg V) (t : List (Call V)) : Prop :=
  (connects t = List.range c.connect ∧ connecteds t = (List.range c.connect).map (fun i => (i, .falsy))) ∨
  ∃ k, k < c.connect ∧ connects t = List.range (k + 1) ∧ connecteds t = (List.range k).map (fun i => (i, .falsy)) ++ [(k, .truthy)]

/-- The `k` last hooks of `n`, last one first. -/
def lastDown (n k : Nat) : List Nat := (List.range k).map (fun j => n - 1 - j)

end Verif.Spec.Session
