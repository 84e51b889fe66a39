import Verif.Model.Continue
import Verif.Proofs.Response
/-!
# Lemmas about 100-continue
-/
namespace Verif.Proofs.Continue
open Verif.Py Verif.Model.Response Verif.Proofs.Response

def isCont : Emit → Bool
  | .cont _ => true
  | _ => false

/-- The method leaves `http_continue` alone and emits no interim response. -/
def Nc {α : Type} (m : M α) : Prop := ∀ s, (m s).2.cont = s.cont ∧ ∃ l, (m s).2.log = s.log ++ l ∧ ∀ e ∈ l, isCont e = false

theorem Nc.pure {α : Type} (a : α) : Nc (pure a : M α) := fun _ => ⟨rfl, [], by simp⟩
theorem Nc.raise {α : Type} (e : Exc) : Nc (raise e : M α) := fun _ => ⟨rfl, [], by simp⟩
theorem Nc.bind {α β : Type} {m : M α} {f : α → M β} (hm : Nc m) (hf : ∀ a, Nc (f a)) : Nc (m >>= f) := by
  intro s
  rw [bind_run]
  have h := hm s
  generalize m s = x at h
  obtain ⟨x, s'⟩ := x
  cases x with
  | error e => exact h
  | ok a =>
    obtain ⟨h1, l, h2, h3⟩ := h
    obtain ⟨k1, l', k2, k3⟩ := hf a s'
    refine ⟨k1.trans h1, l ++ l', by rw [k2, h2, List.append_assoc], fun e he => ?_⟩
    rcases List.mem_append.1 he with h | h
    · exact h3 e h
    · exact k3 e h
theorem Nc.get : Nc Model.Response.get := fun _ => ⟨rfl, [], by simp⟩
theorem Nc.headers : Nc headers := by
  intro s
  unfold Model.Response.headers
  cases s.headers <;> exact ⟨rfl, [], by simp⟩
theorem Nc.modify {f : St → St} (h : ∀ s, (f s).cont = s.cont ∧ (f s).log = s.log) : Nc (modify f) := fun s =>
  ⟨(h s).1, [], by simpa using (h s).2, by simp⟩
theorem Nc.put (h) : Nc (putHeaders h) := Nc.modify (fun _ => ⟨rfl, rfl⟩)
theorem Nc.sent : Nc setSent := Nc.modify (fun _ => ⟨rfl, rfl⟩)
theorem Nc.emit {e : Emit} (h : isCont e = false) : Nc (emit e) := fun s => ⟨rfl, [e], rfl, by simpa using h⟩
theorem Nc.ite {α : Type} {p : Prop} [Decidable p] {a b : M α} (ha : Nc a) (hb : Nc b) : Nc (if p then a else b) := by
  split <;> assumption
theorem Nc.when {b : Bool} {m : M Unit} (h : Nc m) : Nc (when b m) := Nc.ite h (Nc.pure _)

theorem nc_setHeader (n v) : Nc (setHeader n v) := Nc.ite (Nc.raise _) (Nc.bind Nc.headers (fun _ => Nc.put _))
theorem nc_appendHeader (n v) : Nc (appendHeader n v) := Nc.bind Nc.headers (fun _ => Nc.put _)
theorem nc_setBaseHeader (c) : Nc (setBaseHeader c) :=
  Nc.bind Nc.get (fun _ => Nc.ite (Nc.pure _) (Nc.bind (nc_setHeader _ _) (fun _ => nc_setHeader _ _)))
theorem nc_setCookie (k) : Nc (setCookie k) := Nc.ite (Nc.raise _) (nc_appendHeader _ _)
theorem nc_setStatus (st m) : Nc (setStatus st m) := by
  refine Nc.ite (Nc.raise _) (Nc.bind Nc.headers (fun h => ?_))
  split
  · exact Nc.put _
  · exact Nc.bind (Nc.put _) (fun _ => Nc.raise _)
  · exact Nc.raise _
  · exact Nc.modify (fun _ => ⟨rfl, rfl⟩)
theorem nc_getStatus : Nc getStatus := by
  refine Nc.bind Nc.headers (fun h => ?_)
  split
  · refine Nc.bind (Nc.put _) (fun _ => ?_)
    split
    · split
      · exact Nc.pure _
      · exact Nc.raise _
    · exact Nc.raise _
  · intro s
    rcases hs : s.status with _ | ⟨a, b⟩
    · simp only [hs]; exact ⟨trivial, [], by simp⟩
    · simp only [hs]; exact ⟨trivial, [], by simp⟩
theorem nc_setContentType (ct) : Nc (setContentType ct) := by
  refine Nc.ite (Nc.raise _) (Nc.bind Nc.headers (fun h => ?_))
  split
  · exact Nc.put _
  · exact Nc.modify (fun _ => ⟨rfl, rfl⟩)
theorem nc_getContentType : Nc getContentType := by
  refine Nc.bind Nc.headers (fun h => ?_)
  split
  · refine Nc.bind (Nc.put _) (fun _ => ?_)
    split
    · exact Nc.pure _
    · exact Nc.raise _
  · intro s
    rcases hs : s.ctype with _ | ⟨a, b⟩
    · simp only [hs]; exact ⟨trivial, [], by simp⟩
    · simp only [hs]; exact ⟨trivial, [], by simp⟩
theorem nc_close (k) : Nc (close k) := by
  intro s
  rw [close_run]
  exact ⟨rfl, [_], rfl, by simp [isCont]⟩
theorem nc_writeBody (d o) : Nc (writeBody d o) := by
  refine Nc.bind Nc.get (fun s0 => ?_)
  cases d with
  | none => exact fun s => ⟨rfl, [_], rfl, by simp [isCont]⟩
  | some d => exact Nc.ite (Nc.emit rfl) (Nc.emit rfl)
theorem nc_decideKeep (st h) : Nc (decideKeep st h) := by
  refine Nc.modify (fun s => ?_)
  split
  · split
    · exact ⟨rfl, rfl⟩
    · split <;> exact ⟨rfl, rfl⟩
  · exact ⟨rfl, rfl⟩
theorem nc_typeHeader : Nc typeHeader := Nc.bind nc_getContentType (fun _ => nc_setHeader _ _)
theorem nc_prepare (c d ch o) : Nc (prepare c d ch o) :=
  Nc.bind (nc_setBaseHeader c) fun _ => Nc.bind nc_getStatus fun _ => Nc.bind (Nc.modify (fun _ => ⟨rfl, rfl⟩)) fun _ =>
  Nc.bind Nc.headers fun _ => Nc.bind (Nc.put _) fun _ => Nc.bind (Nc.when nc_typeHeader) fun _ => Nc.bind Nc.get fun _ =>
  Nc.bind (Nc.when (nc_setHeader _ _)) fun _ => Nc.bind Nc.headers fun _ => Nc.bind (nc_decideKeep _ _) fun _ =>
  Nc.bind (nc_setHeader _ _) fun _ => Nc.ite (Nc.bind (Nc.when (Nc.modify (fun _ => ⟨rfl, rfl⟩))) fun _ => Nc.pure _) (Nc.ite (Nc.pure _) (Nc.raise _))
theorem nc_flushHead : Nc flushHead := Nc.bind Nc.headers fun _ => Nc.bind (Nc.emit rfl) fun _ => Nc.sent
theorem nc_write (c d ch o) : Nc (write c d ch o) := by
  refine Nc.bind Nc.get (fun s => ?_)
  split
  · exact Nc.ite (Nc.bind nc_flushHead fun _ => nc_writeBody _ _) (Nc.bind (nc_prepare _ _ _ _) fun _ => Nc.bind nc_flushHead fun _ => nc_writeBody _ _)
  · exact nc_writeBody _ _
theorem nc_end (c d k o) : Nc (end_ c d k o) := by
  refine Nc.bind (Nc.bind Nc.get fun s => Nc.ite (nc_write _ _ _ _) ?_) fun _ => nc_close _
  exact Nc.bind (nc_setBaseHeader c) fun _ => Nc.bind nc_getStatus fun _ => Nc.bind nc_getContentType fun _ => Nc.bind Nc.headers fun _ =>
    Nc.bind Nc.get fun _ => Nc.bind (Nc.emit rfl) fun _ => Nc.sent

/-- Every call except starting to read. -/
theorem nc_call (c : Cfg) (call : Call) (h : call ≠ .stream) : Nc (call.run c) := by
  cases call with
  | appendHeader n v => exact nc_appendHeader n v
  | setBaseHeader => exact nc_setBaseHeader c
  | setCookie k => exact nc_setCookie k
  | setHeader n v => exact nc_setHeader n v
  | setStatus st m => exact nc_setStatus st m
  | getStatus => exact Nc.bind nc_getStatus fun _ => Nc.pure _
  | setContentType ct => exact nc_setContentType ct
  | getContentType => exact Nc.bind nc_getContentType fun _ => Nc.pure _
  | write d ch o => exact nc_write c d ch o
  | end_ d k o => exact nc_end c d k o
  | close k => exact nc_close k
  | stream => exact absurd rfl h

theorem sendContinue_off {c : Cfg} {s : St} (h : s.cont = false) : sendContinue c s = (.ok (), s) := by
  unfold sendContinue
  rw [bind_ok (get_run s), if_neg (by simp [h])]
  rfl
theorem sendContinue_big {c : Cfg} {s : St} (h : s.cont = true) (hb : c.contentLength > (c.maxBody : Int)) : sendContinue c s = (.error expectationFailed, s) := by
  unfold sendContinue
  rw [bind_ok (get_run s), if_pos h, if_pos hb]
  rfl
theorem sendContinue_on {c : Cfg} {s : St} (h : s.cont = true) (hb : ¬ c.contentLength > (c.maxBody : Int)) :
    sendContinue c s = (.ok (), { s with log := s.log ++ [.cont (b!"HTTP/" ++ c.version ++ b!" 100 Continue\r\n\r\n"), .mark s.keepalive] }) := by
  unfold sendContinue
  rw [bind_ok (get_run s), if_pos h, if_neg hb, bind_ok (emit_run _ _), close_run]
  simp

end Verif.Proofs.Continue
