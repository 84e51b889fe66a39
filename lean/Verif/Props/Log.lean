import Verif.Model.Log
import Verif.Spec.Log
import Verif.Props.Text
import Verif.Props.AsgiScope
import Verif.Props.Params
import Verif.Model.Head
/-!
# C121: the log says which request failed, whatever the client sends
-/
namespace Verif
open Verif.Py Verif.Model.Log
open Verif.Spec.Log (graphic)

namespace Log

theorem cut_of : ∀ (a t : Str), ':' ∉ a → Spec.Log.cut (a ++ ": ".toList ++ t) = some (a, t)
  | [], t, _ => rfl
  | c :: a, t, h => by
    have hc : c ≠ ':' := fun e => h (by simp [e])
    have ih := cut_of a t (fun e => h (by simp [e]))
    rw [List.cons_append, List.cons_append, Spec.Log.cut, ih]
    · rfl
    · rintro x e _
      exact hc e

theorem quoted_graphic : ∀ {c : UInt8}, Proofs.Text.quotedChar c → graphic (Char.ofNat c.toNat) := by
  have : ∀ c : UInt8, Proofs.Text.quotedChar c → (32 < (Char.ofNat c.toNat).toNat ∧ (Char.ofNat c.toNat).toNat < 127 ∧ Char.ofNat c.toNat ≠ ':') := by
    apply forall_u8; decide +kernel
  exact fun {c} h => this c h

theorem path_graphic (path : Bytes) : ∀ c ∈ logPath path, graphic c := by
  intro c hc
  obtain ⟨x, hx, rfl⟩ := List.mem_map.1 hc
  exact quoted_graphic ((C35_quote _).1 x hx)

theorem not_colon {s : Str} (h : ∀ c ∈ s, graphic c) : ':' ∉ s := fun hc => (h _ hc).2.2 rfl
theorem not_nl {s : Str} (h : ∀ c ∈ s, graphic c) : '\n' ∉ s := fun hc => absurd (h _ hc).1 (by decide)

theorem lines_of : ∀ (l acc t : Str), '\n' ∉ l → Spec.Log.lines acc (l ++ '\n' :: t) = (acc.reverse ++ l) :: Spec.Log.lines [] t
  | [], acc, t, _ => by simp [Spec.Log.lines]
  | c :: l, acc, t, h => by
    rw [List.cons_append, Spec.Log.lines, if_neg (fun e => h (by simp [e])), lines_of l (c :: acc) t (fun e => h (by simp [e]))]
    simp

/-- The time that `logging` writes: digits and `-`, ` `, `:` (with a digit behind), `,`. -/
def TimeOk (t : Str) : Prop := '\n' ∉ t ∧ Spec.Log.cut ("[".toList ++ t ++ "] http_protocol: ERROR: ".toList) = some ("[".toList ++ t ++ "] http_protocol".toList, "ERROR: ".toList)

theorem cut_more : ∀ (a t x y : Str), Spec.Log.cut a = some (x, y) → Spec.Log.cut (a ++ t) = some (x, y ++ t)
  | [], _, _, _, h => by cases h
  | [c], t, x, y, h => by
    rw [Spec.Log.cut] at h
    · simp [Spec.Log.cut] at h
    · rintro _ _ e; cases e
  | c :: d :: a, t, x, y, h => by
    by_cases hc : c = ':' ∧ d = ' '
    · obtain ⟨rfl, rfl⟩ := hc
      rw [Spec.Log.cut] at h
      cases h
      rfl
    · rw [Spec.Log.cut] at h
      · cases hr : Spec.Log.cut (d :: a) with
        | none => rw [hr] at h; cases h
        | some p =>
          rw [hr] at h
          cases h
          rw [List.cons_append, List.cons_append, Spec.Log.cut]
          · rw [← List.cons_append, cut_more (d :: a) t p.1 p.2 hr]; rfl
          · rintro z rfl e
            cases e
            exact hc ⟨rfl, rfl⟩
      · rintro z rfl e
        cases e
        exact hc ⟨rfl, rfl⟩

theorem message_of {t m : Str} (ht : TimeOk t) : Spec.Log.message ("[".toList ++ t ++ "] http_protocol: ERROR: ".toList ++ m) = some m := by
  unfold Spec.Log.message
  rw [cut_more _ m _ _ ht.2]
  rfl

end Log
open Log (TimeOk)

/-- **C121 (the path).** What the log shows of the path of a request consists of printable ASCII without spaces and colons, whatever the path;
percent-decoding gives the same from it as from the path itself. -/
theorem C121_path (path : Bytes) : (∀ c ∈ logPath path, graphic c) ∧ ∃ s, logPath path = latin1 s ∧ Spec.Text.unquote s = Spec.Text.unquote path :=
  ⟨Log.path_graphic path, Model.Text.quote (unquoteToBytes path), rfl, by rw [(C35_quote _).2, Proofs.AsgiScope.unquoteToBytes_eq]⟩

/-- **C121 (one record).** The record of an exception says the path, the class and the text: a reader who cuts it at `": "` gets these three
back, whatever the path and whatever the text, also if the text has colons, percent signs or line breaks, and also if the client has gone by then. -/
theorem C121_record (closing : Bool) (path : Bytes) (e : Exc) (he : ':' ∉ e.cls) {t : Str} (ht : TimeOk t) :
    ∃ m, handle false closing path e = some m ∧ Spec.Log.read ("[".toList ++ t ++ "] http_protocol: ERROR: ".toList ++ m) = some (logPath path, e.cls, e.text) := by
  refine ⟨_, rfl, ?_⟩
  unfold Spec.Log.read
  rw [Log.message_of ht]
  simp only [message, joinColon, List.cons_append, List.nil_append]
  have h1 := Log.cut_of (logPath path) (e.cls ++ ": ".toList ++ e.text) (Log.not_colon (Log.path_graphic path))
  have h2 := Log.cut_of e.cls e.text he
  simp only [Option.bind_eq_bind, Option.bind_some, h1, h2]
  rfl

/-- **C121 (the whole log).** Any number of requests fail, with exceptions whose class names have no colon and whose names and texts have no
line break. Whatever paths their clients ask for, the log has one line for each of them, in their order, from which its path, its class and its text
can be read; it does not matter which of the clients have gone. -/
theorem C121_log (rs : List (Str × Bool × Bytes × Exc)) (h : ∀ r ∈ rs, TimeOk r.1 ∧ ':' ∉ r.2.2.2.cls ∧ '\n' ∉ r.2.2.2.cls ∧ '\n' ∉ r.2.2.2.text) :
    (Spec.Log.lines [] (rs.flatMap (fun r => ((handle false r.2.1 r.2.2.1 r.2.2.2).map (line r.1)).getD []))).map Spec.Log.read =
      rs.map (fun r => some (logPath r.2.2.1, r.2.2.2.cls, r.2.2.2.text)) := by
  induction rs with
  | nil => rfl
  | cons r rs ih =>
    obtain ⟨t, closing, path, e⟩ := r
    obtain ⟨ht, hc, hn, hx⟩ := h (t, closing, path, e) (by simp)
    dsimp only at ht hc hn hx
    obtain ⟨m, hm, hr⟩ := C121_record closing path e hc ht
    rw [List.flatMap_cons]
    dsimp only
    rw [hm]
    simp only [Option.map_some, Option.getD_some, line]
    have hmm : '\n' ∉ m := by
      simp only [handle, Bool.false_eq_true, if_false, Option.some.injEq, message, joinColon, List.cons_append, List.nil_append] at hm
      subst hm
      have := Log.not_nl (Log.path_graphic path)
      simp [this, hn, hx]
    have hl : '\n' ∉ "[".toList ++ t ++ "] http_protocol: ERROR: ".toList ++ m := by
      have := ht.1
      simp [this, hmm]
    rw [List.append_assoc _ ['\n'], List.singleton_append, Log.lines_of _ [] _ hl]
    rw [List.map_cons, ih (fun r hr => h r (by simp [hr]))]
    simp only [List.reverse_nil, List.nil_append, List.map_cons, hr]

/-- **C121 (who is meant).** The records of two requests are the same only if their paths are, up to percent-encoding. -/
theorem C121_same {p p' : Bytes} {e e' : Exc} (he : ':' ∉ e.cls) (he' : ':' ∉ e'.cls) :
    handle false false p e = handle false false p' e' ↔ Spec.Text.unquote p = Spec.Text.unquote p' ∧ e = e' := by
  have key : ∀ {p e}, ':' ∉ e.cls → ∀ {m}, handle false false p e = some m → (Spec.Log.cut m).bind (fun x => (Spec.Log.cut x.2).map (fun y => (x.1, y))) = some (logPath p, e.cls, e.text) := by
    intro p e he m hm
    simp only [handle, Bool.false_eq_true, if_false, Option.some.injEq, message, joinColon, List.cons_append, List.nil_append] at hm
    subst hm
    have h1 := Log.cut_of (logPath p) (e.cls ++ ": ".toList ++ e.text) (Log.not_colon (Log.path_graphic p))
    have h2 := Log.cut_of e.cls e.text he
    simp only [h1, h2, Option.bind_some, Option.map_some]
  constructor
  · intro h
    have h1 := key he (p := p) rfl
    have h2 := key he' (p := p') (m := message [logPath p] e) (h.symm.trans rfl)
    rw [h1] at h2
    simp only [Option.some.injEq, Prod.mk.injEq] at h2
    obtain ⟨a, b, c⟩ := h2
    have h3 := Proofs.Params.latin1_inj a
    have h4 := congrArg Spec.Text.unquote h3
    rw [(C35_quote _).2, (C35_quote _).2, Proofs.AsgiScope.unquoteToBytes_eq, Proofs.AsgiScope.unquoteToBytes_eq] at h4
    refine ⟨h4, ?_⟩
    cases e; cases e'
    simp_all
  · rintro ⟨h, rfl⟩
    have : logPath p = logPath p' := by unfold logPath; rw [Proofs.AsgiScope.unquoteToBytes_eq, Proofs.AsgiScope.unquoteToBytes_eq, h]
    simp only [handle, Bool.false_eq_true, if_false, this]

/-- **C121 (an aborted response, refuted).** When the response has begun, the record does not say the path at all; and a client may ask for a path,
without a slash, by which the record of its request looks like this one. -/
theorem C121_refuted_abort (p : Bytes) (e : Exc) : handle true false p e = handle false false b!"abort" e := by
  have : logPath b!"abort" = "abort".toList := by decide +kernel
  simp only [handle, Bool.false_eq_true, if_false, if_true, this]

/-- This path gets to a handler. -/
example : (Model.Head.initReq (Model.HttpParser.parse b!"GET abort HTTP/1.1\r\nHost: h\r\n\r\n" 29)).map (fun r => (r.path, r.valid)) = some (b!"abort", true) := by decide +kernel

/-- **C121 (the text, refuted).** The text of an exception is written as it is: a handler that raises what the client has sent lets it write lines of its own. -/
theorem C121_refuted_text : ∃ e : Exc, e.cls = "ValueError".toList ∧
    Spec.Log.lines [] (((handle false false b!"/" e).map (line "t".toList)).getD []) = ["[t] http_protocol: ERROR: /: ValueError: x".toList, "[t] http_protocol: ERROR: /admin: ValueError: y".toList] :=
  ⟨⟨"ValueError".toList, "x\n[t] http_protocol: ERROR: /admin: ValueError: y".toList⟩, rfl, by decide +kernel⟩

/-! ## Cases -/

example : TimeOk "2024-01-31 23:59:59,999".toList := by unfold TimeOk; decide +kernel
example : handle false false b!"/a%0Ab: \x1b[31m" ⟨"ValueError".toList, "%d".toList⟩ = some "/a%0Ab%3A%20%1B%5B31m: ValueError: %d".toList := by decide +kernel
example : handle true false b!"/a" ⟨"ValueError".toList, []⟩ = some "abort: ValueError: ".toList := by decide +kernel

end Verif
