import Verif.Model.Params
import Verif.Model.Text
import Verif.Spec.Params
import Verif.Py.Lemmas
import Verif.Proofs.HttpParser
/-!
# Lemmas about `parse_qs`
-/
namespace Verif.Proofs.Params
open Verif.Py Verif.Model.Params Verif.Spec.Params Verif.Spec.Text Verif.Model.HttpParser

theorem hexDigit_of {a : UInt8} (h : isHexC a = true) : hexDigit? a = some (hexv a) ∧ a ≠ 37 ∧ a ≠ 43 ∧ a < 128 ∧ a ≠ 38 ∧ a ≠ 61 ∧ a ≠ 59 := by
  exact forall_u8 (P := fun a => isHexC a = true → hexDigit? a = some (hexv a) ∧ a ≠ 37 ∧ a ≠ 43 ∧ a < 128 ∧ a ≠ 38 ∧ a ≠ 61 ∧ a ≠ 59)
    (by decide +kernel) a h

/-! ### UTF-8 -/

theorem toByteArray_append (a b : Bytes) : (⟨(a ++ b).toArray⟩ : ByteArray) = a.toByteArray ++ (⟨b.toArray⟩ : ByteArray) := by
  apply ByteArray.ext
  simp

theorem decodeAux_utf8 : ∀ (s : Str) (n : Nat), (utf8 s).length ≤ n → decodeAux n (utf8 s) = s := by
  intro s
  induction s with
  | nil => intro n _; cases n <;> rfl
  | cons c s ih =>
    intro n hn
    have e : utf8 (c :: s) = String.utf8EncodeChar c ++ utf8 s := by simp [utf8]
    have hl := String.length_utf8EncodeChar c
    have hp := c.utf8Size_pos
    rw [e, List.length_append] at hn
    cases n with
    | zero => omega
    | succ n =>
      have hne : utf8 (c :: s) ≠ [] := by
        rw [e]; intro h; have := congrArg List.length h; rw [List.length_append] at this; simp at this; omega
      have step : decodeAux (n + 1) (utf8 (c :: s)) = c :: decodeAux n ((utf8 (c :: s)).drop c.utf8Size) := by
        have hd : ByteArray.utf8DecodeChar? ⟨(utf8 (c :: s)).toArray⟩ 0 = some c := by
          rw [e, toByteArray_append]; exact ByteArray.utf8DecodeChar?_utf8EncodeChar_append
        revert hne hd
        generalize utf8 (c :: s) = b
        intro hne hd
        cases b with
        | nil => exact absurd rfl hne
        | cons x b => rw [decodeAux]; simp only [hd]; simp
      rw [step, e, List.drop_left' (by omega), ih n (by omega)]

theorem decodeReplace_utf8 (s : Str) : decodeReplace (utf8 s) = s := decodeAux_utf8 s _ (Nat.le_refl _)

theorem encode_ascii : ∀ {x : UInt8}, x < 128 → String.utf8EncodeChar (Char.ofNat x.toNat) = [x] :=
  fun {x} => forall_u8 (P := fun x => x < 128 → String.utf8EncodeChar (Char.ofNat x.toNat) = [x]) (by decide +kernel) x

theorem utf8_latin1 : ∀ (t : Bytes), (∀ x ∈ t, x < 128) → utf8 (latin1 t) = t := by
  intro t
  induction t with
  | nil => intro _; rfl
  | cons x t ih =>
    intro h
    have := ih (fun y hy => h y (by simp [hy]))
    simp only [latin1, utf8, List.map_cons, List.flatMap_cons] at this ⊢
    rw [this, encode_ascii (h x (by simp))]; rfl

/-! ### `unquote` -/

/-- `unquoteToBytes` with any bound of the splits. -/
def unq (n : Nat) (s : Bytes) : Bytes :=
  match splitByte 37 n s with
  | [] => []
  | h :: r => h ++ r.flatMap unquoteItem

theorem splitByte_ne {c : UInt8} : ∀ (s : Bytes) (n : Nat), splitByte c n s ≠ [] := by
  intro s
  induction s with
  | nil => intro n; simp [splitByte]
  | cons x s ih =>
    intro n
    cases n with
    | zero => simp [splitByte]
    | succ n =>
      unfold splitByte
      split
      · simp
      · split <;> simp

theorem splitByte_step {c x : UInt8} (h : x ≠ c) (n : Nat) (s : Bytes) :
    ∃ a r, splitByte c n s = a :: r ∧ splitByte c n (x :: s) = (x :: a) :: r := by
  cases hs : splitByte c n s with
  | nil => exact absurd hs (splitByte_ne s n)
  | cons a r =>
    refine ⟨a, r, rfl, ?_⟩
    cases n with
    | zero =>
      rw [HttpParser.splitByte_zero] at hs ⊢
      simp at hs
      rw [hs.1, hs.2]
    | succ n =>
      rw [splitByte, if_neg h, hs]

theorem unq_raw {x : UInt8} (h : x ≠ 37) (n : Nat) (s : Bytes) : unq n (x :: s) = x :: unq n s := by
  obtain ⟨a, r, h1, h2⟩ := splitByte_step h n s
  simp [unq, h1, h2]

theorem unq_esc {a b : UInt8} (ha : isHexC a = true) (hb : isHexC b = true) (n : Nat) (s : Bytes) :
    unq (n + 1) (37 :: a :: b :: s) = UInt8.ofNat (16 * hexv a + hexv b) :: unq n s := by
  obtain ⟨q, r, h1, h2⟩ := splitByte_step (hexDigit_of hb).2.1 n s
  obtain ⟨q', r', h3, h4⟩ := splitByte_step (hexDigit_of ha).2.1 n (b :: s)
  rw [h2] at h3
  cases h3
  have e : splitByte 37 (n + 1) (37 :: a :: b :: s) = [] :: (a :: b :: q) :: r := by rw [splitByte, if_pos rfl, h4]
  simp [unq, e, h1, unquoteItem, (hexDigit_of ha).1, (hexDigit_of hb).1]

theorem unq_written {stop : List UInt8} {s t : Bytes} (h : Written stop s t) : ∀ n, t.length ≤ n → unq n (replace1 43 [32] t) = s := by
  induction h with
  | nil => intro n _; cases n <;> rfl
  | raw h1 h2 h3 h4 h ih =>
    intro n hn
    have : ∀ {x : UInt8} {t : Bytes}, x ≠ 43 → replace1 43 [32] (x :: t) = x :: replace1 43 [32] t := by
      intro x t h; simp [replace1, h]
    rw [this h4, unq_raw h3, ih n (by simp at hn; omega)]
  | plus h ih =>
    intro n hn
    rename_i s t
    have : replace1 43 [32] (43 :: t) = 32 :: replace1 43 [32] t := by simp [replace1]
    rw [this, unq_raw (by decide), ih n (by simp at hn; omega)]
  | esc ha hb h ih =>
    intro n hn
    rename_i a b s t
    have : replace1 43 [32] (37 :: a :: b :: t) = 37 :: a :: b :: replace1 43 [32] t := by
      simp [replace1, (hexDigit_of ha).2.2.1, (hexDigit_of hb).2.2.1]
    cases n with
    | zero => simp at hn
    | succ n => rw [this, unq_esc ha hb, ih n (by simp at hn; omega)]

theorem replace1_length (c d : UInt8) (t : Bytes) : (replace1 c [d] t).length = t.length := by
  induction t with
  | nil => rfl
  | cons x t ih => simp only [replace1, List.flatMap_cons] at ih ⊢; split <;> simp [ih]

theorem written_ascii {stop : List UInt8} {s t : Bytes} (h : Written stop s t) : ∀ x ∈ replace1 43 [32] t, x < 128 := by
  have key : ∀ x ∈ t, x < 128 := by
    induction h with
    | nil => simp
    | raw h1 h2 h3 h4 h ih => exact fun x hx => (List.mem_cons.1 hx).elim (fun e => by rw [e]; first | exact h1 | decide) (ih x)
    | plus h ih => exact fun x hx => (List.mem_cons.1 hx).elim (fun e => by rw [e]; first | exact h1 | decide) (ih x)
    | esc ha hb h ih =>
      intro x hx
      rcases List.mem_cons.1 hx with rfl | hx
      · decide
      rcases List.mem_cons.1 hx with rfl | hx
      · exact (hexDigit_of ha).2.2.2.1
      rcases List.mem_cons.1 hx with rfl | hx
      · exact (hexDigit_of hb).2.2.2.1
      exact ih x hx
  intro x hx
  simp only [replace1, List.mem_flatMap] at hx
  obtain ⟨y, hy, h⟩ := hx
  split at h
  · simp at h; subst h; decide
  · simp at h; subst h; exact key _ hy

theorem runs_ascii : ∀ (t : Bytes), (∀ x ∈ t, x < 128) → t ≠ [] → runs t = [t] := by
  intro t
  induction t with
  | nil => intro _ h; exact absurd rfl h
  | cons x t ih =>
    intro h _
    cases t with
    | nil => rfl
    | cons y t =>
      have := ih (fun z hz => h z (by simp [hz])) (by simp)
      rw [runs, this]
      have h1 := h x (by simp); have h2 := h y (by simp)
      simp [h1, h2]

theorem unq_none : ∀ (t : Bytes) (n : Nat), (37 : UInt8) ∉ t → unq n t = t := by
  intro t n h
  unfold unq
  rw [HttpParser.splitByte_notMem h]; simp

/-- Whatever way a text is written, it is read as that text. -/
theorem unquotePlus_written {stop : List UInt8} {s : Str} {t : Bytes} (h : Written stop (utf8 s) t) : unquotePlus t = s := by
  have ha := written_ascii h
  have hu : unquoteToBytes (replace1 43 [32] t) = utf8 s := unq_written h _ (by rw [replace1_length]; exact Nat.le_refl _)
  unfold unquotePlus unquoteText
  generalize replace1 43 [32] t = t' at ha hu
  by_cases h37 : (37 : UInt8) ∈ t'
  · rw [if_pos h37]
    have hne : t' ≠ [] := fun h => by rw [h] at h37; simp at h37
    rw [runs_ascii t' ha hne]
    have hh : t'.headD 0 < 128 := by
      cases t' with
      | nil => simp
      | cons x t' => exact ha x (by simp)
    simp only [List.flatMap_cons, List.flatMap_nil, List.append_nil]
    rw [if_pos hh, hu, decodeReplace_utf8]
  · rw [if_neg h37]
    have : unquoteToBytes t' = t' := unq_none t' _ h37
    rw [this] at hu
    have := utf8_latin1 t' ha
    rw [hu] at this
    have := congrArg decodeReplace this
    rwa [decodeReplace_utf8, decodeReplace_utf8, ← hu] at this

/-! ### Fields -/

theorem written_notMem {stop : List UInt8} {s t : Bytes} (h : Written stop s t) {c : UInt8} (hc : c ∈ stop) (h1 : isHexC c = false) (h2 : c ≠ 37) (h3 : c ≠ 43) : c ∉ t := by
  induction h with
  | nil => simp
  | raw a1 a2 a3 a4 h ih => exact fun hx => (List.mem_cons.1 hx).elim (fun e => a2 (e ▸ hc)) ih
  | plus h ih => exact fun hx => (List.mem_cons.1 hx).elim h3 ih
  | esc ha hb h ih =>
    intro hx
    rcases List.mem_cons.1 hx with rfl | hx
    · exact h2 rfl
    rcases List.mem_cons.1 hx with rfl | hx
    · rw [h1] at ha; cases ha
    rcases List.mem_cons.1 hx with rfl | hx
    · rw [h1] at hb; cases hb
    exact ih hx

theorem written_nil_iff {stop : List UInt8} {s t : Bytes} (h : Written stop s t) : t = [] ↔ s = [] := by
  cases h <;> simp

theorem utf8_nil_iff (s : Str) : utf8 s = [] ↔ s = [] := by
  cases s with
  | nil => simp [utf8]
  | cons c s =>
    simp only [utf8, List.flatMap_cons, List.append_eq_nil_iff, reduceCtorEq, iff_false, not_and]
    intro h
    have := congrArg List.length h
    rw [String.length_utf8EncodeChar] at this
    have := c.utf8Size_pos
    simp at *

theorem partition1_found {c : UInt8} : ∀ {a : Bytes} (b : Bytes), c ∉ a → partition1 c (a ++ c :: b) = (a, true, b) := by
  intro a
  induction a with
  | nil => intro b _; simp [partition1]
  | cons x a ih =>
    intro b h
    simp only [List.mem_cons, not_or] at h
    rw [List.cons_append, partition1, if_neg (fun e => h.1 e.symm), ih b h.2]

theorem partition1_none {c : UInt8} : ∀ {a : Bytes}, c ∉ a → partition1 c a = (a, false, []) := by
  intro a
  induction a with
  | nil => intro _; rfl
  | cons x a ih =>
    intro h
    simp only [List.mem_cons, not_or] at h
    rw [partition1, if_neg (fun e => h.1 e.symm), ih h.2]

/-- The pair of an item, if it has a value. -/
def pairOf : Item → Option (Str × Str)
  | .field n v => if v ≠ [] then some (n, v) else none
  | .flag _ => none

theorem qslField_written {stop : List UInt8} {i : Item} {t : Bytes} (h : i.Written stop t) : qslField t = pairOf i := by
  cases i with
  | field n v =>
    obtain ⟨a, b, h1, h2, rfl⟩ := h
    unfold qslField
    rw [if_neg (by simp), partition1_found b (written_notMem h1 (by simp) (by decide) (by decide) (by decide))]
    simp only
    by_cases hv : v = []
    · subst hv
      have : b = [] := (written_nil_iff h2).2 rfl
      simp [this, pairOf]
    · have : b ≠ [] := fun e => hv ((utf8_nil_iff v).1 ((written_nil_iff h2).1 e))
      rw [if_pos this, unquotePlus_written h1, unquotePlus_written h2]
      simp [pairOf, hv]
  | flag n =>
    unfold qslField
    split
    · rfl
    · rw [partition1_none (written_notMem (stop := 38 :: 61 :: stop) h (by simp) (by decide) (by decide) (by decide))]
      simp [pairOf]

theorem item_notMem {stop : List UInt8} {i : Item} {t : Bytes} (h : i.Written stop t) {c : UInt8} (hc : c = 38 ∨ (c ∈ stop ∧ c ≠ 61))
    (h1 : isHexC c = false) (h2 : c ≠ 37) (h3 : c ≠ 43) : c ∉ t := by
  cases i with
  | field n v =>
    obtain ⟨a, b, k1, k2, rfl⟩ := h
    intro hx
    rcases List.mem_append.1 hx with hx | hx
    · refine written_notMem k1 ?_ h1 h2 h3 hx
      rcases hc with rfl | hc
      · simp
      · simp [hc.1]
    · rcases List.mem_cons.1 hx with hx | hx
      · rcases hc with rfl | hc
        · cases hx
        · exact hc.2 hx
      · refine written_notMem k2 ?_ h1 h2 h3 hx
        rcases hc with rfl | hc
        · simp
        · simp [hc.1]
  | flag n =>
    refine written_notMem (stop := 38 :: 61 :: stop) h ?_ h1 h2 h3
    rcases hc with rfl | hc
    · simp
    · simp [hc.1]

theorem splitByte_join {c : UInt8} : ∀ (parts : List Bytes) (n : Nat), parts ≠ [] → (∀ p ∈ parts, c ∉ p) → parts.length ≤ n + 1 →
    splitByte c n (join [c] parts) = parts := by
  intro parts
  induction parts with
  | nil => intro n h; exact absurd rfl h
  | cons p ps ih =>
    intro n _ h hn
    cases ps with
    | nil => simp [join, HttpParser.splitByte_notMem (h p (by simp))]
    | cons q ps =>
      cases n with
      | zero => simp at hn
      | succ n =>
        have e : join [c] (p :: q :: ps) = p ++ c :: join [c] (q :: ps) := by simp [join]
        rw [e, HttpParser.splitByte_cons (h p (by simp)), ih n (by simp) (fun r hr => h r (by simp [hr])) (by simp at hn ⊢; omega)]

theorem count1_join {c : UInt8} : ∀ (parts : List Bytes), parts ≠ [] → (∀ p ∈ parts, c ∉ p) → 1 + count1 c (join [c] parts) = parts.length := by
  intro parts
  have h0 : ∀ p : Bytes, c ∉ p → count1 c p = 0 := by
    intro p h
    unfold count1
    rw [List.countP_eq_zero]
    intro x hx e
    exact h ((of_decide_eq_true (by simpa using e) : x = c) ▸ hx)
  induction parts with
  | nil => intro h; exact absurd rfl h
  | cons p ps ih =>
    intro _ h
    cases ps with
    | nil => simp [join, h0 p (h p (by simp))]
    | cons q ps =>
      have e : join [c] (p :: q :: ps) = p ++ c :: join [c] (q :: ps) := by simp [join]
      have := ih (by simp) (fun r hr => h r (by simp [hr]))
      have hp := h0 p (h p (by simp))
      rw [e]
      unfold count1 at this hp ⊢
      rw [List.countP_append, List.countP_cons_of_pos (by simp), hp, List.length_cons]
      omega

theorem join_length {c : UInt8} : ∀ (parts : List Bytes), parts.length ≤ (join [c] parts).length + 1 := by
  intro parts
  induction parts with
  | nil => simp
  | cons p ps ih =>
    cases ps with
    | nil => simp [join]
    | cons q ps =>
      have e : join [c] (p :: q :: ps) = p ++ c :: join [c] (q :: ps) := by simp [join]
      simp only [e, List.length_append, List.length_cons] at ih ⊢; omega

theorem Each.length {α β : Type} {R : α → β → Prop} {l : List α} {m : List β} (h : Each R l m) : l.length = m.length := by
  induction h with
  | nil => rfl
  | cons _ _ ih => simp [ih]

theorem Each.right {α β : Type} {R : α → β → Prop} {l : List α} {m : List β} (h : Each R l m) {P : β → Prop} (hp : ∀ a b, R a b → P b) :
    ∀ b ∈ m, P b := by
  induction h with
  | nil => simp
  | cons h _ ih =>
    intro b hb
    rcases List.mem_cons.1 hb with rfl | hb
    · exact hp _ _ h
    · exact ih b hb

theorem Each.filterMap {α β γ : Type} {R : α → β → Prop} {l : List α} {m : List β} (h : Each R l m) {f : β → Option γ} {g : α → Option γ}
    (hp : ∀ a b, R a b → f b = g a) : m.filterMap f = l.filterMap g := by
  induction h with
  | nil => rfl
  | cons h _ ih => simp only [List.filterMap_cons, hp _ _ h, ih]

theorem Each.append {α β : Type} {R : α → β → Prop} {l l' : List α} {m m' : List β} (h : Each R l m) (h' : Each R l' m') : Each R (l ++ l') (m ++ m') := by
  induction h with
  | nil => exact h'
  | cons h _ ih => exact .cons h ih

theorem parseQsl_join {ts : List Bytes} (hn : ∀ t ∈ ts, (38 : UInt8) ∉ t) {max : Nat} (hm : ts.length ≤ max) :
    parseQsl max (join [38] ts) = some (ts.filterMap qslField) := by
  unfold parseQsl
  by_cases he : join [38] ts = []
  · rw [if_pos he]
    cases ts with
    | nil => rfl
    | cons t ts =>
      cases ts with
      | nil => simp only [join] at he; subst he; rfl
      | cons q ts => simp [join] at he
  · have hne : ts ≠ [] := fun e => he (by rw [e]; rfl)
    rw [if_neg he, count1_join ts hne hn, if_neg (by omega), splitByte_join ts _ hne hn (join_length ts)]

theorem parseQsl_many {ts : List Bytes} (hn : ∀ t ∈ ts, (38 : UInt8) ∉ t) {max : Nat} (hm : max < ts.length) (h1 : 1 ≤ max) :
    parseQsl max (join [38] ts) = none := by
  have hne : ts ≠ [] := fun e => by subst e; exact absurd hm (by simp)
  have hc := count1_join ts hne hn
  unfold parseQsl
  rw [if_neg, hc, if_pos hm]
  intro he
  rw [he] at hc
  simp [count1] at hc
  omega

/-- What the dictionary holds after the loop of `parse_qs`. -/
theorem collect_get : ∀ (l : List (Str × Str)) (d : Dict Str (List Str)) (k : Str), (Dict.get d k ≠ some []) →
    Dict.get (l.foldl collect d) k =
      given (((Dict.get d k).getD []) ++ (l.filterMap (fun p => if p.1 = k then some p.2 else none))) := by
  intro l
  induction l with
  | nil =>
    intro d k h
    simp only [List.foldl_nil, List.filterMap_nil, List.append_nil]
    cases hg : Dict.get d k with
    | none => rfl
    | some vs =>
      cases vs with
      | nil => exact absurd hg h
      | cons v vs => rfl
  | cons p l ih =>
    intro d k h
    have hc : Dict.get (collect d p) k = if p.1 = k then some (((Dict.get d k).getD []) ++ [p.2]) else Dict.get d k := by
      unfold collect
      by_cases e : p.1 = k
      · subst e
        cases hg : Dict.get d p.1 <;> simp [Dict.get_set]
      · cases hg : Dict.get d p.1 <;> simp [Dict.get_set, e]
    rw [List.foldl_cons, ih (collect d p) k (by rw [hc]; split <;> simp [h])]
    rw [hc]
    by_cases e : p.1 = k
    · simp [e]
    · simp [e]

theorem values_pairs (is : List Item) (k : Str) :
    (is.filterMap pairOf).filterMap (fun p => if p.1 = k then some p.2 else none) = (values is k).filter (· ≠ []) := by
  induction is with
  | nil => rfl
  | cons i is ih =>
    simp only [values] at ih ⊢
    cases i with
    | flag n => rw [List.filterMap_cons_none (by rfl), List.filterMap_cons_none (by rfl)]; exact ih
    | field n v =>
      by_cases hv : v = []
      · by_cases hk : n = k <;> simp [pairOf, hv, hk, ih]
      · by_cases hk : n = k
        · simp [pairOf, hv, hk] at ih ⊢; exact ih
        · simp [pairOf, hv, hk] at ih ⊢; exact ih

theorem parseQs_join {ts : List Bytes} (hn : ∀ t ∈ ts, (38 : UInt8) ∉ t) {max : Nat} (hm : ts.length ≤ max) :
    ∃ d, parseQs max (join [38] ts) = some d ∧ ∀ k, Dict.get d k =
      given ((ts.filterMap qslField).filterMap (fun p => if p.1 = k then some p.2 else none)) := by
  refine ⟨_, by rw [parseQs, parseQsl_join hn hm]; rfl, ?_⟩
  intro k
  rw [collect_get _ [] k (by simp [Dict.get])]
  simp only [Dict.get, Option.getD_none, List.nil_append]

theorem items_notMem {stop is ts} (h : Each (Item.Written stop) is ts) : ∀ t ∈ ts, (38 : UInt8) ∉ t :=
  Each.right h (fun _ _ h => item_notMem h (.inl rfl) (by decide) (by decide) (by decide))

theorem parseQs_items {stop is ts} (h : Each (Item.Written stop) is ts) {max : Nat} (hm : is.length ≤ max) :
    ∃ d, parseQs max (join [38] ts) = some d ∧ Holds d is := by
  obtain ⟨d, h1, h2⟩ := parseQs_join (items_notMem h) (max := max) (by rw [← Each.length h]; exact hm)
  refine ⟨d, h1, ?_⟩
  intro k
  rw [h2 k, Each.filterMap h (g := pairOf) (fun _ _ h => qslField_written h), values_pairs]

theorem parseQs_many {stop is ts} (h : Each (Item.Written stop) is ts) {max : Nat} (hm : max < is.length) (h1 : 1 ≤ max) : parseQs max (join [38] ts) = none := by
  rw [parseQs, parseQsl_many (items_notMem h) (by rw [← Each.length h]; exact hm) h1]; rfl

/-! ### Cookies -/

theorem semicolons_text : ∀ {t : Bytes} (rest : Bytes), (59 : UInt8) ∉ t → semicolons (t ++ rest) = t ++ semicolons rest := by
  intro t rest
  induction t with
  | nil => intro _; rfl
  | cons x t ih =>
    intro h
    simp only [List.mem_cons, not_or] at h
    have := ih h.2
    have hx : x ≠ 59 := fun e => h.1 e.symm
    have e : ∀ s, semicolons (x :: s) = x :: semicolons s := by
      intro s
      unfold semicolons replace
      rw [replaceAux, if_neg]
      · simp [replace1, hx]
      · simp [List.isPrefixOf]; exact fun e => absurd e.symm hx
    rw [List.cons_append, e, this]; rfl

theorem semicolons_sep (rest : Bytes) : semicolons (59 :: 32 :: rest) = 38 :: semicolons rest := by
  unfold semicolons replace
  rw [replaceAux, if_pos (by simp [List.isPrefixOf])]
  simp [replaceAux, replace1]

theorem semicolons_nil : semicolons [] = [] := rfl

theorem semicolons_join : ∀ (ts : List Bytes), (∀ t ∈ ts, (59 : UInt8) ∉ t) → ∀ rest, semicolons (join b!"; " ts ++ rest) = join [38] ts ++ semicolons rest := by
  intro ts
  induction ts with
  | nil => intro _ rest; rfl
  | cons t ts ih =>
    intro h rest
    cases ts with
    | nil => simp only [join]; exact semicolons_text _ (h t (by simp))
    | cons q ts =>
      have e1 : join b!"; " (t :: q :: ts) ++ rest = t ++ 59 :: 32 :: (join b!"; " (q :: ts) ++ rest) := by simp [join]
      have e2 : join [38] (t :: q :: ts) ++ semicolons rest = t ++ 38 :: (join [38] (q :: ts) ++ semicolons rest) := by simp [join]
      rw [e1, e2, semicolons_text _ (h t (by simp)), semicolons_sep, ih (fun r hr => h r (by simp [hr])) rest]

theorem join_cons_ne {sep p : Bytes} : ∀ {l : List Bytes}, l ≠ [] → join sep (p :: l) = p ++ sep ++ join sep l := by
  intro l h
  cases l with
  | nil => exact absurd rfl h
  | cons q l => simp [join]

theorem join_append {sep : Bytes} : ∀ {l m : List Bytes}, l ≠ [] → m ≠ [] → join sep (l ++ m) = join sep l ++ sep ++ join sep m := by
  intro l m
  induction l with
  | nil => intro h; exact absurd rfl h
  | cons p l ih =>
    intro _ hm
    by_cases hl : l = []
    · subst hl; rw [List.singleton_append, join_cons_ne hm]; rfl
    · rw [List.cons_append, join_cons_ne (by simp [hm]), join_cons_ne hl, ih hl hm]; simp

theorem semicolons_groups : ∀ (gs : List (List Bytes)), (∀ g ∈ gs, g ≠ [] ∧ ∀ t ∈ g, (59 : UInt8) ∉ t) →
    semicolons (join b!"&" (gs.map (join b!"; "))) = join [38] gs.flatten := by
  intro gs
  induction gs with
  | nil => intro _; rfl
  | cons g gs ih =>
    intro h
    have hg := h g (by simp)
    have ih := ih (fun r hr => h r (by simp [hr]))
    cases gs with
    | nil =>
      have := semicolons_join g hg.2 []
      simp only [List.append_nil] at this
      simpa [join, semicolons_nil] using this
    | cons g' gs =>
      have hne : (g' :: gs).flatten ≠ [] := by
        have := (h g' (by simp)).1
        simp [this]
      rw [List.map_cons, join_cons_ne (by simp), List.append_assoc, semicolons_join g hg.2]
      rw [List.flatten_cons, join_append hg.1 hne, List.append_assoc]
      congr 1
      have := semicolons_text (t := b!"&") (join b!"&" ((g' :: gs).map (join b!"; "))) (by decide)
      rw [this, ih]

theorem unquotePlus_plain {t : Bytes} (h1 : (37 : UInt8) ∉ t) (h2 : (43 : UInt8) ∉ t) : unquotePlus t = latin1 t := by
  have e : replace1 43 [32] t = t := by
    induction t with
    | nil => rfl
    | cons x t ih =>
      simp only [List.mem_cons, not_or] at h1 h2
      have := ih h1.2 h2.2
      simp only [replace1, List.flatMap_cons] at this ⊢
      rw [this, if_neg (fun e => h2.1 e.symm)]; rfl
  rw [unquotePlus, e, unquoteText, if_neg h1]

theorem digitB_hex : ∀ {n : Nat}, n < 16 → isHexC (digitB n) = true ∧ hexv (digitB n) = n := by decide +kernel

theorem quote_written (s : Bytes) : Written [38, 59] s (Model.Text.quote s) := by
  induction s with
  | nil => exact .nil
  | cons c s ih =>
    have e : Model.Text.quote (c :: s) = (if Model.Text.quoteSafe c then [c] else Model.Text.pct c) ++ Model.Text.quote s := by simp [Model.Text.quote]
    rw [e]
    by_cases hq : Model.Text.quoteSafe c = true
    · rw [if_pos hq]
      have key := forall_u8 (P := fun c => Model.Text.quoteSafe c = true → c < 128 ∧ c ∉ [38, (59 : UInt8)] ∧ c ≠ 37 ∧ c ≠ 43) (by decide +kernel) c hq
      exact .raw key.1 key.2.1 key.2.2.1 key.2.2.2 ih
    · rw [if_neg hq]
      have h1 := digitB_hex (n := c.toNat / 16) (by have := c.toNat_lt; omega)
      have h2 := digitB_hex (n := c.toNat % 16) (by omega)
      have := Written.esc (stop := [38, 59]) h1.1 h2.1 ih
      rw [h1.2, h2.2, show 16 * (c.toNat / 16) + c.toNat % 16 = c.toNat by omega, UInt8.ofNat_toNat] at this
      exact this

theorem qslField_pair {n b : Bytes} (hn : (61 : UInt8) ∉ n) (hb : b ≠ []) : qslField (n ++ 61 :: b) = some (unquotePlus n, unquotePlus b) := by
  unfold qslField
  rw [if_neg (by simp), partition1_found b hn]
  simp [hb]

end Verif.Proofs.Params
