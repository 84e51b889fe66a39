import Verif.Props.Body
import Verif.Model.WebSocket
import Verif.Spec.WebSocket
import Verif.Py.Lemmas
import Verif.Py.Util
namespace Verif.Proofs.WebSocket
open Verif Py Model.BodyStream Model.WebSocket Spec.WebSocket

/-! ### Reading from a byte string -/

/-- What a sized read does, seen from the bytes that remain. -/
def readA (n : Nat) (R : Bytes) (o : Out) : Except Out (Bytes × Bytes) :=
  if n ≤ R.length then .ok (R.take n, R.drop n) else if o = .done then .ok (R, []) else .error o

/-- Invariant of readers: the end was only reported if the generator ended normally. -/
def Inv (r : Reader) : Prop := r.eof = true → r.gen.pieces = [] ∧ r.gen.out = .done

theorem Inv.ok {r : Reader} (h : Inv r) : r.Ok := fun e => (h e).1

theorem pull_A {size : Nat} {o : Out} : ∀ (ps : List Bytes) (buf : Bytes) (e : Bool),
    (size ≤ (buf ++ ps.flatten).length → ps ≠ [] → ∃ q, pull size o ps buf e = .ok q ∧ q.buf ++ q.gen.pieces.flatten = buf ++ ps.flatten ∧
      q.gen.out = o ∧ (size ≤ q.buf.length ∨ (o = .done ∧ q.gen.pieces = [])) ∧
      (q.eof = true → e = true ∨ (o = .done ∧ q.gen.pieces = []))) ∧
    ((buf ++ ps.flatten).length < size → pull size o ps buf e =
      if o = .done then .ok ⟨⟨[], .done⟩, buf ++ ps.flatten, true⟩ else .error o) := by
  intro ps
  induction ps with
  | nil => intro buf e; exact ⟨fun _ h => absurd rfl h, fun _ => by simp [pull]⟩
  | cons d ps ih =>
    intro buf e
    obtain ⟨i1, i2⟩ := ih (buf ++ d) e
    constructor
    · intro h _
      rw [pull]
      split
      · exact ⟨_, rfl, by simp, rfl, .inl (by assumption), fun h => .inl h⟩
      · rename_i hs
        by_cases hp : ps = []
        · subst hp; simp at h hs; omega
        · obtain ⟨q, h1, h2, h3, h4, h5⟩ := i1 (by simpa using h) hp
          exact ⟨q, h1, by simpa using h2, h3, h4, h5⟩
    · intro h
      rw [pull, if_neg (by simp at h ⊢; omega), i2 (by simpa using h)]
      simp

theorem recvSized_A {n : Nat} {r : Reader} (hi : Inv r) :
    (∃ b r', recvSized n r = .ok (b, r') ∧ readA n r.remaining r.gen.out = .ok (b, r'.remaining) ∧ Inv r' ∧
      r'.gen.out = r.gen.out) ∨
    (recvSized n r = .error r.gen.out ∧ readA n r.remaining r.gen.out = .error r.gen.out ∧ r.gen.out ≠ .done) := by
  unfold recvSized
  by_cases h0 : n = 0 ∨ r.isEof = true
  · rw [if_pos h0]
    left
    refine ⟨_, _, rfl, ?_, hi, rfl⟩
    rcases h0 with rfl | h0
    · simp [readA]
    · simp only [Reader.isEof, Bool.and_eq_true, beq_iff_eq] at h0
      obtain ⟨h1, h2⟩ := hi h0.1
      have : r.remaining = [] := by simp [Reader.remaining, h0.2, h1]
      rw [this, h2]
      unfold readA
      by_cases hn : n = 0 <;> simp [hn]
  · rw [if_neg h0]
    have hn : 0 < n := by omega
    by_cases hl : r.buf.length < n
    · rw [if_pos hl]
      obtain ⟨i1, i2⟩ := pull_A (size := n) (o := r.gen.out) r.gen.pieces r.buf r.eof
      by_cases hr : n ≤ r.remaining.length
      · have hne : r.gen.pieces ≠ [] := by
          intro e; simp [Reader.remaining, e] at hr; omega
        obtain ⟨q, h1, h2, h3, h4, h5⟩ := i1 hr hne
        rw [h1]
        simp only
        left
        have hq : q.remaining = r.remaining := h2
        have hql : n ≤ q.buf.length := by
          rcases h4 with h4 | ⟨_, h4⟩
          · exact h4
          · rw [← hq, Reader.remaining, h4] at hr; simpa using hr
        refine ⟨_, _, rfl, ?_, ?_, h3⟩
        · unfold readA
          rw [if_pos hr, ← hq]
          simp only [Reader.remaining, List.take_append_of_le_length hql, List.drop_append_of_le_length hql]
        · intro he
          rcases h5 he with h5 | ⟨h5, h6⟩
          · exact absurd (hi h5).1 hne
          · exact ⟨h6, h3.trans h5⟩
      · have hlt : r.remaining.length < n := by omega
        rw [i2 hlt]
        by_cases ho : r.gen.out = .done
        · left
          rw [if_pos ho]
          refine ⟨_, _, rfl, ?_, fun _ => ⟨rfl, rfl⟩, ho.symm⟩
          unfold readA
          rw [if_neg hr, if_pos ho]
          have hrl : (r.buf ++ r.gen.pieces.flatten).length ≤ n := by have := hlt; simp only [Reader.remaining] at this; omega
          simp only [Reader.remaining, List.take_of_length_le hrl, List.drop_eq_nil_of_le hrl]
          simp
        · right
          rw [if_neg ho]
          refine ⟨rfl, ?_, ho⟩
          unfold readA
          rw [if_neg hr, if_neg ho]
    · rw [if_neg hl]
      left
      refine ⟨_, _, rfl, ?_, hi, rfl⟩
      have hbl : n ≤ r.buf.length := by omega
      unfold readA
      rw [if_pos (by simp [Reader.remaining]; omega)]
      simp only [Reader.remaining, List.take_append_of_le_length hbl, List.drop_append_of_le_length hbl]

/-! ### `recv` on a byte string -/

def readLengthA (max : Nat) (b2 : UInt8) (R : Bytes) (o : Out) : Except Out (Except Nat Nat × Bytes) :=
  let l := (b2 &&& 0x7f).toNat
  if l = 126 then
    match readA 2 R o with
    | .error o => .error o
    | .ok (b, r) => .ok (.ok (fromBE b), r)
  else if l = 127 then
    match readA 8 R o with
    | .error o => .error o
    | .ok (b, r) => if fromBE b > max then .ok (.error 1009, r) else .ok (.ok (fromBE b), r)
  else .ok (.ok l, R)

def readPayloadA (masked : Bool) (n : Nat) (R : Bytes) (o : Out) : Except Out (Bytes × Bytes) :=
  if masked then
    match readA 4 R o with
    | .error o => .error o
    | .ok (key, r) =>
      match readA n r o with
      | .error o => .error o
      | .ok (d, r) => .ok (xorMask key d, r)
  else readA n R o

def recvA (max : Nat) (R : Bytes) (o : Out) : Res × List Bytes × Option Bytes :=
  match readA 2 R o with
  | .error o => (.failed o, [], none)
  | .ok ([b1, b2], r) =>
    match readLengthA max b2 r o with
    | .error o => (.failed o, [], none)
    | .ok (.error code, r) => (.serverClosed code, [], some r)
    | .ok (.ok n, r) =>
      match readPayloadA ((b2 &&& 0x80) >>> 7 != 0) n r o with
      | .error o => (.failed o, [], none)
      | .ok (d, r) => ((dispatch (b1 &&& 0x0f) n d).1, (dispatch (b1 &&& 0x0f) n d).2, some r)
  | .ok (_, r) => (.clientClosed 1005, [], some r)

/-- What `recv` does depends only on the bytes that remain and on how the stream ends. -/
theorem recv_A {max : Nat} {r : Reader} (hi : Inv r) :
    ∃ res sent r', recv max r = (res, sent, r') ∧ Inv r' ∧ r'.gen.out = r.gen.out ∧
      (recvA max r.remaining r.gen.out = (res, sent, some r'.remaining) ∨
       (recvA max r.remaining r.gen.out = (res, sent, none) ∧ res = .failed r.gen.out ∧ r.gen.out ≠ .done)) := by
  unfold recv recvA
  rcases recvSized_A (n := 2) hi with ⟨b, r1, h1, h2, i1, o1⟩ | ⟨h1, h2, ho⟩
  · rw [h1, h2]
    match b with
    | [] => exact ⟨_, _, _, rfl, i1, o1, .inl rfl⟩
    | [_] => exact ⟨_, _, _, rfl, i1, o1, .inl rfl⟩
    | _ :: _ :: _ :: _ => exact ⟨_, _, _, rfl, i1, o1, .inl rfl⟩
    | [b1, b2] =>
      simp only
      have pay : ∀ (n : Nat) (r2 : Reader), Inv r2 → r2.gen.out = r.gen.out →
          ∃ res sent r', (match readPayload ((b2 &&& 0x80) >>> 7 != 0) n r2 with
            | .error o => (Res.failed o, [], r2)
            | .ok (d, r) => ((dispatch (b1 &&& 0x0f) n d).1, (dispatch (b1 &&& 0x0f) n d).2, r)) = (res, sent, r') ∧
            Inv r' ∧ r'.gen.out = r.gen.out ∧
            ((match readPayloadA ((b2 &&& 0x80) >>> 7 != 0) n r2.remaining r.gen.out with
              | .error o => (Res.failed o, [], none)
              | .ok (d, r) => ((dispatch (b1 &&& 0x0f) n d).1, (dispatch (b1 &&& 0x0f) n d).2, some r)) = (res, sent, some r'.remaining) ∨
             ((match readPayloadA ((b2 &&& 0x80) >>> 7 != 0) n r2.remaining r.gen.out with
              | .error o => (Res.failed o, [], none)
              | .ok (d, r) => ((dispatch (b1 &&& 0x0f) n d).1, (dispatch (b1 &&& 0x0f) n d).2, some r)) = (res, sent, none) ∧
              res = .failed r.gen.out ∧ r.gen.out ≠ .done)) := by
        intro n r2 i2 o2
        unfold readPayload readPayloadA
        by_cases hm : ((b2 &&& 0x80) >>> 7 != 0) = true
        · simp only [hm, if_true]
          rcases recvSized_A (n := 4) i2 with ⟨k, r3, h5, h6, i3, o3⟩ | ⟨h5, h6, ho⟩
          · rw [o2] at h6
            rw [h5, h6]
            simp only
            rcases recvSized_A (n := n) i3 with ⟨d, r4, h7, h8, i4, o4⟩ | ⟨h7, h8, ho⟩
            · rw [o3, o2] at h8
              rw [h7, h8]
              exact ⟨_, _, _, rfl, i4, by rw [o4, o3, o2], .inl rfl⟩
            · rw [o3, o2] at h8 h7 ho
              rw [h7, h8]
              exact ⟨_, _, _, rfl, i2, o2, .inr ⟨rfl, rfl, ho⟩⟩
          · rw [o2] at h6 h5 ho
            rw [h5, h6]
            exact ⟨_, _, _, rfl, i2, o2, .inr ⟨rfl, rfl, ho⟩⟩
        · simp only [hm]
          simp only [Bool.false_eq_true, if_false]
          rcases recvSized_A (n := n) i2 with ⟨d, r4, h7, h8, i4, o4⟩ | ⟨h7, h8, ho⟩
          · rw [o2] at h8
            rw [h7, h8]
            exact ⟨_, _, _, rfl, i4, by rw [o4, o2], .inl rfl⟩
          · rw [o2] at h8 h7 ho
            rw [h7, h8]
            exact ⟨_, _, _, rfl, i2, o2, .inr ⟨rfl, rfl, ho⟩⟩
      unfold readLength readLengthA
      simp only
      by_cases ha : (b2 &&& 0x7f).toNat = 126
      · simp only [ha, if_true]
        rcases recvSized_A (n := 2) i1 with ⟨k, r3, h5, h6, i3, o3⟩ | ⟨h5, h6, ho⟩
        · rw [o1] at h6
          rw [h5, h6]
          exact pay _ r3 i3 (o3.trans o1)
        · rw [o1] at h6 h5 ho
          rw [h5, h6]
          exact ⟨_, _, _, rfl, i1, o1, .inr ⟨rfl, rfl, ho⟩⟩
      · simp only [ha, if_false]
        by_cases hb : (b2 &&& 0x7f).toNat = 127
        · simp only [hb, if_true]
          rcases recvSized_A (n := 8) i1 with ⟨k, r3, h5, h6, i3, o3⟩ | ⟨h5, h6, ho⟩
          · rw [o1] at h6
            rw [h5, h6]
            simp only
            by_cases hg : fromBE k > max
            · simp only [hg, if_true]
              exact ⟨_, _, _, rfl, i3, o3.trans o1, .inl rfl⟩
            · simp only [hg, if_false]
              exact pay _ r3 i3 (o3.trans o1)
          · rw [o1] at h6 h5 ho
            rw [h5, h6]
            exact ⟨_, _, _, rfl, i1, o1, .inr ⟨rfl, rfl, ho⟩⟩
        · simp only [hb, if_false]
          exact pay _ r1 i1 o1
  · rw [h1, h2]
    exact ⟨_, _, _, rfl, hi, rfl, .inr ⟨rfl, rfl, ho⟩⟩

/-! ### Frames -/

theorem be_eq (k n : Nat) : be k n = toBE k n := by
  induction k generalizing n with
  | zero => rfl
  | succ k ih =>
    rw [toBE, ← ih, be, List.range_succ, List.map_append, be]
    congr 1
    · apply List.map_congr_left
      intro i hi
      rw [List.mem_range] at hi
      have : k + 1 - 1 - i = (k - 1 - i) + 1 := by omega
      rw [this, Nat.pow_succ, Nat.mul_comm, Nat.div_div_eq_div_mul]
    · simp
      apply UInt8.toNat_inj.1
      simp

theorem be_length (k n : Nat) : (be k n).length = k := by simp [be]

theorem fromBE_be {k n : Nat} (h : n < 256 ^ k) : fromBE (be k n) = n := by rw [be_eq]; exact fromBE_toBE k n h

theorem xorMask_eq (k : UInt8 × UInt8 × UInt8 × UInt8) : ∀ p : Bytes,
    xorMask [k.1, k.2.1, k.2.2.1, k.2.2.2] p = maskWith k p
  | [] => rfl
  | [a] => rfl
  | [a, b] => rfl
  | [a, b, c] => rfl
  | a :: b :: c :: d :: t => by
    have ih := xorMask_eq k t
    unfold xorMask at ih ⊢
    simp only [List.mapIdx_cons, maskWith]
    rw [← ih]
    simp [Nat.add_assoc]

theorem xor_cancel (a k : UInt8) : a ^^^ k ^^^ k = a := by
  rw [UInt8.xor_assoc]; simp

theorem maskWith_maskWith (k : UInt8 × UInt8 × UInt8 × UInt8) : ∀ p : Bytes, maskWith k (maskWith k p) = p
  | [] => rfl
  | [a] => by simp [maskWith, xor_cancel]
  | [a, b] => by simp [maskWith, xor_cancel]
  | [a, b, c] => by simp [maskWith, xor_cancel]
  | a :: b :: c :: d :: t => by
    have ih := maskWith_maskWith k t
    simp [maskWith, xor_cancel, ih]

theorem maskWith_length (k : UInt8 × UInt8 × UInt8 × UInt8) : ∀ p : Bytes, (maskWith k p).length = p.length
  | [] => rfl
  | [a] => rfl
  | [a, b] => rfl
  | [a, b, c] => rfl
  | a :: b :: c :: d :: t => by simp [maskWith, maskWith_length k t]

theorem second_len (m l : Nat) (hm : m = 0 ∨ m = 128) (hl : l < 128) : ((UInt8.ofNat (m + l)) &&& 0x7f).toNat = l := by
  have h1 : ∀ l : Fin 128, ((UInt8.ofNat (0 + l.val)) &&& 0x7f).toNat = l.val := by decide +kernel
  have h2 : ∀ l : Fin 128, ((UInt8.ofNat (128 + l.val)) &&& 0x7f).toNat = l.val := by decide +kernel
  rcases hm with rfl | rfl
  · exact h1 ⟨l, hl⟩
  · exact h2 ⟨l, hl⟩

theorem second_mask (m l : Nat) (hm : m = 0 ∨ m = 128) (hl : l < 128) :
    (((UInt8.ofNat (m + l)) &&& 0x80) >>> 7 != 0) = decide (m = 128) := by
  have h1 : ∀ l : Fin 128, (((UInt8.ofNat (0 + l.val)) &&& 0x80) >>> 7 != 0) = false := by decide +kernel
  have h2 : ∀ l : Fin 128, (((UInt8.ofNat (128 + l.val)) &&& 0x80) >>> 7 != 0) = true := by decide +kernel
  rcases hm with rfl | rfl
  · rw [h1 ⟨l, hl⟩]; rfl
  · rw [h2 ⟨l, hl⟩]; rfl

theorem second_split (b : UInt8) : ∃ m, (m = 0 ∨ m = 128) ∧ b = UInt8.ofNat (m + (b &&& 0x7f).toNat) ∧ (b &&& 0x7f).toNat < 128 ∧
    ((b &&& 0x80) >>> 7 != 0) = decide (m = 128) := by
  have h : ∀ b : UInt8, (((b &&& 0x80) >>> 7 != 0) = true ∧ b = UInt8.ofNat (128 + (b &&& 0x7f).toNat) ∨
     ((b &&& 0x80) >>> 7 != 0) = false ∧ b = UInt8.ofNat (0 + (b &&& 0x7f).toNat)) ∧ (b &&& 0x7f).toNat < 128 :=
    forall_u8 (by decide +kernel)
  obtain ⟨h1 | h1, h2⟩ := h b
  · exact ⟨128, .inr rfl, h1.2, h2, by rw [h1.1]; rfl⟩
  · exact ⟨0, .inl rfl, h1.2, h2, by rw [h1.1]; rfl⟩

theorem opcode_eq (b : UInt8) : (b &&& 0x0f).toNat = b.toNat % 16 := by
  revert b; apply forall_u8; decide +kernel

theorem readA_left {a rest : Bytes} {n : Nat} {o : Out} (h : a.length = n) : readA n (a ++ rest) o = .ok (a, rest) := by
  unfold readA
  rw [if_pos (by simp; omega), List.take_left' h, List.drop_left' h]

def maskNat (f : Frame) : Nat := if f.key.isSome then 128 else 0
theorem maskNat_or (f : Frame) : maskNat f = 0 ∨ maskNat f = 128 := by
  unfold maskNat; split <;> simp

theorem readPayloadA_frame (f : Frame) (rest : Bytes) (o : Out) :
    readPayloadA f.key.isSome f.payload.length
      ((match f.key with | none => f.payload | some k => [k.1, k.2.1, k.2.2.1, k.2.2.2] ++ maskWith k f.payload) ++ rest) o =
      .ok (f.payload, rest) := by
  unfold readPayloadA
  cases hk : f.key with
  | none => simp only [Option.isSome_none, Bool.false_eq_true, if_false]; exact readA_left rfl
  | some k =>
    simp only [Option.isSome_some, if_true, List.append_assoc]
    rw [readA_left (by rfl)]
    simp only
    rw [readA_left (maskWith_length k _)]
    simp only [xorMask_eq, maskWith_maskWith]

theorem recvA_frame {max : Nat} (f : Frame) (hf : f.Fits) (hm : f.form = .long → f.payload.length ≤ max) (rest : Bytes) (o : Out) :
    recvA max (f.encode ++ rest) o = ((dispatch (f.b0 &&& 0x0f) f.payload.length f.payload).1,
      (dispatch (f.b0 &&& 0x0f) f.payload.length f.payload).2, some rest) := by
  have hp := readPayloadA_frame f rest o
  have hmk : decide (maskNat f = 128) = f.key.isSome := by
    unfold maskNat; split <;> simp_all
  generalize hX : (match f.key with | none => f.payload | some k => [k.1, k.2.1, k.2.2.1, k.2.2.2] ++ maskWith k f.payload) = X at hp
  have henc : f.encode = f.prefix ++ X := by rw [← hX]; rfl
  rw [henc]
  unfold Frame.Fits at hf
  unfold recvA
  cases hfo : f.form with
  | short =>
    rw [hfo] at hf
    have hpre : f.prefix = [f.b0, UInt8.ofNat (maskNat f + f.payload.length)] := by unfold Frame.prefix; rw [hfo]; rfl
    simp only at hf
    rw [hpre, List.append_assoc, readA_left (by rfl)]
    simp only
    unfold readLengthA
    simp only [second_len _ _ (maskNat_or f) (show f.payload.length < 128 by omega)]
    rw [if_neg (by omega), if_neg (by omega)]
    simp only [second_mask _ _ (maskNat_or f) (show f.payload.length < 128 by omega), hmk, hp]
  | medium =>
    rw [hfo] at hf
    have hpre : f.prefix = [f.b0, UInt8.ofNat (maskNat f + 126)] ++ be 2 f.payload.length := by unfold Frame.prefix; rw [hfo]; rfl
    simp only at hf
    rw [hpre, List.append_assoc, List.append_assoc, readA_left (by rfl)]
    simp only
    unfold readLengthA
    simp only [second_len _ _ (maskNat_or f) (show 126 < 128 by omega)]
    rw [if_pos trivial, readA_left (be_length 2 _)]
    simp only [fromBE_be (k := 2) (n := f.payload.length) hf, second_mask _ _ (maskNat_or f) (show 126 < 128 by omega), hmk, hp]
  | long =>
    rw [hfo] at hf
    have hpre : f.prefix = [f.b0, UInt8.ofNat (maskNat f + 127)] ++ be 8 f.payload.length := by unfold Frame.prefix; rw [hfo]; rfl
    simp only at hf
    have := hm hfo
    rw [hpre, List.append_assoc, List.append_assoc, readA_left (by rfl)]
    simp only
    unfold readLengthA
    simp only [second_len _ _ (maskNat_or f) (show 127 < 128 by omega)]
    rw [if_neg (by omega), if_pos trivial, readA_left (be_length 8 _)]
    simp only [fromBE_be (k := 8) (n := f.payload.length) hf]
    rw [if_neg (by omega)]
    simp only [second_mask _ _ (maskNat_or f) (show 127 < 128 by omega), hmk, hp]

theorem recvA_refused {max : Nat} (f : Frame) (hf : f.Fits) (hl : f.form = .long) (hm : max < f.payload.length) (rest : Bytes) (o : Out) :
    recvA max (f.prefix ++ rest) o = (.serverClosed 1009, [], some rest) := by
  unfold Frame.Fits at hf
  rw [hl] at hf
  have hpre : f.prefix = [f.b0, UInt8.ofNat (maskNat f + 127)] ++ be 8 f.payload.length := by unfold Frame.prefix; rw [hl]; rfl
  simp only at hf
  unfold recvA
  rw [hpre, List.append_assoc, readA_left (by rfl)]
  simp only
  unfold readLengthA
  simp only [second_len _ _ (maskNat_or f) (show 127 < 128 by omega)]
  rw [if_neg (by omega), if_pos trivial, readA_left (be_length 8 _)]
  simp only [fromBE_be (k := 8) (n := f.payload.length) hf]
  rw [if_pos (by omega)]

/-! ### The converse: what was read was a frame -/

theorem readA_ok_live {n : Nat} {R b R' : Bytes} {o : Out} (ho : o ≠ .done) (h : readA n R o = .ok (b, R')) :
    R = b ++ R' ∧ b.length = n := by
  unfold readA at h
  split at h
  · simp at h; obtain ⟨rfl, rfl⟩ := h
    rename_i hl
    exact ⟨(List.take_append_drop _ _).symm, by simp; omega⟩
  · cases h

theorem toBE_fromBE : ∀ (k : Nat) (b : Bytes), b.length = k → toBE k (fromBE b) = b := by
  intro k
  induction k with
  | zero => intro b h; have : b = [] := List.eq_nil_of_length_eq_zero h; subst this; rfl
  | succ k ih =>
    intro b h
    have hne : b ≠ [] := by intro e; rw [e] at h; cases h
    obtain ⟨l, c, rfl⟩ : ∃ l c, b = l ++ [c] := ⟨b.dropLast, b.getLast hne, (List.dropLast_concat_getLast hne).symm⟩
    have hl : l.length = k := by simpa using h
    rw [fromBE_append, toBE]
    have hc : c.toNat < 256 := c.toNat_lt
    have h1 : (fromBE l * 256 + c.toNat) / 256 = fromBE l := by omega
    have h2 : (fromBE l * 256 + c.toNat) % 256 = c.toNat := by omega
    rw [h1, h2, ih l hl]
    simp

theorem fromBE_lt : ∀ b : Bytes, fromBE b < 256 ^ b.length := by
  intro b
  induction b using snocInd with
  | h0 => simp [fromBE]
  | h1 l c ih =>
    rw [fromBE_append]
    have hc : c.toNat < 256 := c.toNat_lt
    rw [List.length_append, List.length_singleton, Nat.pow_succ]
    omega

/-- If `recv` gets past reading (the stream has not ended), it has read one frame. -/
theorem recvA_live {max : Nat} {R R' : Bytes} {o : Out} {res : Res} {sent : List Bytes} (ho : o ≠ .done)
    (h : recvA max R o = (res, sent, some R')) :
    (∃ f : Frame, f.Fits ∧ (f.form = .long → f.payload.length ≤ max) ∧ R = f.encode ++ R' ∧
      (res, sent) = dispatch (f.b0 &&& 0x0f) f.payload.length f.payload) ∨
    res = .serverClosed 1009 := by
  unfold recvA at h
  cases h1 : readA 2 R o with
  | error e => rw [h1] at h; simp at h
  | ok q =>
    obtain ⟨b, R1⟩ := q
    obtain ⟨e1, l1⟩ := readA_ok_live ho h1
    rw [h1] at h
    match b, l1 with
    | [b1, b2], _ =>
      simp only at h
      obtain ⟨m, hm, hb2, hlt, hmask⟩ := second_split b2
      -- the frame with the given form and extension bytes
      have fin : ∀ (form : Form) (n : Nat) (ext R2 : Bytes), R1 = ext ++ R2 →
          (∀ key payload, payload.length = n → key.isSome = decide (m = 128) →
            (Frame.mk b1 form key payload).prefix = [b1, b2] ++ ext ∧ (Frame.mk b1 form key payload).Fits ∧
            (form = .long → payload.length ≤ max)) →
          (match readPayloadA ((b2 &&& 0x80) >>> 7 != 0) n R2 o with
            | .error o => (Res.failed o, [], none)
            | .ok (d, r) => ((dispatch (b1 &&& 0x0f) n d).1, (dispatch (b1 &&& 0x0f) n d).2, some r)) = (res, sent, some R') →
          (∃ f : Frame, f.Fits ∧ (f.form = .long → f.payload.length ≤ max) ∧ R = f.encode ++ R' ∧
            (res, sent) = dispatch (f.b0 &&& 0x0f) f.payload.length f.payload) := by
        intro form n ext R2 hR2 hf hres
        unfold readPayloadA at hres
        rw [hmask] at hres
        by_cases hmm : m = 128
        · simp only [hmm, decide_true, if_true] at hres
          cases h4 : readA 4 R2 o with
          | error e => rw [h4] at hres; simp at hres
          | ok q4 =>
            obtain ⟨k, R3⟩ := q4
            obtain ⟨e4, l4⟩ := readA_ok_live ho h4
            rw [h4] at hres
            simp only at hres
            cases h5 : readA n R3 o with
            | error e => rw [h5] at hres; simp at hres
            | ok q5 =>
              obtain ⟨d, R4⟩ := q5
              obtain ⟨e5, l5⟩ := readA_ok_live ho h5
              rw [h5] at hres
              simp only [Prod.mk.injEq, Option.some.injEq] at hres
              obtain ⟨r1, r2, rfl⟩ := hres
              match k, l4 with
              | [k1, k2, k3, k4], _ =>
                have hx := xorMask_eq (k1, k2, k3, k4) d
                simp only at hx
                rw [hx] at r1 r2
                have hlen : (maskWith (k1, k2, k3, k4) d).length = n := by rw [maskWith_length, l5]
                obtain ⟨p1, p2, p3⟩ := hf (some (k1, k2, k3, k4)) _ hlen (by simp [hmm])
                refine ⟨_, p2, p3, ?_, ?_⟩
                · unfold Frame.encode
                  rw [p1]
                  simp only [maskWith_maskWith]
                  rw [e1, hR2, e4, e5]; simp
                · simp only [hlen]; rw [← r1, ← r2]
        · simp only [hmm, decide_false, Bool.false_eq_true, if_false] at hres
          cases h5 : readA n R2 o with
          | error e => rw [h5] at hres; simp at hres
          | ok q5 =>
            obtain ⟨d, R4⟩ := q5
            obtain ⟨e5, l5⟩ := readA_ok_live ho h5
            rw [h5] at hres
            simp only [Prod.mk.injEq, Option.some.injEq] at hres
            obtain ⟨r1, r2, rfl⟩ := hres
            obtain ⟨p1, p2, p3⟩ := hf none _ l5 (by simp [hmm])
            refine ⟨_, p2, p3, ?_, ?_⟩
            · unfold Frame.encode
              rw [p1]
              simp only
              rw [e1, hR2, e5]; simp
            · simp only [l5]; rw [← r1, ← r2]
      have hmk : ∀ key : Option (UInt8 × UInt8 × UInt8 × UInt8), key.isSome = decide (m = 128) →
          (if key.isSome then 128 else 0) = m := by
        intro key hk
        rcases hm with rfl | rfl
        · simp at hk; simp [hk]
        · simp at hk; simp [hk]
      unfold readLengthA at h
      simp only at h
      by_cases ha : (b2 &&& 0x7f).toNat = 126
      · rw [if_pos ha] at h
        cases h2 : readA 2 R1 o with
        | error e => rw [h2] at h; simp at h
        | ok q2 =>
          obtain ⟨ext, R2⟩ := q2
          obtain ⟨e2, l2⟩ := readA_ok_live ho h2
          rw [h2] at h
          refine .inl (fin .medium _ ext R2 e2 ?_ h)
          intro key payload hp hk
          have hb := toBE_fromBE 2 ext l2
          refine ⟨?_, ?_, by simp⟩
          · simp only [Frame.prefix]
            rw [hmk key hk, be_eq, hp, hb, ← ha, ← hb2]
          · simp only [Frame.Fits]
            have := fromBE_lt ext
            rw [l2] at this; omega
      · rw [if_neg ha] at h
        by_cases hb : (b2 &&& 0x7f).toNat = 127
        · rw [if_pos hb] at h
          cases h2 : readA 8 R1 o with
          | error e => rw [h2] at h; simp at h
          | ok q2 =>
            obtain ⟨ext, R2⟩ := q2
            obtain ⟨e2, l2⟩ := readA_ok_live ho h2
            rw [h2] at h
            simp only at h
            by_cases hg : fromBE ext > max
            · rw [if_pos hg] at h
              simp only [Prod.mk.injEq] at h
              exact .inr h.1.symm
            · rw [if_neg hg] at h
              refine .inl (fin .long _ ext R2 e2 ?_ h)
              intro key payload hp hk
              have hbb := toBE_fromBE 8 ext l2
              refine ⟨?_, ?_, fun _ => by omega⟩
              · simp only [Frame.prefix]
                rw [hmk key hk, be_eq, hp, hbb, ← hb, ← hb2]
              · simp only [Frame.Fits]
                have := fromBE_lt ext
                rw [l2] at this; omega
        · rw [if_neg hb] at h
          refine .inl (fin .short _ [] R1 rfl ?_ h)
          intro key payload hp hk
          refine ⟨?_, ?_, by simp⟩
          · simp only [Frame.prefix]
            rw [hmk key hk, hp, ← hb2]; rfl
          · simp only [Frame.Fits]; omega

theorem readA_more {n : Nat} {R b R' : Bytes} {o : Out} (ho : o ≠ .done) (h : readA n R o = .ok (b, R')) (q : Bytes) :
    readA n (R ++ q) o = .ok (b, R' ++ q) := by
  obtain ⟨rfl, hl⟩ := readA_ok_live ho h
  rw [List.append_assoc, readA_left hl]

/-- More bytes do not change the outcome of a call that has not waited. -/
theorem recvA_more {max : Nat} {R R' : Bytes} {o : Out} {res : Res} {sent : List Bytes} (ho : o ≠ .done)
    (h : recvA max R o = (res, sent, some R')) (q : Bytes) : recvA max (R ++ q) o = (res, sent, some (R' ++ q)) := by
  unfold recvA at h ⊢
  cases h1 : readA 2 R o with
  | error e => rw [h1] at h; simp at h
  | ok x =>
    obtain ⟨b, R1⟩ := x
    rw [h1] at h
    rw [readA_more ho h1 q]
    obtain ⟨e1, l1⟩ := readA_ok_live ho h1
    match b, l1 with
    | [b1, b2], _ =>
      simp only at h ⊢
      cases h2 : readLengthA max b2 R1 o with
      | error e => rw [h2] at h; simp at h
      | ok y =>
        obtain ⟨y, R2⟩ := y
        have h2' : readLengthA max b2 (R1 ++ q) o = .ok (y, R2 ++ q) := by
          unfold readLengthA at h2 ⊢
          simp only at h2 ⊢
          by_cases c1 : (b2 &&& 0x7f).toNat = 126
          · rw [if_pos c1] at h2 ⊢
            cases h3 : readA 2 R1 o with
            | error e => rw [h3] at h2; simp at h2
            | ok z =>
              rw [h3] at h2
              rw [readA_more ho h3 q]
              simp only [Except.ok.injEq, Prod.mk.injEq] at h2
              simp only [h2.1, h2.2]
          · rw [if_neg c1] at h2 ⊢
            by_cases c2 : (b2 &&& 0x7f).toNat = 127
            · rw [if_pos c2] at h2 ⊢
              cases h3 : readA 8 R1 o with
              | error e => rw [h3] at h2; simp at h2
              | ok z =>
                rw [h3] at h2
                rw [readA_more ho h3 q]
                simp only at h2 ⊢
                by_cases c3 : fromBE z.1 > max
                · rw [if_pos c3] at h2 ⊢
                  simp only [Except.ok.injEq, Prod.mk.injEq] at h2
                  simp only [h2.1, h2.2]
                · rw [if_neg c3] at h2 ⊢
                  simp only [Except.ok.injEq, Prod.mk.injEq] at h2
                  simp only [h2.1, h2.2]
            · rw [if_neg c2] at h2 ⊢
              simp only [Except.ok.injEq, Prod.mk.injEq] at h2
              simp only [h2.1, h2.2]
        rw [h2] at h
        rw [h2']
        cases y with
        | error code =>
          simp only [Prod.mk.injEq, Option.some.injEq] at h ⊢
          exact ⟨h.1, h.2.1, by rw [h.2.2]⟩
        | ok n =>
          simp only at h ⊢
          cases h3 : readPayloadA ((b2 &&& 0x80) >>> 7 != 0) n R2 o with
          | error e => rw [h3] at h; simp at h
          | ok z =>
            obtain ⟨d, R3⟩ := z
            have h3' : readPayloadA ((b2 &&& 0x80) >>> 7 != 0) n (R2 ++ q) o = .ok (d, R3 ++ q) := by
              unfold readPayloadA at h3 ⊢
              split at h3
              · next hk =>
                rw [if_pos hk]
                cases h4 : readA 4 R2 o with
                | error e => rw [h4] at h3; simp at h3
                | ok z =>
                  obtain ⟨k, R4⟩ := z
                  rw [h4] at h3
                  rw [readA_more ho h4 q]
                  simp only at h3 ⊢
                  cases h5 : readA n R4 o with
                  | error e => rw [h5] at h3; simp at h3
                  | ok z =>
                    rw [h5] at h3
                    rw [readA_more ho h5 q]
                    simp only [Except.ok.injEq, Prod.mk.injEq] at h3 ⊢
                    exact ⟨h3.1, by rw [h3.2]⟩
              · next hk => rw [if_neg hk]; exact readA_more ho h3 q
            rw [h3] at h
            rw [h3']
            simp only [Prod.mk.injEq, Option.some.injEq] at h ⊢
            exact ⟨h.1, h.2.1, by rw [h.2.2]⟩

/-- A frame that has not arrived completely makes `recv` wait (or fail as the stream fails). -/
theorem recv_incomplete {max : Nat} {r : Reader} (hi : Inv r) (ho : r.gen.out ≠ .done) {f : Frame} (hf : f.Fits)
    (hm : f.form = .long → f.payload.length ≤ max) {q : Bytes} (hq : q ≠ []) (hr : r.remaining ++ q = f.encode) :
    ∃ sent r', recv max r = (.failed r.gen.out, sent, r') ∧ recvA max r.remaining r.gen.out = (.failed r.gen.out, sent, none) := by
  obtain ⟨res, sent, r', h1, -, -, h | ⟨h, hres, -⟩⟩ := recv_A (max := max) hi
  · exfalso
    have h2 := recvA_more ho h q
    have h3 := recvA_frame f hf hm [] r.gen.out
    rw [List.append_nil, ← hr, h2] at h3
    simp at h3
    exact hq h3.2.2.2
  · subst hres; exact ⟨sent, r', h1, h⟩

theorem recvA_failed {max : Nat} {R : Bytes} {o : Out} {res : Res} {sent : List Bytes} (h : recvA max R o = (res, sent, none)) : sent = [] := by
  unfold recvA at h
  split at h
  · simp at h; exact h.2
  · split at h
    · simp at h; exact h.2
    · simp at h
    · split at h
      · simp at h; exact h.2
      · simp at h
  · simp at h

end Verif.Proofs.WebSocket
