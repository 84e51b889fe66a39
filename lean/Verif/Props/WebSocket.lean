import Verif.Proofs.WebSocket
/-!
# C30–C33  WebSocket
-/
namespace Verif
open Py Model.BodyStream Model.WebSocket Spec.WebSocket Proofs.WebSocket

/-- Frames produced by `create_frame` are RFC 6455 frames with the shortest length form. -/
def ownFrame (payload : Bytes) (opcode : UInt8) (fin : Bool) (key : Option (UInt8 × UInt8 × UInt8 × UInt8)) : Frame :=
  ⟨(if fin then 128 else 0) ||| opcode,
   if payload.length < 126 then .short else if payload.length < 65536 then .medium else .long, key, payload⟩

def keyBytes (k : UInt8 × UInt8 × UInt8 × UInt8) : Bytes := [k.1, k.2.1, k.2.2.1, k.2.2.2]

/-- **C30 (writer).** What `create_frame` produces is exactly the RFC 6455 encoding, for every payload below 2^64 bytes,
opcode, FIN flag and masking key. -/
theorem C30_create (payload : Bytes) (opcode : UInt8) (fin : Bool) (key : Option (UInt8 × UInt8 × UInt8 × UInt8))
    (hp : payload.length < 2 ^ 64) :
    createFrame payload opcode fin (key.map keyBytes) = (ownFrame payload opcode fin key).encode ∧
    (ownFrame payload opcode fin key).Fits := by
  have h126 : ∀ l : Fin 126, UInt8.ofNat l.val ||| 128 = UInt8.ofNat (128 + l.val) := by decide +kernel
  have hx : ∀ k, xorMask [k.1, k.2.1, k.2.2.1, k.2.2.2] payload = maskWith k payload := fun k => xorMask_eq k payload
  unfold createFrame ownFrame Frame.encode Frame.prefix Frame.Fits
  by_cases h1 : payload.length < 126
  · cases key with
    | none => simp [h1]
    | some k =>
      have := h126 ⟨_, h1⟩
      simp only at this
      simp [h1, hx, this, keyBytes]
  · by_cases h2 : payload.length < 65536
    · cases key with
      | none => simp [h1, h2, be_eq]
      | some k => simp [h1, h2, be_eq, hx, keyBytes]; decide
    · cases key with
      | none => simp [h1, h2, be_eq]; exact hp
      | some k => simp [h1, h2, be_eq, hx, keyBytes]; exact ⟨by decide, hp⟩

/-- **C30 (reader).** Whatever the segmentation and whatever has been read before: if the bytes not yet read start with
a complete frame (any FIN/RSV bits, any sufficient length form, masked or not, within the size limit if the 64-bit form
is used), `recv()` consumes exactly that frame; a binary frame yields its payload. -/
theorem C30_recv_binary {max : Nat} {r : Reader} (hi : Inv r) {f : Frame} (hf : f.Fits)
    (hm : f.form = .long → f.payload.length ≤ max) {rest : Bytes} (hr : r.remaining = f.encode ++ rest) (hop : f.opcode = 2) :
    ∃ r', recv max r = (.binary f.payload, [], r') ∧ r'.remaining = rest ∧ Inv r' ∧ r'.gen.out = r.gen.out := by
  obtain ⟨res, sent, r', h1, h2, h3, h4⟩ := recv_A (max := max) hi
  have hop' : f.b0 &&& 0x0f = 2 := UInt8.toNat_inj.1 (by rw [opcode_eq]; exact hop)
  rw [hr, recvA_frame f hf hm] at h4
  rcases h4 with h4 | ⟨h4, -⟩
  · simp only [hop', dispatch, Prod.mk.injEq, Option.some.injEq] at h4
    simp at h4
    obtain ⟨rfl, rfl, h5⟩ := h4
    exact ⟨r', h1, h5.symm, h2, h3⟩
  · simp at h4

/-- A text frame yields the string whose UTF-8 encoding is the payload (and an error if there is none). -/
theorem C30_recv_text {max : Nat} {r : Reader} (hi : Inv r) {f : Frame} (hf : f.Fits)
    (hm : f.form = .long → f.payload.length ≤ max) {rest : Bytes} (hr : r.remaining = f.encode ++ rest) (hop : f.opcode = 1) :
    ∃ res r', recv max r = (res, [], r') ∧ r'.remaining = rest ∧ Inv r' ∧ r'.gen.out = r.gen.out ∧
      (∀ s : String, f.payload = encodeUtf8 s → res = .text s) ∧
      ((∀ s : String, f.payload ≠ encodeUtf8 s) → res = .badText) := by
  obtain ⟨res, sent, r', h1, h2, h3, h4⟩ := recv_A (max := max) hi
  have hop' : f.b0 &&& 0x0f = 1 := UInt8.toNat_inj.1 (by rw [opcode_eq]; exact hop)
  rw [hr, recvA_frame f hf hm] at h4
  rcases h4 with h4 | ⟨h4, -⟩
  · simp only [hop', dispatch, if_true, Prod.mk.injEq, Option.some.injEq] at h4
    obtain ⟨h5, h6, h7⟩ := h4
    have hsent : sent = [] := by rw [← h6]; split <;> rfl
    subst hsent
    refine ⟨res, r', h1, h7.symm, h2, h3, ?_, ?_⟩
    · intro s hs
      have hd : decodeUtf8 (encodeUtf8 s) = some s := by
        unfold decodeUtf8 encodeUtf8 String.fromUTF8?
        simp only [Array.toArray_toList]
        have hv : (⟨s.toUTF8.data⟩ : ByteArray).IsValidUTF8 := s.isValidUTF8
        rw [dif_pos hv]
        rfl
      rw [hs, hd] at h5
      exact h5.symm
    · intro hs
      cases hd : decodeUtf8 f.payload with
      | none => rw [hd] at h5; exact h5.symm
      | some s =>
        exfalso
        apply hs s
        unfold decodeUtf8 String.fromUTF8? at hd
        split at hd
        · simp at hd
          rw [← hd]
          simp [encodeUtf8, String.fromUTF8, String.toUTF8]
        · cases hd
  · simp at h4

/-- **C30 (round trip).** `recv()` on the bytes of `create_frame(payload)` in any segmentation, masked with any key or
unmasked, returns the payload and leaves exactly the bytes after the frame.  (Payloads of 65536 bytes and more must respect
`ws_max_payload_size`.) -/
theorem C30_roundtrip {max : Nat} {r : Reader} (hi : Inv r) (payload : Bytes) (fin : Bool)
    (key : Option (UInt8 × UInt8 × UInt8 × UInt8)) (hp : payload.length < 2 ^ 64)
    (hm : 65536 ≤ payload.length → payload.length ≤ max) (rest : Bytes) :
    (r.remaining = createFrame payload 2 fin (key.map keyBytes) ++ rest →
      ∃ r', recv max r = (.binary payload, [], r') ∧ r'.remaining = rest) ∧
    (∀ s, payload = encodeUtf8 s → r.remaining = createFrame payload 1 fin (key.map keyBytes) ++ rest →
      ∃ r', recv max r = (.text s, [], r') ∧ r'.remaining = rest) := by
  have hlong : ∀ op, (ownFrame payload op fin key).form = .long → (ownFrame payload op fin key).payload.length ≤ max := by
    intro op h
    simp only [ownFrame] at h ⊢
    split at h
    · cases h
    · split at h
      · cases h
      · exact hm (by omega)
  constructor
  · intro hr
    obtain ⟨h1, h2⟩ := C30_create payload 2 fin key hp
    rw [h1] at hr
    obtain ⟨r', h3, h4, -⟩ := C30_recv_binary hi h2 (hlong 2) hr (by cases fin <;> simp [ownFrame, Frame.opcode])
    exact ⟨r', h3, h4⟩
  · intro s hs hr
    obtain ⟨h1, h2⟩ := C30_create payload 1 fin key hp
    rw [h1] at hr
    obtain ⟨res, r', h3, h4, -, -, h5, -⟩ := C30_recv_text hi h2 (hlong 1) hr (by cases fin <;> simp [ownFrame, Frame.opcode])
    exact ⟨r', by rw [h3, h5 s hs], h4⟩

/-- A new connection's reader, with the bytes still to come cut in any way, satisfies the invariant. -/
theorem inv_fresh (pieces : List Bytes) (o : Out) : Inv ⟨⟨pieces, o⟩, [], false⟩ := by intro h; cases h

example : recv 100 ⟨⟨[[0x82], [0x85, 1, 2], [3, 4, 0x69, 0x67], [0x6f, 0x68, 0x6e, 0x99]], .blocked⟩, [], false⟩ =
    (.binary b!"hello", [], ⟨⟨[], .blocked⟩, [0x99], false⟩) := by decide +kernel

/-! ## C31 -/

/-- **C31 (partial).** A frame using the 64-bit length form whose payload exceeds the limit is refused with 1009 as soon
as its length has been read; nothing after the length field is consumed.  Missing: frames up to 65535 bytes, for which the
limit is not enforced at all (`C31_refuted`). -/
theorem C31_refused_partial {max : Nat} {r : Reader} (hi : Inv r) {f : Frame} (hf : f.Fits) (hl : f.form = .long)
    (hm : max < f.payload.length) {rest : Bytes} (hr : r.remaining = f.prefix ++ rest) :
    ∃ r', recv max r = (.serverClosed 1009, [], r') ∧ r'.remaining = rest := by
  obtain ⟨res, sent, r', h1, h2, h3, h4⟩ := recv_A (max := max) hi
  rw [hr, recvA_refused f hf hl hm] at h4
  rcases h4 with h4 | ⟨h4, -⟩
  · simp only [Prod.mk.injEq, Option.some.injEq] at h4
    obtain ⟨rfl, rfl, h5⟩ := h4
    exact ⟨r', h1, h5.symm⟩
  · simp at h4

/-- With a configured limit of at least 65535 the claim holds for every frame that needs the 64-bit form, i.e. for every
payload above the limit: a payload longer than `max ≥ 65535` can only be announced in the 64-bit form. -/
theorem C31_refused_large {max : Nat} (h : 65535 ≤ max) {r : Reader} (hi : Inv r) {f : Frame} (hf : f.Fits)
    (hm : max < f.payload.length) {rest : Bytes} (hr : r.remaining = f.prefix ++ rest) :
    ∃ r', recv max r = (.serverClosed 1009, [], r') ∧ r'.remaining = rest := by
  have hl : f.form = .long := by
    unfold Frame.Fits at hf
    cases hfo : f.form <;> rw [hfo] at hf <;> simp only at hf
    · omega
    · omega
  exact C31_refused_partial hi hf hl hm hr

/-- C31 is false for limits below 65535: with a limit of 10 bytes a frame of 200 bytes (any payload) is delivered. -/
theorem C31_refuted (payload : Bytes) (h : payload.length = 200) (pieces : List Bytes) (o : Out)
    (hp : pieces.flatten = (Frame.mk 0x82 .medium none payload).encode) :
    ∃ r', recv 10 ⟨⟨pieces, o⟩, [], false⟩ = (.binary payload, [], r') := by
  obtain ⟨r', h1, -⟩ := C30_recv_binary (max := 10) (inv_fresh pieces o) (f := ⟨0x82, .medium, none, payload⟩)
    (by simp [Frame.Fits, h]) (by simp) (rest := []) (by simpa [Reader.remaining] using hp) (by simp [Frame.opcode])
  exact ⟨r', h1⟩

example : (Frame.mk 0x82 .long none (List.replicate 70000 7)).Fits := by
  simp only [Frame.Fits, List.length_replicate]; omega

/-! ## C32 -/

namespace Proofs.WebSocket

theorem recv_frame {max : Nat} {r : Reader} (hi : Inv r) {f : Frame} (hf : f.Fits)
    (hm : f.form = .long → f.payload.length ≤ max) {rest : Bytes} (hr : r.remaining = f.encode ++ rest) :
    ∃ r', recv max r = ((dispatch (f.b0 &&& 0x0f) f.payload.length f.payload).1,
      (dispatch (f.b0 &&& 0x0f) f.payload.length f.payload).2, r') ∧ r'.remaining = rest ∧ Inv r' ∧ r'.gen.out = r.gen.out := by
  obtain ⟨res, sent, r', h1, h2, h3, h4⟩ := recv_A (max := max) hi
  rw [hr, recvA_frame f hf hm] at h4
  rcases h4 with h4 | ⟨h4, -⟩
  · simp only [Prod.mk.injEq, Option.some.injEq] at h4
    obtain ⟨h5, h6, h7⟩ := h4
    exact ⟨r', by rw [h1, h5, h6], h7.symm, h2, h3⟩
  · simp at h4

theorem readA_length {n : Nat} {R b R' : Bytes} {o : Out} (h : readA n R o = .ok (b, R')) : R.length = b.length + R'.length := by
  unfold readA at h
  split at h
  · simp at h; obtain ⟨rfl, rfl⟩ := h; simp; omega
  · split at h
    · simp at h; obtain ⟨rfl, rfl⟩ := h; simp
    · cases h

/-- Every `recv()` that goes on has consumed two bytes. -/
theorem recv_progress {max : Nat} {r r' : Reader} {res : Res} {sent : List Bytes} (hi : Inv r)
    (h : recv max r = (res, sent, r')) (he : res.isEmpty = true) : Inv r' ∧ r'.remaining.length + 2 ≤ r.remaining.length := by
  obtain ⟨res1, sent1, r1, h1, h2, h3, h4⟩ := recv_A (max := max) hi
  rw [h] at h1
  simp only [Prod.mk.injEq] at h1
  obtain ⟨rfl, rfl, rfl⟩ := h1
  refine ⟨h2, ?_⟩
  rcases h4 with h4 | ⟨-, h4, -⟩
  · unfold recvA at h4
    split at h4
    · simp at h4
    · rename_i b1 b2 R1 hq
      have l1 := readA_length hq
      have l2 : ∀ {x R2}, readLengthA max b2 R1 r.gen.out = .ok (x, R2) → R2.length ≤ R1.length := by
        intro x R2 hx
        unfold readLengthA at hx
        simp only at hx
        split at hx
        · split at hx
          · cases hx
          · rename_i h5; have := readA_length h5; simp at hx; rw [← hx.2]; omega
        · split at hx
          · split at hx
            · cases hx
            · rename_i h5; have := readA_length h5
              split at hx <;> (simp at hx; rw [← hx.2]; omega)
          · simp at hx; rw [← hx.2]; omega
      have l3 : ∀ {m n R2 d R3}, readPayloadA m n R2 r.gen.out = .ok (d, R3) → R3.length ≤ R2.length := by
        intro m n R2 d R3 hx
        unfold readPayloadA at hx
        split at hx
        · split at hx
          · cases hx
          · rename_i h5; have := readA_length h5
            split at hx
            · cases hx
            · rename_i h6; have := readA_length h6; simp at hx; rw [← hx.2]; omega
        · have := readA_length hx; omega
      split at h4
      · simp at h4
      · rename_i hl; simp at h4
        rw [← h4.1] at he; cases he
      · rename_i hl
        split at h4
        · simp at h4
        · rename_i hp
          simp at h4
          have := l2 hl
          have := l3 hp
          rw [← h4.2.2]
          simp at l1
          omega
    · simp at h4
      rw [← h4.1] at he; cases he
  · rw [h4] at he; cases he

theorem receiveLoop_fuel {max : Nat} : ∀ (k k' : Nat) (r : Reader), Inv r → r.remaining.length < k → r.remaining.length < k' →
    receiveLoop max k r = receiveLoop max k' r := by
  intro k
  induction k with
  | zero => intro k' r _ h; omega
  | succ k ih =>
    intro k' r hi h h'
    cases k' with
    | zero => omega
    | succ k' =>
      rw [receiveLoop, receiveLoop]
      cases hr : recv max r with
      | mk res q =>
        obtain ⟨sent, r'⟩ := q
        simp only
        by_cases he : res.isEmpty = true
        · obtain ⟨i, hp⟩ := recv_progress hi hr he
          rw [if_pos he, if_pos he, ih k' r' i (by omega) (by omega)]
        · rw [if_neg he, if_neg he]

end Proofs.WebSocket

/-- **C32 (ping).** A ping of fewer than 126 bytes is answered with one unfragmented, unmasked pong frame carrying the same
payload; it is not delivered: `receive()` goes on with the bytes after it, exactly as if it had started there. -/
theorem C32_ping {max : Nat} {r : Reader} (hi : Inv r) {f : Frame} (hf : f.Fits) (hm : f.form = .long → f.payload.length ≤ max)
    {rest : Bytes} (hr : r.remaining = f.encode ++ rest) (hop : f.opcode = 9) (hl : f.payload.length < 126) :
    ∃ r', Inv r' ∧ r'.remaining = rest ∧
      receive max r = ((receive max r').1, (Frame.mk 0x8A .short none f.payload).encode :: (receive max r').2.1, (receive max r').2.2) := by
  have hop' : f.b0 &&& 0x0f = 9 := UInt8.toNat_inj.1 (by rw [opcode_eq]; exact hop)
  obtain ⟨r', h1, h2, h3, h4⟩ := recv_frame hi hf hm hr
  refine ⟨r', h3, h2, ?_⟩
  rw [hop'] at h1
  have hd : dispatch 9 f.payload.length f.payload = (.ping f.payload, [(Frame.mk 0x8A .short none f.payload).encode]) := by
    simp [dispatch, hl, createFrame, Frame.encode, Frame.prefix]; decide
  rw [hd] at h1
  simp only at h1
  have hlen : r.remaining.length = f.encode.length + r'.remaining.length := by rw [hr, h2]; simp
  have henc : 2 ≤ f.encode.length := by
    unfold Frame.encode Frame.prefix
    cases f.form <;> simp <;> omega
  unfold receive
  rw [receiveLoop, h1]
  simp only [Res.isEmpty, if_true]
  have hrl : r.remaining = r.buf ++ r.gen.pieces.flatten := rfl
  have hrl' : r'.remaining = r'.buf ++ r'.gen.pieces.flatten := rfl
  rw [hrl, List.length_append] at hlen
  rw [receiveLoop_fuel (r.buf.length + r.gen.pieces.flatten.length) (r'.buf.length + r'.gen.pieces.flatten.length + 1) r' h3 (by omega)
    (by rw [hrl', List.length_append]; omega)]
  rfl

/-- **C32 (pong).** A pong is skipped silently. -/
theorem C32_pong {max : Nat} {r : Reader} (hi : Inv r) {f : Frame} (hf : f.Fits) (hm : f.form = .long → f.payload.length ≤ max)
    {rest : Bytes} (hr : r.remaining = f.encode ++ rest) (hop : f.opcode = 10) (hl : f.payload.length < 126) :
    ∃ r', Inv r' ∧ r'.remaining = rest ∧ receive max r = receive max r' := by
  have hop' : f.b0 &&& 0x0f = 10 := UInt8.toNat_inj.1 (by rw [opcode_eq]; exact hop)
  obtain ⟨r', h1, h2, h3, h4⟩ := recv_frame hi hf hm hr
  refine ⟨r', h3, h2, ?_⟩
  rw [hop'] at h1
  have hd : dispatch 10 f.payload.length f.payload = (.pong, []) := by simp [dispatch, hl]
  rw [hd] at h1
  simp only at h1
  have hlen : r.remaining.length = f.encode.length + r'.remaining.length := by rw [hr, h2]; simp
  have henc : 2 ≤ f.encode.length := by
    unfold Frame.encode Frame.prefix
    cases f.form <;> simp <;> omega
  unfold receive
  rw [receiveLoop, h1]
  simp only [Res.isEmpty, if_true]
  have hrl : r.remaining = r.buf ++ r.gen.pieces.flatten := rfl
  have hrl' : r'.remaining = r'.buf ++ r'.gen.pieces.flatten := rfl
  rw [hrl, List.length_append] at hlen
  rw [receiveLoop_fuel (r.buf.length + r.gen.pieces.flatten.length) (r'.buf.length + r'.gen.pieces.flatten.length + 1) r' h3 (by omega)
    (by rw [hrl', List.length_append]; omega)]
  rfl

/-- **C32 (close).** A close frame raises WebSocketClientClosed with the peer's code, or 1005 if it carries none. -/
theorem C32_close {max : Nat} {r : Reader} (hi : Inv r) {f : Frame} (hf : f.Fits) (hm : f.form = .long → f.payload.length ≤ max)
    {rest : Bytes} (hr : r.remaining = f.encode ++ rest) (hop : f.opcode = 8) :
    (f.payload = [] → ∃ r', recv max r = (.clientClosed 1005, [], r')) ∧
    (∀ code reason, code < 65536 → f.payload = be 2 code ++ reason → ∃ r', recv max r = (.clientClosed code, [], r')) := by
  have hop' : f.b0 &&& 0x0f = 8 := UInt8.toNat_inj.1 (by rw [opcode_eq]; exact hop)
  obtain ⟨r', h1, h2, h3, h4⟩ := recv_frame hi hf hm hr
  rw [hop'] at h1
  constructor
  · intro he
    refine ⟨r', ?_⟩
    rw [h1, he]; rfl
  · intro code reason hc he
    refine ⟨r', ?_⟩
    have hne : f.payload ≠ [] := by rw [he]; intro e; have := congrArg List.length e; simp [be_length] at this
    have ht : f.payload.take 2 = be 2 code := by rw [he]; exact List.take_left' (be_length 2 _)
    rw [h1]
    have : fromBE (be 2 code) = code := fromBE_be (k := 2) (by omega)
    simp [dispatch, hne, ht, this]

/-- **C32 (anything else).** Any other opcode (including continuation frames), and pings or pongs of 126 bytes and more,
close the connection with 1008 after the frame was read. -/
theorem C32_other {max : Nat} {r : Reader} (hi : Inv r) {f : Frame} (hf : f.Fits) (hm : f.form = .long → f.payload.length ≤ max)
    {rest : Bytes} (hr : r.remaining = f.encode ++ rest)
    (hop : f.opcode ∉ [1, 2, 8, 9, 10] ∨ (f.opcode ∈ [9, 10] ∧ 126 ≤ f.payload.length)) :
    ∃ r', recv max r = (.serverClosed 1008, [], r') ∧ r'.remaining = rest := by
  obtain ⟨r', h1, h2, h3, h4⟩ := recv_frame hi hf hm hr
  refine ⟨r', ?_, h2⟩
  rw [h1]
  have hn : ∀ n : UInt8, f.b0 &&& 0x0f = n → f.opcode = n.toNat := by
    intro n h; unfold Frame.opcode; rw [← opcode_eq, h]
  have hne : ∀ n : UInt8, f.opcode ≠ n.toNat → f.b0 &&& 0x0f ≠ n := fun n h e => h (hn n e)
  unfold dispatch
  rcases hop with hop | ⟨hop, hl⟩
  · simp only [List.mem_cons, List.not_mem_nil, or_false, not_or] at hop
    rw [if_neg (hne 1 hop.1), if_neg (hne 2 hop.2.1), if_neg (fun h => hne 9 hop.2.2.2.1 h.1),
      if_neg (fun h => hne 10 hop.2.2.2.2 h.1), if_neg (hne 8 hop.2.2.1)]
  · have h1 : f.opcode ≠ 1 ∧ f.opcode ≠ 2 ∧ f.opcode ≠ 8 := by
      simp only [List.mem_cons, List.not_mem_nil, or_false] at hop; omega
    rw [if_neg (hne 1 h1.1), if_neg (hne 2 h1.2.1), if_neg (fun h => by omega),
      if_neg (fun h => by omega), if_neg (hne 8 h1.2.2)]

example : receive 100 ⟨⟨[(Frame.mk 0x89 .short none b!"hi").encode ++ (Frame.mk 0x8A .short none []).encode,
    (Frame.mk 0x82 .short none b!"x").encode], .blocked⟩, [], false⟩ =
    (.binary b!"x", [[0x8A, 2, 104, 105]], ⟨⟨[], .blocked⟩, [], false⟩) := by decide +kernel

/-! ## C33 -/

/-- **C33 (partial).** As long as the end of the connection has not been seen by the reader, a message (or control frame)
that `recv()` reports is one complete frame: the bytes consumed are exactly the encoding of a frame with that payload.
Missing: after the peer disconnected in the middle of a frame a shortened message is delivered (`C33_refuted_truncated`), and
fragments are delivered as separate messages (`C33_refuted_fragment`). -/
theorem C33_complete_partial {max : Nat} {r r' : Reader} (hi : Inv r) (hlive : r.gen.out ≠ .done) {res : Res} {sent : List Bytes}
    (h : recv max r = (res, sent, r')) (hres : res ≠ .failed r.gen.out) (hres2 : res ≠ .serverClosed 1009) :
    ∃ f : Frame, f.Fits ∧ r.remaining = f.encode ++ r'.remaining ∧
      (∀ b, res = .binary b → f.opcode = 2 ∧ b = f.payload) ∧
      (∀ s, res = .text s → f.opcode = 1 ∧ encodeUtf8 s = f.payload) ∧
      (∀ b, res = .ping b → f.opcode = 9 ∧ b = f.payload) ∧ (∀ c, res = .clientClosed c → f.opcode = 8) := by
  obtain ⟨res1, sent1, r1, h1, h2, h3, h4⟩ := recv_A (max := max) hi
  rw [h] at h1
  simp only [Prod.mk.injEq] at h1
  obtain ⟨rfl, rfl, rfl⟩ := h1
  rcases h4 with h4 | ⟨-, h4, -⟩
  · rcases recvA_live hlive h4 with ⟨f, f1, f2, f3, f4⟩ | h5
    · have hop : ∀ n : UInt8, f.b0 &&& 0x0f = n → f.opcode = n.toNat := by
        intro n h; unfold Frame.opcode; rw [← opcode_eq, h]
      refine ⟨f, f1, f3, ?_⟩
      unfold dispatch at f4
      split at f4
      · rename_i ho
        have := hop _ ho
        cases hd : decodeUtf8 f.payload with
        | none => rw [hd] at f4; simp at f4; simp [f4.1]
        | some s =>
          rw [hd] at f4; simp at f4; simp only [f4.1]
          refine ⟨by simp, ?_, by simp, by simp⟩
          intro s' hs
          simp at hs
          subst hs
          refine ⟨this, ?_⟩
          unfold decodeUtf8 String.fromUTF8? at hd
          split at hd
          · simp at hd
            rw [← hd]
            simp [encodeUtf8, String.fromUTF8, String.toUTF8]
          · cases hd
      · split at f4
        · rename_i ho
          have := hop _ ho
          simp at f4; simp only [f4.1]
          exact ⟨fun b hb => by simp at hb; exact ⟨this, hb.symm⟩, by simp, by simp, by simp⟩
        · split at f4
          · rename_i ho
            have := hop _ ho.1
            simp at f4; simp only [f4.1]
            exact ⟨by simp, by simp, fun b hb => by simp at hb; exact ⟨this, hb.symm⟩, by simp⟩
          · split at f4
            · simp at f4; simp [f4.1]
            · split at f4
              · rename_i ho
                have := hop _ ho
                simp at f4; simp only [f4.1]
                exact ⟨by simp, by simp, by simp, fun _ _ => this⟩
              · simp at f4; simp [f4.1]
    · exact absurd h5 hres2
  · exact absurd h4 hres

/-- C33 is false: a peer that announces five bytes, sends two and disconnects makes `receive()` return the two bytes. -/
theorem C33_refuted_truncated :
    receive 1000 ⟨⟨[[0x82, 5, 97, 98]], .done⟩, [], false⟩ = (.binary b!"ab", [], ⟨⟨[], .done⟩, [], true⟩) := by
  decide +kernel

/-- C33 is false: the first fragment (FIN = 0) of the message "abcd" is delivered as the message "ab"; the rest of the
message then closes the connection with 1008. -/
theorem C33_refuted_fragment :
    ∃ r', receive 1000 ⟨⟨[[0x02, 2, 97, 98], [0x80, 2, 99, 100]], .blocked⟩, [], false⟩ = (.binary b!"ab", [], r') ∧
      (receive 1000 r').1 = .serverClosed 1008 := by
  refine ⟨⟨⟨[[0x80, 2, 99, 100]], .blocked⟩, [], false⟩, by decide +kernel, by decide +kernel⟩

end Verif
