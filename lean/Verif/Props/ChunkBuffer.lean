import Verif.Proofs.ChunkExact
/-!
# C62: what the chunked parser buffers
-/
namespace Verif
open Py Model.Upload Model.BodyStream Proofs.BodyStream

/-- What the stream holds back after `n` passes of its loop, and the pieces it has not read yet; `none` once the loop
has ended. -/
def passes (bs : Nat) (ended : Bool) : Nat → ChunkSt → List Bytes → Option (ChunkSt × List Bytes)
  | 0, s, p => some (s, p)
  | n + 1, s, p => match fetch ended s p with
    | .error _ => none
    | .ok (s, rest) => match chunkBody bs s with
      | (_, .cont s') => passes bs ended n s' rest
      | _ => none

theorem chunkBody_len {bs m : Nat} {s s' : ChunkSt} {y : List Bytes} (h : chunkBody bs s = (y, .cont s')) (hs : s.buf.length ≤ 4 * bs + m) :
    s'.buf.length ≤ 4 * bs + m ∧ (s'.paused = false → s'.buf.length ≤ 4 * bs ∨ s'.buf = [] ) := by
  unfold chunkBody at h
  split at h
  · rename_i hu
    simp only at h
    split at h
    · rename_i hl
      simp only [Prod.mk.injEq, Ctl.cont.injEq] at h
      obtain ⟨_, rfl⟩ := h
      have : s.buf.drop s.unread = [] := by
        rw [List.length_take] at hl
        exact List.drop_eq_nil_of_le (by omega)
      simp [this]
    · simp only [Prod.mk.injEq, Ctl.cont.injEq] at h
      obtain ⟨_, rfl⟩ := h
      simp only [List.length_drop]
      exact ⟨by omega, fun h => by cases h⟩
  · split at h
    · split at h
      · cases h
      · rename_i hl
        simp only [Prod.mk.injEq, Ctl.cont.injEq] at h
        obtain ⟨_, rfl⟩ := h
        exact ⟨hs, fun _ => .inl (by simpa [Nat.mul_comm] using hl)⟩
    · split at h
      · cases h
      · split at h
        · cases h
        · simp only at h
          split at h
          · simp only [Prod.mk.injEq, Ctl.cont.injEq] at h
            obtain ⟨_, rfl⟩ := h
            simp
          · simp only [Prod.mk.injEq, Ctl.cont.injEq] at h
            obtain ⟨_, rfl⟩ := h
            simp only [List.length_drop]
            exact ⟨by omega, fun h => by cases h⟩

/-- **C62 (memory).** However the body is cut into pieces and whatever it contains, between two reads the chunked parser
holds back at most four times `buffer_size` and one piece. -/
theorem C62_buffer {bs m : Nat} {ended : Bool} {pieces : List Bytes} (hm : ∀ d ∈ pieces, d.length ≤ m) (n : Nat) {s : ChunkSt} {rest : List Bytes}
    (h : passes bs ended n {} pieces = some (s, rest)) : s.buf.length ≤ 4 * bs + m := by
  suffices H : ∀ n (s0 : ChunkSt) (pieces : List Bytes), (∀ d ∈ pieces, d.length ≤ m) → s0.buf.length ≤ 4 * bs + m →
      (s0.paused = false → s0.buf.length ≤ 4 * bs) → passes bs ended n s0 pieces = some (s, rest) → s.buf.length ≤ 4 * bs + m from
    H n {} pieces hm (by simp) (by simp) h
  intro n
  induction n with
  | zero =>
    intro s0 p _ h0 _ h
    simp only [passes, Option.some.injEq, Prod.mk.injEq] at h
    rw [← h.1]; exact h0
  | succ n ih =>
    intro s0 p hm h0 h1 h
    rw [passes] at h
    cases hf : fetch ended s0 p with
    | error e => rw [hf] at h; cases h
    | ok q =>
      obtain ⟨s1, r1⟩ := q
      rw [hf] at h
      simp only at h
      have hs1 : s1.buf.length ≤ 4 * bs + m ∧ ∀ d ∈ r1, d.length ≤ m := by
        rcases (fetch_ok hf).2.2.2 with ⟨_, rfl, rfl⟩ | ⟨hp, d, rfl, hb⟩ | ⟨_, _, rfl, rfl, _⟩
        · exact ⟨h0, hm⟩
        · have := hm d (by simp)
          have := h1 hp
          rw [hb, List.length_append]
          exact ⟨by omega, fun x hx => hm x (by simp [hx])⟩
        · exact ⟨h0, by simp⟩
      split at h
      · rename_i hb
        obtain ⟨l1, l2⟩ := chunkBody_len hb hs1.1
        refine ih _ r1 hs1.2 l1 (fun hp => ?_) h
        rcases l2 hp with l | l
        · exact l
        · simp [l]
      · cases h

/-- **C62 (size line).** A size line that does not end within four times `buffer_size` is refused as soon as more than that
has been read, whatever follows and whether or not anything follows. -/
theorem C62_size_line {bs : Nat} {pre : List Bytes} (hl : bs * 4 < pre.flatten.length) (hc : contains CRLF pre.flatten = false) (after : List Bytes) (ended : Bool) (fuel : Nat) :
    chunkLoop bs ended (pre.length + fuel) {} (pre ++ after) = ([], .badRequest) := by
  suffices H : ∀ (pre : List Bytes) (buf : Bytes), buf.length ≤ bs * 4 → bs * 4 < (buf ++ pre.flatten).length → contains CRLF (buf ++ pre.flatten) = false →
      chunkLoop bs ended (pre.length + fuel) { buf := buf } (pre ++ after) = ([], .badRequest) from
    H pre [] (by simp) (by simpa using hl) (by simpa using hc)
  intro pre
  induction pre with
  | nil => intro buf h1 h2 _; simp at h2; omega
  | cons d t ih =>
    intro buf h1 h2 h3
    rw [List.length_cons, show t.length + 1 + fuel = (t.length + fuel) + 1 by omega, chunkLoop]
    simp only [fetch, List.cons_append, Bool.false_eq_true, if_false]
    have hno : find CRLF (buf ++ d) = none := by
      cases hf : find CRLF (buf ++ d) with
      | none => rfl
      | some i =>
        have h4 : contains CRLF (buf ++ d) = true := by unfold contains; rw [hf]; rfl
        have h5 : contains CRLF (buf ++ (d :: t).flatten) = true :=
          contains_iff.2 ((contains_iff.1 h4).trans ⟨[], t.flatten, by simp⟩)
        rw [h5] at h3; cases h3
    by_cases hlen : (buf ++ d).length > bs * 4
    · have : chunkBody bs { buf := buf ++ d } = ([], .bad) := by
        simp only [chunkBody, hno]; rw [if_neg (by simp), if_pos hlen]
      rw [this]
    · have : chunkBody bs { buf := buf ++ d } = ([], .cont { buf := buf ++ d }) := by
        simp only [chunkBody, hno]; rw [if_neg (by simp), if_neg hlen]
      rw [this]
      simp only [List.nil_append]
      exact ih (buf ++ d) (by omega) (by simpa using h2) (by simpa using h3)

example : chunkLoop 2 false 7 {} [b!"00000", b!"00000", b!"1\r\nx"] = ([], .badRequest) := by decide +kernel
example : (passes 2 false 2 {} [b!"0000", b!"0003\r\n", b!"abc\r\n"]).isSome = true := by decide +kernel

end Verif
