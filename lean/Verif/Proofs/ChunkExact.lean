import Verif.Proofs.BodyStream
/-! Exact behaviour of the chunked decoder on well-formed bodies. -/
namespace Verif.Proofs.BodyStream
open Verif.Py Verif.Model.Upload Verif.Model.BodyStream Verif.Spec.Body

/-- The malformed-remainder lemma: if the next size line is malformed, the stream ends with BadRequest. -/
theorem loop_bad {bs : Nat} {ended : Bool} {R : Bytes} {i : Nat} (hi : find CRLF R = some i)
    (hc : chunkSize (R.take i) = none) : ∀ (fuel : Nat) (s : ChunkSt) (pieces : List Bytes), s.unread = 0 →
    (s.paused = false → find CRLF s.buf = none) → s.buf ++ pieces.flatten = R →
    (chunkLoop bs ended fuel s pieces).2 = .fuel ∨ chunkLoop bs ended fuel s pieces = ([], .badRequest) := by
  intro fuel
  induction fuel with
  | zero => intro s p _ _ _; left; rfl
  | succ fuel ih =>
    intro s pieces hu hn hR
    rw [chunkLoop]
    cases hf : fetch ended s pieces with
    | error o =>
      obtain ⟨hp, rfl, -⟩ := fetch_error hf
      simp at hR
      rw [← hR, hn hp] at hi; cases hi
    | ok q =>
      obtain ⟨s1, rest⟩ := q
      obtain ⟨hu1, hp1, hR1, -⟩ := fetch_ok hf
      simp only
      rcases hb : chunkBody bs s1 with ⟨y, c⟩
      unfold chunkBody at hb
      rw [if_neg (by omega)] at hb
      cases hfc : find CRLF s1.buf with
      | none =>
        rw [hfc] at hb
        simp only at hb
        split at hb
        · simp only [Prod.mk.injEq] at hb
          obtain ⟨rfl, rfl⟩ := hb
          right; rfl
        · simp only [Prod.mk.injEq] at hb
          obtain ⟨rfl, rfl⟩ := hb
          simp only [List.nil_append]
          exact ih { s1 with paused := false } rest (by simpa [hu1] using hu) (fun _ => hfc) (by rw [← hR, ← hR1])
      | some k =>
        have hk : find CRLF R = some k := by rw [← hR, ← hR1]; exact find_append hfc
        rw [hi] at hk
        simp only [Option.some.injEq] at hk
        subst hk
        have hl := find_some_length hfc
        simp at hl
        have ht : s1.buf.take i = R.take i := by
          rw [← hR, ← hR1, List.take_append_of_le_length (by omega)]
        rw [hfc] at hb
        simp only [ht, hc, Prod.mk.injEq] at hb
        obtain ⟨rfl, rfl⟩ := hb
        right; rfl

/-- Positions (number of bytes to come) inside the CRLF that ends a chunk. -/
def badL (last : Bytes) : List Chunk → List Nat
  | [] => []
  | _ :: cs => ((encode cs last).length + 1) :: ((encode cs last).length + 2) :: badL last cs

/-- Some piece boundary is at one of the positions `Ls`. -/
def U (pieces : List Bytes) (Ls : List Nat) : Prop := ∃ a b, pieces = a ++ b ∧ b.flatten.length ∈ Ls

theorem encode_cons_length (c : Chunk) (cs : List Chunk) (last : Bytes) : (encode (c :: cs) last).length =
    c.size.length + c.ext.length + 2 + c.data.length + 2 + (encode cs last).length := by
  simp [encode]; omega

theorem badL_le {last : Bytes} : ∀ {cs : List Chunk} {L : Nat}, L ∈ badL last cs → L ≤ (encode cs last).length
  | [], L, h => by simp [badL] at h
  | c :: cs, L, h => by
    rw [encode_cons_length]
    simp [badL] at h
    rcases h with rfl | rfl | h
    · omega
    · omega
    · have := badL_le h; omega

theorem badL_le' {last : Bytes} {c : Chunk} {cs : List Chunk} {L : Nat} (h : L ∈ badL last (c :: cs)) :
    L ≤ (encode cs last).length + 2 := by
  simp [badL] at h
  rcases h with rfl | rfl | h
  · omega
  · omega
  · have := badL_le h; omega

theorem U_nil (pieces : List Bytes) : ¬ U pieces [] := by rintro ⟨a, b, _, h⟩; cases h

theorem U_drop {d : Bytes} {rest : List Bytes} {Ls : List Nat} (h : ∀ L ∈ Ls, L < (d :: rest).flatten.length) :
    U (d :: rest) Ls ↔ U rest Ls := by
  constructor
  · rintro ⟨a, b, e, hb⟩
    cases a with
    | nil =>
      simp only [List.nil_append] at e
      subst e
      have := h _ hb; omega
    | cons x a =>
      simp only [List.cons_append, List.cons.injEq] at e
      exact ⟨a, b, e.2, hb⟩
  · rintro ⟨a, b, e, hb⟩
    exact ⟨d :: a, b, by simp [e], hb⟩

theorem U_cut {rest : List Bytes} {L : Nat} {Ls : List Nat} (h : rest.flatten.length < L) :
    U rest (L :: Ls) ↔ U rest Ls := by
  constructor
  · rintro ⟨a, b, rfl, hb⟩
    refine ⟨a, b, rfl, ?_⟩
    rcases List.mem_cons.1 hb with e | hb
    · simp only [List.flatten_append, List.length_append] at h; omega
    · exact hb
  · rintro ⟨a, b, e, hb⟩; exact ⟨a, b, e, List.mem_cons_of_mem _ hb⟩

/-- Outcome predicate. -/
def OutOk (r : List Bytes × Out) (unsafe_ : Prop) (p : Bytes) : Prop :=
  r.2 = .fuel ∨ (¬ unsafe_ ∧ r.2 = .done ∧ r.1.flatten = p) ∨ (unsafe_ ∧ r.2 = .badRequest ∧ r.1.flatten <+: p)

theorem OutOk.cons {r : List Bytes × Out} {u u' : Prop} {p y : Bytes} (h : OutOk r u p) (he : u' ↔ u) :
    OutOk ([y] ++ r.1, r.2) u' (y ++ p) := by
  rcases h with h | ⟨h1, h2, h3⟩ | ⟨h1, h2, h3⟩
  · left; exact h
  · right; left; exact ⟨fun h => h1 (he.1 h), h2, by simp [h3]⟩
  · right; right
    refine ⟨he.2 h1, h2, ?_⟩
    simpa using h3

theorem OutOk.same {r : List Bytes × Out} {u u' : Prop} {p : Bytes} (h : OutOk r u p) (he : u' ↔ u) :
    OutOk ([] ++ r.1, r.2) u' p := by
  rcases h with h | ⟨h1, h2, h3⟩ | ⟨h1, h2, h3⟩
  · left; exact h
  · right; left; exact ⟨fun h => h1 (he.1 h), h2, h3⟩
  · right; right; exact ⟨he.2 h1, h2, h3⟩

structure LastOk (bs : Nat) (last : Bytes) : Prop where
  ex : ∃ size ext rest, last = lastChunk size ext rest ∧ SizeLine size ext 0 ∧ size.length + ext.length + 1 ≤ 4 * bs

/-- The next size line of an encoded remainder. -/
theorem encode_line {bs : Nat} {cs : List Chunk} {last : Bytes} (hcs : ∀ c ∈ cs, c.Wf ∧ c.size.length + c.ext.length + 1 ≤ 4 * bs)
    (hl : LastOk bs last) : ∃ w t n, encode cs last = w ++ CRLF ++ t ∧ (10 : UInt8) ∉ w ∧ chunkSize w = some n ∧
      w.length + 1 ≤ 4 * bs ∧
      ((cs = [] ∧ n = 0) ∨ ∃ c cs', cs = c :: cs' ∧ w = c.size ++ c.ext ∧ n = c.data.length ∧ 0 < n ∧
        t = c.data ++ CRLF ++ encode cs' last) := by
  cases cs with
  | nil =>
    obtain ⟨size, ext, rest, rfl, h1, h2⟩ := hl.ex
    exact ⟨size ++ ext, rest, 0, by simp [encode, lastChunk], sizeLine_lf h1, chunkSize_line h1, by simpa using h2,
      .inl ⟨rfl, rfl⟩⟩
  | cons c cs =>
    obtain ⟨⟨h1, h3⟩, h2⟩ := hcs c (by simp)
    exact ⟨c.size ++ c.ext, c.data ++ CRLF ++ encode cs last, c.data.length, by simp [encode], sizeLine_lf h1,
      chunkSize_line h1, by simpa using h2, .inr ⟨c, cs, rfl, rfl, rfl, List.length_pos_iff.2 h3, rfl⟩⟩

/-- After a chunk's data: remaining input `x` (in `rest`) that still begins inside the CRLF leads to BadRequest. -/
theorem after_unsafe {bs : Nat} {ended : Bool} {cs : List Chunk} {last : Bytes}
    (hcs : ∀ c ∈ cs, c.Wf ∧ c.size.length + c.ext.length + 1 ≤ 4 * bs) (hl : LastOk bs last) (fuel : Nat)
    (rest : List Bytes) (hr : rest.flatten = 13 :: 10 :: encode cs last ∨ rest.flatten = 10 :: encode cs last) :
    (chunkLoop bs ended fuel { buf := [], paused := true, unread := 0 } rest).2 = .fuel ∨
    chunkLoop bs ended fuel { buf := [], paused := true, unread := 0 } rest = ([], .badRequest) := by
  obtain ⟨w, t, n, he, hw, -⟩ := encode_line hcs hl
  rcases hr with hr | hr
  · apply loop_bad (R := rest.flatten) (i := 0)
    · rw [hr]; simp [find, List.isPrefixOf]
    · simpa using chunkSize_nil
    · rfl
    · simp
    · simp
  · apply loop_bad (R := rest.flatten) (i := w.length + 1)
    · rw [hr, he]
      have := find_crlf_append (a := w) (r := t) hw
      rw [find, this]
      simp [List.isPrefixOf]
    · rw [hr, he]
      have : (10 :: (w ++ CRLF ++ t)).take (w.length + 1) = 10 :: w := by simp
      rw [this]; exact chunkSize_lf w
    · rfl
    · simp
    · simp

theorem no_crlf_short {b w t x : Bytes} (h : b ++ x = w ++ CRLF ++ t) (hn : find CRLF b = none) :
    b.length ≤ w.length + 1 := by
  apply Classical.byContradiction
  intro hc
  have hp : w ++ CRLF <+: b := by
    have h1 : w ++ CRLF <+: b ++ x := by rw [h]; exact ⟨t, rfl⟩
    exact List.prefix_of_prefix_length_le h1 ⟨x, rfl⟩ (by simp; omega)
  obtain ⟨z, hz⟩ := hp
  exact (find_eq_none_iff'.1 hn) ⟨w, z, hz⟩


/-- Both phases of the decoder at once: (A) at a size line, (B) inside chunk data. -/
theorem loop_exact {bs : Nat} {ended : Bool} {last : Bytes} (hl : LastOk bs last) : ∀ (fuel : Nat) (cs : List Chunk)
    (_ : ∀ c ∈ cs, c.Wf ∧ c.size.length + c.ext.length + 1 ≤ 4 * bs) (s : ChunkSt) (pieces : List Bytes),
    (s.unread = 0 → (s.paused = false → find CRLF s.buf = none) → s.buf ++ pieces.flatten = encode cs last →
      OutOk (chunkLoop bs ended fuel s pieces) (U pieces (badL last cs)) (payload cs)) ∧
    (∀ d c, s.unread = d.length → 0 < d.length → s.paused = false → s.buf = [] → pieces.flatten = d ++ CRLF ++ encode cs last →
      OutOk (chunkLoop bs ended fuel s pieces) (U pieces (badL last (c :: cs))) (d ++ payload cs)) := by
  intro fuel
  induction fuel with
  | zero => intro cs _ s p; exact ⟨fun _ _ _ => .inl rfl, fun _ _ _ _ _ _ _ => .inl rfl⟩
  | succ fuel ih =>
    intro cs hcs s pieces
    constructor
    · intro hu hn hR
      obtain ⟨w, t, n, he, hw, hsz, hwl, hcase⟩ := encode_line hcs hl
      rw [chunkLoop]
      cases hf : fetch ended s pieces with
      | error o =>
        obtain ⟨hp, rfl, -⟩ := fetch_error hf
        have := no_crlf_short (b := s.buf) (x := []) (w := w) (t := t) (by rw [← he, ← hR]; simp) (hn hp)
        have h2 := congrArg List.length hR
        rw [he] at h2; simp at h2; omega
      | ok q =>
        obtain ⟨s1, rest⟩ := q
        obtain ⟨hu1, hp1, hR1, hfc⟩ := fetch_ok hf
        simp only
        -- the set of unsafe cuts is unchanged by the fetch
        have hU : U pieces (badL last cs) ↔ U rest (badL last cs) := by
          rcases hfc with ⟨_, _, rfl⟩ | ⟨hp, d, rfl, _⟩ | ⟨_, rfl, rfl, _⟩
          · exact Iff.rfl
          · apply U_drop
            intro L hL
            have hlen := no_crlf_short (b := s.buf) (w := w) (t := t) (by rw [← he]; exact hR) (hn hp)
            have h2 := congrArg List.length hR
            rcases hcase with ⟨rfl, _⟩ | ⟨c, cs', rfl, rfl, _, hpos, _⟩
            · simp [badL] at hL
            · have := badL_le' hL
              rw [List.length_append, encode_cons_length] at h2
              simp only [List.length_append] at hlen
              omega
          · exact Iff.rfl
        have hRR : s1.buf ++ rest.flatten = w ++ CRLF ++ t := by rw [hR1, hR, he]
        cases hfb : find CRLF s1.buf with
        | none =>
          have hlen := no_crlf_short hRR hfb
          have hb : chunkBody bs s1 = ([], .cont { s1 with paused := false }) := by
            unfold chunkBody
            rw [if_neg (by omega), hfb]
            simp only
            rw [if_neg (by omega)]
          rw [hb]
          exact ((ih cs hcs { s1 with paused := false } rest).1 (by simpa [hu1] using hu) (fun _ => hfb)
            (by simpa [hR1] using hR)).same hU
        | some i =>
          have hi : i = w.length := by
            have h1 := find_append (t := rest.flatten) hfb
            rw [hRR, find_crlf_append hw] at h1
            simpa using h1.symm
          subst hi
          have hil := find_some_length hfb
          simp at hil
          have htake : s1.buf.take w.length = w := by
            have : (s1.buf ++ rest.flatten).take w.length = w := by rw [hRR]; simp
            rwa [List.take_append_of_le_length (by omega)] at this
          have hdrop : s1.buf.drop (w.length + 2) ++ rest.flatten = t := by
            have : (s1.buf ++ rest.flatten).drop (w.length + 2) = t := by
              rw [hRR]; apply List.drop_left'; simp
            rwa [List.drop_append_of_le_length (by omega)] at this
          have hunf : chunkBody bs s1 = (if n < 1 then ([], .break_) else
              let data := (s1.buf.drop (w.length + 2)).take n
              let unread := n - data.length
              if unread > 0 then ([data], .cont { buf := [], paused := false, unread })
              else ([data], .cont { buf := s1.buf.drop (n + w.length + 4), paused := true, unread })) := by
            unfold chunkBody
            rw [if_neg (by omega), hfb]
            simp only [htake, hsz]
          rcases hcase with ⟨rfl, rfl⟩ | ⟨c, cs', rfl, rfl, rfl, hpos, rfl⟩
          · rw [hunf]
            simp only [Nat.lt_one_iff, if_true]
            right; left
            exact ⟨U_nil _, rfl, rfl⟩
          · rw [if_neg (by omega)] at hunf
            simp only at hunf
            by_cases hshort : (s1.buf.drop ((c.size ++ c.ext).length + 2)).length < c.data.length
            · -- the data is not complete yet
              generalize hx : s1.buf.drop ((c.size ++ c.ext).length + 2) = x at *
              rw [List.take_of_length_le (by omega), if_pos (by omega)] at hunf
              rw [hunf]
              have hpre : x <+: c.data := by
                apply List.prefix_of_prefix_length_le (l₃ := c.data ++ CRLF ++ encode cs' last)
                · exact ⟨_, hdrop⟩
                · exact ⟨CRLF ++ encode cs' last, by simp⟩
                · omega
              obtain ⟨d, hd⟩ := hpre
              rw [← hd] at hdrop ⊢
              simp only [List.append_assoc, List.append_cancel_left_eq] at hdrop
              have hdl : d.length = c.data.length - x.length := by rw [← hd]; simp
              have := (ih cs' (fun c h => hcs c (by simp [h])) { buf := [], paused := false, unread := c.data.length - x.length }
                rest).2 d c hdl.symm (by omega) rfl rfl (by simpa using hdrop)
              have h3 := this.cons (y := x) hU
              have e : payload (c :: cs') = x ++ (d ++ payload cs') := by simp [payload, ← hd]
              rw [e]
              have hlen : (x ++ d).length - x.length = c.data.length - x.length := by rw [hd]
              rw [hlen]
              exact h3
            · -- the data is complete
              have hxl : c.data.length ≤ (s1.buf.drop ((c.size ++ c.ext).length + 2)).length := by omega
              have hdata : (s1.buf.drop ((c.size ++ c.ext).length + 2)).take c.data.length = c.data := by
                have : (s1.buf.drop ((c.size ++ c.ext).length + 2) ++ rest.flatten).take c.data.length = c.data := by
                  rw [hdrop]; simp
                rwa [List.take_append_of_le_length hxl] at this
              rw [hdata, if_neg (by omega)] at hunf
              rw [hunf]
              simp only [Nat.sub_self]
              have e4 : s1.buf.drop (c.data.length + (c.size ++ c.ext).length + 4) =
                  ((s1.buf.drop ((c.size ++ c.ext).length + 2)).drop c.data.length).drop 2 := by
                simp only [List.drop_drop]; congr 1; omega
              have hafter : (s1.buf.drop ((c.size ++ c.ext).length + 2)).drop c.data.length ++ rest.flatten =
                  CRLF ++ encode cs' last := by
                have : (s1.buf.drop ((c.size ++ c.ext).length + 2) ++ rest.flatten).drop c.data.length =
                    CRLF ++ encode cs' last := by rw [hdrop, List.append_assoc]; simp
                rwa [List.drop_append_of_le_length hxl] at this
              rw [e4]
              have e : payload (c :: cs') = c.data ++ payload cs' := by simp [payload]
              rw [e]
              generalize (s1.buf.drop ((c.size ++ c.ext).length + 2)).drop c.data.length = z at hafter ⊢
              exact afterData (hcs := fun c h => hcs c (by simp [h])) hl fuel
                (fun s hs h1 h2 => (ih cs' (fun c h => hcs c (by simp [h])) s rest).1 hs h1 h2) hafter hU
    · intro d c hu hd hp hb hR
      rw [chunkLoop]
      cases hf : fetch ended s pieces with
      | error o =>
        obtain ⟨_, rfl, -⟩ := fetch_error hf
        have := congrArg List.length hR
        simp at this
      | ok q =>
        obtain ⟨s1, rest⟩ := q
        obtain ⟨hu1, hp1, hR1, hfc⟩ := fetch_ok hf
        simp only
        have hU : U pieces (badL last (c :: cs)) ↔ U rest (badL last (c :: cs)) := by
          rcases hfc with ⟨_, _, rfl⟩ | ⟨hp, d', rfl, _⟩ | ⟨_, rfl, rfl, _⟩
          · exact Iff.rfl
          · apply U_drop
            intro L hL
            have := badL_le' hL
            rw [hR]; simp only [List.length_append]; simp; omega
          · exact Iff.rfl
        rw [hb] at hR1
        simp only [List.nil_append, hR] at hR1
        have hunf : chunkBody bs s1 = (if d.length - (s1.buf.take d.length).length > 0
            then ([s1.buf.take d.length], .cont { s1 with buf := s1.buf.drop d.length, unread := d.length - (s1.buf.take d.length).length })
            else ([s1.buf.take d.length], .cont { buf := (s1.buf.drop d.length).drop 2, paused := true, unread := d.length - (s1.buf.take d.length).length })) := by
          unfold chunkBody
          rw [if_pos (by omega)]
          simp only [hu1, hu]
        by_cases hshort : s1.buf.length < d.length
        · rw [List.take_of_length_le (by omega), if_pos (by omega), List.drop_eq_nil_of_le (by omega)] at hunf
          rw [hunf]
          have hpre : s1.buf <+: d := by
            apply List.prefix_of_prefix_length_le (l₃ := d ++ CRLF ++ encode cs last)
            · exact ⟨_, hR1⟩
            · exact ⟨CRLF ++ encode cs last, by simp⟩
            · omega
          obtain ⟨d', hd'⟩ := hpre
          have hrest : rest.flatten = d' ++ CRLF ++ encode cs last := by
            rw [← hd'] at hR1
            simpa using hR1
          have hdl : d'.length = d.length - s1.buf.length := by rw [← hd']; simp
          have := (ih cs hcs { s1 with buf := [], unread := d.length - s1.buf.length } rest).2 d' c hdl.symm (by omega)
            (by simpa [hp1] using hp) rfl hrest
          have h3 := this.cons (y := s1.buf) hU
          rw [← List.append_assoc, hd'] at h3
          exact h3
        · have hdata : s1.buf.take d.length = d := by
            have : (s1.buf ++ rest.flatten).take d.length = d := by rw [hR1]; simp
            rwa [List.take_append_of_le_length (by omega)] at this
          have hafter : s1.buf.drop d.length ++ rest.flatten = CRLF ++ encode cs last := by
            have : (s1.buf ++ rest.flatten).drop d.length = CRLF ++ encode cs last := by
              rw [hR1, List.append_assoc]; simp
            rwa [List.drop_append_of_le_length (by omega)] at this
          rw [hdata, if_neg (by omega)] at hunf
          rw [hunf]
          simp only [Nat.sub_self]
          generalize s1.buf.drop d.length = z at hafter ⊢
          exact afterData (hcs := hcs) hl fuel (fun s hs h1 h2 => (ih cs hcs s rest).1 hs h1 h2) hafter hU
where
  afterData {bs : Nat} {ended : Bool} {last : Bytes} {cs : List Chunk} {c : Chunk} {y z : Bytes} {pieces rest : List Bytes}
      (hcs : ∀ c ∈ cs, c.Wf ∧ c.size.length + c.ext.length + 1 ≤ 4 * bs) (hl : LastOk bs last) (fuel : Nat)
      (ih : ∀ s : ChunkSt, s.unread = 0 → (s.paused = false → find CRLF s.buf = none) →
        s.buf ++ rest.flatten = encode cs last → OutOk (chunkLoop bs ended fuel s rest) (U rest (badL last cs)) (payload cs))
      (hafter : z ++ rest.flatten = CRLF ++ encode cs last)
      (hU : U pieces (badL last (c :: cs)) ↔ U rest (badL last (c :: cs))) :
      OutOk ([y] ++ (chunkLoop bs ended fuel { buf := z.drop 2, paused := true, unread := 0 } rest).1,
        (chunkLoop bs ended fuel { buf := z.drop 2, paused := true, unread := 0 } rest).2)
        (U pieces (badL last (c :: cs))) (y ++ payload cs) := by
    by_cases hz : 2 ≤ z.length
    · have hd : z.drop 2 ++ rest.flatten = encode cs last := by
        have : (z ++ rest.flatten).drop 2 = encode cs last := by rw [hafter]; simp
        rwa [List.drop_append_of_le_length hz] at this
      have h1 := ih { buf := z.drop 2, paused := true, unread := 0 } rfl (by simp) hd
      apply h1.cons
      rw [hU, badL]
      have hlen := congrArg List.length hd
      simp at hlen
      rw [U_cut (by simp; omega), U_cut (by simp; omega)]
    · have hr : rest.flatten = 13 :: 10 :: encode cs last ∨ rest.flatten = 10 :: encode cs last := by
        cases z with
        | nil => left; simpa using hafter
        | cons a z =>
          cases z with
          | nil => right; simp at hafter; exact hafter.2
          | cons b z => exact absurd (by simp) hz
      have hz0 : z.drop 2 = [] := List.drop_eq_nil_of_le (by omega)
      rw [hz0]
      have hu : U pieces (badL last (c :: cs)) := by
        rw [hU]
        refine ⟨[], rest, rfl, ?_⟩
        rcases hr with h | h <;> rw [h] <;> simp [badL]
      rcases after_unsafe (ended := ended) hcs hl fuel rest hr with h | h
      · left; exact h
      · right; right
        rw [h]
        exact ⟨hu, rfl, by simp⟩

theorem suffix_badL {last : Bytes} : ∀ {cs : List Chunk} {L : Nat}, L ∈ badL last cs ↔
    ∃ pre c post, cs = pre ++ c :: post ∧ (L = (encode post last).length + 2 ∨ L = (encode post last).length + 1)
  | [], L => by simp [badL]
  | c :: cs, L => by
    rw [badL]
    simp only [List.mem_cons, suffix_badL]
    constructor
    · rintro (h | h | ⟨pre, c', post, rfl, h⟩)
      · exact ⟨[], c, cs, rfl, .inr h⟩
      · exact ⟨[], c, cs, rfl, .inl h⟩
      · exact ⟨c :: pre, c', post, rfl, h⟩
    · rintro ⟨pre, c', post, e, h⟩
      cases pre with
      | nil => simp at e; obtain ⟨rfl, rfl⟩ := e; rcases h with h | h <;> simp [h]
      | cons x pre => simp at e; obtain ⟨rfl, rfl⟩ := e; right; right; exact ⟨pre, c', post, rfl, h⟩

theorem encode_append (pre : List Chunk) (c : Chunk) (post : List Chunk) (last : Bytes) :
    ∃ x, encode (pre ++ c :: post) last = x ++ 13 :: 10 :: encode post last := by
  induction pre with
  | nil => exact ⟨c.size ++ c.ext ++ CRLF ++ c.data, by simp [encode]⟩
  | cons a pre ih => obtain ⟨x, h⟩ := ih; exact ⟨a.size ++ a.ext ++ CRLF ++ a.data ++ CRLF ++ x, by simp [encode, h]⟩

theorem safeCuts_iff {cs : List Chunk} {last : Bytes} {segs : List Bytes} (h : segs.flatten = encode cs last) :
    ¬ SafeCuts cs last segs ↔ U segs (badL last cs) := by
  have suffix_eq : ∀ (b y z w : Bytes), z ++ b = w ++ y → b.length = y.length → b = y := by
    intro b y z w h1 h2
    have := List.append_inj_right' h1 h2
    exact this
  constructor
  · intro hn
    apply Classical.byContradiction
    intro hu
    apply hn
    intro a b e pre c post hc
    refine ⟨fun hb => hu ⟨a, b, e, suffix_badL.2 ⟨pre, c, post, hc, .inl ?_⟩⟩, fun hb => hu ⟨a, b, e, suffix_badL.2 ⟨pre, c, post, hc, .inr ?_⟩⟩⟩
    · rw [hb]; simp
    · rw [hb]; simp
  · rintro ⟨a, b, e, hL⟩ hs
    obtain ⟨pre, c, post, hc, hlen⟩ := suffix_badL.1 hL
    obtain ⟨x, hx⟩ := encode_append pre c post last
    have htot : a.flatten ++ b.flatten = x ++ 13 :: 10 :: encode post last := by
      rw [← hx, ← hc, ← h, e]; simp
    obtain ⟨h1, h2⟩ := hs a b e pre c post hc
    rcases hlen with hlen | hlen
    · exact h1 (suffix_eq _ _ _ _ htot (by simpa using hlen))
    · exact h2 (suffix_eq _ _ a.flatten (x ++ [13]) (by simpa using htot) (by simpa using hlen))

end Verif.Proofs.BodyStream
