import Verif.Model.BodyStream
import Verif.Spec.Body
import Verif.Py.Lemmas
import Verif.Proofs.HttpParser
/-! Helper lemmas for request bodies. -/
namespace Verif.Proofs.BodyStream
open Verif.Py Verif.Model.Upload Verif.Model.BodyStream Verif.Spec.Body

/-! ### pieces -/

theorem piecesAux_spec {bs : Nat} (hb : 0 < bs) : ∀ (fuel : Nat) (data : Bytes), data.length ≤ fuel →
    (piecesAux bs fuel data).flatten = data ∧ ∀ p ∈ piecesAux bs fuel data, p ≠ [] ∧ p.length ≤ bs := by
  intro fuel
  induction fuel with
  | zero => intro data h; have : data = [] := List.eq_nil_of_length_eq_zero (by omega); subst this; simp [piecesAux]
  | succ fuel ih =>
    intro data h
    rw [piecesAux]
    by_cases hd : data = []
    · simp [hd]
    · have hpos : 0 < data.length := List.length_pos_iff.2 hd
      obtain ⟨h1, h2⟩ := ih (data.drop bs) (by simp; omega)
      simp only [hd, if_false]
      refine ⟨by simp [h1], fun p hp => ?_⟩
      rcases List.mem_cons.1 hp with rfl | hp
      · refine ⟨?_, by simp; omega⟩
        intro e
        have : (data.take bs).length = 0 := by rw [e]; rfl
        rw [List.length_take] at this; omega
      · exact h2 p hp

theorem pieces_flatten {bs : Nat} (hb : 0 < bs) (data : Bytes) : (pieces bs data).flatten = data :=
  (piecesAux_spec hb _ data (Nat.le_refl _)).1
theorem pieces_le {bs : Nat} (hb : 0 < bs) (data : Bytes) : ∀ p ∈ pieces bs data, p ≠ [] ∧ p.length ≤ bs :=
  (piecesAux_spec hb _ data (Nat.le_refl _)).2

/-! ### recvPieces -/

theorem recvPieces_map (ps : List Bytes) (t : List Item) : recvPieces (ps.map some ++ t) =
    (ps ++ (recvPieces t).1, (recvPieces t).2) := by
  induction ps with
  | nil => rfl
  | cons p ps ih => simp only [List.map_cons, List.cons_append, recvPieces, ih]

/-! ### Content-Length branch -/

theorem sliceTo_neg {d : Bytes} {k : Nat} (hk : 0 < k) : sliceTo d (-(k : Int)) = d.take (d.length - k) := by
  unfold sliceTo; rw [if_pos (by omega)]; simp

theorem rawLoop_flatten (n : Nat) : ∀ (ps : List Bytes) (c : Nat),
    (rawLoop (n : Int) c ps).flatten = ps.flatten.take (n - c) := by
  intro ps
  induction ps with
  | nil => intro c; simp [rawLoop]
  | cons d r ih =>
    intro c
    simp only [rawLoop, List.flatten_cons, ih, List.take_append]
    by_cases h : n < c + d.length
    · rw [if_pos ⟨by omega, by omega⟩]
      have e : (n : Int) - ((c + d.length : Nat) : Int) = -((c + d.length - n : Nat) : Int) := by omega
      rw [e, sliceTo_neg (by omega)]
      congr 1
      · by_cases h2 : c ≤ n
        · congr 1; omega
        · rw [show d.length - (c + d.length - n) = 0 by omega, show n - c = 0 by omega]
      · rw [show n - (c + d.length) = 0 by omega, show n - c - d.length = 0 by omega]
    · rw [if_neg (by omega), List.take_of_length_le (l := d) (by omega), show n - (c + d.length) = n - c - d.length by omega]

theorem rawLoop_neg : ∀ (ps : List Bytes) (c : Nat), rawLoop (-1) c ps = ps := by
  intro ps
  induction ps with
  | nil => intro c; rfl
  | cons d r ih => intro c; simp [rawLoop, ih]

/-! ### chunk sizes -/

instance (c : UInt8) : Decidable (isHex c) := by unfold isHex; infer_instance

theorem hexDigit_isHex : ∀ {c : UInt8}, isHex c → hexDigit? c = some (hexVal c) := by
  apply forall_u8; decide +kernel

theorem isHex_not : ∀ {c : UInt8}, isHex c → isSpace c = false ∧ c ≠ 95 ∧ c ≠ 13 ∧ c ≠ 10 ∧ c ≠ 59 := by
  apply forall_u8; decide +kernel

theorem digitsAux_hex : ∀ (s : Bytes) (acc : Nat) (prev : Bool), (∀ c ∈ s, isHex c) → (s ≠ [] ∨ prev = true) →
    digitsAux hexDigit? 16 acc prev s = some (s.foldl (fun a c => 16 * a + hexVal c) acc) := by
  intro s
  induction s with
  | nil => intro acc prev _ h; rcases h with h | h; exact absurd rfl h; simp [digitsAux, h]
  | cons c t ih =>
    intro acc prev hx _
    rw [digitsAux, hexDigit_isHex (hx c (by simp))]
    simp only
    rw [ih _ _ (fun c h => hx c (by simp [h])) (.inr rfl)]
    simp [Nat.mul_comm]

theorem intHex0x_hex {s : Bytes} (hne : s ≠ []) (hx : ∀ c ∈ s, isHex c) : intHex0x s = some (hexNum s) := by
  unfold intHex0x
  rw [rstrip_eq_self (fun c h => (isHex_not (hx c h)).1)]
  obtain ⟨c, t, rfl⟩ := List.exists_cons_of_ne_nil hne
  have h95 : c ≠ 95 := (isHex_not (hx c (by simp))).2.1
  split
  · rename_i t' h; simp at h; exact absurd h.1 h95
  · exact digitsAux_hex _ _ _ hx (.inl hne)

theorem splitByte_head {c : UInt8} {a e : Bytes} (ha : c ∉ a) (he : e = [] ∨ ∃ r, e = c :: r) (n : Nat) :
    (splitByte c (n + 1) (a ++ e)).headD [] = a := by
  rcases he with rfl | ⟨r, rfl⟩
  · simp [HttpParser.splitByte_notMem ha]
  · rw [HttpParser.splitByte_cons ha]; rfl

theorem chunkSize_line {size ext : Bytes} {n : Nat} (h : SizeLine size ext n) : chunkSize (size ++ ext) = some n := by
  unfold chunkSize
  rw [splitByte_head (fun hc => (isHex_not (h.hex _ hc)).2.2.2.2 rfl) h.semi, intHex0x_hex h.ne h.hex, h.val]

theorem sizeLine_lf {size ext : Bytes} {n : Nat} (h : SizeLine size ext n) : (10 : UInt8) ∉ size ++ ext := by
  intro hc
  rcases List.mem_append.1 hc with hc | hc
  · exact (isHex_not (h.hex _ hc)).2.2.2.1 rfl
  · exact h.lf hc

theorem lineSize_of {line : Bytes} {n : Nat} (h : chunkSize line = some n) : LineSize line n := by
  unfold chunkSize at h
  by_cases hm : (59 : UInt8) ∈ line
  · obtain ⟨a, e, rfl, ha⟩ := HttpParser.mem_split_first hm
    rw [splitByte_head ha (.inr ⟨e, rfl⟩)] at h
    exact ⟨a, 59 :: e, rfl, ha, .inr ⟨e, rfl⟩, h⟩
  · rw [HttpParser.splitByte_notMem hm] at h
    exact ⟨line, [], by simp, hm, .inl rfl, h⟩

/-- An empty size line, or one starting with LF, is malformed. -/
theorem chunkSize_nil : chunkSize [] = none := by decide

theorem digitsAux_lf (t : Bytes) (acc : Nat) (prev : Bool) : digitsAux hexDigit? 16 acc prev (10 :: t) = none := by
  simp [digitsAux, hexDigit?]

theorem rstrip_cons (c : UInt8) (t : Bytes) : rstrip (c :: t) = [] ∨ ∃ t', rstrip (c :: t) = c :: t' := by
  unfold rstrip
  rw [List.reverse_cons, List.dropWhile_append]
  split
  · by_cases h : isSpace c <;> simp [h]
  · right; exact ⟨_, by rw [List.reverse_append]; rfl⟩

theorem chunkSize_lf (t : Bytes) : chunkSize (10 :: t) = none := by
  unfold chunkSize
  have : ∃ u, (splitByte 59 1 (10 :: t)).headD [] = 10 :: u := by
    rw [splitByte]
    rw [if_neg (by decide)]
    cases splitByte 59 (0 + 1) t <;> exact ⟨_, rfl⟩
  obtain ⟨u, hu⟩ := this
  rw [hu]
  unfold intHex0x
  rcases rstrip_cons 10 u with h | ⟨t', h⟩
  · rw [h]; rfl
  · rw [h]; exact digitsAux_lf _ _ _

/-! ### Termination of the chunk loop -/

def measure (s : ChunkSt) (pieces : List Bytes) : Nat :=
  (pieces.map (fun d => 2 * d.length + 2)).sum + 2 * s.buf.length + (if s.paused then 1 else 0)

/-- A pass that continues shrinks the buffer or (paused, no size line) keeps it and unpauses. -/
theorem chunkBody_cont {bs : Nat} {s s' : ChunkSt} {y : List Bytes} (h : chunkBody bs s = (y, .cont s'))
    (hp : s.paused = true → s.unread = 0) :
    (s'.paused = true → s'.unread = 0) ∧
    (s'.buf.length + 1 ≤ s.buf.length ∨ (s'.buf.length ≤ s.buf.length ∧ s'.paused = false) ∨
      (s.buf = [] ∧ s'.buf = [] ∧ s.unread > 0)) := by
  unfold chunkBody at h
  split at h
  · rename_i hu
    have hpf : s.paused = false := by
      cases hpp : s.paused with
      | false => rfl
      | true => have := hp hpp; omega
    simp only at h
    split at h
    · simp only [Prod.mk.injEq, Ctl.cont.injEq] at h
      obtain ⟨-, rfl⟩ := h
      simp [hpf]
    · simp only [Prod.mk.injEq, Ctl.cont.injEq] at h
      obtain ⟨-, rfl⟩ := h
      rename_i hu2
      simp only [List.length_take, List.length_drop] at hu2 ⊢
      refine ⟨fun _ => by omega, by omega⟩
  · split at h
    · split at h
      · simp at h
      · simp only [Prod.mk.injEq, Ctl.cont.injEq] at h
        obtain ⟨-, rfl⟩ := h
        simp
    · rename_i i hf
      have hl := find_some_length hf
      simp at hl
      split at h
      · simp at h
      · simp only at h
        split at h
        · simp at h
        · split at h
          · simp only [Prod.mk.injEq, Ctl.cont.injEq] at h
            obtain ⟨-, rfl⟩ := h
            simp
          · simp only [Prod.mk.injEq, Ctl.cont.injEq] at h
            obtain ⟨-, rfl⟩ := h
            rename_i hu2
            simp only [List.length_take, List.length_drop] at hu2 ⊢
            refine ⟨fun _ => by omega, by omega⟩

theorem chunkBody_unpaused_none {bs : Nat} {s s' : ChunkSt} {y : List Bytes} (h : chunkBody bs s = (y, .cont s'))
    (hu : s.unread = 0) : s'.buf.length + 1 ≤ s.buf.length ∨
      (s'.buf.length ≤ s.buf.length ∧ s'.paused = false) := by
  rcases (chunkBody_cont h (fun _ => hu)).2 with h | h | h
  · exact .inl h
  · exact .inr h
  · omega

theorem chunkBody_crlf {bs : Nat} {s s' : ChunkSt} {y : List Bytes} (h : chunkBody bs s = (y, .cont s'))
    (hc : contains CRLF2 s.buf = true) : s'.buf.length + 1 ≤ s.buf.length := by
  have hin := contains_iff.1 hc
  have hlen : 4 ≤ s.buf.length := by have := hin.length_le; simpa using this
  have hcr : contains CRLF s.buf = true := contains_iff.2 ((List.IsPrefix.isInfix ⟨[13, 10], rfl⟩).trans hin)
  unfold chunkBody at h
  split at h
  · rename_i hu
    simp only at h
    split at h
    · simp only [Prod.mk.injEq, Ctl.cont.injEq] at h
      obtain ⟨-, rfl⟩ := h
      simp; omega
    · simp only [Prod.mk.injEq, Ctl.cont.injEq] at h
      obtain ⟨-, rfl⟩ := h
      simp; omega
  · split at h
    · rename_i hf
      unfold contains at hcr; rw [hf] at hcr; cases hcr
    · rename_i i hf
      split at h
      · simp at h
      · simp only at h
        split at h
        · simp at h
        · split at h
          · simp only [Prod.mk.injEq, Ctl.cont.injEq] at h
            obtain ⟨-, rfl⟩ := h
            simp; omega
          · simp only [Prod.mk.injEq, Ctl.cont.injEq] at h
            obtain ⟨-, rfl⟩ := h
            simp; omega

/-- What a fetch does to state and measure. -/
theorem fetch_ok {ended : Bool} {s s1 : ChunkSt} {pieces rest : List Bytes} (h : fetch ended s pieces = .ok (s1, rest)) :
    s1.unread = s.unread ∧ s1.paused = s.paused ∧ s1.buf ++ rest.flatten = s.buf ++ pieces.flatten ∧
    ((s.paused = true ∧ s1 = s ∧ rest = pieces) ∨ (s.paused = false ∧ ∃ d, pieces = d :: rest ∧ s1.buf = s.buf ++ d) ∨
     (s.paused = false ∧ pieces = [] ∧ rest = [] ∧ s1 = s ∧ contains CRLF2 s.buf = true)) := by
  unfold fetch at h
  split at h
  · rename_i hp
    simp only [Except.ok.injEq, Prod.mk.injEq] at h
    obtain ⟨rfl, rfl⟩ := h
    exact ⟨rfl, rfl, rfl, .inl ⟨hp, rfl, rfl⟩⟩
  · rename_i hp
    simp only [Bool.not_eq_true] at hp
    split at h
    · simp only [Except.ok.injEq, Prod.mk.injEq] at h
      obtain ⟨rfl, rfl⟩ := h
      exact ⟨rfl, rfl, by simp, .inr (.inl ⟨hp, _, rfl, rfl⟩)⟩
    · split at h
      · split at h
        · rename_i hc
          simp only [Except.ok.injEq, Prod.mk.injEq] at h
          obtain ⟨rfl, rfl⟩ := h
          exact ⟨rfl, rfl, rfl, .inr (.inr ⟨hp, rfl, rfl, rfl, hc⟩)⟩
        · cases h
      · cases h

theorem fetch_error {ended : Bool} {s : ChunkSt} {pieces : List Bytes} {o : Out} (h : fetch ended s pieces = .error o) :
    s.paused = false ∧ pieces = [] ∧ (ended = true → o = .badRequest) ∧ (ended = false → o = .blocked) := by
  unfold fetch at h
  split at h
  · cases h
  · rename_i hp
    simp only [Bool.not_eq_true] at hp
    split at h
    · cases h
    · split at h
      · rename_i he
        split at h
        · cases h
        · simp at h; exact ⟨hp, rfl, fun _ => h.symm, fun e => by rw [e] at he; cases he⟩
      · rename_i he; simp at h; exact ⟨hp, rfl, fun e => absurd e he, fun _ => h.symm⟩

theorem chunkLoop_terminates {bs : Nat} {ended : Bool} : ∀ (fuel : Nat) (s : ChunkSt) (pieces : List Bytes),
    (s.paused = true → s.unread = 0) → measure s pieces < fuel → (chunkLoop bs ended fuel s pieces).2 ≠ .fuel ∧
      (ended = true → (chunkLoop bs ended fuel s pieces).2 ≠ .blocked) := by
  intro fuel
  induction fuel with
  | zero => intro s p _ h; omega
  | succ fuel ih =>
    intro s pieces hp hm
    rw [chunkLoop]
    cases hf : fetch ended s pieces with
    | error o =>
      obtain ⟨_, _, h1, h2⟩ := fetch_error hf
      cases ended <;> simp_all
    | ok q =>
      obtain ⟨s1, rest⟩ := q
      obtain ⟨hu1, hp1, -, hcase⟩ := fetch_ok hf
      have hp' : s1.paused = true → s1.unread = 0 := by rw [hp1, hu1]; exact hp
      simp only
      rcases hb : chunkBody bs s1 with ⟨y, c⟩
      cases c with
      | break_ => simp
      | bad => simp
      | cont s' =>
        simp only
        apply ih
        · exact (chunkBody_cont hb hp').1
        · unfold measure at hm ⊢
          rcases hcase with ⟨hpa, rfl, rfl⟩ | ⟨hpa, d, rfl, e⟩ | ⟨hpa, rfl, rfl, rfl, hc⟩
          · rw [hpa] at hm
            simp only [if_true] at hm
            rcases chunkBody_unpaused_none hb (hp hpa) with h | ⟨h1, h2⟩
            · split <;> omega
            · rw [h2]; simp; omega
          · have := (chunkBody_cont hb hp').2
            rw [e] at this
            simp only [List.length_append, List.map_cons, List.sum_cons, hpa] at this hm
            rcases this with h | ⟨h1, h2⟩ | ⟨h1, h2, _⟩
            · split <;> omega
            · rw [h2]; simp; omega
            · rw [h2]; simp; split <;> omega
          · have := chunkBody_crlf hb hc
            split <;> omega

/-! ### Soundness: a normal end means a complete body -/

/-- What remains to be decoded in state `s`: `unread` bytes of the current chunk and two skipped bytes, then chunks. -/
def Rem (s : ChunkSt) (R p : Bytes) : Prop :=
  if s.unread = 0 then Complete R p
  else ∃ data skip r p', R = data ++ skip ++ r ∧ data.length = s.unread ∧ skip.length ≤ 2 ∧ Complete r p' ∧ p = data ++ p'

theorem find_crlf_line {s : Bytes} {i : Nat} (h : find CRLF s = some i) :
    s = s.take i ++ CRLF ++ s.drop (i + 2) ∧ ¬ CRLF <:+: s.take i ++ [13] := by
  have h1 := find_split h
  have hl := find_some_length h
  simp at hl
  refine ⟨by simpa using h1, ?_⟩
  rintro ⟨a, b, e⟩
  have hf := (find_eq_some_iff.1 h).2.2 a.length
  have hlen := congrArg List.length e
  simp at hlen
  apply hf (by omega)
  rw [h1]
  have : s.take i ++ CRLF ++ s.drop (i + CRLF.length) = a ++ (CRLF ++ (b ++ 10 :: s.drop (i + CRLF.length))) := by
    have e' : s.take i ++ CRLF = (s.take i ++ [13]) ++ [10] := by simp
    rw [e', ← e]; simp
  rw [this]
  simp

theorem chunkBody_sound {bs : Nat} {s : ChunkSt} {y : List Bytes} {c : Ctl} (h : chunkBody bs s = (y, c)) (R : Bytes) :
    match c with
    | .bad => True
    | .break_ => y = [] ∧ Rem s (s.buf ++ R) []
    | .cont s' => ∀ p, Rem s' (s'.buf ++ R) p → Rem s (s.buf ++ R) (y.flatten ++ p) := by
  unfold chunkBody at h
  split at h
  · rename_i hu
    simp only at h
    split at h
    · rename_i hu2
      simp only [Prod.mk.injEq] at h
      obtain ⟨rfl, rfl⟩ := h
      intro p hr
      unfold Rem at hr ⊢
      simp only at hr hu2
      rw [if_neg (by omega)] at hr ⊢
      obtain ⟨data, skip, r, p', h1, h2, h3, h4, rfl⟩ := hr
      refine ⟨s.buf.take s.unread ++ data, skip, r, p', ?_, ?_, h3, h4, by simp⟩
      · have : s.buf = s.buf.take s.unread ++ s.buf.drop s.unread := (List.take_append_drop ..).symm
        calc s.buf ++ R = s.buf.take s.unread ++ (s.buf.drop s.unread ++ R) := by
              rw [← List.append_assoc, ← this]
          _ = _ := by rw [h1]; simp
      · simp only [List.length_append, h2]; simp at hu2 ⊢; omega
    · rename_i hu2
      simp only [Prod.mk.injEq] at h
      obtain ⟨rfl, rfl⟩ := h
      intro p hr
      unfold Rem at hr ⊢
      simp only at hr hu2
      rw [if_pos (by omega)] at hr
      rw [if_neg (by omega)]
      refine ⟨s.buf.take s.unread, (s.buf.drop s.unread).take 2, (s.buf.drop s.unread).drop 2 ++ R, p, ?_, ?_, ?_, hr,
        by simp⟩
      · rw [← List.append_assoc, List.append_assoc (s.buf.take s.unread), List.take_append_drop, List.take_append_drop]
      · simp at hu2 ⊢; omega
      · simp; omega
  · rename_i hu
    have hu : s.unread = 0 := by omega
    have hrem : ∀ R p, Rem s R p ↔ Complete R p := by intro R p; unfold Rem; rw [if_pos hu]
    split at h
    · split at h
      · simp only [Prod.mk.injEq] at h; obtain ⟨rfl, rfl⟩ := h; trivial
      · simp only [Prod.mk.injEq] at h
        obtain ⟨rfl, rfl⟩ := h
        intro p hr
        rw [hrem]
        unfold Rem at hr
        rw [if_pos hu] at hr
        simpa using hr
    · rename_i i hf
      obtain ⟨hs, hn⟩ := find_crlf_line hf
      split at h
      · simp only [Prod.mk.injEq] at h; obtain ⟨rfl, rfl⟩ := h; trivial
      · rename_i size hsz
        simp only at h
        have hls := lineSize_of hsz
        split at h
        · rename_i h0
          simp only [Prod.mk.injEq] at h
          obtain ⟨rfl, rfl⟩ := h
          refine ⟨rfl, ?_⟩
          rw [hrem, hs, List.append_assoc]
          have : size = 0 := by omega
          rw [this] at hls
          exact Complete.zero hn hls
        · rename_i h0
          split at h
          · rename_i hu2
            simp only [Prod.mk.injEq] at h
            obtain ⟨rfl, rfl⟩ := h
            intro p hr
            unfold Rem at hr
            simp only at hr hu2
            rw [if_neg (by omega)] at hr
            obtain ⟨data, skip, r, p', h1, h2, h3, h4, rfl⟩ := hr
            rw [hrem]
            have hle : (s.buf.drop (i + 2)).length < size := by simp at hu2 ⊢; omega
            rw [List.take_of_length_le (by omega)] at h2 ⊢
            have : s.buf ++ R = s.buf.take i ++ CRLF ++ (s.buf.drop (i + 2) ++ data) ++ skip ++ r := by
              simp only [List.nil_append] at h1
              rw [h1]
              conv => lhs; rw [hs]
              simp
            rw [this]
            have := Complete.chunk (line := s.buf.take i) (data := s.buf.drop (i + 2) ++ data) (skip := skip) hn
              (by rw [List.length_append, h2, show (s.buf.drop (i + 2)).length + (size - (s.buf.drop (i + 2)).length) = size by omega]; exact hls)
              (by intro e; have := congrArg List.length e; simp only [List.length_append, h2, List.length_nil] at this; omega) h3 h4
            simpa using this
          · rename_i hu2
            simp only [Prod.mk.injEq] at h
            obtain ⟨rfl, rfl⟩ := h
            intro p hr
            unfold Rem at hr
            simp only at hr hu2
            rw [if_pos (by omega)] at hr
            rw [hrem]
            have hle : size ≤ (s.buf.drop (i + 2)).length := by simp at hu2 ⊢; omega
            have e2 : s.buf ++ R = s.buf.take i ++ CRLF ++ ((s.buf.drop (i + 2)).take size) ++
                (((s.buf.drop (i + 2)).drop size).take 2) ++ (s.buf.drop (size + i + 4) ++ R) := by
              have e3 : s.buf.drop (size + i + 4) = ((s.buf.drop (i + 2)).drop size).drop 2 := by
                simp only [List.drop_drop]; congr 1; omega
              rw [e3]
              conv => lhs; rw [hs]
              simp only [List.append_assoc]
              rw [← List.append_assoc (List.take 2 _), List.take_append_drop, ← List.append_assoc (List.take size _),
                List.take_append_drop]
            rw [e2]
            have hlen : ((s.buf.drop (i + 2)).take size).length = size := by rw [List.length_take]; omega
            have := Complete.chunk (line := s.buf.take i) (data := (s.buf.drop (i + 2)).take size)
              (skip := ((s.buf.drop (i + 2)).drop size).take 2) hn (by rw [hlen]; exact hls)
              (by intro e; rw [e] at hlen; simp at hlen; omega) (by simp; omega) hr
            simpa using this

theorem chunkLoop_sound {bs : Nat} {ended : Bool} : ∀ (fuel : Nat) (s : ChunkSt) (pieces : List Bytes) (ys : List Bytes),
    chunkLoop bs ended fuel s pieces = (ys, .done) → Rem s (s.buf ++ pieces.flatten) ys.flatten := by
  intro fuel
  induction fuel with
  | zero => intro s p ys h; simp [chunkLoop] at h
  | succ fuel ih =>
    intro s pieces ys h
    rw [chunkLoop] at h
    cases hf : fetch ended s pieces with
    | error o =>
      rw [hf] at h
      obtain ⟨_, _, h1, h2⟩ := fetch_error hf
      cases ended <;> simp_all
    | ok q =>
      obtain ⟨s1, rest⟩ := q
      rw [hf] at h
      obtain ⟨hu1, -, hR, -⟩ := fetch_ok hf
      have conv : ∀ R p, Rem s1 R p → Rem s R p := by intro R p h; unfold Rem at h ⊢; rw [hu1] at h; exact h
      simp only at h
      apply conv
      rw [← hR]
      rcases hb : chunkBody bs s1 with ⟨y, c⟩
      rw [hb] at h
      have hs := chunkBody_sound hb rest.flatten
      cases c with
      | bad => simp at h
      | break_ =>
        simp only [Prod.mk.injEq, and_true] at h
        subst h
        obtain ⟨rfl, h2⟩ := hs
        exact h2
      | cont s' =>
        simp only [Prod.mk.injEq] at h
        obtain ⟨rfl, h2⟩ := h
        have := ih s' rest _ (Prod.ext rfl h2)
        have := hs _ this
        simpa using this

end Verif.Proofs.BodyStream
