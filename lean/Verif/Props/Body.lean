import Verif.Proofs.ChunkExact
/-!
# C08–C14, C49  Request bodies and the internal queues
-/
namespace Verif
open Py Model.Upload Model.BodyStream Spec.Body Proofs.BodyStream

namespace Proofs.BodyStream

theorem receive_items {c : BodyCfg} {bs : Nat} (hb : 0 < bs) (seg : Bytes) (u : Up) :
    ∃ ps : List Bytes, ps.flatten = seg ∧ (receive c bs seg u).bodySize = u.bodySize + seg.length ∧
      ((∃ l, c.contentLength = some l ∧ l ≤ u.bodySize + seg.length ∧
          (receive c bs seg u).items = u.items ++ ps.map some ++ [none] ∧ (receive c bs seg u).reading = false ∧
          (receive c bs seg u).closing = u.closing) ∨
       ((∀ l, c.contentLength = some l → u.bodySize + seg.length < l) ∧
          (receive c bs seg u).items = u.items ++ ps.map some ∧
          (receive c bs seg u).reading = decide (u.bodySize + seg.length < c.maxBody) ∧
          (receive c bs seg u).closing = (u.closing || decide (c.maxBody ≤ u.bodySize + seg.length)))) := by
  refine ⟨pieces bs seg, pieces_flatten hb seg, ?_⟩
  unfold receive account
  cases hc : c.contentLength with
  | none =>
    simp only [Bool.false_eq_true, if_false]
    by_cases h : u.bodySize + seg.length < c.maxBody
    · rw [if_pos h]
      refine ⟨rfl, .inr ⟨by simp, rfl, by simp [h], ?_⟩⟩
      simp; omega
    · rw [if_neg h]
      refine ⟨rfl, .inr ⟨by simp, rfl, by simp [h], ?_⟩⟩
      simp; omega
  | some l =>
    simp only [decide_eq_true_eq]
    by_cases hl : u.bodySize + seg.length ≥ l
    · rw [if_pos hl]
      exact ⟨rfl, .inl ⟨l, rfl, hl, rfl, rfl, rfl⟩⟩
    · rw [if_neg hl]
      by_cases h : u.bodySize + seg.length < c.maxBody
      · rw [if_pos h]
        refine ⟨rfl, .inr ⟨?_, rfl, by simp [h], ?_⟩⟩
        · intro l' e; simp at e; subst e; omega
        · simp; omega
      · rw [if_neg h]
        refine ⟨rfl, .inr ⟨?_, rfl, by simp [h], ?_⟩⟩
        · intro l' e; simp at e; subst e; omega
        · simp; omega

/-- State after receiving bytes `R` of a body of length `l ≤ maxBody`. -/
def ClInv (l : Nat) (u : Up) (R : Bytes) : Prop :=
  ∃ ps : List Bytes, ps.flatten = R ∧ u.bodySize = R.length ∧ u.closing = false ∧
    ((R.length < l ∧ u.items = ps.map some ∧ u.reading = true) ∨
     (l ≤ R.length ∧ u.items = ps.map some ++ [none] ∧ u.reading = false))

theorem clInv_receive {l maxBody bs : Nat} (hb : 0 < bs) (hl : l ≤ maxBody) {u : Up} {R : Bytes} (seg : Bytes)
    {ps : List Bytes} (h1 : ps.flatten = R) (h2 : u.bodySize = R.length) (h3 : u.closing = false) (h4 : u.items = ps.map some) :
    ClInv l (receive ⟨some l, maxBody⟩ bs seg u) (R ++ seg) := by
  obtain ⟨qs, hq, hsz, hcase⟩ := receive_items (c := ⟨some l, maxBody⟩) hb seg u
  refine ⟨ps ++ qs, by simp [h1, hq], by simp [hsz, h2], ?_⟩
  rcases hcase with ⟨l', e, hle, hi, hr, hc⟩ | ⟨hlt, hi, hr, hc⟩
  · simp only [Option.some.injEq] at e
    subst e
    refine ⟨by rw [hc, h3], .inr ⟨by simp; omega, by rw [hi, h4]; simp, hr⟩⟩
  · have := hlt l rfl
    refine ⟨?_, .inl ⟨by simp; omega, by rw [hi, h4]; simp, ?_⟩⟩
    · rw [hc, h3]; simp; omega
    · rw [hr]; simp; omega

theorem clInv_all {l maxBody bs : Nat} (hb : 0 < bs) (hl : l ≤ maxBody) : ∀ (segs : List Bytes) (u : Up) (R : Bytes),
    ClInv l u R → ∃ R', R' <+: R ++ segs.flatten ∧ ClInv l (receiveAll ⟨some l, maxBody⟩ bs segs u) R' ∧
      (R' = R ++ segs.flatten ∨ l ≤ R'.length) := by
  intro segs
  induction segs with
  | nil => intro u R h; exact ⟨R, by simp, h, .inl (by simp)⟩
  | cons seg segs ih =>
    intro u R h
    obtain ⟨ps, h1, h2, h3, hc⟩ := id h
    rcases hc with ⟨ha, hi, hr⟩ | ⟨ha, hi, hr⟩
    · rw [receiveAll, if_pos hr]
      obtain ⟨R', k1, k2, k3⟩ := ih _ _ (clInv_receive hb hl seg h1 h2 h3 hi)
      exact ⟨R', by simpa using k1, k2, by simpa using k3⟩
    · rw [receiveAll, if_neg (by simp [hr])]
      exact ⟨R, by simp, h, .inr ha⟩

end Proofs.BodyStream

/-! ## C08 -/

/-- **C08.** Content-Length `n ≤ client_max_body_size`: however the body bytes arrive (first segment with the head, then
any segments), once at least `n` bytes are received the stream yields exactly the first `n` bytes and then ends. -/
theorem C08_exact {n maxBody bs : Nat} (hb : 0 < bs) (hn : n ≤ maxBody) (first : Bytes) (segs : List Bytes)
    (hlen : n ≤ (first ++ segs.flatten).length) :
    let r := rawStream n maxBody (upload ⟨some n, maxBody⟩ bs first segs).items
    r.1.flatten = (first ++ segs.flatten).take n ∧ r.2 = .done := by
  have h0 := clInv_receive (l := n) (maxBody := maxBody) (bs := 16384) (by omega) hn (u := {}) (R := []) first (ps := [])
    rfl rfl rfl rfl
  obtain ⟨R', k1, ⟨ps, h1, h2, h3, hc⟩, k3⟩ := clInv_all hb hn segs _ _ h0
  simp only [List.nil_append] at k1 k3
  have hR : n ≤ R'.length := k3.elim (fun k => by rw [k]; exact hlen) id
  rcases hc with ⟨ha, -⟩ | ⟨ha, hi, -⟩
  · omega
  · intro r
    have hr : r = (rawLoop n 0 ps, Out.done) := by
      show rawStream _ _ _ = _
      unfold upload rawStream
      rw [if_neg (by omega), hi, recvPieces_map]
      simp [recvPieces]
    rw [hr]
    refine ⟨?_, rfl⟩
    simp only
    rw [rawLoop_flatten, h1, Nat.sub_zero]
    obtain ⟨t, ht⟩ := k1
    rw [← ht, List.take_append_of_le_length hR]

/-- **C08 (incomplete).** While fewer than `n` bytes have arrived, the stream has yielded exactly what arrived and waits;
it does not end. -/
theorem C08_waits {n maxBody bs : Nat} (hb : 0 < bs) (hn : n ≤ maxBody) (first : Bytes) (segs : List Bytes)
    (hlen : (first ++ segs.flatten).length < n) :
    let r := rawStream n maxBody (upload ⟨some n, maxBody⟩ bs first segs).items
    r.1.flatten = first ++ segs.flatten ∧ r.2 = .blocked ∧ (upload ⟨some n, maxBody⟩ bs first segs).reading = true := by
  have h0 := clInv_receive (l := n) (maxBody := maxBody) (bs := 16384) (by omega) hn (u := {}) (R := []) first (ps := [])
    rfl rfl rfl rfl
  obtain ⟨R', k1, ⟨ps, h1, h2, h3, hc⟩, k3⟩ := clInv_all hb hn segs _ _ h0
  simp only [List.nil_append] at k1 k3
  have hR : R'.length < n := by have := k1.length_le; omega
  have k3 : R' = first ++ segs.flatten := k3.elim id (fun k => by omega)
  rcases hc with ⟨ha, hi, hr⟩ | ⟨ha, -⟩
  · intro r
    have hr' : r = (rawLoop n 0 ps, Out.blocked) := by
      show rawStream _ _ _ = _
      unfold upload rawStream
      rw [if_neg (by omega), hi]
      have := recvPieces_map ps []
      simp only [List.append_nil] at this
      rw [this]
      simp [recvPieces]
    rw [hr']
    refine ⟨?_, rfl, hr⟩
    simp only
    rw [rawLoop_flatten, h1, k3, Nat.sub_zero, List.take_of_length_le (by omega)]
  · omega

example : rawStream 5 100 (upload ⟨some 5, 100⟩ 2 b!"ab" [b!"c", b!"defgh"]).items =
    ([b!"ab", b!"c", b!"de", [], []], .done) := by decide +kernel

/-! ## C09 -/

/-- **C09 (exact).** For every well-formed chunked body (any hexadecimal spelling, extensions, anything after the last
size line) cut into queue pieces in any way: if no cut falls between a chunk's data and the end of its CRLF, the stream
yields exactly the payload and ends; otherwise it raises BadRequest, having yielded a prefix of the payload (never wrong
data). -/
theorem C09_exact {bs : Nat} {cs : List Chunk} {size ext rest : Bytes} (h0 : SizeLine size ext 0)
    (h0l : size.length + ext.length + 1 ≤ 4 * bs)
    (hcs : ∀ c ∈ cs, c.Wf ∧ c.size.length + c.ext.length + 1 ≤ 4 * bs) (segs : List Bytes)
    (hsegs : segs.flatten = encode cs (lastChunk size ext rest)) (tail : List Item) (ht : tail = [] ∨ ∃ t, tail = none :: t) :
    let r := chunkStream bs (segs.map some ++ tail)
    (SafeCuts cs (lastChunk size ext rest) segs → r.1.flatten = payload cs ∧ r.2 = .done) ∧
    (¬ SafeCuts cs (lastChunk size ext rest) segs → r.1.flatten <+: payload cs ∧ r.2 = .badRequest) := by
  intro r
  have hl : LastOk bs (lastChunk size ext rest) := ⟨⟨size, ext, rest, rfl, h0, h0l⟩⟩
  have hr : ∃ e, r = chunkLoop bs e (chunkFuel {} segs) {} segs := by
    refine ⟨(recvPieces tail).2, ?_⟩
    show chunkStream _ _ = _
    unfold chunkStream
    rw [recvPieces_map]
    rcases ht with rfl | ⟨t, rfl⟩ <;> simp [recvPieces]
  obtain ⟨e, hr⟩ := hr
  have hterm := (chunkLoop_terminates (bs := bs) (ended := e) (chunkFuel {} segs) {} segs (by simp)
    (by unfold Proofs.BodyStream.measure chunkFuel; omega)).1
  have hex := (loop_exact (ended := e) hl (chunkFuel {} segs) cs hcs {} segs).1 rfl (fun _ => rfl) (by simpa using hsegs)
  rw [← hr] at hterm hex
  have hiff := safeCuts_iff hsegs
  rcases hex with h | ⟨h1, h2, h3⟩ | ⟨h1, h2, h3⟩
  · exact absurd h hterm
  · exact ⟨fun _ => ⟨h3, h2⟩, fun hn => absurd (hiff.1 hn) h1⟩
  · exact ⟨fun hs => absurd hs (hiff.2 h1), fun _ => ⟨h3, h2⟩⟩

/-- **C09 (partial).** The payload is delivered for every segmentation with safe cuts.  Missing for the full claim: cuts
right after a chunk's data or inside its CRLF, for which this code fails (`C09_exact`, `C09_refuted`). -/
theorem C09_decode_partial {bs : Nat} {cs : List Chunk} {size ext rest : Bytes} (h0 : SizeLine size ext 0)
    (h0l : size.length + ext.length + 1 ≤ 4 * bs)
    (hcs : ∀ c ∈ cs, c.Wf ∧ c.size.length + c.ext.length + 1 ≤ 4 * bs) (segs : List Bytes)
    (hsegs : segs.flatten = encode cs (lastChunk size ext rest)) (hsafe : SafeCuts cs (lastChunk size ext rest) segs) :
    (chunkStream bs (segs.map some)).1.flatten = payload cs ∧ (chunkStream bs (segs.map some)).2 = .done := by
  have := (C09_exact h0 h0l hcs segs hsegs [] (.inl rfl)).1 hsafe
  simpa using this

/-- C09 is false of this code: the legal body `3 CRLF abc CRLF 0 CRLF CRLF`, cut after `abc`, is refused. -/
theorem C09_refuted :
    chunkStream 16384 [some b!"3\r\nabc", some b!"\r\n0\r\n\r\n"] = ([b!"abc"], .badRequest) ∧
    chunkStream 16384 [some b!"3\r\nabc\r\n0\r\n\r\n"] = ([b!"abc"], .done) := by
  decide +kernel

/-- C09 fails even without any network fragmentation: a body received in a single segment together with the head is cut
into 16 KiB pieces internally; when a chunk's data ends exactly at such a cut the request is refused. -/
theorem C09_refuted_internal (bs : Nat) (h : 2 ≤ bs) (d : Bytes) (hd : d.length = 0x3ffa) :
    let body := encode [⟨b!"3ffa", [], d⟩] (lastChunk b!"0" [] CRLF)
    (chunkStream bs (upload ⟨none, 1000000⟩ bs body []).items).2 = .badRequest := by
  intro body
  have hbody : body = (b!"3ffa\r\n" ++ d) ++ (CRLF ++ b!"0\r\n\r\n") := by simp [body, encode, lastChunk, CRLF]
  have hpieces : pieces 16384 body = [b!"3ffa\r\n" ++ d, CRLF ++ b!"0\r\n\r\n"] := by
    have hl : body.length = 16391 := by rw [hbody]; simp [hd, CRLF]
    unfold pieces
    rw [hl, piecesAux, if_neg (by rw [hbody]; simp)]
    have hlen : (b!"3ffa\r\n" ++ d).length = 16384 := by simp [hd]
    rw [hbody, List.take_left' hlen, List.drop_left' hlen, piecesAux, if_neg (by simp [CRLF])]
    rw [List.take_of_length_le (by simp [CRLF]), List.drop_eq_nil_of_le (by simp [CRLF]), piecesAux, if_pos rfl]
  have hitems : (upload ⟨none, 1000000⟩ bs body []).items = [b!"3ffa\r\n" ++ d, CRLF ++ b!"0\r\n\r\n"].map some ++ [] := by
    simp [upload, receiveAll, receive, account, hpieces]
    split <;> rfl
  have hz : SizeLine b!"0" [] 0 := ⟨by simp, by decide, by decide, by decide, .inl rfl⟩
  have hwf : Chunk.Wf ⟨b!"3ffa", [], d⟩ :=
    ⟨⟨by simp, (by decide : ∀ c ∈ (b!"3ffa" : Bytes), isHex c), by rw [hd]; exact (by decide : hexNum b!"3ffa" = 16378), by simp, .inl rfl⟩, by intro e; simp only at e; rw [e] at hd; simp at hd⟩
  rw [hitems]
  refine ((C09_exact hz (by simp; omega) (cs := [⟨b!"3ffa", [], d⟩]) (rest := CRLF) ?_ _ ?_ [] (.inl rfl)).2 ?_).2
  · intro c hc; simp only [List.mem_singleton] at hc; subst hc; exact ⟨hwf, by simp; omega⟩
  · simp [encode, lastChunk, CRLF]
  · intro hs
    exact (hs [b!"3ffa\r\n" ++ d] [CRLF ++ b!"0\r\n\r\n"] rfl [] _ [] rfl).1 (by simp [encode, lastChunk, CRLF])

def exChunks : List Chunk := [⟨b!"03", b!";x=y", b!"abc"⟩, ⟨b!"A", [], b!"0123456789"⟩]
theorem exChunks_ok : (∀ c ∈ exChunks, c.Wf ∧ c.size.length + c.ext.length + 1 ≤ 4 * 4) ∧ SizeLine b!"00" b!";z" 0 := by
  refine ⟨?_, ⟨by simp, by decide, by decide, by decide, .inr ⟨_, rfl⟩⟩⟩
  intro c hc
  simp [exChunks] at hc
  rcases hc with rfl | rfl
  · exact ⟨⟨⟨by simp, by decide, by decide, by decide, .inr ⟨_, rfl⟩⟩, by simp⟩, by decide⟩
  · exact ⟨⟨⟨by simp, by decide, by decide, by decide, .inl rfl⟩, by simp⟩, by decide⟩
example : (chunkStream 4 [some b!"0", some b!"3;x", some b!"=y\r", some b!"\nab", some b!"c\r\nA\r", some b!"\n", some b!"01234",
    some b!"56789\r\n00;", some b!"z\r\nT: 1\r\n\r\n"]).1.flatten = payload exChunks := by decide +kernel

/-! ## C10 -/

/-- **C10 (soundness).** The chunked stream ends normally only if the received bytes consist of complete chunks followed
by a zero-size line, and then it has yielded exactly their payload — for arbitrary bytes and cuts. -/
theorem C10_done_complete {bs : Nat} {items : List Item} {ys : List Bytes} (h : chunkStream bs items = (ys, .done)) :
    Complete (recvPieces items).1.flatten ys.flatten := by
  have := chunkLoop_sound _ _ _ _ h
  simpa [Rem] using this

/-- **C10 (termination).** Once the end of input was received the stream ends: normally or with BadRequest, never
waiting and never looping. Without end of input it may in addition wait for more. -/
theorem C10_terminates (bs : Nat) (items : List Item) :
    (none ∈ items → (chunkStream bs items).2 = .done ∨ (chunkStream bs items).2 = .badRequest) ∧
    ((chunkStream bs items).2 = .done ∨ (chunkStream bs items).2 = .badRequest ∨ (chunkStream bs items).2 = .blocked) := by
  have hnone : none ∈ items → (recvPieces items).2 = true := by
    intro h
    induction items with
    | nil => cases h
    | cons a t ih =>
      cases a with
      | none => rfl
      | some d => simp only [recvPieces]; exact ih (by simpa using h)
  have ht := chunkLoop_terminates (bs := bs) (ended := (recvPieces items).2) (chunkFuel {} (recvPieces items).1) {}
    (recvPieces items).1 (by simp) (by unfold Proofs.BodyStream.measure chunkFuel; omega)
  have hne : ∀ (fuel : Nat) (e : Bool) (s : ChunkSt) (p : List Bytes), (chunkLoop bs e fuel s p).2 ≠ .tooLarge := by
    intro fuel e
    induction fuel with
    | zero => intro s p; simp [chunkLoop]
    | succ fuel ih =>
      intro s p
      rw [chunkLoop]
      cases hf : fetch e s p with
      | error o =>
        obtain ⟨_, _, h1, h2⟩ := fetch_error hf
        cases e <;> simp_all
      | ok q =>
        obtain ⟨s1, rest⟩ := q
        simp only
        rcases chunkBody bs s1 with ⟨y, c⟩
        cases c with
        | break_ => simp
        | bad => simp
        | cont s' => exact ih s' rest
  have hr : chunkStream bs items = chunkLoop bs (recvPieces items).2 (chunkFuel {} (recvPieces items).1) {} (recvPieces items).1 := rfl
  have h3 := hne (chunkFuel {} (recvPieces items).1) (recvPieces items).2 {} (recvPieces items).1
  rw [← hr] at ht h3
  constructor
  · intro hn
    have := ht.2 (hnone hn)
    cases ho : (chunkStream bs items).2 <;> simp_all
  · cases ho : (chunkStream bs items).2 <;> simp_all

/-- **C10 (truncation).** If the input ends and what was received is not a complete chunked body, the stream raises
BadRequest. -/
theorem C10_truncated {bs : Nat} {items : List Item} (he : none ∈ items)
    (hn : ∀ p, ¬ Complete (recvPieces items).1.flatten p) : (chunkStream bs items).2 = .badRequest := by
  rcases (C10_terminates bs items).1 he with h | h
  · exact absurd (C10_done_complete (ys := (chunkStream bs items).1) (Prod.ext rfl h)) (hn _)
  · exact h

/-- A body cut off inside a chunk is not complete, so the hypothesis of `C10_truncated` is met. -/
example : ∀ p, ¬ Complete (recvPieces [some b!"5\r\nab", some b!"c", none]).1.flatten p := by
  intro p h
  have hx : (recvPieces [some b!"5\r\nab", some b!"c", none]).1.flatten = b!"5\r\nabc" := by decide
  rw [hx] at h
  generalize hb : (b!"5\r\nabc" : Bytes) = b at h
  have hline : ∀ (line t : Bytes), b!"5\r\nabc" = line ++ CRLF ++ t → ¬ CRLF <:+: line ++ [13] → line = b!"5" := by
    intro line t e hn
    match line with
    | [] => simp at e
    | [a] => simp at e; simp [e.1]
    | a :: c :: l => simp at e; obtain ⟨rfl, rfl, e⟩ := e
                     cases l with
                     | nil => simp at e
                     | cons d l => simp at e; obtain ⟨rfl, e⟩ := e
                                   exact absurd ⟨[53], l ++ [13], by simp⟩ hn
  cases h with
  | zero hn hl =>
    rename_i line rest
    have := hline line rest hb hn
    subst this
    obtain ⟨num, ext, e, -, he, hv⟩ := hl
    cases num with
    | nil => rcases he with rfl | ⟨e', rfl⟩ <;> simp at e
    | cons a num => simp at e; obtain ⟨rfl, e1, rfl⟩ := e; subst e1; revert hv; decide
  | chunk hn hl hd hs hc =>
    rename_i line data skip r p'
    have := hline line (data ++ skip ++ r) (by rw [hb]; simp) hn
    subst this
    have hlen := congrArg List.length hb
    obtain ⟨num, ext, e, -, he, hv⟩ := hl
    have hnum : num = b!"5" := by
      cases num with
      | nil => rcases he with rfl | ⟨e', rfl⟩ <;> simp at e
      | cons a num => simp at e; obtain ⟨rfl, e1, rfl⟩ := e; simp [e1]
    subst hnum
    have : data.length = 5 := by
      have h5 : intHex0x b!"5" = some 5 := by decide
      rw [h5] at hv; simpa using hv.symm
    simp at hlen
    omega
example : chunkStream 4 [some b!"5\r\nab", some b!"c", none] = ([b!"ab", b!"c"], .badRequest) := by decide +kernel

/-! ## C11 -/

/-- Bytes a reader has not returned yet. -/
def Model.BodyStream.Reader.remaining (r : Reader) : Bytes := r.buf ++ r.gen.pieces.flatten

namespace Proofs.BodyStream

theorem pull_spec {size : Nat} : ∀ {ps : List Bytes} {o : Out} {buf : Bytes} {e : Bool} {r : Reader},
    pull size o ps buf e = .ok r →
    r.buf ++ r.gen.pieces.flatten = buf ++ ps.flatten ∧ r.gen.out = o ∧
    ((size ≤ r.buf.length ∧ r.eof = e) ∨ (r.eof = true ∧ r.gen.pieces = [])) := by
  intro ps
  induction ps with
  | nil =>
    intro o buf e r h
    cases o <;> simp [pull] at h
    subst h; simp
  | cons d ps ih =>
    intro o buf e r h
    rw [pull] at h
    split at h
    · simp at h; subst h
      rename_i hs
      simp; left; simpa using hs
    · obtain ⟨h1, h2, h3⟩ := ih h
      exact ⟨by simpa using h1, h2, h3⟩

end Proofs.BodyStream

/-- Run a sequence of sized reads; stops at the first exception. -/
def readAll : List Nat → Reader → List Bytes × Reader
  | [], r => ([], r)
  | n :: ns, r => match recvSized n r with
    | .error _ => ([], r)
    | .ok (b, r') => let (bs, r'') := readAll ns r'; (b :: bs, r'')

/-- Reachable readers: once the generator reported its end, it has no pieces left. -/
def Model.BodyStream.Reader.Ok (r : Reader) : Prop := r.eof = true → r.gen.pieces = []

/-- **C11 (one read).** `read(n)` with `n > 0` returns exactly `n` bytes, or — only if the body has ended — everything
that was left, after which `eof()` is true. What it returned is removed from the front of what remains. -/
theorem C11_read {n : Nat} (hn : 0 < n) {r r' : Reader} {b : Bytes} (hok : r.Ok) (h : recvSized n r = .ok (b, r')) :
    r.remaining = b ++ r'.remaining ∧ r'.Ok ∧
    (b.length = n ∨ (b.length < n ∧ r'.isEof = true ∧ r'.remaining = [])) := by
  unfold recvSized at h
  split at h
  · rename_i h0
    simp only [Except.ok.injEq, Prod.mk.injEq] at h
    obtain ⟨rfl, rfl⟩ := h
    rcases h0 with h0 | h0
    · omega
    · refine ⟨rfl, hok, .inr ⟨hn, h0, ?_⟩⟩
      simp [Reader.isEof] at h0
      simp [Reader.remaining, h0.2, hok h0.1]
  · have fin : ∀ q : Reader, q.remaining = r.remaining → q.Ok → (n ≤ q.buf.length ∨ q.eof = true) →
        b = q.buf.take n → r' = { q with buf := q.buf.drop n } →
        r.remaining = b ++ r'.remaining ∧ r'.Ok ∧ (b.length = n ∨ (b.length < n ∧ r'.isEof = true ∧ r'.remaining = [])) := by
      intro q h1 h2 h3 hb hr
      subst hb hr
      refine ⟨?_, h2, ?_⟩
      · rw [← h1]; simp [Reader.remaining]
        rw [← List.append_assoc, List.take_append_drop]
      · rcases h3 with h3 | h3
        · left; simp; omega
        · by_cases hl : n ≤ q.buf.length
          · left; simp; omega
          · right
            have hd : q.buf.drop n = [] := List.drop_eq_nil_of_le (by omega)
            refine ⟨by simp; omega, by simp [Reader.isEof, h3]; omega, by simp [Reader.remaining, hd, h2 h3]⟩
    split at h
    · cases h
    · rename_i q hq
      simp only [Except.ok.injEq, Prod.mk.injEq] at h
      split at hq
      · rename_i hlt
        obtain ⟨p1, p2, p3⟩ := pull_spec hq
        refine fin q p1 ?_ ?_ h.1.symm h.2.symm
        · intro he
          rcases p3 with ⟨p3, p4⟩ | ⟨_, p4⟩
          · rw [he] at p4
            have := hok p4.symm
            rw [this, pull] at hq
            split at hq
            · simp at hq; rw [← hq]
            · cases hq
          · exact p4
        · rcases p3 with ⟨p3, _⟩ | ⟨p3, _⟩
          · exact .inl p3
          · exact .inr p3
      · simp only [Except.ok.injEq] at hq
        subst hq
        refine fin r rfl hok (.inl (by omega)) h.1.symm h.2.symm

/-- **C11 (sequences).** For any body stream and any sequence of sized reads, the results concatenated are a prefix of
the body, followed by exactly what remains; and `eof()` is true only when everything has been returned. -/
theorem C11_partition (pieces : List Bytes) (out : Out) (sizes : List Nat) (hs : ∀ n ∈ sizes, 0 < n) :
    let res := readAll sizes ⟨⟨pieces, out⟩, [], false⟩
    pieces.flatten = res.1.flatten ++ res.2.remaining ∧ (res.2.isEof = true → res.1.flatten = pieces.flatten) := by
  have key : ∀ (sizes : List Nat) (r : Reader), (∀ n ∈ sizes, 0 < n) → r.Ok →
      r.remaining = (readAll sizes r).1.flatten ++ (readAll sizes r).2.remaining ∧ (readAll sizes r).2.Ok := by
    intro sizes
    induction sizes with
    | nil => intro r _ h; simp [readAll, h]
    | cons n ns ih =>
      intro r hs hok
      rw [readAll]
      cases h : recvSized n r with
      | error o => simp [hok]
      | ok q =>
        obtain ⟨b, r'⟩ := q
        obtain ⟨h1, h2, _⟩ := C11_read (hs n (by simp)) hok h
        obtain ⟨h3, h4⟩ := ih r' (fun n h => hs n (by simp [h])) h2
        simp only [List.flatten_cons, List.append_assoc]
        rw [← h3]
        exact ⟨h1, h4⟩
  obtain ⟨h1, h2⟩ := key sizes ⟨⟨pieces, out⟩, [], false⟩ hs (by simp [Reader.Ok])
  intro res
  have h1' : pieces.flatten = res.1.flatten ++ res.2.remaining := by simpa [Reader.remaining] using h1
  refine ⟨h1', fun he => ?_⟩
  have : res.2.remaining = [] := by
    simp only [Reader.isEof, Bool.and_eq_true, beq_iff_eq] at he
    have h3 : res.2.gen.pieces = [] := h2 he.1
    simp [Reader.remaining, he.2, h3]
  rw [this] at h1'; simpa using h1'.symm

/-- **C11 (progress).** A sized read on a body that ends normally always succeeds, and a read that finds `n` bytes
remaining returns `n` bytes. -/
theorem C11_progress {n : Nat} (hn : 0 < n) {r : Reader} (hok : r.Ok) (hd : r.gen.out = .done) :
    ∃ b r', recvSized n r = .ok (b, r') ∧ r'.gen.out = .done ∧ b = r.remaining.take n := by
  have hp : ∀ (ps : List Bytes) (buf : Bytes) (e : Bool), ∃ q, pull n .done ps buf e = .ok q := by
    intro ps
    induction ps with
    | nil => intro buf e; exact ⟨⟨⟨[], .done⟩, buf, true⟩, by simp [pull]⟩
    | cons d ps ih =>
      intro buf e
      rw [pull]
      split
      · exact ⟨_, rfl⟩
      · exact ih _ _
  have hex : ∃ b r', recvSized n r = .ok (b, r') ∧ r'.gen.out = .done := by
    unfold recvSized
    split
    · exact ⟨_, _, rfl, hd⟩
    · split
      · rename_i o ho
        split at ho
        · obtain ⟨q, hq⟩ := hp r.gen.pieces r.buf r.eof
          rw [hd, hq] at ho; cases ho
        · cases ho
      · rename_i q ho
        refine ⟨_, _, rfl, ?_⟩
        split at ho
        · exact (pull_spec ho).2.1.trans hd
        · simp at ho; rw [← ho]; exact hd
  obtain ⟨b, r', h1, h2⟩ := hex
  refine ⟨b, r', h1, h2, ?_⟩
  obtain ⟨k1, _, k3⟩ := C11_read hn hok h1
  rw [k1]
  rcases k3 with k3 | ⟨k3, _, k4⟩
  · rw [← k3]; simp
  · rw [k4, List.append_nil, List.take_of_length_le (by omega)]

example : readAll [2, 3, 4, 1] ⟨⟨[b!"abc", b!"", b!"defg"], .done⟩, [], false⟩ =
    ([b!"ab", b!"cde", b!"fg", []], ⟨⟨[], .done⟩, [], true⟩) := by decide +kernel

/-! ## C12 -/

/-- **C12.** On a fresh request, `body()` returns the concatenation of all pieces of the stream when the stream ends
normally, and calling it again any number of times returns the same bytes without touching the stream (whatever the
queue then contains, e.g. nothing at all). -/
theorem C12_body {pieces : List Bytes} {b : Bytes} {s : BodySt} (h : bodyCall (pieces, .done) {} = (.ok b, s)) :
    b = pieces.flatten ∧ ∀ other, bodyCall other s = (.ok b, s) := by
  simp [bodyCall] at h
  obtain ⟨rfl, rfl⟩ := h
  exact ⟨rfl, fun _ => by simp [bodyCall]⟩

/-- **C12 (end to end).** For a Content-Length request the bytes returned by `body()` are exactly the body. -/
theorem C12_content_length {n maxBody bs : Nat} (hb : 0 < bs) (hn : n ≤ maxBody) (first : Bytes) (segs : List Bytes)
    (hlen : n ≤ (first ++ segs.flatten).length) :
    ∃ s, bodyCall (rawStream n maxBody (upload ⟨some n, maxBody⟩ bs first segs).items) {} =
      (.ok ((first ++ segs.flatten).take n), s) ∧
      ∀ other, bodyCall other s = (.ok ((first ++ segs.flatten).take n), s) := by
  obtain ⟨h1, h2⟩ := C08_exact hb hn first segs hlen
  generalize rawStream n maxBody (upload ⟨some n, maxBody⟩ bs first segs).items = r at h1 h2
  obtain ⟨p, o⟩ := r
  simp only at h1 h2
  subst h2
  refine ⟨_, by simp only [bodyCall]; rw [← h1]; rfl, fun _ => by simp [bodyCall, h1]⟩

/-- **C12 (failure).** A body stream that fails makes `body()` fail; it never returns a partial body. -/
theorem C12_no_partial {pieces : List Bytes} {o : Out} (ho : o ≠ .done) : (bodyCall (pieces, o) {}).1 = .error o := by
  cases o <;> simp_all [bodyCall]

/-- Calls of `body()` one after the other, each with what its run of `stream()` yields. -/
def bodyCalls : List (List Bytes × Out) → BodySt → BodySt
  | [], s => s
  | x :: t, s => bodyCalls t (bodyCall x s).2

/-- **C12 (after a failure).** When `body()` is called again after calls that failed (a timeout, say), what it returns is
everything that all of its runs of the stream have yielded, in order: no byte is lost and none is there twice. Later
calls return the same. -/
theorem C12_retry (fails : List (List Bytes × Out)) (hf : ∀ x ∈ fails, x.2 ≠ .done) (last : List Bytes) :
    (bodyCall (last, .done) (bodyCalls fails {})).1 = .ok ((fails.map (·.1)).flatten.flatten ++ last.flatten) ∧
    ∀ other, (bodyCall other (bodyCalls (fails ++ [(last, .done)]) {})).1 = .ok ((fails.map (·.1)).flatten.flatten ++ last.flatten) := by
  suffices H : ∀ (fails : List (List Bytes × Out)) (s : BodySt), s.eof = false → (∀ x ∈ fails, x.2 ≠ .done) →
      (bodyCall (last, .done) (bodyCalls fails s)).1 = .ok (s.body ++ ((fails.map (·.1)).flatten.flatten ++ last.flatten)) ∧
      ∀ other, (bodyCall other (bodyCalls (fails ++ [(last, .done)]) s)).1 = .ok (s.body ++ ((fails.map (·.1)).flatten.flatten ++ last.flatten)) by
    simpa using H fails {} rfl hf
  intro fails
  induction fails with
  | nil => intro s hs _; simp [bodyCalls, bodyCall, hs]
  | cons x t ih =>
    intro s hs hx
    obtain ⟨p, o⟩ := x
    have ho : o ≠ .done := hx (p, o) (by simp)
    have e : bodyCall (p, o) s = (.error o, ⟨false, s.body ++ p.flatten⟩) := by
      cases o <;> simp_all [bodyCall]
    have ih := ih ⟨false, s.body ++ p.flatten⟩ rfl (fun y hy => hx y (by simp [hy]))
    rw [bodyCalls, List.cons_append, bodyCalls, e]
    refine ⟨by rw [ih.1]; simp, fun other => ?_⟩
    rw [ih.2 other]
    simp

example : ∃ s, bodyCall ([b!"ab", b!"c"], .done) {} = (.ok b!"abc", s) := ⟨_, rfl⟩
example : (bodyCall ([b!"c"], .done) (bodyCalls [([b!"a"], .blocked), ([b!"b"], .blocked)] {})).1 = .ok b!"abc" := rfl

/-! ## C13 -/

/-- **C13 (declared length).** A Content-Length above `client_max_body_size` makes the stream raise PayloadTooLarge
without yielding anything, whatever has arrived. -/
theorem C13_declared {n maxBody : Nat} (h : maxBody < n) (items : List Item) :
    rawStream n maxBody items = ([], .tooLarge) := by
  unfold rawStream; rw [if_pos (by omega)]

/-- **C13 (undeclared length).** Without Content-Length the server keeps reading exactly while fewer than
`client_max_body_size` bytes were received; as soon as the limit is reached it stops reading for good and the connection
is marked for closing.  The overshoot is less than one segment. -/
theorem C13_undeclared {maxBody bs : Nat} (hb : 0 < bs) (first : Bytes) (segs : List Bytes) :
    let u := upload ⟨none, maxBody⟩ bs first segs
    (u.reading = true ↔ u.bodySize < maxBody) ∧ (u.closing = true ↔ maxBody ≤ u.bodySize) ∧
    (∃ k, u.bodySize = (first ++ (segs.take k).flatten).length ∧
      (u.reading = true → k = segs.length) ∧
      ∀ j, j < k → (first ++ (segs.take j).flatten).length < maxBody) := by
  have key : ∀ (segs : List Bytes) (u : Up), (u.reading = decide (u.bodySize < maxBody)) →
      (u.closing = decide (maxBody ≤ u.bodySize)) →
      (receiveAll ⟨none, maxBody⟩ bs segs u).reading = decide ((receiveAll ⟨none, maxBody⟩ bs segs u).bodySize < maxBody) ∧
      (receiveAll ⟨none, maxBody⟩ bs segs u).closing = decide (maxBody ≤ (receiveAll ⟨none, maxBody⟩ bs segs u).bodySize) ∧
      ∃ k, (receiveAll ⟨none, maxBody⟩ bs segs u).bodySize = u.bodySize + ((segs.take k).flatten).length ∧
        ((receiveAll ⟨none, maxBody⟩ bs segs u).reading = true → k = segs.length) ∧
        ∀ j, j < k → u.bodySize + ((segs.take j).flatten).length < maxBody := by
    intro segs
    induction segs with
    | nil => intro u h1 h2; exact ⟨h1, h2, 0, by simp [receiveAll], by simp, by simp⟩
    | cons seg segs ih =>
      intro u h1 h2
      rw [receiveAll]
      by_cases hr : u.reading = true
      · rw [if_pos hr]
        obtain ⟨ps, _, hsz, hcase⟩ := receive_items (c := ⟨none, maxBody⟩) hb seg u
        rcases hcase with ⟨l, e, -⟩ | ⟨-, _, k1, k2⟩
        · cases e
        · have hlt : u.bodySize < maxBody := by rw [h1] at hr; simpa using hr
          obtain ⟨i1, i2, k, i3, i4, i5⟩ := ih (receive ⟨none, maxBody⟩ bs seg u) (by rw [k1, hsz]) (by
            rw [k2, h2, hsz]; simp; omega)
          refine ⟨i1, i2, k + 1, ?_, fun h => by simp [i4 h], ?_⟩
          · rw [i3, hsz]; simp; omega
          · intro j hj
            cases j with
            | zero => simpa using hlt
            | succ j =>
              have := i5 j (by omega)
              rw [hsz] at this; simp at this ⊢; omega
      · rw [if_neg hr]
        exact ⟨h1, h2, 0, by simp, fun h => absurd h hr, by simp⟩
  obtain ⟨ps, _, hsz, hcase⟩ := receive_items (c := ⟨none, maxBody⟩) (bs := 16384) (by omega) first {}
  rcases hcase with ⟨l, e, -⟩ | ⟨-, _, k1, k2⟩
  · cases e
  · obtain ⟨i1, i2, k, i3, i4, i5⟩ := key segs (receive ⟨none, maxBody⟩ 16384 first {}) (by rw [k1, hsz]) (by
      rw [k2, hsz]; simp)
    intro u
    have hu : u = receiveAll ⟨none, maxBody⟩ bs segs (receive ⟨none, maxBody⟩ 16384 first {}) := rfl
    rw [← hu] at i1 i2 i3 i4
    refine ⟨by rw [i1]; simp, by rw [i2]; simp, k, ?_, i4, ?_⟩
    · rw [i3, hsz]; simp
    · intro j hj
      have := i5 j hj
      rw [hsz] at this; simpa using this

/-- **C13 (declared, within limit).** With an acceptable Content-Length no more than one segment beyond it is ever
received and the connection is never marked for closing by the size limit. -/
theorem C13_within {n maxBody bs : Nat} (hb : 0 < bs) (hn : n ≤ maxBody) (first : Bytes) (segs : List Bytes) :
    (upload ⟨some n, maxBody⟩ bs first segs).closing = false := by
  have h0 := clInv_receive (l := n) (maxBody := maxBody) (bs := 16384) (by omega) hn (u := {}) (R := []) first (ps := [])
    rfl rfl rfl rfl
  obtain ⟨R', _, ⟨ps, _, _, h3, _⟩, _⟩ := clInv_all hb hn segs _ _ h0
  exact h3

example : (upload ⟨none, 5⟩ 2 b!"ab" [b!"cd", b!"ef", b!"gh"]).bodySize = 6 ∧
    (upload ⟨none, 5⟩ 2 b!"ab" [b!"cd", b!"ef", b!"gh"]).closing = true := by decide +kernel

/-! ## C14, C49 -/

namespace Proofs.BodyStream

theorem putLoop_spec {bs maxq : Nat} (hb : 0 < bs) : ∀ (fuel : Nat) (data : Bytes) (sched : List Nat) (r : Put),
    data.length ≤ fuel → r.aborted = false → r.queue.length ≤ maxq →
    let r' := putLoop bs maxq fuel data sched r
    (r'.aborted = true ↔ maxq < r'.queue.length) ∧
    (∃ ps, ps <+: piecesAux bs fuel data ∧ r'.taken ++ r'.queue = r.taken ++ r.queue ++ ps.map some ∧
      (r'.aborted = false → ps = piecesAux bs fuel data)) ∧
    (r'.aborted = false → r.delay + data.length ≤ r'.delay) := by
  intro fuel
  induction fuel with
  | zero =>
    intro data sched r hl ha hq
    have : data = [] := List.eq_nil_of_length_eq_zero (by omega)
    subst this
    refine ⟨by simp [putLoop, ha]; omega, ⟨[], by simp, by simp [putLoop], by simp [piecesAux]⟩, by simp [putLoop]⟩
  | succ fuel ih =>
    intro data sched r hl ha hq
    rw [putLoop, piecesAux]
    by_cases hd : data = []
    · simp only [hd, if_true]
      refine ⟨by simp [ha]; omega, ⟨[], by simp, by simp, by simp⟩, by simp⟩
    · simp only [hd, if_false]
      have hpos : 0 < data.length := List.length_pos_iff.2 hd
      by_cases hgt : (r.queue ++ [some (data.take bs)]).length > maxq
      · rw [if_pos hgt]
        refine ⟨by simp only [true_iff]; exact hgt, ⟨[data.take bs], ?_, by simp, by simp⟩, by simp⟩
        exact ⟨_, rfl⟩
      · rw [if_neg hgt]
        have := ih (data.drop bs) sched.tail
          { taken := r.taken ++ (r.queue ++ [some (data.take bs)]).take (sched.headD 0)
            queue := (r.queue ++ [some (data.take bs)]).drop (sched.headD 0)
            delay := r.delay + (data.take bs).length * max (r.queue ++ [some (data.take bs)]).length 1
            aborted := false } (by simp; omega) rfl (by simp only [List.length_drop]; omega)
        obtain ⟨h1, ⟨ps, h2, h3, h4⟩, h5⟩ := this
        refine ⟨h1, ⟨data.take bs :: ps, ?_, ?_, fun h => by rw [h4 h]⟩, fun h => ?_⟩
        · obtain ⟨t, ht⟩ := h2; exact ⟨t, by simp [ht]⟩
        · rw [h3]
          simp only [List.append_assoc, List.append_cancel_left_eq]
          rw [← List.append_assoc, List.take_append_drop]; simp
        · have h6 := h5 h
          simp only at h6
          have : (data.take bs).length * 1 ≤ (data.take bs).length * max (r.queue ++ [some (data.take bs)]).length 1 :=
            Nat.mul_le_mul_left _ (by omega)
          have hl2 : (data.take bs).length + (data.drop bs).length = data.length := by simp; omega
          omega

end Proofs.BodyStream

/-- **C14.** For any data, buffer size ≥ 1, initial queue within the limit and any consumer behaviour: unless the
connection is aborted, the items that went through the queue are the old ones followed by non-empty pieces of at most
`buffer_size` bytes whose concatenation is the data; the connection is aborted exactly when the queue has grown beyond
`max_queue_size`, and even then nothing was reordered, duplicated or skipped (a prefix was transferred). -/
theorem C14_pieces {bs maxq : Nat} (hb : 0 < bs) (data : Bytes) (sched : List Nat) (r : Put) (ha : r.aborted = false)
    (hq : r.queue.length ≤ maxq) :
    let r' := put bs maxq data sched r
    (r'.aborted = true ↔ maxq < r'.queue.length) ∧
    ∃ ps : List Bytes, r'.taken ++ r'.queue = r.taken ++ r.queue ++ ps.map some ∧
      (∀ p ∈ ps, p ≠ [] ∧ p.length ≤ bs) ∧ ps.flatten <+: data ∧ (r'.aborted = false → ps.flatten = data) := by
  obtain ⟨h1, ⟨ps, h2, h3, h4⟩, _⟩ := putLoop_spec hb data.length data sched r (Nat.le_refl _) ha hq
  have hp := pieces_flatten hb data
  refine ⟨h1, ps, h3, fun p hp => pieces_le hb data p (h2.subset hp), ?_, fun h => ?_⟩
  · obtain ⟨t, ht⟩ := h2
    exact ⟨t.flatten, by rw [← List.flatten_append, ht]; exact hp⟩
  · rw [h4 h]; exact hp

/-- **C49.** Whenever data is queued completely, the accumulated sleep is at least `n / rate` seconds for `n` bytes (the
unit of `delay` is `1/rate` seconds), whatever the queue length and the consumer's behaviour. -/
theorem C49_rate {bs maxq : Nat} (hb : 0 < bs) (data : Bytes) (sched : List Nat) (r : Put) (ha : r.aborted = false)
    (hq : r.queue.length ≤ maxq) (h : (put bs maxq data sched r).aborted = false) :
    r.delay + data.length ≤ (put bs maxq data sched r).delay :=
  (putLoop_spec hb data.length data sched r (Nat.le_refl _) ha hq).2.2 h

/-- **C49 (back-pressure).** With a consumer that takes nothing, each further piece waits proportionally to the queue
length: one piece put behind `k` queued items waits `(k+1)·n` units. -/
theorem C49_backpressure {bs maxq : Nat} (data : Bytes) (hd : data ≠ []) (hl : data.length ≤ bs) (r : Put)
    (hq : r.queue.length < maxq) (sched : List Nat) :
    (put bs maxq data sched r).delay = r.delay + data.length * (r.queue.length + 1) := by
  obtain ⟨n, hn⟩ : ∃ n, data.length = n + 1 := ⟨data.length - 1, by have := List.length_pos_iff.2 hd; omega⟩
  unfold put
  rw [hn, putLoop, if_neg hd, List.take_of_length_le hl, List.drop_eq_nil_of_le hl]
  simp only
  rw [if_neg (by simp; omega)]
  have hnil : ∀ (f : Nat) (s : List Nat) (q : Put), putLoop bs maxq f [] s q = q := by
    intro f s q; cases f <;> simp [putLoop]
  rw [hnil]
  simp only [List.length_append, List.length_singleton]
  rw [hn, Nat.max_eq_left (by omega)]

example : put 2 3 b!"abcde" [0, 1, 1] {} =
    { taken := [some b!"ab", some b!"cd"], queue := [some b!"e"], delay := 2 * 1 + 2 * 2 + 1 * 2, aborted := false } := by
  decide +kernel
example : (put 2 1 b!"abcde" [0] {}).aborted = true := by decide +kernel

end Verif
