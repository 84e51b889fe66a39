import Verif.Props.ReadEnd
/-!
# C10, C116: how far a chunked body is read

`stream()` ends a chunked body at the line of its last chunk (http_request.py:225-226). What comes in later pieces stays in `queue[0]`.
-/
namespace Verif
open Verif.Py Verif.Model.Upload Verif.Model.ReadApi Verif.Spec.Body
open Verif.Model.BodyStream (ChunkSt Out chunkBody chunkSize chunkStream recvPieces rawStream)

namespace ChunkEnd
open Proofs.ReadApi Proofs.BodyStream

theorem line_eq {l t w t' : Bytes} (h : l ++ CRLF ++ t = w ++ CRLF ++ t') (hl : ¬ CRLF <:+: l ++ [13]) (hw : (10 : UInt8) ∉ w) : l = w := by
  rw [List.append_assoc, List.append_assoc] at h
  rcases List.append_eq_append_iff.1 h with ⟨a, rfl, e⟩ | ⟨a, rfl, e⟩
  · match a with
    | [] => simp
    | [x] => simp at e
    | x :: y :: a =>
      simp at e
      exact absurd (by rw [← e.2.1]; simp) hw
  · match a with
    | [] => simp
    | [x] => simp at e
    | x :: y :: a =>
      simp at e
      obtain ⟨rfl, rfl, _⟩ := e
      exact absurd ⟨w, a ++ [13], by simp⟩ hl

theorem size_of {line : Bytes} {n : Nat} (h : LineSize line n) : chunkSize line = some n := by
  obtain ⟨num, ext, rfl, h1, h2, h3⟩ := h
  unfold chunkSize
  rw [splitByte_head h1 h2]
  exact h3

theorem complete_line {r p : Bytes} (h : Complete r p) : ∃ line t n, r = line ++ CRLF ++ t ∧ ¬ CRLF <:+: line ++ [13] ∧ chunkSize line = some n := by
  cases h with
  | zero h1 h2 => exact ⟨_, _, _, rfl, h1, size_of h2⟩
  | @chunk line data skip r p' h1 h2 h3 h4 h5 => exact ⟨line, data ++ skip ++ r, _, by simp only [List.append_assoc], h1, size_of h2⟩

/-- A body that ends before the line of its last chunk is not complete. -/
theorem not_complete {size ext : Bytes} (h0 : SizeLine size ext 0) : ∀ (cs : List Chunk), (∀ c ∈ cs, c.Wf) → ∀ (R X p : Bytes), R ++ X = encode cs (size ++ ext ++ CRLF) → X ≠ [] →
    ¬ Complete R p
  | [], _, R, X, p, he, hX, hc => by
    obtain ⟨line, t, n, rfl, h1, h2⟩ := complete_line hc
    have he : line ++ CRLF ++ (t ++ X) = (size ++ ext) ++ CRLF ++ [] := by simpa [encode] using he
    have := line_eq he h1 (sizeLine_lf h0)
    subst this
    simp at he
    exact hX he.2
  | c :: cs, hw, R, X, p, he, hX, hc => by
    have hwf := hw c (by simp)
    have hsz := chunkSize_line hwf.1
    have hlf := sizeLine_lf hwf.1
    rw [encode] at he
    cases hc with
    | @zero line t h1 h2 =>
      have := line_eq (t' := c.data ++ CRLF ++ encode cs (size ++ ext ++ CRLF)) (t := t ++ X) (w := c.size ++ c.ext) (by simpa using he) h1 hlf
      subst this
      rw [size_of h2] at hsz
      have hd := hwf.2
      cases hdd : c.data with
      | nil => exact hd hdd
      | cons _ _ => simp [hdd] at hsz
    | @chunk line data skip r p' h1 h2 h3 h4 h5 =>
      have := line_eq (t' := c.data ++ CRLF ++ encode cs (size ++ ext ++ CRLF)) (t := data ++ skip ++ r ++ X) (w := c.size ++ c.ext) (by simpa using he) h1 hlf
      subst this
      rw [size_of h2] at hsz
      have hlen : data.length = c.data.length := by simpa using hsz
      have he2 : data ++ (skip ++ r ++ X) = c.data ++ (CRLF ++ encode cs (size ++ ext ++ CRLF)) := by simpa using he
      obtain ⟨rfl, he3⟩ := List.append_inj he2 hlen
      obtain ⟨line2, t2, n2, rfl, k1, k2⟩ := complete_line h5
      match skip, h4 with
      | [], _ =>
        have := line_eq (t := t2 ++ X) (w := []) (t' := encode cs (size ++ ext ++ CRLF)) (by simpa using he3) k1 (by simp)
        subst this
        rw [chunkSize_nil] at k2; cases k2
      | [x], _ =>
        simp at he3
        cases line2 with
        | nil => simp at he3
        | cons y l =>
          simp at he3
          rw [he3.2.1, chunkSize_lf] at k2; cases k2
      | [x, y], _ =>
        simp at he3
        exact not_complete h0 cs (fun c hc => hw c (by simp [hc])) _ X p' (by simpa using he3.2.2) hX h5
      | _ :: _ :: _ :: _, h => simp at h

/-! ### What was taken is complete -/

theorem rest_append (a b : List Item) : rest (a ++ b) = rest a ++ rest b := by simp [rest]

theorem inner_taken {g g' : Gen} {s s' : St} {r : Except Exc (Option Bytes)} (h : inner g s = (r, g', s')) :
    ∃ u, s.q = u ++ s'.q ∧ g'.ch = g.ch ∧ g'.over = g.over ∧ g'.raw = g.raw ∧ g'.started = g.started ∧ s'.body = s.body ∧
      rest u = match r with | .ok (some d) => d | _ => [] := by
  unfold inner at h
  split at h
  · cases h; exact ⟨[], by simp, rfl, rfl, rfl, rfl, rfl, rfl⟩
  · split at h
    · rename_i hq; cases h; exact ⟨[], by simp, rfl, rfl, rfl, rfl, rfl, rfl⟩
    · rename_i hq; cases h; exact ⟨[none], by simp [hq], rfl, rfl, rfl, rfl, rfl, rfl⟩
    · rename_i d q hq; cases h; exact ⟨[some d], by simp [hq], rfl, rfl, rfl, rfl, rfl, by simp [rest]⟩

theorem fill_taken {g g' : Gen} {s s' : St} (h : fill g s = (.ok (), g', s')) :
    ∃ u, s.q = u ++ s'.q ∧ g'.ch.unread = g.ch.unread ∧ g'.ch.buf = g.ch.buf ++ rest u ∧ g'.over = g.over ∧ g'.raw = g.raw ∧ g'.started = g.started ∧ s'.body = s.body := by
  unfold fill at h
  split at h
  · cases h; exact ⟨[], by simp, rfl, by simp [rest], rfl, rfl, rfl, rfl⟩
  · split at h
    · cases h
    · rename_i d g1 s1 hi
      cases h
      obtain ⟨u, h1, h2, h3, h4, h5, h6, h7⟩ := inner_taken hi
      exact ⟨u, h1, by simp [h2], by simp only [h2]; rw [h7], h3, h4, h5, h6⟩
    · rename_i g1 s1 hi
      obtain ⟨u, h1, h2, h3, h4, h5, h6, h7⟩ := inner_taken hi
      simp only [Prod.mk.injEq] at h
      obtain ⟨_, rfl, rfl⟩ := h
      exact ⟨u, h1, by rw [h2], by rw [h2, h7]; simp, h3, h4, h5, h6⟩

theorem rem_same {s s' : ChunkSt} (h : s'.unread = s.unread) {R p : Bytes} (hr : Rem s' R p) : Rem s R p := by
  unfold Rem at hr ⊢; rw [h] at hr; exact hr

theorem nextChunk_taken (c : Cfg) : ∀ (fuel : Nat) (g : Gen) (s : St) {r g' s'}, nextChunk c fuel g s = (r, g', s') →
    (∀ y, r = .ok y → ∃ u, s.q = u ++ s'.q ∧ s'.body = s.body ∧ g'.over = g.over ∧ g'.raw = g.raw ∧ g'.started = g.started ∧
      ∀ R p, Rem g'.ch (g'.ch.buf ++ R) p → Rem g.ch (g.ch.buf ++ rest u ++ R) (y ++ p)) ∧
    (r = .error .stop → ∃ u, s.q = u ++ s'.q ∧ s'.body = s.body ∧ Rem g.ch (g.ch.buf ++ rest u) [])
  | 0, _, _, _, _, _, h => by cases h; exact ⟨fun _ h => (by cases h), fun h => (by cases h)⟩
  | fuel + 1, g, s, r, g', s', h => by
    rw [nextChunk] at h
    rcases hf : fill g s with ⟨r1, g1, s1⟩
    rw [hf] at h
    cases r1 with
    | error e =>
      cases h
      refine ⟨fun _ h => (by cases h), fun h => ?_⟩
      cases h
      unfold fill at hf
      split at hf
      · cases hf
      · split at hf
        · rename_i hi; cases hf
          unfold inner at hi
          split at hi
          · cases hi
          · split at hi <;> cases hi
        · cases hf
        · simp only [Prod.mk.injEq] at hf
          obtain ⟨hf, _⟩ := hf
          split at hf <;> cases hf
    | ok v =>
      obtain ⟨u, f1, f2, f3, f4, f5, f6, f7⟩ := fill_taken hf
      dsimp only at h
      rcases hb : chunkBody c.bs g1.ch with ⟨y, k⟩
      rw [hb] at h
      have hy1 := (chunkBody_yields hb).1
      cases k with
      | bad => cases y <;> (cases h; exact ⟨fun _ h => (by cases h), fun h => (by cases h)⟩)
      | break_ =>
        have hs := chunkBody_sound hb []
        have : ∃ u, s.q = u ++ s1.q ∧ s1.body = s.body ∧ Rem g.ch (g.ch.buf ++ rest u) [] :=
          ⟨u, f1, f7, by rw [← f3]; exact rem_same f2 (by simpa using hs.2)⟩
        cases y <;> (cases h; exact ⟨fun _ h => (by cases h), fun _ => this⟩)
      | cont ch =>
        have hs := fun R => chunkBody_sound hb R
        dsimp only at hs
        cases y with
        | cons x y =>
          cases y with
          | cons _ _ => simp at hy1
          | nil =>
            cases h
            refine ⟨fun y hy => ?_, fun h => (by cases h)⟩
            cases hy
            refine ⟨u, f1, f7, f4, f5, f6, fun R p hr => ?_⟩
            have := hs R p hr
            rw [← f3]
            simpa using rem_same f2 this
        | nil =>
          obtain ⟨i1, i2⟩ := nextChunk_taken c fuel { g1 with ch } s1 h
          refine ⟨fun y hy => ?_, fun hy => ?_⟩
          · obtain ⟨u2, a1, a2, a3, a4, a5, a6⟩ := i1 y hy
            refine ⟨u ++ u2, by rw [f1, a1, List.append_assoc], a2.trans f7, a3.trans f4, a4.trans f5, a5.trans f6, fun R p hr => ?_⟩
            have := hs (rest u2 ++ R) _ (by simpa using a6 R p hr)
            rw [rest_append, ← List.append_assoc, ← f3]
            simpa using rem_same f2 this
          · obtain ⟨u2, a1, a2, a3⟩ := i2 hy
            refine ⟨u ++ u2, by rw [f1, a1, List.append_assoc], a2.trans f7, ?_⟩
            have := hs (rest u2) _ a3
            rw [rest_append, ← List.append_assoc, ← f3]
            simpa using rem_same f2 this

theorem drive_taken {c : Cfg} (hc : c.chunked = true) : ∀ (fuel : Nat) (g : Gen) (s : St) {s'}, drive c fuel g s = (.ok (), s') → g.over = false → g.raw = false → (s.eof = false ∨ g.started = true) →
    ∃ u y, s.q = u ++ s'.q ∧ s'.body = s.body ++ y ∧ Rem g.ch (g.ch.buf ++ rest u) y
  | 0, _, _, _, h, _, _, _ => by cases h
  | fuel + 1, g, s, s', h, ho, hr, hs => by
    rw [drive] at h
    rcases hn : next c g s with ⟨r1, g1, s1⟩
    have hnx : nextChunk c (bound g s) { g with started := true } s = (r1, g1, s1) := by
      unfold next at hn
      rwa [if_neg (by simp [ho]), if_neg (by rcases hs with hs | hs <;> simp [hs]), if_pos (by simp [hr, hc])] at hn
    obtain ⟨n1, n2⟩ := nextChunk_taken c _ _ _ hnx
    rw [hn] at h
    cases r1 with
    | ok d =>
      obtain ⟨u, a1, a2, a3, a4, a5, a6⟩ := n1 d rfl
      obtain ⟨u2, y, b1, b2, b3⟩ := drive_taken hc fuel g1 { s1 with body := s1.body ++ d } h (a3.trans ho) (a4.trans hr) (.inr a5)
      refine ⟨u ++ u2, d ++ y, by rw [a1, List.append_assoc]; exact congrArg _ b1, by rw [b2]; dsimp only; rw [a2, List.append_assoc], ?_⟩
      rw [rest_append, ← List.append_assoc]
      exact a6 _ _ b3
    | error e =>
      cases e <;> first
        | (cases h; obtain ⟨u, a1, a2, a3⟩ := n2 rfl; exact ⟨u, [], a1, by simp [a2], a3⟩)
        | cases h

/-! ### What comes later does not matter -/

/-- The queue with more behind it. -/
def app (s : St) (t : List Item) : St := { s with q := s.q ++ t }

theorem inner_app {g g' : Gen} {s s' : St} {r : Except Exc (Option Bytes)} (t : List Item) (h : inner g s = (r, g', s')) (hr : r ≠ .error .timeout) :
    inner g (app s t) = (r, g', app s' t) := by
  unfold inner at h ⊢
  split at h
  · rename_i he; cases h; rw [if_pos he]
  · rename_i he
    rw [if_neg he]
    split at h
    · cases h; exact absurd rfl hr
    · rename_i q hq; cases h; simp only [app, hq, List.cons_append]
    · rename_i d q hq; cases h; simp only [app, hq, List.cons_append]

theorem fill_app {g g' : Gen} {s s' : St} {r : Except Exc Unit} (t : List Item) (h : fill g s = (r, g', s')) (hr : r ≠ .error .timeout) :
    fill g (app s t) = (r, g', app s' t) := by
  unfold fill at h ⊢
  split at h
  · rename_i hp; cases h; rw [if_pos hp]
  · rename_i hp
    rw [if_neg hp]
    rcases hi : inner g s with ⟨r1, g1, s1⟩
    rw [hi] at h
    cases r1 with
    | error e =>
      cases h
      rw [inner_app t hi (fun h => hr (by cases h; rfl))]
    | ok o =>
      rw [inner_app t hi (by simp)]
      cases o <;> (cases h; rfl)

theorem nextChunk_app (c : Cfg) (t : List Item) : ∀ (f : Nat) (g : Gen) (s : St) {r g' s'}, nextChunk c f g s = (r, g', s') → r ≠ .error .timeout → r ≠ .error .fuel →
    ∀ f', f ≤ f' → nextChunk c f' g (app s t) = (r, g', app s' t)
  | 0, _, _, _, _, _, h, _, hr, _, _ => by cases h; exact absurd rfl hr
  | f + 1, g, s, r, g', s', h, ht, hr, f', hf' => by
    obtain ⟨k, rfl⟩ : ∃ k, f' = k + 1 := ⟨f' - 1, by omega⟩
    rw [nextChunk] at h ⊢
    rcases hf : fill g s with ⟨r1, g1, s1⟩
    rw [hf] at h
    cases r1 with
    | error e =>
      cases h
      rw [fill_app t hf (fun h => ht (by cases h; rfl))]
    | ok v =>
      rw [fill_app t hf (by simp)]
      dsimp only at h ⊢
      rcases hb : chunkBody c.bs g1.ch with ⟨y, k'⟩
      rw [hb] at h
      cases k' with
      | bad => cases y <;> (cases h; rfl)
      | break_ => cases y <;> (cases h; rfl)
      | cont ch =>
        cases y with
        | cons x y => cases h; rfl
        | nil => exact nextChunk_app c t f { g1 with ch } s1 h ht hr k (by omega)

theorem bound_app (g : Gen) (s : St) (t : List Item) : bound g s ≤ bound g (app s t) := by
  simp only [bound, app, List.map_append, List.sum_append]; omega

theorem drive_app {c : Cfg} (hc : c.chunked = true) (t : List Item) : ∀ (f : Nat) (g : Gen) (s : St) {s'}, drive c f g s = (.ok (), s') → g.over = false → g.raw = false → (s.eof = false ∨ g.started = true) →
    ∀ f', f ≤ f' → drive c f' g (app s t) = (.ok (), app s' t)
  | 0, _, _, _, h, _, _, _, _, _ => by cases h
  | f + 1, g, s, s', h, ho, hr, hs, f', hf' => by
    obtain ⟨k, rfl⟩ : ∃ k, f' = k + 1 := ⟨f' - 1, by omega⟩
    rw [drive] at h ⊢
    rcases hn : next c g s with ⟨r1, g1, s1⟩
    have hnx : ∀ s, (s.eof = false ∨ g.started = true) → next c g s = nextChunk c (bound g s) { g with started := true } s := fun s hs => by
      unfold next
      rw [if_neg (by simp [ho]), if_neg (by rcases hs with hs | hs <;> simp [hs]), if_pos (by simp [hr, hc])]
    have hn2 := hn
    rw [hnx s hs] at hn2
    have key : r1 ≠ .error .timeout → r1 ≠ .error .fuel → next c g (app s t) = (r1, g1, app s1 t) := fun h1 h2 => by
      rw [hnx (app s t) hs]
      exact nextChunk_app c t _ _ _ hn2 h1 h2 _ (bound_app g s t)
    rw [hn] at h
    cases r1 with
    | ok d =>
      obtain ⟨u, _, _, a3, a4, a5, _⟩ := (nextChunk_taken c _ _ _ hn2).1 d rfl
      rw [key (by simp) (by simp)]
      exact drive_app hc t f g1 { s1 with body := s1.body ++ d } h (a3.trans ho) (a4.trans hr) (.inr a5) k (by omega)
    | error e =>
      cases e <;> first
        | (cases h; rw [key (by simp) (by simp)])
        | cases h

/-! ### Segments -/

theorem exists_split : ∀ (segs : List Bytes) (n : Nat), 0 < n → n ≤ segs.flatten.length → ∃ a x b, segs = a ++ x :: b ∧ a.flatten.length < n ∧ n ≤ (a ++ [x]).flatten.length
  | [], _, h, h' => by simp at h'; omega
  | d :: segs, n, h, h' => by
    by_cases hd : n ≤ d.length
    · exact ⟨[], d, segs, rfl, by simpa using h, by simpa using hd⟩
    · obtain ⟨a, x, b, h1, h2, h3⟩ := exists_split segs (n - d.length) (by omega) (by rw [List.flatten_cons, List.length_append] at h'; omega)
      refine ⟨d :: a, x, b, by rw [h1]; rfl, ?_, ?_⟩
      · rw [List.flatten_cons, List.length_append]; omega
      · rw [List.cons_append, List.flatten_cons, List.length_append]; omega

theorem encode_rest (rest : Bytes) : ∀ (cs : List Chunk) (last : Bytes), encode cs (last ++ rest) = encode cs last ++ rest
  | [], _ => rfl
  | c :: cs, last => by simp [encode, encode_rest rest cs last]

theorem rest_some (l : List Bytes) : rest (l.map some) = l.flatten := by simp [rest, Function.comp_def]

end ChunkEnd

/-- **C10 (cut short).** Of a well-formed chunked body everything before the end of the last chunk's line is not enough, however it is cut into
pieces: the stream never ends normally, and with the end of input it ends with BadRequest. -/
theorem C10_cut {size ext : Bytes} (h0 : SizeLine size ext 0) {cs : List Chunk} (hcs : ∀ c ∈ cs, c.Wf) {segs : List Bytes} {X : Bytes} (hX : X ≠ [])
    (he : segs.flatten ++ X = encode cs (size ++ ext ++ CRLF)) (bs : Nat) :
    (chunkStream bs (segs.map some)).2 ≠ .done ∧ (chunkStream bs (segs.map some ++ [none])).2 = .badRequest := by
  have hn : ∀ p, ¬ Complete segs.flatten p := fun p => ChunkEnd.not_complete h0 cs hcs _ X p he hX
  have e1 : (recvPieces (segs.map some)).1 = segs := by
    have := Proofs.BodyStream.recvPieces_map segs []
    rw [List.append_nil] at this
    rw [this]; simp [recvPieces]
  have e2 : (recvPieces (segs.map some ++ [none])).1 = segs := by rw [Proofs.BodyStream.recvPieces_map]; simp [recvPieces]
  refine ⟨fun h => ?_, C10_truncated (by simp) (by rw [e2]; exact hn)⟩
  have := C10_done_complete (ys := (chunkStream bs (segs.map some)).1) (Prod.ext rfl h)
  rw [e1] at this
  exact hn _ this

/-- **C116 (chunked, what is taken).** When `body()` of a chunked request returns, what it has taken from the queue is complete, and it is all
that it returns. -/
theorem C116_taken {c : Cfg} (hc : c.chunked = true) {q : List Item} {b : Bytes} {s : St} (h : call c { q } (.body false) = (.ok b, s)) :
    ∃ u, q = u ++ s.q ∧ Complete (Proofs.ReadApi.rest u) b := by
  simp only [call] at h
  rcases hd : drive c (bound {} { q }) { raw := false } { q } with ⟨r, s1⟩
  rw [hd] at h
  cases r with
  | error e => cases h
  | ok v =>
    cases h
    obtain ⟨u, y, h1, h2, h3⟩ := ChunkEnd.drive_taken hc _ _ _ hd rfl rfl (.inl rfl)
    refine ⟨u, h1, ?_⟩
    rw [h2]
    simpa [Proofs.BodyStream.Rem] using h3

/-- **C116 (chunked, exact).** A well-formed chunked body in any segments (none of which ends behind the data of a chunk, C09), then whatever:
`body()` returns the data of the chunks, having taken the segments up to the one with the end of the last chunk's line, and leaves all others
in the queue. -/
theorem C116_chunked {c : Cfg} (hc : c.chunked = true) {cs : List Chunk} {size ext rest : Bytes} (h0 : SizeLine size ext 0) (h0l : size.length + ext.length + 1 ≤ 4 * c.bs)
    (hcs : ∀ k ∈ cs, k.Wf ∧ k.size.length + k.ext.length + 1 ≤ 4 * c.bs) {segs : List Bytes} (hsegs : segs.flatten = encode cs (lastChunk size ext rest))
    (hsafe : SafeCuts cs (lastChunk size ext rest) segs) (t : List Item) :
    ∃ a x b s, segs = a ++ x :: b ∧ a.flatten.length < (encode cs (size ++ ext ++ CRLF)).length ∧ (encode cs (size ++ ext ++ CRLF)).length ≤ (a ++ [x]).flatten.length ∧
      call c { q := segs.map some ++ t } (.body false) = (.ok (payload cs), s) ∧ s.q = b.map some ++ t := by
  have hE : encode cs (lastChunk size ext rest) = encode cs (size ++ ext ++ CRLF) ++ rest := ChunkEnd.encode_rest rest cs _
  have hpos : 0 < (encode cs (size ++ ext ++ CRLF)).length := by
    cases cs with
    | nil => simp only [encode, List.length_append, List.length_cons]; omega
    | cons k cs => simp only [encode, List.length_append, List.length_cons]; omega
  obtain ⟨a, x, b, rfl, ha, hx⟩ := ChunkEnd.exists_split segs _ hpos (by rw [hsegs, hE]; simp)
  have hax : (a ++ x :: b).flatten = (a ++ [x]).flatten ++ b.flatten := by simp
  rw [hE, hax] at hsegs
  obtain ⟨rest1, hr1⟩ : ∃ r, (a ++ [x]).flatten = encode cs (size ++ ext ++ CRLF) ++ r := by
    rcases List.append_eq_append_iff.1 hsegs with ⟨z, h1, _⟩ | ⟨z, h1, _⟩
    · refine ⟨[], ?_⟩
      have := congrArg List.length h1
      rw [List.length_append] at this
      have : z = [] := List.eq_nil_of_length_eq_zero (by omega)
      simpa [this] using h1.symm
    · exact ⟨z, h1⟩
  have hr2 : rest1 ++ b.flatten = rest := by
    rw [hr1, List.append_assoc] at hsegs
    exact List.append_cancel_left hsegs
  have hE1 : encode cs (lastChunk size ext rest1) = (a ++ [x]).flatten := by rw [hr1]; exact ChunkEnd.encode_rest rest1 cs _
  have hsafe1 : SafeCuts cs (lastChunk size ext rest1) (a ++ [x]) := by
    intro a1 b1 hab pre k post hk
    have key : ∀ l, encode post (lastChunk size ext rest) = encode post (lastChunk size ext rest1) ++ l ↔ l = b.flatten := fun l => by
      have e1 : encode post (lastChunk size ext rest) = encode post (size ++ ext ++ CRLF) ++ rest := ChunkEnd.encode_rest rest post _
      have e2 : encode post (lastChunk size ext rest1) = encode post (size ++ ext ++ CRLF) ++ rest1 := ChunkEnd.encode_rest rest1 post _
      rw [e1, e2, ← hr2, List.append_assoc]
      simp [eq_comm]
    have := hsafe a1 (b1 ++ b) (by rw [← List.append_assoc, ← hab]; simp) pre k post hk
    rw [(key _).2 rfl, List.flatten_append] at this
    refine ⟨fun h => this.1 (by rw [h]; simp), fun h => this.2 (by rw [h]; simp)⟩
  have hdec := C09_decode_partial h0 h0l hcs (a ++ [x]) hE1.symm hsafe1
  have hcall := C113_body c ((a ++ [x]).map some) false
  rw [show streamOf c false ((a ++ [x]).map some) = chunkStream c.bs ((a ++ [x]).map some) by simp [streamOf, hc], if_pos hdec.2, hdec.1] at hcall
  rcases hc1 : call c { q := (a ++ [x]).map some } (.body false) with ⟨r, s1⟩
  rw [hc1] at hcall
  dsimp only at hcall
  subst hcall
  have hq : s1.q = [] := by
    obtain ⟨u, h1, h2⟩ := C116_taken hc hc1
    rcases List.eq_nil_or_concat s1.q with h | ⟨z, y, h⟩
    · exact h
    · exfalso
      rw [h, List.concat_eq_append, List.map_append, List.map_singleton, ← List.append_assoc] at h1
      have h3 := (List.append_inj' h1 rfl).1
      have : Proofs.ReadApi.rest u ++ Proofs.ReadApi.rest z = a.flatten := by rw [← ChunkEnd.rest_append, ← h3, ChunkEnd.rest_some]
      obtain ⟨X, hX⟩ : ∃ X, a.flatten ++ X = encode cs (size ++ ext ++ CRLF) := by
        rw [List.flatten_append] at hr1
        rcases List.append_eq_append_iff.1 hr1 with ⟨w, e1, _⟩ | ⟨w, e1, _⟩
        · exact ⟨w, e1.symm⟩
        · have := congrArg List.length e1
          rw [List.length_append] at this; omega
      refine ChunkEnd.not_complete h0 cs (fun k hk => (hcs k hk).1) _ (Proofs.ReadApi.rest z ++ X) _ (by rw [← List.append_assoc, this, hX]) (fun hn => ?_) h2
      rw [(List.append_eq_nil_iff.1 hn).2, List.append_nil] at hX
      rw [hX] at ha; omega
  refine ⟨a, x, b, ChunkEnd.app s1 (b.map some ++ t), rfl, ha, hx, ?_, by simp [ChunkEnd.app, hq]⟩
  simp only [call] at hc1 ⊢
  rcases hd : drive c (bound {} { q := (a ++ [x]).map some }) { raw := false } { q := (a ++ [x]).map some } with ⟨r, s2⟩
  rw [hd] at hc1
  cases r with
  | error e => cases hc1
  | ok v =>
    have hda := ChunkEnd.drive_app hc (b.map some ++ t) _ _ _ hd rfl rfl (.inl rfl) (bound {} { q := (a ++ x :: b).map some ++ t }) (by
      have := ChunkEnd.bound_app {} { q := (a ++ [x]).map some } (b.map some ++ t)
      simpa [ChunkEnd.app] using this)
    rw [show ChunkEnd.app { q := (a ++ [x]).map some } (b.map some ++ t) = { q := (a ++ x :: b).map some ++ t } by simp [ChunkEnd.app]] at hda
    rw [hda]
    simp only [Prod.mk.injEq, Except.ok.injEq] at hc1
    obtain ⟨e1, rfl⟩ := hc1
    simp only [ChunkEnd.app, e1]

/-- **C116 (chunked, when nothing is left).** Nothing of the body is left exactly if no segment begins behind the line of the last chunk. -/
theorem C116_chunked_iff {c : Cfg} (hc : c.chunked = true) {cs : List Chunk} {size ext rest : Bytes} (h0 : SizeLine size ext 0) (h0l : size.length + ext.length + 1 ≤ 4 * c.bs)
    (hcs : ∀ k ∈ cs, k.Wf ∧ k.size.length + k.ext.length + 1 ≤ 4 * c.bs) {segs : List Bytes} (hsegs : segs.flatten = encode cs (lastChunk size ext rest))
    (hsafe : SafeCuts cs (lastChunk size ext rest) segs) (t : List Item) :
    (call c { q := segs.map some ++ t } (.body false)).2.q = t ↔ segs.dropLast.flatten.length < (encode cs (size ++ ext ++ CRLF)).length := by
  obtain ⟨a, x, b, s, rfl, h1, h2, h3, h4⟩ := C116_chunked hc h0 h0l hcs hsegs hsafe t
  rw [h3, h4]
  rcases List.eq_nil_or_concat b with rfl | ⟨b', y, rfl⟩
  · simp only [List.map_nil, List.nil_append, true_iff, List.dropLast_concat]
    exact h1
  · constructor
    · intro h
      have := congrArg List.length h
      simp only [List.length_append, List.length_map, List.concat_eq_append, List.length_cons, List.length_nil] at this
      omega
    · intro h
      rw [List.concat_eq_append, show a ++ x :: (b' ++ [y]) = (a ++ x :: b') ++ [y] by simp, List.dropLast_concat, show a ++ x :: b' = (a ++ [x]) ++ b' by simp,
        List.flatten_append, List.length_append] at h
      omega

/-- **C116 (chunked, refutation in general).** What is left stands before the body of the next request: if that one has a Content-Length, then its
handler reads as many bytes, beginning with those left from the body before. -/
theorem C116_next {left ps : List Bytes} {n maxBody : Nat} (hm : n ≤ maxBody) (hl : ps.flatten.length = n) :
    (rawStream n maxBody (left.map some ++ (ps.map some ++ [none]))).1.flatten = (left.flatten ++ ps.flatten).take n := by
  unfold rawStream
  rw [if_neg (by omega), show left.map some ++ (ps.map some ++ [none]) = (left ++ ps).map some ++ [(none : Item)] by simp, Proofs.BodyStream.recvPieces_map]
  simp only [recvPieces, List.append_nil]
  have := Proofs.BodyStream.rawLoop_flatten n (left ++ ps) 0
  rw [this]
  simp

/-! ## Cases -/

/-- `0\r\n` and the empty line behind it in two segments: the empty line is left, and gets into the next body. -/
example : (call { chunked := true } { q := [some b!"3\r\nabc\r\n0\r\n", some b!"\r\n"] } (.body false)).1 = .ok b!"abc" ∧
    (call { chunked := true } { q := [some b!"3\r\nabc\r\n0\r\n", some b!"\r\n"] } (.body false)).2.q = [some b!"\r\n"] ∧
    (rawStream 5 100 ([some b!"\r\n"] ++ [some b!"hello", none])).1.flatten = b!"\r\nhel" := ⟨rfl, rfl, by decide +kernel⟩
/-- In one segment, or cut within the line: nothing is left. -/
example : (call { chunked := true } { q := [some b!"3\r\nabc\r\n0", some b!"\r\n\r\n"] } (.body false)).2.q = [] := rfl
/-- The hypotheses of `C116_chunked` are met by the first of these. -/
example : SizeLine b!"0" [] 0 ∧ (⟨b!"3", [], b!"abc"⟩ : Chunk).Wf ∧ [b!"3\r\nabc\r\n0\r\n", b!"\r\n"].flatten = encode [⟨b!"3", [], b!"abc"⟩] (lastChunk b!"0" [] b!"\r\n") := by
  refine ⟨⟨by simp, by simp [isHex], rfl, by simp, .inl rfl⟩, ⟨⟨by simp, by simp [isHex], rfl, by simp, .inl rfl⟩, by simp⟩, by decide⟩
/-- Sized reads of all the data, with the last chunk in a segment of its own: it is left, and the next chunked request has an empty body. -/
example : (calls { chunked := true } { q := [some b!"3\r\nabc\r\n", some b!"0\r\n\r\n"] } (ReadApi.sized false [3])).1 = [.ok b!"abc"] ∧
    (calls { chunked := true } { q := [some b!"3\r\nabc\r\n", some b!"0\r\n\r\n"] } (ReadApi.sized false [3])).2.q = [some b!"0\r\n\r\n"] ∧
    (call { chunked := true } { q := [some b!"0\r\n\r\n", some b!"3\r\nxyz\r\n0\r\n\r\n"] } (.body false)).1 = .ok [] := ⟨rfl, rfl, rfl⟩

end Verif
