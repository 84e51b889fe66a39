import Verif.Model.ReadApi
import Verif.Proofs.BodyStream
/-!
# Lemmas about the calls by which a handler reads its body
-/
namespace Verif.Proofs.ReadApi
open Verif.Py Verif.Model.Upload Verif.Model.ReadApi
open Verif.Model.BodyStream (ChunkSt Ctl chunkBody recvPieces rawLoop rawStream chunkLoop chunkStream fetch chunkFuel Out)
open Verif.Proofs.BodyStream hiding measure

/-- The bytes in a queue. -/
def rest (q : List Item) : Bytes := (q.map (·.getD [])).flatten

/-! ## The loops end -/

def weight (g : Gen) (q : List Item) : Nat := BodyStream.measure g.ch (q.map (·.getD []))
def GOk (g : Gen) : Prop := g.ch.paused = true → g.ch.unread = 0

/-- What a generator leaves as it is. -/
structure Frame (s s' : St) : Prop where
  body : s'.body = s.body
  buf : s'.buf = s.buf
  inst : s'.inst = s.inst

theorem Frame.refl (s : St) : Frame s s := ⟨rfl, rfl, rfl⟩
theorem Frame.trans {a b c : St} (h : Frame a b) (h' : Frame b c) : Frame a c := ⟨h'.body.trans h.body, h'.buf.trans h.buf, h'.inst.trans h.inst⟩

theorem inner_frame {g g' : Gen} {s s' : St} {r : Except Exc (Option Bytes)} (h : inner g s = (r, g', s')) :
    Frame s s' ∧ g'.ch = g.ch ∧ ((∃ d, r = .ok (some d) ∧ s.q = some d :: s'.q ∧ g' = g ∧ s'.consumed = s.consumed + d.length) ∨
      ((r = .ok none ∨ r = .error .timeout) ∧ rest s'.q = rest s.q ∧ s'.consumed = s.consumed ∧ s'.q.length ≤ s.q.length ∧ weight g' s'.q ≤ weight g s.q)) ∧ s'.eof = s.eof := by
  unfold inner at h
  split at h
  · cases h
    exact ⟨.refl _, rfl, .inr ⟨.inl rfl, rfl, rfl, Nat.le_refl _, Nat.le_refl _⟩, rfl⟩
  · split at h
    · cases h
      exact ⟨.refl _, rfl, .inr ⟨.inr rfl, rfl, rfl, Nat.le_refl _, Nat.le_refl _⟩, rfl⟩
    · rename_i q hq
      cases h
      refine ⟨⟨rfl, rfl, rfl⟩, rfl, .inr ⟨.inl rfl, by rw [hq]; rfl, rfl, by rw [hq]; simp, ?_⟩, rfl⟩
      rw [hq]; simp [weight, BodyStream.measure]
    · rename_i d q hq
      cases h
      exact ⟨⟨rfl, rfl, rfl⟩, rfl, .inl ⟨d, rfl, hq, rfl, rfl⟩, rfl⟩

/-- One fill and one pass of the chunked branch. -/
theorem pass_less {bs : Nat} {g g' : Gen} {s s' : St} {ch : ChunkSt} {y : List Bytes} (hg : GOk g) (h : fill g s = (.ok (), g', s')) (hb : chunkBody bs g'.ch = (y, .cont ch)) :
    Frame s s' ∧ GOk { g' with ch } ∧ weight { g' with ch } s'.q < weight g s.q := by
  unfold fill at h
  split at h
  · rename_i hpa
    cases h
    refine ⟨.refl _, (chunkBody_cont hb hg).1, ?_⟩
    unfold weight BodyStream.measure
    rw [hpa]
    dsimp only
    rcases chunkBody_unpaused_none hb (hg hpa) with h | ⟨h1, h2⟩
    · split <;> simp <;> omega
    · rw [h2]; simp; omega
  · rename_i hpa
    split at h
    · cases h
    · rename_i d g1 s1 hi
      obtain ⟨hf, hch, hc, _⟩ := inner_frame hi
      cases h
      rcases hc with ⟨d', e1, e2, e3, _⟩ | ⟨e | e, _⟩
      · cases e1
        subst e3
        have hp' : ({ g1.ch with buf := g1.ch.buf ++ d } : ChunkSt).paused = true → ({ g1.ch with buf := g1.ch.buf ++ d } : ChunkSt).unread = 0 := hg
        refine ⟨hf, (chunkBody_cont hb hp').1, ?_⟩
        have := (chunkBody_cont hb hp').2
        unfold weight BodyStream.measure
        simp only [Bool.not_eq_true] at hpa
        rw [e2, hpa]
        simp only [List.length_append, List.map_cons, List.sum_cons, Option.getD_some] at this ⊢
        rcases this with h | ⟨h1, h2⟩ | ⟨h1, h2, _⟩
        · split <;> simp <;> omega
        · rw [h2]; simp; omega
        · rw [h2]; simp; split <;> omega
      · cases e
      · cases e
    · rename_i g1 s1 hi
      obtain ⟨hf, hch, hc, _⟩ := inner_frame hi
      split at h
      · rename_i hcr
        cases h
        rcases hc with ⟨d', e1, _⟩ | ⟨_, _, _, _, hw⟩
        · cases e1
        · refine ⟨hf, (chunkBody_cont hb (by rw [hch]; exact hg)).1, Nat.lt_of_lt_of_le ?_ hw⟩
          have := chunkBody_crlf hb hcr
          unfold weight BodyStream.measure
          dsimp only
          split <;> omega
      · cases h

theorem fill_frame {g g' : Gen} {s s' : St} {r : Except Exc Unit} (h : fill g s = (r, g', s')) : Frame s s' ∧ (GOk g → GOk g') ∧ r ≠ .error .fuel := by
  unfold fill at h
  split at h
  · cases h; exact ⟨.refl _, id, by simp⟩
  · split at h
    · rename_i e g1 s1 hi
      obtain ⟨hf, hch, hc, _⟩ := inner_frame hi
      cases h
      refine ⟨hf, fun hg => by unfold GOk; rw [hch]; exact hg, ?_⟩
      rcases hc with ⟨_, e1, _⟩ | ⟨e1 | e1, _⟩ <;> cases e1
      simp
    · rename_i d g1 s1 hi
      obtain ⟨hf, hch, hc, _⟩ := inner_frame hi
      cases h
      exact ⟨hf, fun hg => (by show g1.ch.paused = true → g1.ch.unread = 0; rw [hch]; exact hg), by simp⟩
    · rename_i g1 s1 hi
      obtain ⟨hf, hch, hc, _⟩ := inner_frame hi
      cases h
      refine ⟨hf, fun hg => by unfold GOk; rw [hch]; exact hg, ?_⟩
      split <;> simp

theorem nextChunk_ends (c : Cfg) : ∀ (fuel : Nat) (g : Gen) (s : St), GOk g → weight g s.q < fuel → ∀ {r g' s'}, nextChunk c fuel g s = (r, g', s') →
    r ≠ .error .fuel ∧ GOk g' ∧ (∀ y, r = .ok y → weight g' s'.q < weight g s.q) ∧ Frame s s'
  | 0, _, _, _, hw, _, _, _, _ => by omega
  | fuel + 1, g, s, hg, hw, r, g', s', h => by
    rw [nextChunk] at h
    rcases hf : fill g s with ⟨r1, g1, s1⟩
    rw [hf] at h
    obtain ⟨f1, f2, f3⟩ := fill_frame hf
    cases r1 with
    | error e =>
      cases h
      exact ⟨fun he => f3 (by cases he; rfl), f2 hg, fun y hy => (by cases hy), f1⟩
    | ok u =>
      dsimp only at h
      rcases hb : chunkBody c.bs g1.ch with ⟨y, k⟩
      rw [hb] at h
      cases k with
      | break_ =>
        cases y <;> (cases h; exact ⟨by simp, f2 hg, fun y hy => (by cases hy), ⟨f1.body, f1.buf, f1.inst⟩⟩)
      | bad =>
        cases y <;> (cases h; exact ⟨by simp, f2 hg, fun y hy => (by cases hy), f1⟩)
      | cont ch =>
        obtain ⟨p1, p2, p3⟩ := pass_less hg hf hb
        cases y with
        | nil =>
          obtain ⟨a1, a2, a3, a4⟩ := nextChunk_ends c fuel { g1 with ch } s1 p2 (by omega) h
          exact ⟨a1, a2, fun y hy => Nat.lt_trans (a3 y hy) p3, p1.trans a4⟩
        | cons x y =>
          cases h
          exact ⟨by simp, p2, fun _ _ => p3, p1⟩

theorem weight_bound (g : Gen) (s : St) : weight g s.q + 1 < bound g s := by
  unfold weight BodyStream.measure bound
  rw [List.map_map]
  show ((s.q.map (fun x => 2 * (x.getD []).length + 2)).sum + _ + _) + 1 < _
  split <;> omega

theorem next_ends (c : Cfg) {g g' : Gen} {s s' : St} {r : Except Exc Bytes} (hg : GOk g) (h : next c g s = (r, g', s')) :
    r ≠ .error .fuel ∧ GOk g' ∧ (∀ y, r = .ok y → weight g' s'.q < weight g s.q) ∧ Frame s s' := by
  unfold next at h
  split at h
  · cases h; exact ⟨by simp, hg, fun y hy => (by cases hy), .refl _⟩
  · split at h
    · cases h; exact ⟨by simp, hg, fun y hy => (by cases hy), .refl _⟩
    · split at h
      · exact nextChunk_ends c _ { g with started := true } s hg (by have := weight_bound g s; unfold weight at this ⊢; dsimp only; omega) h
      · split at h
        · cases h; exact ⟨by simp, hg, fun y hy => (by cases hy), .refl _⟩
        · unfold nextRaw at h
          rcases hi : inner { g with started := true } s with ⟨r1, g1, s1⟩
          obtain ⟨hf, hch, hc, _⟩ := inner_frame hi
          rw [hi] at h
          have hg1 : ∀ o, GOk { g1 with over := o } := fun o => (by show g1.ch.paused = true → g1.ch.unread = 0; rw [hch]; exact hg)
          cases r1 with
          | error e =>
            cases h
            refine ⟨?_, hg1 _, fun y hy => (by cases hy), hf⟩
            rcases hc with ⟨_, e1, _⟩ | ⟨e1 | e1, _⟩ <;> cases e1
            simp
          | ok o =>
            cases o with
            | none => cases h; exact ⟨by simp, hg1 _, fun y hy => (by cases hy), ⟨hf.body, hf.buf, hf.inst⟩⟩
            | some d =>
              cases h
              refine ⟨by simp, hg1 false, fun _ _ => ?_, hf⟩
              rcases hc with ⟨d', e1, e2, e3, _⟩ | ⟨e1 | e1, _⟩
              · rw [e2]
                unfold weight BodyStream.measure
                rw [hch]
                simp only [List.map_cons, List.sum_cons]
                omega
              · cases e1
              · cases e1

theorem drive_ends (c : Cfg) : ∀ (fuel : Nat) (g : Gen) (s : St), GOk g → weight g s.q < fuel → ∀ {r s'}, drive c fuel g s = (r, s') →
    r ≠ .error .fuel ∧ s'.buf = s.buf ∧ s'.inst = s.inst
  | 0, _, _, _, hw, _, _, _ => by omega
  | fuel + 1, g, s, hg, hw, r, s', h => by
    rw [drive] at h
    rcases hn : next c g s with ⟨r1, g1, s1⟩
    obtain ⟨n1, n2, n3, n4⟩ := next_ends c hg hn
    rw [hn] at h
    cases r1 with
    | ok d =>
      obtain ⟨a1, a2, a3⟩ := drive_ends c fuel g1 { s1 with body := s1.body ++ d } n2 (by have := n3 d rfl; dsimp only; omega) h
      exact ⟨a1, a2.trans n4.buf, a3.trans n4.inst⟩
    | error e =>
      cases e <;> first
        | exact absurd rfl n1
        | (cases h; exact ⟨by simp, n4.buf, n4.inst⟩)

theorem gather_ends (c : Cfg) (n : Nat) : ∀ (fuel : Nat) (g : Gen) (s : St), GOk g → weight g s.q < fuel → ∀ {r s'}, gather c n fuel g s = (r, s') →
    r ≠ .error .fuel ∧ s'.body = s.body ∧ ∃ g', s'.inst = some g' ∧ GOk g'
  | 0, _, _, _, hw, _, _, _ => by omega
  | fuel + 1, g, s, hg, hw, r, s', h => by
    rw [gather] at h
    rcases hn : next c g s with ⟨r1, g1, s1⟩
    obtain ⟨n1, n2, n3, n4⟩ := next_ends c hg hn
    rw [hn] at h
    cases r1 with
    | ok d =>
      dsimp only at h
      split at h
      · cases h; exact ⟨by simp, n4.body, g1, rfl, n2⟩
      · obtain ⟨a1, a2, a3⟩ := gather_ends c n fuel g1 { s1 with buf := s1.buf ++ d } n2 (by have := n3 d rfl; dsimp only; omega) h
        exact ⟨a1, a2.trans n4.body, a3⟩
    | error e =>
      cases e <;> first
        | exact absurd rfl n1
        | (cases h; exact ⟨by simp, n4.body, g1, rfl, n2⟩)

def SOk (s : St) : Prop := ∀ g, s.inst = some g → GOk g

theorem call_ends (c : Cfg) {s s' : St} {k : Call} {r : Except Exc Bytes} (hs : SOk s) (h : call c s k = (r, s')) : r ≠ .error .fuel ∧ SOk s' := by
  cases k with
  | body raw =>
    simp only [call] at h
    rcases hd : drive c (bound {} s) { raw } s with ⟨r1, s1⟩
    obtain ⟨a1, a2, a3⟩ := drive_ends c _ { raw } s (fun h => by cases h) (by have := weight_bound {} s; unfold weight at this ⊢; dsimp only at this ⊢; omega) hd
    rw [hd] at h
    have : SOk s1 := fun g hg => hs g (a3 ▸ hg)
    cases r1 with
    | ok _ => cases h; exact ⟨by simp, this⟩
    | error e => cases h; exact ⟨fun he => a1 (by cases he; rfl), this⟩
  | recv size raw =>
    have hg : GOk (s.inst.getD { raw }) := by
      cases hi : s.inst with
      | none => exact fun h => (by cases h)
      | some g => exact hs g hi
    unfold call at h
    split at h
    · rename_i heq; cases heq
    · cases h; exact ⟨by simp, hs⟩
    · rename_i sz rw_ hne heq
      cases heq
      split at h
      · cases h; exact ⟨by simp, hs⟩
      · cases size with
        | none =>
          dsimp only at h
          rcases hn : next c (s.inst.getD { raw }) s with ⟨r1, g1, s1⟩
          obtain ⟨n1, n2, _, _⟩ := next_ends c hg hn
          rw [hn] at h
          cases h
          exact ⟨n1, fun g hg' => (by cases hg'; exact n2)⟩
        | some n =>
          dsimp only at h
          split at h
          · rename_i e s1 hx
            split at hx
            · obtain ⟨a1, _, g', a3, a4⟩ := gather_ends c n _ _ s hg (by have := weight_bound (s.inst.getD { raw }) s; omega) hx
              cases h
              exact ⟨fun he => a1 (by cases he; rfl), fun g hg' => (by rw [a3] at hg'; cases hg'; exact a4)⟩
            · cases hx
          · rename_i s1 hx
            split at hx
            · obtain ⟨a1, _, g', a3, a4⟩ := gather_ends c n _ _ s hg (by have := weight_bound (s.inst.getD { raw }) s; omega) hx
              cases h
              exact ⟨by simp, fun g hg' => (by rw [show s1.inst = some g' from a3] at hg'; cases hg'; exact a4)⟩
            · cases hx
              cases h
              exact ⟨by simp, fun g hg' => (by cases hg'; exact hg)⟩

/-! ## A generator run to its end, against `Model/BodyStream.lean` -/

theorem chunkLoop_fuel {bs : Nat} {e : Bool} : ∀ (a b : Nat) (s : ChunkSt) (p : List Bytes), (s.paused = true → s.unread = 0) → BodyStream.measure s p < a → BodyStream.measure s p < b →
    chunkLoop bs e a s p = chunkLoop bs e b s p
  | 0, _, _, _, _, h, _ => by omega
  | _ + 1, 0, _, _, _, _, h => by omega
  | a + 1, b + 1, s, p, hp, ha, hb => by
    rw [chunkLoop, chunkLoop]
    cases hf : fetch e s p with
    | error o => rfl
    | ok q =>
      obtain ⟨s1, rest⟩ := q
      obtain ⟨hu1, hp1, -, hcase⟩ := fetch_ok hf
      have hp' : s1.paused = true → s1.unread = 0 := by rw [hp1, hu1]; exact hp
      dsimp only
      rcases hc : chunkBody bs s1 with ⟨y, k⟩
      cases k with
      | break_ => rfl
      | bad => rfl
      | cont s' =>
        have less : BodyStream.measure s' rest < BodyStream.measure s p := by
          unfold BodyStream.measure
          rcases hcase with ⟨hpa, rfl, rfl⟩ | ⟨hpa, d, rfl, e⟩ | ⟨hpa, rfl, rfl, rfl, hcr⟩
          · rw [hpa]
            simp only [if_true]
            rcases chunkBody_unpaused_none hc (hp hpa) with h | ⟨h1, h2⟩
            · split <;> omega
            · rw [h2]; simp; omega
          · have := (chunkBody_cont hc hp').2
            rw [e] at this
            simp only [List.length_append, List.map_cons, List.sum_cons, hpa] at this ⊢
            rcases this with h | ⟨h1, h2⟩ | ⟨h1, h2, _⟩
            · split <;> simp <;> omega
            · rw [h2]; simp; omega
            · rw [h2]; simp; split <;> omega
          · have := chunkBody_crlf hc hcr
            split <;> omega
        dsimp only
        rw [chunkLoop_fuel a b s' rest (chunkBody_cont hc hp').1 (by omega) (by omega)]

/-- What the chunked branch makes of `p`. -/
def loop (bs : Nat) (e : Bool) (s : ChunkSt) (p : List Bytes) : List Bytes × Out := chunkLoop bs e (BodyStream.measure s p + 1) s p

theorem loop_step (bs : Nat) (e : Bool) {s : ChunkSt} {p : List Bytes} (hp : s.paused = true → s.unread = 0) :
    (∀ o, fetch e s p = .error o → loop bs e s p = ([], o)) ∧
    ∀ s1 r, fetch e s p = .ok (s1, r) →
      (∀ y s', chunkBody bs s1 = (y, .cont s') → loop bs e s p = (y ++ (loop bs e s' r).1, (loop bs e s' r).2)) ∧
      (∀ y, chunkBody bs s1 = (y, .break_) → loop bs e s p = (y, .done)) ∧ (∀ y, chunkBody bs s1 = (y, .bad) → loop bs e s p = (y, .badRequest)) := by
  refine ⟨fun o h => by unfold loop; rw [chunkLoop, h], fun s1 r h => ⟨fun y s' hc => ?_, fun y hc => by unfold loop; rw [chunkLoop, h]; dsimp only; rw [hc], fun y hc => by unfold loop; rw [chunkLoop, h]; dsimp only; rw [hc]⟩⟩
  have e1 : loop bs e s p = chunkLoop bs e (BodyStream.measure s p + BodyStream.measure s' r + 1 + 1) s p := chunkLoop_fuel _ _ _ _ hp (by omega) (by omega)
  obtain ⟨hu1, hp1, _⟩ := fetch_ok h
  rw [e1, chunkLoop, h]
  dsimp only
  rw [hc]
  dsimp only
  rw [show chunkLoop bs e (BodyStream.measure s p + BodyStream.measure s' r + 1) s' r = loop bs e s' r from
    chunkLoop_fuel _ _ _ _ (chunkBody_cont hc (by rw [hp1, hu1]; exact hp)).1 (by omega) (by omega)]

/-- What is still to come for a generator, and whether the end follows. -/
def pend (g : Gen) (s : St) : List Bytes × Bool := if g.ended then ([], true) else recvPieces s.q

def excOf : Out → Exc
  | .done => .stop | .badRequest => .badRequest | .tooLarge => .tooLarge | .blocked => .timeout | .fuel => .fuel

theorem fill_fetch {g g' : Gen} {s s' : St} {r : Except Exc Unit} (h : fill g s = (r, g', s')) :
    (r = .ok () ∧ fetch (pend g s).2 g.ch (pend g s).1 = .ok (g'.ch, (pend g' s').1) ∧ (pend g' s').2 = (pend g s).2 ∧ s'.eof = s.eof ∧ g'.over = g.over ∧ g'.raw = g.raw ∧ g'.started = g.started) ∨
    ∃ o, r = .error (excOf o) ∧ fetch (pend g s).2 g.ch (pend g s).1 = .error o ∧ o ≠ .done ∧ s'.eof = s.eof := by
  unfold fill at h
  unfold fetch
  split at h
  · rename_i hp
    cases h
    exact .inl ⟨rfl, by rw [if_pos hp], rfl, rfl, rfl, rfl, rfl⟩
  · rename_i hp
    rw [if_neg hp]
    unfold inner at h
    by_cases he : g.ended = true
    · rw [if_pos he] at h
      have hpe : pend g s = ([], true) := by unfold pend; rw [if_pos he]
      rw [hpe]
      dsimp only at h ⊢
      rw [if_pos rfl]
      split at h
      · rename_i hc
        cases h
        exact .inl ⟨rfl, by rw [if_pos hc, hpe], by rw [hpe], rfl, rfl, rfl, rfl⟩
      · rename_i hc
        cases h
        exact .inr ⟨.badRequest, rfl, by rw [if_neg hc], by simp, rfl⟩
    · rw [if_neg he] at h
      have hpe : pend g s = recvPieces s.q := by unfold pend; rw [if_neg he]
      rw [hpe]
      cases hq : s.q with
      | nil =>
        rw [hq] at h
        cases h
        exact .inr ⟨.blocked, rfl, rfl, by simp, rfl⟩
      | cons x q =>
        rw [hq] at h
        cases x with
        | none =>
          dsimp only at h
          simp only [recvPieces, if_true]
          split at h
          · rename_i hc
            cases h
            exact .inl ⟨rfl, by rw [if_pos hc]; rfl, rfl, rfl, rfl, rfl, rfl⟩
          · rename_i hc
            cases h
            exact .inr ⟨.badRequest, rfl, by rw [if_neg hc], by simp, rfl⟩
        | some d =>
          cases h
          exact .inl ⟨rfl, by simp [recvPieces, pend, he], by simp [recvPieces, pend, he], rfl, rfl, rfl, rfl⟩

theorem chunkBody_yields {bs : Nat} {s : ChunkSt} {y : List Bytes} {k : Ctl} (h : chunkBody bs s = (y, k)) : y.length ≤ 1 ∧ (k = .break_ ∨ k = .bad → y = []) := by
  unfold chunkBody at h
  split at h
  · dsimp only at h
    split at h <;> (cases h; simp)
  · split at h
    · split at h <;> (cases h; simp)
    · split at h
      · cases h; simp
      · split at h
        · cases h; simp
        · dsimp only at h
          split at h <;> (cases h; simp)

theorem nextChunk_loop (c : Cfg) : ∀ (fuel : Nat) (g : Gen) (s : St), GOk g → weight g s.q < fuel → ∀ {r g' s'}, nextChunk c fuel g s = (r, g', s') →
    (∃ y, r = .ok y ∧ loop c.bs (pend g s).2 g.ch (pend g s).1 = (y :: (loop c.bs (pend g' s').2 g'.ch (pend g' s').1).1, (loop c.bs (pend g' s').2 g'.ch (pend g' s').1).2) ∧
      s'.eof = s.eof ∧ g'.over = g.over ∧ g'.raw = g.raw ∧ g'.started = g.started) ∨
    ∃ o, r = .error (excOf o) ∧ loop c.bs (pend g s).2 g.ch (pend g s).1 = ([], o) ∧ (o = .done → s'.eof = true) ∧ (o ≠ .done → s'.eof = s.eof)
  | 0, _, _, _, hw, _, _, _, _ => by omega
  | fuel + 1, g, s, hg, hw, r, g', s', h => by
    rw [nextChunk] at h
    rcases hf : fill g s with ⟨r1, g1, s1⟩
    rw [hf] at h
    have ls := loop_step c.bs (pend g s).2 (s := g.ch) (p := (pend g s).1) hg
    rcases fill_fetch hf with ⟨rfl, f1, f2, f3, f4, f5, f6⟩ | ⟨o, rfl, f1, f2, f3⟩
    · dsimp only at h
      rcases hb : chunkBody c.bs g1.ch with ⟨y, k⟩
      rw [hb] at h
      obtain ⟨hy1, hy2⟩ := chunkBody_yields hb
      obtain ⟨l1, l2, l3⟩ := ls.2 _ _ f1
      cases k with
      | break_ =>
        rw [hy2 (.inl rfl)] at h hb
        cases h
        exact .inr ⟨.done, rfl, l2 _ hb, fun _ => rfl, fun h => absurd rfl h⟩
      | bad =>
        rw [hy2 (.inr rfl)] at h hb
        cases h
        exact .inr ⟨.badRequest, rfl, l3 _ hb, fun h => (by cases h), fun _ => f3⟩
      | cont ch =>
        obtain ⟨p1, p2, p3⟩ := pass_less hg hf hb
        have hl := l1 _ _ hb
        have hpd : pend { g1 with ch } s1 = pend g1 s1 := rfl
        cases y with
        | nil =>
          rcases nextChunk_loop c fuel { g1 with ch } s1 p2 (by omega) h with ⟨y, a1, a2, a3, a4, a5, a6⟩ | ⟨o, a1, a2, a3, a4⟩
          · refine .inl ⟨y, a1, ?_, a3.trans f3, a4.trans f4, a5.trans f5, a6.trans f6⟩
            rw [hl, List.nil_append, ← a2, hpd, f2]
          · refine .inr ⟨o, a1, ?_, a3, fun ho => (a4 ho).trans f3⟩
            rw [hl, List.nil_append, ← a2, hpd, f2]
        | cons x y =>
          have : y = [] := by cases y with
            | nil => rfl
            | cons _ _ => simp at hy1
          subst this
          cases h
          refine .inl ⟨x, rfl, ?_, f3, f4, f5, f6⟩
          rw [hl, hpd, f2]; rfl
    · cases h
      exact .inr ⟨o, rfl, ls.1 _ f1, fun ho => absurd ho f2, fun _ => f3⟩

theorem drive_loop {c : Cfg} (hc : c.chunked = true) : ∀ (fuel : Nat) (g : Gen) (s : St), GOk g → weight g s.q < fuel → g.over = false → g.raw = false → (s.eof = false ∨ g.started = true) →
    ∀ {r s'}, drive c fuel g s = (r, s') →
    s'.body = s.body ++ (loop c.bs (pend g s).2 g.ch (pend g s).1).1.flatten ∧
      (r = if (loop c.bs (pend g s).2 g.ch (pend g s).1).2 = .done then .ok () else .error (excOf (loop c.bs (pend g s).2 g.ch (pend g s).1).2)) ∧
      s'.eof = (s.eof || decide ((loop c.bs (pend g s).2 g.ch (pend g s).1).2 = .done))
  | 0, _, _, _, hw, _, _, _, _, _, _ => by omega
  | fuel + 1, g, s, hg, hw, ho, hr, hs, r, s', h => by
    rw [drive] at h
    rcases hn : next c g s with ⟨r1, g1, s1⟩
    have hnx : nextChunk c (bound g s) { g with started := true } s = (r1, g1, s1) := by
      unfold next at hn
      rwa [if_neg (by simp [ho]), if_neg (by rcases hs with hs | hs <;> simp [hs]), if_pos (by simp [hr, hc])] at hn
    obtain ⟨n1, n2, n3, n4⟩ := next_ends c hg hn
    rw [hn] at h
    have hpd : pend { g with started := true } s = pend g s := rfl
    rcases nextChunk_loop c _ { g with started := true } s hg (by have := weight_bound g s; unfold weight at this ⊢; dsimp only; omega) hnx with ⟨y, rfl, a2, a3, a4, a5, a6⟩ | ⟨o, rfl, a2, a3, a4⟩
    · rw [hpd] at a2
      dsimp only at h a2
      have := drive_loop hc fuel g1 { s1 with body := s1.body ++ y } n2 (by have := n3 y rfl; dsimp only; omega) (a4.trans ho) (a5.trans hr) (.inr a6) h
      have hpd1 : pend g1 { s1 with body := s1.body ++ y } = pend g1 s1 := rfl
      rw [hpd1] at this
      rw [a2]
      refine ⟨?_, this.2.1, ?_⟩
      · rw [this.1]; simp [n4.body]
      · rw [this.2.2]; simp [a3]
    · rw [hpd] at a2
      dsimp only at a2
      rw [a2]
      cases o <;> first
        | exact absurd rfl n1
        | (cases h; refine ⟨by simp [n4.body], rfl, ?_⟩; first | (rw [a3 rfl]; simp) | (rw [a4 (fun h => by cases h)]; simp))

theorem drive_raw {c : Cfg} {g0 : Gen} (hc : g0.raw = true ∨ c.chunked = false) : ∀ (q : List Item) (fuel : Nat) (g : Gen) (s : St), s.q = q → q.length + 1 < fuel → g.over = false → g.raw = g0.raw → g.ended = false →
    (g.started = true ∨ (s.eof = false ∧ c.cl ≤ c.maxBody)) →
    ∀ {r s'}, drive c fuel g s = (r, s') →
    s'.body = s.body ++ (rawLoop c.cl s.consumed (recvPieces q).1).flatten ∧ (r = if (recvPieces q).2 then .ok () else .error .timeout) ∧ s'.eof = (s.eof || (recvPieces q).2)
  | _, 0, _, _, _, hw, _, _, _, _, _, _, _ => by omega
  | q, fuel + 1, g, s, hq, hw, ho, hr, he, hs, r, s', h => by
    rw [drive] at h
    have hnx : next c g s = nextRaw c { g with started := true } s := by
      unfold next
      rw [ho, if_neg (by simp), if_neg (by rcases hs with hs | hs <;> simp [hs]), if_neg (by rcases hc with hc | hc <;> simp [hc, hr]), if_neg (by
        rcases hs with hs | hs
        · simp [hs]
        · simp only [Bool.and_eq_true, Bool.not_eq_true', decide_eq_true_eq, not_and]; intro _; omega)]
    rw [hnx] at h
    unfold nextRaw inner at h
    simp only [he, Bool.false_eq_true, if_false] at h
    cases q with
    | nil =>
      rw [hq] at h
      cases h
      simp [recvPieces, rawLoop]
    | cons x q =>
      rw [hq] at h
      cases x with
      | none =>
        cases h
        simp [recvPieces, rawLoop]
      | some d =>
        dsimp only at h
        have := drive_raw hc q fuel _ _ rfl (by simp at hw; omega) (by exact ho) (by exact hr) rfl (.inl rfl) h
        simp only [recvPieces]
        refine ⟨?_, this.2.1, this.2.2⟩
        rw [this.1]
        simp [rawLoop]

end Verif.Proofs.ReadApi
