import Verif.Proofs.ReadApi
import Verif.Props.Body
/-!
# C113: the calls by which a handler reads its body, mixed

`recv(n)` and `read(n)` keep what is too much in `_read_buf`; `recv()` and `read()` do not look there; `body()` makes a generator of its own,
which knows nothing of the first one's (http_request.py:136-167).
-/
namespace Verif
open Verif.Py Verif.Model.Upload Verif.Model.ReadApi
open Verif.Model.BodyStream (chunkStream rawStream rawLoop recvPieces Out)

/-- What `stream(raw)` yields of a queue, and how it ends. -/
def streamOf (c : Cfg) (raw : Bool) (q : List Item) : List Bytes × Out := if !raw && c.chunked then chunkStream c.bs q else rawStream c.cl c.maxBody q

/-- What the calls of `recv` and `read` have returned. -/
def returned : List Call → List (Except Exc Bytes) → Bytes
  | .recv _ _ :: ks, .ok d :: rs => d ++ returned ks rs
  | _ :: ks, _ :: rs => returned ks rs
  | _, _ => []

/-- Whenever `recv()`, `read()` or `body()` is called, the sized reads before have left nothing over. -/
def Tidy (c : Cfg) : St → List Call → Prop
  | _, [] => True
  | s, k :: ks => ((∀ n raw, k ≠ .recv (some n) raw) → s.buf = []) ∧ Tidy c (call c s k).2 ks

namespace ReadApi
open Proofs.ReadApi Proofs.BodyStream

/-! ## A body with its length -/

/-- A request with a Content-Length, of whose body `b` no more than all is in the queue. -/
structure Plain (c : Cfg) (b : Bytes) (s : St) : Prop where
  chunked : c.chunked = false
  cl : c.cl = b.length
  max : b.length ≤ c.maxBody
  size : s.consumed + (rest s.q).length ≤ b.length

theorem next_plain {c : Cfg} {b : Bytes} {g g' : Gen} {s s' : St} {r : Except Exc Bytes} (hp : Plain c b s) (h : next c g s = (r, g', s')) :
    Plain c b s' ∧ Frame s s' ∧ ((∃ d, r = .ok d ∧ rest s.q = d ++ rest s'.q) ∨ ((r = .error .stop ∨ r = .error .timeout) ∧ rest s'.q = rest s.q)) := by
  unfold next at h
  split at h
  · cases h; exact ⟨hp, .refl _, .inr ⟨.inl rfl, rfl⟩⟩
  · split at h
    · cases h; exact ⟨hp, .refl _, .inr ⟨.inl rfl, rfl⟩⟩
    · rw [if_neg (by simp [hp.chunked]), if_neg (by
        have := hp.cl; have := hp.max
        simp only [Bool.and_eq_true, decide_eq_true_eq, not_and]; intro _; omega)] at h
      unfold nextRaw at h
      rcases hi : inner { g with started := true } s with ⟨r1, g1, s1⟩
      obtain ⟨hf, _, hc, _⟩ := inner_frame hi
      rw [hi] at h
      rcases hc with ⟨d, rfl, e2, _, e4⟩ | ⟨hr, e2, e3, _⟩
      · have hr : rest s.q = d ++ rest s1.q := by rw [e2]; simp [rest]
        have hl := hp.size
        rw [hr, List.length_append] at hl
        dsimp only at h
        rw [if_neg (by have := hp.cl; omega)] at h
        cases h
        exact ⟨⟨hp.chunked, hp.cl, hp.max, by omega⟩, hf, .inl ⟨d, rfl, hr⟩⟩
      · have hp1 : s1.consumed + (rest s1.q).length ≤ b.length := by rw [e2, e3]; exact hp.size
        rcases hr with rfl | rfl
        · cases h
          exact ⟨⟨hp.chunked, hp.cl, hp.max, hp1⟩, ⟨hf.body, hf.buf, hf.inst⟩, .inr ⟨.inl rfl, e2⟩⟩
        · cases h
          exact ⟨⟨hp.chunked, hp.cl, hp.max, hp1⟩, hf, .inr ⟨.inr rfl, e2⟩⟩

theorem drive_plain {c : Cfg} {b : Bytes} : ∀ (fuel : Nat) (g : Gen) (s : St), Plain c b s → ∀ {r s'}, drive c fuel g s = (r, s') →
    Plain c b s' ∧ s'.buf = s.buf ∧ s'.body ++ rest s'.q = s.body ++ rest s.q ∧ (r = .ok () ∨ r = .error .timeout ∨ r = .error .fuel)
  | 0, _, _, hp, _, _, h => by cases h; exact ⟨hp, rfl, rfl, .inr (.inr rfl)⟩
  | fuel + 1, g, s, hp, r, s', h => by
    rw [drive] at h
    rcases hn : next c g s with ⟨r1, g1, s1⟩
    obtain ⟨n1, n2, n3⟩ := next_plain hp hn
    rw [hn] at h
    rcases n3 with ⟨d, rfl, e⟩ | ⟨rfl | rfl, e⟩
    · obtain ⟨a1, a2, a3, a4⟩ := drive_plain fuel g1 { s1 with body := s1.body ++ d } ⟨n1.chunked, n1.cl, n1.max, n1.size⟩ h
      exact ⟨a1, a2.trans n2.buf, by rw [a3, e, ← n2.body]; simp, a4⟩
    · cases h; exact ⟨n1, n2.buf, by rw [e, n2.body], .inl rfl⟩
    · cases h; exact ⟨n1, n2.buf, by rw [e, n2.body], .inr (.inl rfl)⟩

theorem gather_plain {c : Cfg} {b : Bytes} (n : Nat) : ∀ (fuel : Nat) (g : Gen) (s : St), Plain c b s → ∀ {r s'}, gather c n fuel g s = (r, s') →
    Plain c b s' ∧ s'.body = s.body ∧ s'.buf ++ rest s'.q = s.buf ++ rest s.q ∧ (r = .ok () ∨ r = .error .timeout ∨ r = .error .fuel)
  | 0, _, _, hp, _, _, h => by cases h; exact ⟨⟨hp.chunked, hp.cl, hp.max, hp.size⟩, rfl, rfl, .inr (.inr rfl)⟩
  | fuel + 1, g, s, hp, r, s', h => by
    rw [gather] at h
    rcases hn : next c g s with ⟨r1, g1, s1⟩
    obtain ⟨n1, n2, n3⟩ := next_plain hp hn
    rw [hn] at h
    rcases n3 with ⟨d, rfl, e⟩ | ⟨rfl | rfl, e⟩
    · dsimp only at h
      split at h
      · cases h
        exact ⟨⟨n1.chunked, n1.cl, n1.max, n1.size⟩, n2.body, by dsimp only; rw [e, n2.buf]; simp, .inl rfl⟩
      · obtain ⟨a1, a2, a3, a4⟩ := gather_plain n fuel g1 { s1 with buf := s1.buf ++ d } ⟨n1.chunked, n1.cl, n1.max, n1.size⟩ h
        exact ⟨a1, a2.trans n2.body, by rw [a3, e, ← n2.buf]; simp, a4⟩
    · cases h; exact ⟨⟨n1.chunked, n1.cl, n1.max, n1.size⟩, n2.body, by dsimp only; rw [e, n2.buf], .inl rfl⟩
    · cases h; exact ⟨⟨n1.chunked, n1.cl, n1.max, n1.size⟩, n2.body, by dsimp only; rw [e, n2.buf], .inr (.inl rfl)⟩

/-- What one call does with the bytes. -/
theorem call_plain {c : Cfg} {b : Bytes} {s s' : St} {k : Call} {r : Except Exc Bytes} (hs : SOk s) (hp : Plain c b s) (h : call c s k = (r, s')) :
    Plain c b s' ∧ SOk s' ∧
    ((∃ raw, k = .body raw ∧ s'.buf = s.buf ∧ s'.body ++ rest s'.q = s.body ++ rest s.q ∧ (r = .ok s'.body ∨ r = .error .timeout)) ∨
     (∃ raw d, k = .recv none raw ∧ r = .ok d ∧ s'.buf = s.buf ∧ s'.body = s.body ∧ rest s.q = d ++ rest s'.q) ∨
     (∃ n raw d, k = .recv (some n) raw ∧ r = .ok d ∧ s'.body = s.body ∧ d ++ s'.buf ++ rest s'.q = s.buf ++ rest s.q) ∨
     (∃ n raw, k = .recv n raw ∧ (r = .error .stop ∨ r = .error .timeout) ∧ s'.body = s.body ∧ s'.buf ++ rest s'.q = s.buf ++ rest s.q)) := by
  have hends := call_ends c hs h
  cases k with
  | body raw =>
    simp only [call] at h
    rcases hd : drive c (bound {} s) { raw } s with ⟨r1, s1⟩
    obtain ⟨a1, a2, a3, a4⟩ := drive_plain _ _ s hp hd
    rw [hd] at h
    rcases a4 with rfl | rfl | rfl
    · cases h; exact ⟨a1, hends.2, .inl ⟨raw, rfl, a2, a3, .inl rfl⟩⟩
    · cases h; exact ⟨a1, hends.2, .inl ⟨raw, rfl, a2, a3, .inr rfl⟩⟩
    · cases h; exact absurd rfl hends.1
  | recv size raw =>
    unfold call at h
    split at h
    · rename_i heq; cases heq
    · rename_i heq
      cases heq
      cases h
      exact ⟨hp, hs, .inr (.inr (.inl ⟨0, raw, [], rfl, rfl, rfl, rfl⟩))⟩
    · rename_i sz rw_ hne heq
      cases heq
      split at h
      · cases h
        cases size with
        | none => exact ⟨hp, hs, .inr (.inl ⟨raw, [], rfl, rfl, rfl, rfl, rfl⟩)⟩
        | some n => exact ⟨hp, hs, .inr (.inr (.inl ⟨n, raw, [], rfl, rfl, rfl, rfl⟩))⟩
      · cases size with
        | none =>
          dsimp only at h
          rcases hn : next c (s.inst.getD { raw }) s with ⟨r1, g1, s1⟩
          obtain ⟨n1, n2, n3⟩ := next_plain hp hn
          rw [hn] at h
          cases h
          refine ⟨⟨n1.chunked, n1.cl, n1.max, n1.size⟩, hends.2, ?_⟩
          rcases n3 with ⟨d, rfl, e⟩ | ⟨hr, e⟩
          · exact .inr (.inl ⟨raw, d, rfl, rfl, n2.buf, n2.body, e⟩)
          · exact .inr (.inr (.inr ⟨none, raw, rfl, hr, n2.body, by dsimp only; rw [e, n2.buf]⟩))
        | some n =>
          dsimp only at h
          have key : ∀ r1 s1, (if s.buf.length < n then gather c n (bound (s.inst.getD { raw }) s) (s.inst.getD { raw }) s else (.ok (), { s with inst := some (s.inst.getD { raw }) })) = (r1, s1) →
              Plain c b s1 ∧ s1.body = s.body ∧ s1.buf ++ rest s1.q = s.buf ++ rest s.q ∧ (r1 = .ok () ∨ r1 = .error .timeout ∨ r1 = .error .fuel) := by
            intro r1 s1 hx
            split at hx
            · exact gather_plain n _ _ s hp hx
            · cases hx
              exact ⟨⟨hp.chunked, hp.cl, hp.max, hp.size⟩, rfl, rfl, .inl rfl⟩
          split at h
          · rename_i e s1 hx
            obtain ⟨a1, a2, a3, a4⟩ := key _ _ hx
            cases h
            refine ⟨a1, hends.2, .inr (.inr (.inr ⟨some n, raw, rfl, .inr ?_, a2, a3⟩))⟩
            rcases a4 with a4 | a4 | a4
            · cases a4
            · cases a4; rfl
            · cases a4; exact absurd rfl hends.1
          · rename_i s1 hx
            obtain ⟨a1, a2, a3, a4⟩ := key _ _ hx
            cases h
            refine ⟨⟨a1.chunked, a1.cl, a1.max, a1.size⟩, hends.2, .inr (.inr (.inl ⟨n, raw, _, rfl, rfl, a2, ?_⟩))⟩
            dsimp only
            rw [List.take_append_drop, a3]

theorem calls_once {c : Cfg} {b : Bytes} : ∀ (ks : List Call) (s : St), SOk s → Plain c b s →
    (returned ks (calls c s ks).1 ++ (calls c s ks).2.body ++ (calls c s ks).2.buf ++ rest (calls c s ks).2.q).Perm (s.body ++ s.buf ++ rest s.q) ∧
    ∀ r ∈ (calls c s ks).1, ∀ e, r = .error e → e = .stop ∨ e = .timeout
  | [], s, _, _ => ⟨by simp [calls, returned], fun r hr => (by cases hr)⟩
  | k :: ks, s, hs, hp => by
    rcases hc : call c s k with ⟨r, s1⟩
    obtain ⟨p1, p2, p3⟩ := call_plain hs hp hc
    obtain ⟨i1, i2⟩ := calls_once ks s1 p2 p1
    have e1 : (calls c s (k :: ks)) = (r :: (calls c s1 ks).1, (calls c s1 ks).2) := by simp only [calls, hc]
    rw [e1]
    rw [List.perm_iff_count] at i1 ⊢
    rcases p3 with ⟨raw, rfl, q1, q2, q3⟩ | ⟨raw, d, rfl, rfl, q1, q2, q3⟩ | ⟨n, raw, d, rfl, rfl, q1, q2⟩ | ⟨n, raw, rfl, q0, q1, q2⟩
    · refine ⟨fun a => ?_, fun x hx e he => ?_⟩
      · have := i1 a
        have h2 := congrArg (List.count a) q2
        simp only [returned, List.count_append, q1] at this h2 ⊢
        omega
      · rcases List.mem_cons.1 hx with rfl | hx
        · rcases q3 with q3 | q3 <;> (rw [q3] at he; cases he)
          exact .inr rfl
        · exact i2 x hx e he
    · refine ⟨fun a => ?_, fun x hx e he => ?_⟩
      · have := i1 a
        simp only [returned, List.count_append, q1, q2, q3] at this ⊢
        omega
      · rcases List.mem_cons.1 hx with rfl | hx
        · cases he
        · exact i2 x hx e he
    · refine ⟨fun a => ?_, fun x hx e he => ?_⟩
      · have := i1 a
        have h2 := congrArg (List.count a) q2
        simp only [returned, List.count_append, q1] at this h2 ⊢
        omega
      · rcases List.mem_cons.1 hx with rfl | hx
        · cases he
        · exact i2 x hx e he
    · refine ⟨fun a => ?_, fun x hx e he => ?_⟩
      · have := i1 a
        have h2 := congrArg (List.count a) q2
        rcases q0 with rfl | rfl <;> simp only [returned, List.count_append, q1] at this h2 ⊢ <;> omega
      · rcases List.mem_cons.1 hx with rfl | hx
        · rcases q0 with q0 | q0 <;> (rw [q0] at he; cases he)
          · exact .inl rfl
          · exact .inr rfl
        · exact i2 x hx e he

/-! ## Reading in order -/

def Going (g : Gen) : Prop := g.over = false ∧ g.ended = false

/-- Pieces are still to come. -/
structure Open (c : Cfg) (b : Bytes) (s : St) (ps : List Bytes) : Prop where
  plain : Plain c b s
  q : s.q = ps.map some ++ [none]
  eof : s.eof = false
  body : s.body = []
  inst : ∀ g, s.inst = some g → Going g

/-- All was taken from the queue. -/
structure Shut (c : Cfg) (b : Bytes) (s : St) : Prop where
  plain : Plain c b s
  q : s.q = []
  eof : s.eof = true
  inst : s.buf = [] ∨ (s.body = [] ∧ ∃ g, s.inst = some g ∧ g.over = true)

theorem rest_pieces (ps : List Bytes) : rest (ps.map some ++ [none]) = ps.flatten := by simp [rest, Function.comp_def]

theorem next_open {c : Cfg} {b : Bytes} {g g' : Gen} {s s' : St} {ps : List Bytes} {r : Except Exc Bytes} (hp : Plain c b s) (hq : s.q = ps.map some ++ [none]) (he : s.eof = false) (hg : Going g)
    (h : next c g s = (r, g', s')) : Frame s s' ∧ Plain c b s' ∧
    ((∃ d ps', ps = d :: ps' ∧ r = .ok d ∧ s'.q = ps'.map some ++ [none] ∧ s'.eof = false ∧ Going g') ∨
     (ps = [] ∧ r = .error .stop ∧ s'.q = [] ∧ s'.eof = true ∧ g'.over = true)) := by
  obtain ⟨n1, n2, _⟩ := next_plain hp h
  refine ⟨n2, n1, ?_⟩
  unfold next at h
  rw [if_neg (by simp [hg.1]), if_neg (by simp [he]), if_neg (by simp [hp.chunked]), if_neg (by
    have := hp.cl; have := hp.max
    simp only [Bool.and_eq_true, decide_eq_true_eq, not_and]; intro _; omega)] at h
  unfold nextRaw inner at h
  rw [if_neg (by simp [hg.2])] at h
  rw [hq] at h
  cases ps with
  | nil =>
    cases h
    exact .inr ⟨rfl, rfl, rfl, rfl, rfl⟩
  | cons d ps =>
    have hl := hp.size
    rw [hq, rest_pieces, List.flatten_cons, List.length_append] at hl
    simp only [List.map_cons, List.cons_append] at h
    rw [if_neg (by have := hp.cl; omega)] at h
    cases h
    exact .inl ⟨d, ps, rfl, rfl, rfl, he, hg⟩

theorem next_go {c : Cfg} {b : Bytes} {g : Gen} {s : St} (hp : Plain c b s) (he : s.eof = false ∨ g.started = true) (hg : Going g) : next c g s = nextRaw c { g with started := true } s := by
  unfold next
  rw [if_neg (by simp [hg.1]), if_neg (by rcases he with he | he <;> simp [he]), if_neg (by simp [hp.chunked]), if_neg (by
    have := hp.cl; have := hp.max
    simp only [Bool.and_eq_true, decide_eq_true_eq, not_and]; intro _; omega)]

theorem next_piece {c : Cfg} {b : Bytes} {g : Gen} {s : St} {d : Bytes} {q : List Item} (hp : Plain c b s) (hq : s.q = some d :: q) (he : s.eof = false ∨ g.started = true) (hg : Going g) :
    next c g s = (.ok d, { g with started := true }, { s with q, consumed := s.consumed + d.length }) := by
  have hl := hp.size
  rw [hq, show rest (some d :: q) = d ++ rest q from rfl, List.length_append] at hl
  rw [next_go hp he hg]
  unfold nextRaw inner
  rw [if_neg (by simp [hg.2]), hq]
  dsimp only
  rw [if_neg (by have := hp.cl; omega)]

theorem next_none {c : Cfg} {b : Bytes} {g : Gen} {s : St} {q : List Item} (hp : Plain c b s) (hq : s.q = none :: q) (he : s.eof = false ∨ g.started = true) (hg : Going g) :
    next c g s = (.error .stop, { g with started := true, ended := true, over := true }, { s with q, eof := true }) := by
  rw [next_go hp he hg]
  unfold nextRaw inner
  rw [if_neg (by simp [hg.2]), hq]

theorem next_void {c : Cfg} {b : Bytes} {g : Gen} {s : St} (hp : Plain c b s) (hq : s.q = []) (he : s.eof = false ∨ g.started = true) (hg : Going g) :
    next c g s = (.error .timeout, { g with started := true, ended := true, over := true }, s) := by
  rw [next_go hp he hg]
  unfold nextRaw inner
  rw [if_neg (by simp [hg.2]), hq]

/-- A sized read that needs one more piece and no other. -/
theorem recv_one {c : Cfg} {b : Bytes} {s : St} {d : Bytes} {q : List Item} {n : Nat} (raw : Bool) (hp : Plain c b s) (hq : s.q = some d :: q) (he : s.eof = false) (hi : s.inst = none) (h0 : n ≠ 0) (hb : s.buf = []) (hn : n ≤ d.length) :
    call c s (.recv (some n) raw) = (.ok (d.take n), { s with q, consumed := s.consumed + d.length, buf := d.drop n, inst := some { raw, started := true } }) := by
  have e1 := next_piece (g := { raw }) hp hq (.inl he) ⟨rfl, rfl⟩
  have e2 : ∀ f, gather c n (f + 1) { raw } s = (.ok (), { s with q, consumed := s.consumed + d.length, buf := d, inst := some { raw, started := true } }) := by
    intro f
    rw [gather, e1]
    dsimp only
    rw [if_pos (by rw [hb]; simpa using hn), hb]
    rfl
  have e3 : ∀ f, gather c n (f + 1) (s.inst.getD { raw }) s = (.ok (), { s with q, consumed := s.consumed + d.length, buf := d, inst := some { raw, started := true } }) := by
    rw [hi]; exact e2
  unfold call
  split
  · rename_i h; cases h
  · rename_i h; cases h; exact absurd rfl h0
  · rename_i h; cases h
    rw [if_neg (by simp [St.isEof, he])]
    dsimp only
    rw [if_pos (by rw [hb]; simp; omega), show bound (s.inst.getD { raw }) s = (bound (s.inst.getD { raw }) s - 1) + 1 from by unfold bound; omega, e3]

theorem drive_open {c : Cfg} {b : Bytes} : ∀ (fuel : Nat) (ps : List Bytes) (g : Gen) (s : St), Plain c b s → s.q = ps.map some ++ [none] → s.eof = false → Going g → ps.length < fuel →
    ∃ s', drive c fuel g s = (.ok (), s') ∧ Plain c b s' ∧ s'.q = [] ∧ s'.eof = true ∧ s'.buf = s.buf ∧ s'.body = s.body ++ ps.flatten
  | 0, _, _, _, _, _, _, _, hl => absurd hl (by omega)
  | fuel + 1, ps, g, s, hp, hq, he, hg, hl => by
    rcases hn : next c g s with ⟨r1, g1, s1⟩
    obtain ⟨n1, n2, n3⟩ := next_open hp hq he hg hn
    rw [drive, hn]
    rcases n3 with ⟨d, ps', rfl, rfl, e1, e2, e3⟩ | ⟨rfl, rfl, e1, e2, _⟩
    · obtain ⟨s', h1, h2, h3, h4, h5, h6⟩ := drive_open fuel ps' g1 { s1 with body := s1.body ++ d } ⟨n2.chunked, n2.cl, n2.max, n2.size⟩ e1 e2 e3 (by simp only [List.length_cons] at hl; omega)
      exact ⟨s', h1, h2, h3, h4, h5.trans n1.buf, by rw [h6]; dsimp only; rw [n1.body]; simp⟩
    · exact ⟨s1, rfl, n2, e1, e2, n1.buf, by rw [n1.body]; simp⟩

theorem gather_open {c : Cfg} {b : Bytes} (n : Nat) : ∀ (fuel : Nat) (ps : List Bytes) (g : Gen) (s : St), Plain c b s → s.q = ps.map some ++ [none] → s.eof = false → s.body = [] → Going g → ps.length < fuel →
    ∃ s', gather c n fuel g s = (.ok (), s') ∧ s'.buf ++ rest s'.q = s.buf ++ ps.flatten ∧ s'.body = [] ∧ (s'.buf.length < n → s'.q = []) ∧ ((∃ ps', Open c b s' ps') ∨ Shut c b s')
  | 0, _, _, _, _, _, _, _, _, hl => absurd hl (by omega)
  | fuel + 1, ps, g, s, hp, hq, he, hb, hg, hl => by
    rcases hn : next c g s with ⟨r1, g1, s1⟩
    obtain ⟨n1, n2, n3⟩ := next_open hp hq he hg hn
    rw [gather, hn]
    rcases n3 with ⟨d, ps', rfl, rfl, e1, e2, e3⟩ | ⟨rfl, rfl, e1, e2, e3⟩
    · dsimp only
      split
      · rename_i hge
        refine ⟨_, rfl, ?_, n1.body.trans hb, fun hlt => absurd hge (by dsimp only at hlt; omega),
          .inl ⟨ps', ⟨n2.chunked, n2.cl, n2.max, n2.size⟩, e1, e2, n1.body.trans hb, fun g hg => by cases hg; exact e3⟩⟩
        dsimp only
        rw [e1, rest_pieces, n1.buf]; simp
      · obtain ⟨s', h1, h2, h3, h4, h5⟩ := gather_open n fuel ps' g1 { s1 with buf := s1.buf ++ d } ⟨n2.chunked, n2.cl, n2.max, n2.size⟩ e1 e2 (n1.body.trans hb) e3
          (by simp only [List.length_cons] at hl; omega)
        exact ⟨s', h1, by rw [h2]; dsimp only; rw [n1.buf]; simp, h3, h4, h5⟩
    · exact ⟨_, rfl, by dsimp only; rw [e1, n1.buf]; simp [rest], n1.body.trans hb, fun _ => e1,
        .inr ⟨⟨n2.chunked, n2.cl, n2.max, n2.size⟩, e1, e2, .inr ⟨n1.body.trans hb, _, rfl, e3⟩⟩⟩

theorem length_bound {g : Gen} {s : St} {ps : List Bytes} (hq : s.q = ps.map some ++ [none]) : ps.length < bound g s := by
  have : ∀ ps : List Bytes, ps.length ≤ ((ps.map some ++ [none]).map (fun x : Item => 2 * (x.getD []).length + 2)).sum := by
    intro ps
    induction ps with
    | nil => simp
    | cons p ps ih => simp only [List.map_cons, List.cons_append, List.sum_cons, List.length_cons] at ih ⊢; omega
  have := this ps
  unfold bound
  rw [hq]; omega

/-- One call of a tidy reading. -/
theorem call_tidy {c : Cfg} {b : Bytes} {s s' : St} {k : Call} {r : Except Exc Bytes} (ho : (∃ ps, Open c b s ps) ∨ Shut c b s) (ht : (∀ n raw, k ≠ .recv (some n) raw) → s.buf = [])
    (h : call c s k = (r, s')) :
    ((∃ ps, Open c b s' ps) ∨ Shut c b s') ∧ returned [k] [r] ++ s'.body ++ s'.buf ++ rest s'.q = s.body ++ s.buf ++ rest s.q ∧ (∀ e, r = .error e → e = .stop) ∧
    (∀ raw, k = .body raw → r = .ok s'.body ∧ Shut c b s' ∧ s'.buf = []) ∧
    (∀ n raw, k = .recv (some n) raw → ∃ d, r = .ok d ∧ d.length ≤ n ∧ (d.length < n → s'.isEof = true)) := by
  cases k with
  | body raw =>
    have hb := ht (fun _ _ h => by cases h)
    simp only [call] at h
    rcases ho with ⟨ps, ho⟩ | ho
    · obtain ⟨s1, h1, h2, h3, h4, h5, h6⟩ := drive_open (bound {} s) ps { raw } s ho.plain ho.q ho.eof ⟨rfl, rfl⟩ (length_bound ho.q)
      rw [h1] at h
      cases h
      have hsh : Shut c b s' := ⟨h2, h3, h4, .inl (h5.trans hb)⟩
      refine ⟨.inr hsh, ?_, (fun _ h => by cases h), fun _ _ => ⟨rfl, hsh, h5.trans hb⟩, fun _ _ h => by cases h⟩
      rw [h6, h5, h3, hb, ho.q, rest_pieces]; simp [returned, rest]
    · have : ∀ f, drive c (f + 1) { raw } s = (.ok (), s) := by
        intro f
        simp [drive, next, ho.eof]
      rw [show bound {} s = (bound {} s - 1) + 1 from by unfold bound; omega, this] at h
      cases h
      exact ⟨.inr ho, by simp [returned], (fun _ h => by cases h), fun _ _ => ⟨rfl, ho, hb⟩, fun _ _ h => by cases h⟩
  | recv size raw =>
    unfold call at h
    split at h
    · rename_i heq; cases heq
    · rename_i heq
      cases heq
      cases h
      exact ⟨ho, by simp [returned], (fun _ h => by cases h), (fun _ h => by cases h), fun n raw h1 => by cases h1; exact ⟨_, rfl, by simp⟩⟩
    · rename_i sz rw_ hne heq
      cases heq
      split at h
      · rename_i hi
        cases h
        exact ⟨ho, by simp [returned], (fun _ h => by cases h), (fun _ h => by cases h), fun n raw h1 => ⟨_, rfl, by simp [hi]⟩⟩
      · rename_i hi
        cases size with
        | none =>
          have hb := ht (fun _ _ h => by cases h)
          dsimp only at h
          rcases ho with ⟨ps, ho⟩ | ho
          · have hg : Going (s.inst.getD { raw }) := by
              cases hin : s.inst with
              | none => exact ⟨rfl, rfl⟩
              | some g => exact ho.inst g hin
            rcases hn : next c (s.inst.getD { raw }) s with ⟨r1, g1, s1⟩
            obtain ⟨n1, n2, n3⟩ := next_open ho.plain ho.q ho.eof hg hn
            rw [hn] at h
            cases h
            rcases n3 with ⟨d, ps', rfl, rfl, e1, e2, e3⟩ | ⟨rfl, rfl, e1, e2, e3⟩
            · refine ⟨.inl ⟨ps', ⟨n2.chunked, n2.cl, n2.max, n2.size⟩, e1, e2, n1.body.trans ho.body, fun g hg => by cases hg; exact e3⟩, ?_, (fun _ h => by cases h), (fun _ h => by cases h), fun _ _ h => by cases h⟩
              dsimp only
              rw [e1, rest_pieces, n1.body, n1.buf, ho.body, hb, ho.q, rest_pieces]; simp [returned]
            · refine ⟨.inr ⟨⟨n2.chunked, n2.cl, n2.max, n2.size⟩, e1, e2, .inl (n1.buf.trans hb)⟩, ?_, (fun _ h => by cases h; rfl), (fun _ h => by cases h), fun _ _ h => by cases h⟩
              dsimp only
              rw [e1, n1.body, n1.buf, ho.body, hb, ho.q]; simp [returned, rest]
          · exact absurd (show s.isEof = true from by simp [St.isEof, ho.eof, hb]) hi
        | some n =>
          dsimp only at h
          have key : ∃ s1, (if s.buf.length < n then gather c n (bound (s.inst.getD { raw }) s) (s.inst.getD { raw }) s else (.ok (), { s with inst := some (s.inst.getD { raw }) })) = (.ok (), s1) ∧
              ((∃ ps, Open c b s1 ps) ∨ Shut c b s1) ∧ s1.body = [] ∧ s.body = [] ∧ s1.buf ++ rest s1.q = s.buf ++ rest s.q ∧ (s1.buf.length < n → s1.q = []) := by
            rcases ho with ⟨ps, ho⟩ | ho
            · have hg : Going (s.inst.getD { raw }) := by
                cases hin : s.inst with
                | none => exact ⟨rfl, rfl⟩
                | some g => exact ho.inst g hin
              split
              · obtain ⟨s1, h1, h2, h3, h4, h5⟩ := gather_open n _ ps _ s ho.plain ho.q ho.eof ho.body hg (length_bound (g := s.inst.getD { raw }) ho.q)
                exact ⟨s1, h1, h5, h3, ho.body, by rw [h2, ho.q, rest_pieces], h4⟩
              · rename_i hlt
                exact ⟨_, rfl, .inl ⟨ps, ⟨ho.plain.chunked, ho.plain.cl, ho.plain.max, ho.plain.size⟩, ho.q, ho.eof, ho.body, fun g hg' => by cases hg'; exact hg⟩, ho.body, ho.body, rfl, fun h => absurd h hlt⟩
            · rcases ho.inst with hb | ⟨hbd, g, hin, hov⟩
              · exact absurd (show s.isEof = true from by simp [St.isEof, ho.eof, hb]) hi
              · rw [hin]
                dsimp only [Option.getD]
                have hsh : Shut c b { s with inst := some g } := ⟨⟨ho.plain.chunked, ho.plain.cl, ho.plain.max, ho.plain.size⟩, ho.q, ho.eof, .inr ⟨hbd, g, rfl, hov⟩⟩
                split
                · have : ∀ f, gather c n (f + 1) g s = (.ok (), { s with inst := some g }) := by
                    intro f
                    simp [gather, next, hov]
                  rw [show bound g s = (bound g s - 1) + 1 from by unfold bound; omega, this]
                  exact ⟨_, rfl, .inr hsh, hbd, hbd, rfl, fun _ => ho.q⟩
                · exact ⟨_, rfl, .inr hsh, hbd, hbd, rfl, fun _ => ho.q⟩
          obtain ⟨s1, k1, k2, k3, k4, k5, k6⟩ := key
          rw [k1] at h
          cases h
          refine ⟨?_, ?_, (fun _ h => by cases h), (fun _ h => by cases h), ?_⟩
          · rcases k2 with ⟨ps, k2⟩ | k2
            · exact .inl ⟨ps, ⟨k2.plain.chunked, k2.plain.cl, k2.plain.max, k2.plain.size⟩, k2.q, k2.eof, k2.body, k2.inst⟩
            · refine .inr ⟨⟨k2.plain.chunked, k2.plain.cl, k2.plain.max, k2.plain.size⟩, k2.q, k2.eof, ?_⟩
              rcases k2.inst with hb | hx
              · left; dsimp only; rw [hb]; simp
              · exact .inr hx
          · dsimp only
            rw [k3, k4]
            simp only [returned, List.append_nil, List.nil_append]
            rw [List.take_append_drop, k5]
          · intro n' raw' h1
            cases h1
            refine ⟨_, rfl, List.length_take_le _ _, fun hlt => ?_⟩
            rw [List.length_take] at hlt
            have hq := k6 (by omega)
            rcases k2 with ⟨ps, k2⟩ | k2
            · have := k2.q; rw [hq] at this; simp at this
            · simp only [St.isEof, k2.eof, Bool.true_and, beq_iff_eq]
              exact List.drop_eq_nil_of_le (by omega)

theorem returned_cons (k : Call) (ks : List Call) (r : Except Exc Bytes) (rs : List (Except Exc Bytes)) : returned (k :: ks) (r :: rs) = returned [k] [r] ++ returned ks rs := by
  cases k <;> cases r <;> simp [returned]

theorem calls_tidy {c : Cfg} {b : Bytes} : ∀ (ks : List Call) (s : St), ((∃ ps, Open c b s ps) ∨ Shut c b s) → Tidy c s ks →
    ((∃ ps, Open c b (calls c s ks).2 ps) ∨ Shut c b (calls c s ks).2) ∧
    returned ks (calls c s ks).1 ++ (calls c s ks).2.body ++ (calls c s ks).2.buf ++ rest (calls c s ks).2.q = s.body ++ s.buf ++ rest s.q ∧
    ∀ r ∈ (calls c s ks).1, ∀ e, r = .error e → e = .stop
  | [], s, ho, _ => ⟨ho, by simp [calls, returned], fun r hr => (by cases hr)⟩
  | k :: ks, s, ho, ht => by
    rcases hc : call c s k with ⟨r, s1⟩
    obtain ⟨p1, p2, p3, p4, _⟩ := call_tidy ho ht.1 hc
    have ht2 := ht.2
    rw [hc] at ht2
    obtain ⟨i1, i2, i3⟩ := calls_tidy ks s1 p1 ht2
    have e1 : (calls c s (k :: ks)) = (r :: (calls c s1 ks).1, (calls c s1 ks).2) := by simp only [calls, hc]
    rw [e1]
    refine ⟨i1, ?_, fun x hx e he => ?_⟩
    · rw [returned_cons, ← p2]
      simp only [List.append_assoc] at i2 ⊢
      rw [i2]
    · rcases List.mem_cons.1 hx with rfl | hx
      · exact p3 e he
      · exact i3 x hx e he

end ReadApi

/-! ## C113 -/

/-- **C113 (once)**: whatever calls of `recv`, `read` and `body` a handler makes, in whatever order: of the body `b` of a request with a
Content-Length, each byte is returned once, or kept in `_body` for `body()`, or in `_read_buf`, or still to come; none is lost, and none is
there twice. No call fails otherwise than by StopAsyncIteration or by a timeout. -/
theorem C113_once {c : Cfg} (hc : c.chunked = false) {b : Bytes} (hl : c.cl = b.length) (hm : b.length ≤ c.maxBody) {ps : List Bytes} (hb : ps.flatten = b) (ks : List Call) :
    let p := calls c { q := ps.map some ++ [none] } ks
    (returned ks p.1 ++ p.2.body ++ p.2.buf ++ (p.2.q.map (·.getD [])).flatten).Perm b ∧ ∀ r ∈ p.1, ∀ e, r = .error e → e = .stop ∨ e = .timeout := by
  have hr : Proofs.ReadApi.rest (ps.map some ++ [none]) = b := by simp [Proofs.ReadApi.rest, Function.comp_def, hb]
  have := ReadApi.calls_once (c := c) (b := b) ks { q := ps.map some ++ [none] } (fun g hg => by cases hg) ⟨hc, hl, hm, by dsimp only; rw [hr]; simp⟩
  simp only [hr, List.nil_append] at this
  exact this

/-- **C113 (order)**: if the sized reads have left nothing over whenever `recv()`, `read()` or `body()` is called, the body is read in its
order: what the reads return, in the order of the calls, then what `body()` has, then what is left over, then what is to come. No call
fails but by StopAsyncIteration, and when `eof()` holds all was read. -/
theorem C113_order_partial {c : Cfg} (hc : c.chunked = false) {b : Bytes} (hl : c.cl = b.length) (hm : b.length ≤ c.maxBody) {ps : List Bytes} (hb : ps.flatten = b) (ks : List Call)
    (ht : Tidy c { q := ps.map some ++ [none] } ks) :
    let p := calls c { q := ps.map some ++ [none] } ks
    returned ks p.1 ++ p.2.body ++ p.2.buf ++ (p.2.q.map (·.getD [])).flatten = b ∧ (∀ r ∈ p.1, ∀ e, r = .error e → e = .stop) ∧ (p.2.isEof = true → returned ks p.1 ++ p.2.body = b) := by
  have hr := ReadApi.rest_pieces ps
  rw [hb] at hr
  obtain ⟨h1, h2, h3⟩ := ReadApi.calls_tidy (c := c) (b := b) ks { q := ps.map some ++ [none] }
    (.inl ⟨ps, ⟨hc, hl, hm, by dsimp only; rw [hr]; simp⟩, rfl, rfl, rfl, fun _ h => by cases h⟩) ht
  simp only [hr, List.nil_append] at h2
  refine ⟨h2, h3, fun he => ?_⟩
  simp only [St.isEof, Bool.and_eq_true, beq_iff_eq] at he
  rcases h1 with ⟨ps', h1⟩ | h1
  · rw [h1.eof] at he; cases he.1
  · rw [he.2, h1.q] at h2
    simpa [Proofs.ReadApi.rest] using h2

/-- **C113 (the rest)**: after such reads `body()` returns what they have not taken. -/
theorem C113_rest_partial {c : Cfg} (hc : c.chunked = false) {b : Bytes} (hl : c.cl = b.length) (hm : b.length ≤ c.maxBody) {ps : List Bytes} (hb : ps.flatten = b) (ks : List Call) (raw : Bool)
    (ht : Tidy c { q := ps.map some ++ [none] } ks) (hk : (calls c { q := ps.map some ++ [none] } ks).2.buf = []) :
    let p := calls c { q := ps.map some ++ [none] } ks
    ∃ d s', call c p.2 (.body raw) = (.ok d, s') ∧ returned ks p.1 ++ d = b ∧ s'.isEof = true := by
  have hr := ReadApi.rest_pieces ps
  rw [hb] at hr
  obtain ⟨h1, h2, h3⟩ := ReadApi.calls_tidy (c := c) (b := b) ks { q := ps.map some ++ [none] }
    (.inl ⟨ps, ⟨hc, hl, hm, by dsimp only; rw [hr]; simp⟩, rfl, rfl, rfl, fun _ h => by cases h⟩) ht
  simp only [hr, List.nil_append] at h2
  intro p
  rcases hx : call c p.2 (.body raw) with ⟨r, s'⟩
  obtain ⟨_, k2, _, k4, _⟩ := ReadApi.call_tidy h1 (fun _ => hk) hx
  obtain ⟨rfl, k5, k6⟩ := k4 raw rfl
  refine ⟨_, _, rfl, ?_, by simp [St.isEof, k5.eof, k6]⟩
  rw [← h2]
  simp only [returned, k5.q, k6, Proofs.ReadApi.rest, List.map_nil, List.flatten_nil, List.append_nil, List.nil_append] at k2
  rw [k2]
  simp [p, Proofs.ReadApi.rest]

/-- **C113 (sizes)**: a sized read returns what was asked for, or all that is left. -/
theorem C113_sized_partial {c : Cfg} (hc : c.chunked = false) {b : Bytes} (hl : c.cl = b.length) (hm : b.length ≤ c.maxBody) {ps : List Bytes} (hb : ps.flatten = b) (ks : List Call) (n : Nat) (raw : Bool)
    (ht : Tidy c { q := ps.map some ++ [none] } ks) :
    let p := calls c { q := ps.map some ++ [none] } ks
    ∃ d s', call c p.2 (.recv (some n) raw) = (.ok d, s') ∧ d.length ≤ n ∧ (d.length < n → s'.isEof = true) := by
  have hr := ReadApi.rest_pieces ps
  rw [hb] at hr
  obtain ⟨h1, _, _⟩ := ReadApi.calls_tidy (c := c) (b := b) ks { q := ps.map some ++ [none] }
    (.inl ⟨ps, ⟨hc, hl, hm, by dsimp only; rw [hr]; simp⟩, rfl, rfl, rfl, fun _ h => by cases h⟩) ht
  intro p
  rcases hx : call c p.2 (.recv (some n) raw) with ⟨r, s'⟩
  obtain ⟨_, _, _, _, k5⟩ := ReadApi.call_tidy h1 (fun hne => absurd rfl (hne n raw)) hx
  obtain ⟨d, rfl, h⟩ := k5 n raw rfl
  exact ⟨d, s', rfl, h⟩

/-- **C113 (fuel)**: the loops of the model end by themselves, whatever the calls and whatever was received. -/
theorem C113_fuel (c : Cfg) (q : List Item) (ks : List Call) : ∀ r ∈ (calls c { q } ks).1, r ≠ .error .fuel := by
  have : ∀ (ks : List Call) (s : St), Proofs.ReadApi.SOk s → ∀ r ∈ (calls c s ks).1, r ≠ .error .fuel := by
    intro ks
    induction ks with
    | nil => intro s _ r hr; cases hr
    | cons k ks ih =>
      intro s hs r hr
      rcases hc : call c s k with ⟨r1, s1⟩
      obtain ⟨h1, h2⟩ := Proofs.ReadApi.call_ends c hs hc
      simp only [calls, hc] at hr
      rcases List.mem_cons.1 hr with rfl | hr
      · exact h1
      · exact ih s1 h2 r hr
  exact this ks { q } (fun g hg => by cases hg)

/-- **C113 (body)**: called first, `body()` returns all that `stream()` yields of what was received, or fails as it does. -/
theorem C113_body (c : Cfg) (q : List Item) (raw : Bool) :
    (call c { q } (.body raw)).1 = if (streamOf c raw q).2 = .done then .ok (streamOf c raw q).1.flatten else .error (Proofs.ReadApi.excOf (streamOf c raw q).2) := by
  simp only [call]
  rcases hd : drive c (bound {} { q }) { raw } { q } with ⟨r, s'⟩
  have main : s'.body = (streamOf c raw q).1.flatten ∧ r = if (streamOf c raw q).2 = .done then .ok () else .error (Proofs.ReadApi.excOf (streamOf c raw q).2) := by
    unfold streamOf
    by_cases hx : (!raw && c.chunked) = true
    · rw [if_pos hx]
      have hr : raw = false := by cases raw <;> simp at hx ⊢
      have hx : c.chunked = true := by cases h : c.chunked <;> simp [h] at hx ⊢
      subst hr
      obtain ⟨h1, h2, _⟩ := Proofs.ReadApi.drive_loop hx _ _ { q } (fun h => by cases h) (by have := Proofs.ReadApi.weight_bound {} { q := q }; omega) rfl rfl (.inl rfl) hd
      have e : Proofs.ReadApi.loop c.bs (Proofs.ReadApi.pend {} { q }).2 ({} : Gen).ch (Proofs.ReadApi.pend {} { q }).1 = chunkStream c.bs q := by
        unfold chunkStream Proofs.ReadApi.loop
        exact Proofs.ReadApi.chunkLoop_fuel _ _ _ _ (fun h => by cases h) (by omega) (by unfold Proofs.BodyStream.measure Model.BodyStream.chunkFuel; dsimp only [Proofs.ReadApi.pend]; simp)
      rw [e] at h1 h2
      exact ⟨by rw [h1]; rfl, h2⟩
    · rw [if_neg hx]
      have hx' : ({ raw } : Gen).raw = true ∨ c.chunked = false := by cases raw <;> cases h : c.chunked <;> simp [h] at hx ⊢
      unfold rawStream
      split
      · rename_i hcl
        rw [show bound {} { q := q } = (bound {} { q := q } - 1) + 1 from by unfold bound; omega, drive] at hd
        unfold next at hd
        simp only [Bool.false_eq_true, if_false, Bool.and_false, hx, hcl, decide_true, Bool.not_false, Bool.and_self, if_true] at hd
        cases hd
        exact ⟨rfl, rfl⟩
      · rename_i hcl
        obtain ⟨h1, h2, _⟩ := Proofs.ReadApi.drive_raw hx' q _ _ { q } rfl (by
          have : ∀ q : List Item, q.length ≤ (q.map (fun x : Item => 2 * (x.getD []).length + 2)).sum := by
            intro q
            induction q with
            | nil => simp
            | cons p ps ih => simp only [List.map_cons, List.sum_cons, List.length_cons] at ih ⊢; omega
          have := this q
          unfold bound; dsimp only; omega) rfl rfl rfl (.inr ⟨rfl, by omega⟩) hd
        rcases hrp : recvPieces q with ⟨p, e⟩
        rw [hrp] at h1 h2
        refine ⟨by rw [h1]; rfl, ?_⟩
        rw [h2]
        cases e <;> rfl
  obtain ⟨h1, h2⟩ := main
  by_cases hy : (streamOf c raw q).2 = .done
  · rw [if_pos hy] at h2 ⊢
    subst h2
    rw [← h1]
  · rw [if_neg hy] at h2 ⊢
    subst h2
    rfl

/-! ### Where it fails -/

/-- **C113 (skipping)**: a sized read followed by `read()` or `recv()` skips what the sized read left over: `read(n)` that takes less than
the first piece, then `read()`, which returns the second. -/
theorem C113_skips {c : Cfg} (hc : c.chunked = false) {p d : Bytes} {ps : List Bytes} (hl : c.cl = (p ++ d ++ ps.flatten).length) (hm : (p ++ d ++ ps.flatten).length ≤ c.maxBody) {n : Nat} (h0 : n ≠ 0) (hn : n ≤ p.length) (raw raw' : Bool) :
    (calls c { q := some p :: some d :: (ps.map some ++ [none]) } [.recv (some n) raw, .recv none raw']).1 = [.ok (p.take n), .ok d] := by
  have hp : ReadApi.Plain c (p ++ d ++ ps.flatten) { q := some p :: some d :: (ps.map some ++ [none]) } := ⟨hc, hl, hm, by
    dsimp only
    rw [show some p :: some d :: (ps.map some ++ [none]) = (p :: d :: ps).map some ++ [none] from rfl, ReadApi.rest_pieces]; simp⟩
  have e1 := ReadApi.recv_one raw hp rfl rfl rfl h0 rfl hn
  have hp1 := (ReadApi.call_plain (fun g hg => by cases hg) hp e1).1
  simp only [calls, e1]
  simp only [call, St.isEof, Bool.false_and, Bool.false_eq_true, if_false]
  dsimp only [Option.getD]
  rw [ReadApi.next_piece hp1 rfl (.inl rfl) ⟨rfl, rfl⟩]

/-- **C113 (leaving out)**: what a sized read left over is not in what `body()` returns, and a later read of more than that waits for what
never comes: `read(n)` that takes less than the one piece, then `body()`, then `read(m)`. -/
theorem C113_leaves_out {c : Cfg} (hc : c.chunked = false) {b : Bytes} (hl : c.cl = b.length) (hm : b.length ≤ c.maxBody) {n m : Nat} (h0 : n ≠ 0) (hn : n < b.length) (hm' : b.length < n + m) (raw raw' raw'' : Bool) :
    (calls c { q := [some b, none] } [.recv (some n) raw, .body raw', .recv (some m) raw'']).1 = [.ok (b.take n), .ok [], .error .timeout] := by
  have hp : ReadApi.Plain c b { q := [some b, none] } := ⟨hc, hl, hm, by simp [Proofs.ReadApi.rest]⟩
  have e1 := ReadApi.recv_one raw hp rfl rfl rfl h0 rfl (Nat.le_of_lt hn)
  have hp1 := (ReadApi.call_plain (fun g hg => by cases hg) hp e1).1
  have e2 : call c { q := [none], consumed := 0 + b.length, buf := b.drop n, inst := some { raw, started := true } } (.body raw') =
      (.ok [], { q := [], eof := true, consumed := 0 + b.length, buf := b.drop n, inst := some { raw, started := true } }) := by
    simp only [call]
    rw [show ∀ s, bound {} s = (bound {} s - 1) + 1 from fun s => by unfold bound; omega, drive, ReadApi.next_none hp1 rfl (.inl rfl) ⟨rfl, rfl⟩]
  have hp2 : ReadApi.Plain c b { q := [], eof := true, consumed := 0 + b.length, buf := b.drop n, inst := some { raw, started := true } } := ⟨hc, hl, hm, by simp [Proofs.ReadApi.rest]⟩
  have e3 : (call c { q := [], eof := true, consumed := 0 + b.length, buf := b.drop n, inst := some { raw, started := true } } (.recv (some m) raw'')).1 = .error .timeout := by
    obtain ⟨m, rfl⟩ := Nat.exists_eq_succ_of_ne_zero (show m ≠ 0 from by omega)
    have hb : b.drop n ≠ [] := by simp; omega
    simp only [call, St.isEof, Bool.true_and, beq_iff_eq, hb, if_false, Option.getD]
    rw [if_pos (by simp; omega), show ∀ g s, bound g s = (bound g s - 1) + 1 from fun g s => by unfold bound; omega, gather, ReadApi.next_void hp2 rfl (.inr rfl) ⟨rfl, rfl⟩]
  simp only [calls, e1, e2]
  rw [← e3]

/-- **C113 (the end)**: `while not eof(): recv()` always ends by StopAsyncIteration: when all pieces were returned `eof()` does not hold yet,
and the next call raises. -/
theorem C113_end {c : Cfg} (hc : c.chunked = false) {b : Bytes} (hl : c.cl = b.length) (hm : b.length ≤ c.maxBody) {ps : List Bytes} (hb : ps.flatten = b) (raw : Bool) :
    let p := calls c { q := ps.map some ++ [none] } (List.replicate ps.length (.recv none raw))
    p.1 = ps.map .ok ∧ p.2.isEof = false ∧ (call c p.2 (.recv none raw)).1 = .error .stop := by
  have key : ∀ (ps : List Bytes) (s : St), ReadApi.Open c b s ps →
      (calls c s (List.replicate ps.length (.recv none raw))).1 = ps.map .ok ∧ ReadApi.Open c b (calls c s (List.replicate ps.length (.recv none raw))).2 [] := by
    intro ps
    induction ps with
    | nil => intro s ho; exact ⟨rfl, ho⟩
    | cons d ps ih =>
      intro s ho
      have hg : ReadApi.Going (s.inst.getD { raw }) := by
        cases hin : s.inst with
        | none => exact ⟨rfl, rfl⟩
        | some g => exact ho.inst g hin
      have hn := ReadApi.next_piece (d := d) (q := ps.map some ++ [none]) ho.plain (by rw [ho.q]; rfl) (.inl ho.eof) hg
      have hcall : call c s (.recv none raw) = (.ok d, { s with q := ps.map some ++ [none], consumed := s.consumed + d.length, inst := some { s.inst.getD { raw } with started := true } }) := by
        simp only [call, St.isEof, ho.eof, Bool.false_and, Bool.false_eq_true, if_false, hn]
      have ho' : ReadApi.Open c b { s with q := ps.map some ++ [none], consumed := s.consumed + d.length, inst := some { s.inst.getD { raw } with started := true } } ps := by
        have hl := ho.plain.size
        rw [ho.q, ReadApi.rest_pieces, List.flatten_cons, List.length_append] at hl
        exact ⟨⟨hc, ho.plain.cl, hm, by dsimp only; rw [ReadApi.rest_pieces]; omega⟩, rfl, ho.eof, ho.body, fun g h => by cases h; exact hg⟩
      obtain ⟨i1, i2⟩ := ih _ ho'
      simp only [List.length_cons, List.replicate_succ, calls, hcall, i1]
      exact ⟨rfl, i2⟩
  have hr := ReadApi.rest_pieces ps
  rw [hb] at hr
  obtain ⟨k1, k2⟩ := key ps { q := ps.map some ++ [none] } ⟨⟨hc, hl, hm, by dsimp only; rw [hr]; simp⟩, rfl, rfl, rfl, fun _ h => by cases h⟩
  refine ⟨k1, by simp [St.isEof, k2.eof], ?_⟩
  generalize (calls c { q := ps.map some ++ [none] } (List.replicate ps.length (.recv none raw))).2 = s at k2
  have hg : ReadApi.Going (s.inst.getD { raw }) := by
    cases hin : s.inst with
    | none => exact ⟨rfl, rfl⟩
    | some g => exact k2.inst g hin
  simp only [call, St.isEof, k2.eof, Bool.false_and, Bool.false_eq_true, if_false, ReadApi.next_none k2.plain k2.q (.inl k2.eof) hg]

/-- **C113 (chunked, refuted)**: of a chunked body it is worse: what the first generator has read and not yet decoded is gone with it. After
`read(1)`, `body()` refuses a well-formed body that came in one piece with a 400. -/
theorem C113_refuted_chunked :
    (calls { chunked := true } { q := [some b!"3\r\nabc\r\n0\r\n\r\n", none] } [.recv (some 1) false, .body false]).1 = [.ok b!"a", .error .badRequest] ∧
    (calls { chunked := true } { q := [some b!"3\r\nabc\r\n0\r\n\r\n", none] } [.recv (some 1) false, .recv (some 9) false]).1 = [.ok b!"a", .ok b!"bc"] := ⟨rfl, rfl⟩

/-- **C113 (chunked, refuted)**: and the second generator takes what is left of a chunk for the next chunk: `body()` returns what the content
says. The body is the one chunk `ab1\r\nX\r\n0\r\n\r\n`. -/
theorem C113_refuted_framing :
    (calls { chunked := true } { q := [some b!"d\r\nab", some b!"1\r\nX\r\n0\r\n\r\n\r\n0\r\n\r\n", none] } [.recv (some 2) false, .body false]).1 = [.ok b!"ab", .ok b!"X"] ∧
    (calls { chunked := true } { q := [some b!"d\r\nab", some b!"1\r\nX\r\n0\r\n\r\n\r\n0\r\n\r\n", none] } [.body false]).1 = [.ok b!"ab1\r\nX\r\n0\r\n\r\n"] := ⟨rfl, rfl⟩

/-- **C113 (chunked, refuted)**: the first call decides whether the body is decoded: after a `recv()`, `read()` returns the framing too. -/
theorem C113_refuted_raw :
    (calls { chunked := true } { q := [some b!"1\r\na\r\n", some b!"1\r\nb\r\n0\r\n\r\n", none] } [.recv none true, .recv none false]).1 = [.ok b!"1\r\na\r\n", .ok b!"1\r\nb\r\n0\r\n\r\n"] := rfl

/-! ### The theorems speak of something -/

/-- Sized reads, a `read()` where nothing is left over, and `body()`. -/
example : (calls { cl := 9 } { q := [some b!"abc", some b!"def", some b!"ghi", none] } [.recv (some 2) false, .recv (some 1) true, .recv none false, .body false]).1 =
    [.ok b!"ab", .ok b!"c", .ok b!"def", .ok b!"ghi"] := rfl
example : Tidy { cl := 9 } { q := [some b!"abc", some b!"def", some b!"ghi", none] } [.recv (some 2) false, .recv (some 1) true, .recv none false, .body false] :=
  ⟨fun h => absurd rfl (h _ _), fun h => absurd rfl (h _ _), fun _ => rfl, fun _ => rfl, trivial⟩
/-- Reads that are not tidy lose the order, and no byte. -/
example : (calls { cl := 6 } { q := [some b!"abc", some b!"def", none] } [.recv (some 1) false, .recv none false, .recv (some 9) false]).1 =
    [.ok b!"a", .ok b!"def", .ok b!"bc"] := rfl
example : returned [.recv (some 1) false, .body true, .recv none false] [.ok b!"a", .ok b!"xyz", .ok b!"def"] = b!"adef" := rfl
example : (call { cl := 6 } { q := [some b!"abc", some b!"def", none] } (.body false)).1 = .ok b!"abcdef" := rfl
example : (call { cl := 6, maxBody := 5 } { q := [some b!"abc", some b!"def", none] } (.body false)).1 = .error .tooLarge := rfl

end Verif
