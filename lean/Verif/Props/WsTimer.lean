import Verif.Py.Util
import Verif.Proofs.NativeWs
import Verif.Model.WsTimer
/-!
# Timers of WebSocket sessions: C88
-/
namespace Verif
open Verif.Py Verif.Model.WsTimer
open Verif.Model.NativeWs (Got gives)

namespace WsTimer

/-- While the handler waits. -/
structure Wait (c : Cfg) (t : T) : Prop where
  get : t.getAt ≤ t.now ∧ t.now ≤ t.getAt + 2 * c.half
  frame : t.frameAt ≤ t.getAt
  armed : t.armed = true → t.now ≤ t.frameAt + c.half ∧ ∀ p ∈ t.pings, p ≤ t.frameAt
  fired : t.armed = false → t.frameAt + c.half ≤ t.now ∧ (t.listed = true → t.frameAt + c.half ∈ t.pings) ∧ ∀ p ∈ t.pings, p ≤ t.frameAt + c.half
  heard : ∀ a ∈ t.heard, a ≤ t.getAt
  idle : t.buf = [] → t.frameAt = t.getAt
  alive : t.over = false

structure Good (c : Cfg) (t : T) : Prop where
  wait : t.waiting = true → Wait c t
  heard : ∀ a ∈ t.heard, a ≤ t.now
  pings : ∀ p ∈ t.pings, p ≤ t.now
  spaced : t.pings.Pairwise (fun a b => a + c.half ≤ b)
  over : t.over = true → t.waiting = false
  expired : ∀ x, t.expired = some x → t.over = true ∧ (∀ a ∈ t.heard, a + 2 * c.half ≤ x) ∧ (t.listed = true → t.buf = [] → ∃ p ∈ t.pings, p + c.half = x)

theorem goOn_good {c : Cfg} {t : T} (h : t.over = false) (he : t.expired = none) (hw : t.waiting = true) (hh : ∀ a ∈ t.heard, a ≤ t.now) (hp : ∀ p ∈ t.pings, p ≤ t.now)
    (hs : t.pings.Pairwise (fun a b => a + c.half ≤ b)) (hf : t.frameAt ≤ t.now) (ha : t.armed = true → t.now ≤ t.frameAt + c.half ∧ ∀ p ∈ t.pings, p ≤ t.frameAt)
    (hb : t.armed = false → t.frameAt + c.half ≤ t.now ∧ (t.listed = true → t.frameAt + c.half ∈ t.pings) ∧ ∀ p ∈ t.pings, p ≤ t.frameAt + c.half)
    (hn : t.buf = [] → t.frameAt = t.now) (rest : Bytes) (sent : List Bytes) : Good c (goOn t rest sent) := by
  unfold goOn
  split
  · exact ⟨fun _ => ⟨⟨Nat.le_refl _, Nat.le_add_right _ _⟩, hf, ha, hb, hh, hn, h⟩, hh, hp, hs, fun h' => (by rw [h] at h'; cases h'), fun x hx => (by rw [he] at hx; cases hx)⟩
  · refine ⟨fun _ => ⟨⟨Nat.le_refl _, Nat.le_add_right _ _⟩, Nat.le_refl _, fun _ => ⟨Nat.le_add_right _ _, hp⟩, fun h' => (by cases h'), hh, fun _ => rfl, h⟩, hh, hp, hs,
      fun h' => (by rw [h] at h'; cases h'), fun x hx => (by rw [he] at hx; cases hx)⟩

theorem give_good {c : Cfg} {t : T} (he : t.expired = none) (hh : ∀ a ∈ t.heard, a ≤ t.now) (hp : ∀ p ∈ t.pings, p ≤ t.now)
    (hs : t.pings.Pairwise (fun a b => a + c.half ≤ b)) (rest : Bytes) (sent : List Bytes) (g : Got) : Good c (give t rest sent g) :=
  ⟨fun h => (by cases h), hh, hp, hs, fun _ => rfl, fun x hx => by rw [show t.expired = some x from hx] at he; cases he⟩

theorem settle_good {c : Cfg} {t : T} (h : t.over = false) (he : t.expired = none) (hw : t.waiting = true) (hh : ∀ a ∈ t.heard, a ≤ t.now) (hp : ∀ p ∈ t.pings, p ≤ t.now)
    (hs : t.pings.Pairwise (fun a b => a + c.half ≤ b)) (hf : t.frameAt ≤ t.now) (ha : t.armed = true → t.now ≤ t.frameAt + c.half ∧ ∀ p ∈ t.pings, p ≤ t.frameAt)
    (hb : t.armed = false → t.frameAt + c.half ≤ t.now ∧ (t.listed = true → t.frameAt + c.half ∈ t.pings) ∧ ∀ p ∈ t.pings, p ≤ t.frameAt + c.half)
    (hn : t.buf = [] → t.frameAt = t.now) : Good c (settle c t) := by
  unfold settle
  split
  · exact goOn_good h he hw hh hp hs hf ha hb hn _ _
  · exact give_good he hh hp hs _ _ _

theorem not_expired {c : Cfg} {t : T} (g : Good c t) (h : t.over = false) : t.expired = none := by
  cases he : t.expired with
  | none => rfl
  | some x => have := (g.expired x he).1; rw [h] at this; cases this

theorem step_good {c : Cfg} (hc : 0 < c.half) {t : T} (g : Good c t) (ev : Ev) : Good c (step c t ev) := by
  cases ev with
  | tick =>
    unfold step
    dsimp only
    split
    · exact g
    · next hd =>
      simp only [Bool.or_eq_true, not_or, Bool.not_eq_true] at hd
      refine ⟨fun hw => ?_, fun a ha => Nat.le_succ_of_le (g.heard a ha), fun p hp => Nat.le_succ_of_le (g.pings p hp), g.spaced, g.over, g.expired⟩
      have hw : t.waiting = true := hw
      have w := g.wait hw
      have h1 : ¬ t.getAt + 2 * c.half ≤ t.now := by
        intro h; have := hd.2; simp [getDue, hw, h] at this
      refine ⟨⟨Nat.le_succ_of_le w.get.1, by show t.now + 1 ≤ t.getAt + 2 * c.half; omega⟩, w.frame, fun ha => ⟨?_, (w.armed ha).2⟩, fun ha => ⟨Nat.le_succ_of_le (w.fired ha).1, (w.fired ha).2⟩, w.heard, w.idle, w.alive⟩
      have ha : t.armed = true := ha
      have h2 : ¬ t.frameAt + c.half ≤ t.now := by
        intro h; have := hd.1; simp [pingDue, hw, ha, h] at this
      show t.now + 1 ≤ t.frameAt + c.half; omega
  | data b =>
    unfold step
    dsimp only
    split
    · exact g
    · next hd =>
      simp only [Bool.or_eq_true, not_or, Bool.not_eq_true, decide_eq_true_eq] at hd
      have hh : ∀ a ∈ t.heard ++ [t.now], a ≤ t.now := by
        intro a ha
        rcases List.mem_append.1 ha with h | h
        · exact g.heard a h
        · rw [List.mem_singleton.1 h]; exact Nat.le_refl _
      unfold arrive
      have hx := not_expired g hd.1
      split
      · next hw =>
        have w := g.wait hw
        exact settle_good (t := { t with buf := t.buf ++ b, heard := t.heard ++ [t.now] }) hd.1 hx hw hh g.pings g.spaced (Nat.le_trans w.frame w.get.1) w.armed w.fired
          (fun h => absurd (List.append_eq_nil_iff.1 h).2 hd.2)
      · next hw =>
        exact ⟨fun h => absurd h hw, hh, g.pings, g.spaced, g.over, fun x hx => by
          have := not_expired g hd.1; rw [show t.expired = some x from hx] at this; cases this⟩
  | call =>
    unfold step
    dsimp only
    split
    · exact g
    · next hd =>
      simp only [Bool.or_eq_true, not_or, Bool.not_eq_true] at hd
      have hx := not_expired g hd.1
      exact settle_good (t := { t with waiting := true, frameAt := t.now, getAt := t.now, armed := true }) hd.1 hx rfl g.heard g.pings g.spaced (Nat.le_refl _)
        (fun _ => ⟨Nat.le_add_right _ _, g.pings⟩) (fun h => (by cases h)) (fun _ => rfl)
  | pingTimer =>
    unfold step
    dsimp only
    split
    · next hd =>
      simp only [pingDue, Bool.and_eq_true, decide_eq_true_eq] at hd
      obtain ⟨⟨hw, ha⟩, hle⟩ := hd
      have w := g.wait hw
      have hn : t.now = t.frameAt + c.half := Nat.le_antisymm (w.armed ha).1 hle
      have hx : t.expired = none := not_expired g w.alive
      unfold sendPing
      split
      · refine ⟨fun _ => ⟨w.get, w.frame, fun h => (by cases h), fun _ => ⟨hle, fun _ => ?_, fun p hp => ?_⟩, w.heard, w.idle, w.alive⟩, g.heard, fun p hp => ?_, ?_, g.over, fun x h => by rw [show t.expired = some x from h] at hx; cases hx⟩
        · show t.frameAt + c.half ∈ t.pings ++ [t.now]
          rw [← hn]; simp
        · rcases List.mem_append.1 hp with h | h
          · exact Nat.le_trans ((w.armed ha).2 p h) (Nat.le_add_right _ _)
          · rw [List.mem_singleton.1 h, hn]; exact Nat.le_refl _
        · rcases List.mem_append.1 hp with h | h
          · exact g.pings p h
          · rw [List.mem_singleton.1 h]; exact Nat.le_refl _
        · refine List.pairwise_append.2 ⟨g.spaced, List.pairwise_singleton _ _, fun a ha' b hb => ?_⟩
          rw [List.mem_singleton.1 hb, hn]
          have := (w.armed ha).2 a ha'
          omega
      · next hl =>
        refine ⟨fun _ => ⟨w.get, w.frame, fun h => (by cases h), fun _ => ⟨hle, fun h => absurd h hl, fun p hp => ?_⟩, w.heard, w.idle, w.alive⟩, g.heard, g.pings, g.spaced, g.over, fun x h => by rw [show t.expired = some x from h] at hx; cases hx⟩
        exact Nat.le_trans ((w.armed ha).2 p hp) (Nat.le_add_right _ _)
    · exact g
  | getTimer =>
    unfold step
    dsimp only
    split
    · next hd =>
      simp only [getDue, Bool.and_eq_true, decide_eq_true_eq] at hd
      obtain ⟨hw, hle⟩ := hd
      have w := g.wait hw
      have hn : t.now = t.getAt + 2 * c.half := Nat.le_antisymm w.get.2 hle
      refine ⟨fun h => (by cases h), g.heard, g.pings, g.spaced, fun _ => rfl, fun x hx => ?_⟩
      have hx : t.now = x := by have : some t.now = some x := hx; cases this; rfl
      subst hx
      refine ⟨rfl, fun a ha => ?_, fun hl hb => ?_⟩
      · have := w.heard a ha; omega
      · have hi := w.idle hb
        have hna : t.armed = false := by
          cases h : t.armed with
          | false => rfl
          | true => have := (w.armed h).1; omega
        exact ⟨_, (w.fired hna).2.1 hl, by omega⟩
    · exact g
  | evict =>
    unfold step
    dsimp only
    exact ⟨fun hw => ⟨(g.wait hw).get, (g.wait hw).frame, (g.wait hw).armed, fun ha => ⟨((g.wait hw).fired ha).1, fun h => (by cases h), ((g.wait hw).fired ha).2.2⟩, (g.wait hw).heard, (g.wait hw).idle, (g.wait hw).alive⟩,
      g.heard, g.pings, g.spaced, g.over, fun x hx => ⟨(g.expired x hx).1, (g.expired x hx).2.1, fun h => (by cases h)⟩⟩

theorem run_good {c : Cfg} (hc : 0 < c.half) (es : List Ev) : Good c (run c es) := by
  induction es using snocInd with
  | h0 => exact ⟨fun h => (by cases h), fun _ h => (by cases h), fun _ h => (by cases h), List.Pairwise.nil, fun h => (by cases h), fun _ h => by cases h⟩
  | h1 es e ih => unfold run at ih ⊢; rw [List.foldl_append]; exact step_good hc ih e

theorem run_snoc (c : Cfg) (es : List Ev) (e : Ev) : run c (es ++ [e]) = step c (run c es) e := by unfold run; rw [List.foldl_append]; rfl

end WsTimer
open WsTimer

/-- **C88 (partial).** A session expires only when no byte has come for the whole `keepalive_timeout` (`2 * half`); and if it is still listed
and no frame was left incomplete, a ping was sent half the time before, to which the client sent nothing. Missing: connections
that have left the list are not pinged (`C88_refuted_evicted`), nor are clients in the middle of a frame
(`C88_refuted_slow`). -/
theorem C88_expired_partial {c : Cfg} (hc : 0 < c.half) (es : List Ev) {x : Nat} (h : (run c es).expired = some x) :
    (∀ a ∈ (run c es).heard, a + 2 * c.half ≤ x) ∧
    ((run c es).listed = true → (run c es).buf = [] → ∃ p ∈ (run c es).pings, p + c.half = x ∧ ∀ a ∈ (run c es).heard, a < p) := by
  have g := (run_good hc es).expired x h
  refine ⟨g.2.1, fun hl hb => ?_⟩
  obtain ⟨p, hp, he⟩ := g.2.2 hl hb
  refine ⟨p, hp, he, fun a ha => ?_⟩
  have := g.2.1 a ha
  omega

/-- A client that sends something within less than half the time after each ping is not dropped between two frames. -/
theorem C88_responsive {c : Cfg} (hc : 0 < c.half) (es : List Ev) (hl : (run c es).listed = true) (hb : (run c es).buf = [])
    (h : ∀ p ∈ (run c es).pings, ∃ a ∈ (run c es).heard, p ≤ a ∧ a < p + c.half) : (run c es).expired = none := by
  cases he : (run c es).expired with
  | none => rfl
  | some x =>
    obtain ⟨p, hp, -, hn⟩ := (C88_expired_partial hc es he).2 hl hb
    obtain ⟨a, ha, h1, -⟩ := h p hp
    have := hn a ha
    omega

/-- No wait is longer: time does not pass `keepalive_timeout` after the last byte, or after the call of `receive`, while the
handler waits. -/
theorem C88_bound {c : Cfg} (hc : 0 < c.half) (es : List Ev) (hw : (run c es).waiting = true) : (run c es).now ≤ (run c es).getAt + 2 * c.half ∧ ∀ a ∈ (run c es).heard, a ≤ (run c es).getAt :=
  ⟨((run_good hc es).wait hw).get.2, ((run_good hc es).wait hw).heard⟩

/-- When the time has come, the session expires, with code 1000. -/
theorem C88_fires {c : Cfg} (es : List Ev) (hw : (run c es).waiting = true) (hn : (run c es).now = (run c es).getAt + 2 * c.half) :
    (run c (es ++ [.getTimer])).expired = some (run c es).now ∧ (run c (es ++ [.getTimer])).got = (run c es).got ++ [((run c es).now, .raised (.wsServer 1000))] := by
  have hd : getDue c (run c es) = true := by simp [getDue, hw, hn]
  rw [run_snoc]
  unfold step
  dsimp only
  rw [if_pos hd]
  exact ⟨rfl, rfl⟩

/-- Pings are at least half the `keepalive_timeout` apart. -/
theorem C88_spaced {c : Cfg} (hc : 0 < c.half) (es : List Ev) : (run c es).pings.Pairwise (fun a b => a + c.half ≤ b) := (run_good hc es).spaced

/-- No ping is sent and nothing expires unless the handler waits in `receive`. -/
theorem C88_waiting {c : Cfg} (es : List Ev) (e : Ev) (hw : (run c es).waiting = false) (hx : e ≠ .call) :
    (run c (es ++ [e])).pings = (run c es).pings ∧ (run c (es ++ [e])).expired = (run c es).expired := by
  rw [run_snoc]
  unfold step
  cases e with
  | tick => dsimp only; split <;> exact ⟨rfl, rfl⟩
  | data b =>
    dsimp only
    split
    · exact ⟨rfl, rfl⟩
    · unfold arrive; rw [hw, if_neg (by simp)]; exact ⟨rfl, rfl⟩
  | call => exact absurd rfl hx
  | pingTimer => dsimp only; rw [if_neg (by simp [pingDue, hw])]; exact ⟨rfl, rfl⟩
  | getTimer => dsimp only; rw [if_neg (by simp [getDue, hw])]; exact ⟨rfl, rfl⟩
  | evict => exact ⟨rfl, rfl⟩

open Spec.WebSocket Spec.AsgiWs in
/-- A pong of the client restarts both timers. -/
theorem C88_pong {c : Cfg} {t : T} (hw : t.waiting = true) (ho : t.over = false) (hb : t.buf = []) {f : Frame} {b : Bytes} (hf : Carries c.max f (.pong b)) :
    step c t (.data f.encode) = { t with heard := t.heard ++ [t.now], frameAt := t.now, getAt := t.now, armed := true } := by
  obtain ⟨o, p, hl⟩ := hf.says
  obtain ⟨r', h1, h2, -, -⟩ := Proofs.WebSocket.recv_frame (max := c.max) (r := reader f.encode) (fun h => by cases h) hf.fits (fun _ => hf.size) (rest := []) (by
    unfold reader
    show [] ++ (if f.encode = [] then [] else [f.encode]).flatten = _
    split
    · next h => rw [h]; rfl
    · simp)
  rw [Proofs.AsgiWs.opcode_of (n := 10) o, p] at h1
  have hd : Model.WebSocket.dispatch 10 b.length b = (.pong, []) := by simp [Model.WebSocket.dispatch, hl]
  rw [hd] at h1
  have hne : f.encode ≠ [] := by
    unfold Frame.encode Frame.prefix
    cases f.form <;> simp
  have h0 : Model.WebSocket.recv c.max (reader []) = (.failed .blocked, [], reader []) := rfl
  have hr : ∀ n, readFrames c.max (n + 1) [] = (.failed .blocked, [], []) := fun n => by
    unfold readFrames; rw [h0]
  have hlen : ∃ n, f.encode.length = n + 1 := by
    cases he : f.encode with
    | nil => exact absurd he hne
    | cons a l => exact ⟨l.length, rfl⟩
  obtain ⟨n, hlen⟩ := hlen
  have hrf : readFrames c.max (f.encode.length + 1) f.encode = (.failed .blocked, [], []) := by
    rw [hlen]
    unfold readFrames
    rw [h1]
    dsimp only
    rw [show left r' = [] from h2, hr n]
    rfl
  have hs : settle c { t with buf := t.buf ++ f.encode, heard := t.heard ++ [t.now] } = goOn { t with buf := t.buf ++ f.encode, heard := t.heard ++ [t.now] } [] [] := by
    unfold settle
    dsimp only
    rw [hb, List.nil_append, hrf]
  unfold step
  dsimp only
  rw [if_neg (by simp [ho, hne])]
  unfold arrive
  rw [if_pos hw, hs]
  unfold goOn
  dsimp only
  rw [hb, List.nil_append, if_neg (fun h => hne h.symm)]
  simp

namespace WsTimer
open Spec.WebSocket Spec.AsgiWs Spec.NativeWs Proofs.AsgiWs Proofs.NativeWs Model.WebSocket

theorem reader_left (b : Bytes) : (reader b).remaining = b := by
  unfold reader
  show [] ++ (if b = [] then [] else [b]).flatten = _
  split
  · next h => rw [h]; rfl
  · simp

theorem reader_inv (b : Bytes) : Proofs.WebSocket.Inv (reader b) := fun h => by cases h

def msgs (l : Items) : List Got := l.filterMap (fun x => message x.2)

theorem read_blocked {max n : Nat} {b : Bytes} {sent r} (h : recv max (reader b) = (.failed .blocked, sent, r)) : readFrames max (n + 1) b = (.failed .blocked, [], b) := by
  unfold readFrames; rw [h]

/-- What `receive` makes of the part `b` of the client's frames that has arrived. -/
theorem read_items {max : Nat} : ∀ (n : Nat) (items : Items), (∀ x ∈ items, Carries max x.1 x.2) → ∀ {b q : Bytes}, b ++ q = enc items → b.length < n →
    ∃ dn rest, items = dn ++ rest ∧
      ((∃ b', readFrames max n b = (.failed .blocked, (answers dn).map Frame.encode, b') ∧ b' ++ q = enc rest ∧ msgs dn = [] ∧ (dn = [] → b' = b)) ∨
       (∃ res b' g, readFrames max n b = (res, (answers dn).map Frame.encode, b') ∧ b' ++ q = enc rest ∧ msgs dn = [g] ∧ gives res = g ∧ res ≠ .failed .blocked)) := by
  intro n
  induction n with
  | zero => intro _ _ b q _ h; omega
  | succ n ih =>
    intro items ok b q hb hl
    cases items with
    | nil =>
      have : b = [] := (List.append_eq_nil_iff.1 hb).1
      subst this
      have h0 : recv max (reader []) = (.failed .blocked, [], reader []) := rfl
      exact ⟨[], [], rfl, .inl ⟨[], read_blocked h0, hb, rfl, fun _ => rfl⟩⟩
    | cons x items =>
      obtain ⟨f, m⟩ := x
      have okf := ok (f, m) (by simp)
      have hb' : b ++ q = f.encode ++ enc items := by rw [hb]; simp [enc]
      have whole : ∀ b1, b = f.encode ++ b1 → b1 ++ q = enc items → ∃ dn rest, (f, m) :: items = dn ++ rest ∧
          ((∃ b', readFrames max (n + 1) b = (.failed .blocked, (answers dn).map Frame.encode, b') ∧ b' ++ q = enc rest ∧ msgs dn = [] ∧ (dn = [] → b' = b)) ∨
           (∃ res b' g, readFrames max (n + 1) b = (res, (answers dn).map Frame.encode, b') ∧ b' ++ q = enc rest ∧ msgs dn = [g] ∧ gives res = g ∧ res ≠ .failed .blocked)) := by
        intro b1 h1 h2
        obtain ⟨r', k1, k2, -, -⟩ := Proofs.WebSocket.recv_frame (max := max) (r := reader b) (reader_inv b) okf.fits (fun _ => okf.size) (rest := b1) (by rw [reader_left]; exact h1)
        have hlen : b1.length < n := by
          have : 2 ≤ f.encode.length := by unfold Frame.encode Frame.prefix; cases f.form <;> simp <;> omega
          rw [h1, List.length_append] at hl; omega
        cases hm : message m with
        | some g =>
          have hd : ∃ res, dispatch (f.b0 &&& 0x0f) f.payload.length f.payload = (res, []) ∧ gives res = g ∧ res.isEmpty = false ∧ res ≠ .failed .blocked := by
            cases m with
            | text s =>
              obtain ⟨o, p⟩ := okf.says
              cases hm
              exact ⟨.text s, by rw [opcode_of (n := 1) o, p]; unfold dispatch; rw [if_pos rfl, decode_encode], rfl, rfl, fun h => by cases h⟩
            | binary d =>
              obtain ⟨o, p, hne⟩ := okf.says
              cases hm
              refine ⟨.binary d, by rw [opcode_of (n := 2) o, p]; rfl, rfl, ?_, fun h => by cases h⟩
              cases d with
              | nil => exact absurd rfl hne
              | cons _ _ => rfl
            | ping d => cases hm
            | pong d => cases hm
          obtain ⟨res, hd, hg, he, hnb⟩ := hd
          rw [hd] at k1
          refine ⟨[(f, m)], items, rfl, .inr ⟨res, b1, g, ?_, h2, by simp [msgs, hm], hg, hnb⟩⟩
          have ha : answers [(f, m)] = [] := by cases m <;> first | rfl | cases hm
          rw [ha]
          unfold readFrames
          rw [k1]
          split
          · next heq => cases heq; exact absurd rfl hnb
          · next heq =>
            cases heq
            rw [he, if_neg (by simp), show left r' = b1 from k2]
            rfl
        | none =>
          have hd : ∃ res, dispatch (f.b0 &&& 0x0f) f.payload.length f.payload = (res, m.answer.toList.map Frame.encode) ∧ res.isEmpty = true ∧ res ≠ .failed .blocked := by
            cases m with
            | text s => cases hm
            | binary d => cases hm
            | ping d =>
              obtain ⟨o, p, hl⟩ := okf.says
              refine ⟨.ping d, ?_, rfl, fun h => by cases h⟩
              rw [opcode_of (n := 9) o, p]
              simp [dispatch, hl, createFrame, Frame.encode, Frame.prefix, Meaning.answer]; decide
            | pong d =>
              obtain ⟨o, p, hl⟩ := okf.says
              exact ⟨.pong, by rw [opcode_of (n := 10) o, p]; simp [dispatch, hl, Meaning.answer], rfl, fun h => by cases h⟩
          obtain ⟨res, hd, he, hnb⟩ := hd
          rw [hd] at k1
          have hstep : readFrames max (n + 1) b = ((readFrames max n b1).1, m.answer.toList.map Frame.encode ++ (readFrames max n b1).2.1, (readFrames max n b1).2.2) := by
            conv => lhs; unfold readFrames
            rw [k1]
            split
            · next heq => cases heq; exact absurd rfl hnb
            · next heq =>
              cases heq
              rw [he, if_pos rfl, show left r' = b1 from k2]
          obtain ⟨dn, rest, e1, h⟩ := ih items (fun x hx => ok x (by simp [hx])) h2 hlen
          refine ⟨(f, m) :: dn, rest, by rw [e1]; rfl, ?_⟩
          have ea : (answers ((f, m) :: dn)).map Frame.encode = m.answer.toList.map Frame.encode ++ (answers dn).map Frame.encode := by
            simp only [answers, List.filterMap_cons]; cases m.answer <;> rfl
          have em : msgs ((f, m) :: dn) = msgs dn := by simp [msgs, hm]
          rw [hstep, ea, em]
          rcases h with ⟨b', j1, j2, j3, -⟩ | ⟨res', b', g, j1, j2, j3, j4, j5⟩
          · rw [j1]; exact .inl ⟨b', rfl, j2, j3, fun h => by cases h⟩
          · rw [j1]; exact .inr ⟨res', b', g, rfl, j2, j3, j4, j5⟩
      rcases List.append_eq_append_iff.1 hb' with ⟨a, h1, h2⟩ | ⟨a, h1, h2⟩
      · -- `b` is a part of the frame
        cases a with
        | nil => exact whole [] (by simpa using h1.symm) (by simpa using h2)
        | cons y a =>
          obtain ⟨sent, r2, q1, -⟩ := Proofs.WebSocket.recv_incomplete (max := max) (r := reader b) (reader_inv b) (fun h => by cases h) okf.fits (fun _ => okf.size) (q := y :: a) (by simp)
            (by rw [reader_left]; exact h1.symm)
          exact ⟨[], (f, m) :: items, rfl, .inl ⟨b, read_blocked q1, hb, rfl, fun _ => rfl⟩⟩
      · exact whole a h1 h2.symm

/-- The bytes that have arrived. -/
def arrived : List Ev → Bytes
  | [] => []
  | .data b :: r => b ++ arrived r
  | _ :: r => arrived r

theorem arrived_snoc (es : List Ev) (e : Ev) : arrived (es ++ [e]) = arrived es ++ arrived [e] := by
  induction es with
  | nil => rfl
  | cons x es ih => cases x <;> simp_all [arrived]

/-- What of the client's frames has been read, and what it gave. -/
structure Reads (items : Items) (q : Bytes) (t : T) : Prop where
  ex : ∃ dn rest, items = dn ++ rest ∧ t.got.map (·.2) = msgs dn ∧ t.pongs.map (·.2) = (answers dn).map Frame.encode ∧ t.buf ++ q = enc rest

theorem settle_reads {c : Cfg} {items : Items} (ok : ∀ x ∈ items, Carries c.max x.1 x.2) {q : Bytes} {t : T} (h : Reads items q t) : Reads items q (settle c t) := by
  obtain ⟨dn, rest, h1, h2, h3, h4⟩ := h.ex
  obtain ⟨dn', rest', k1, k2⟩ := read_items (t.buf.length + 1) rest (fun x hx => ok x (by rw [h1]; simp [hx])) h4 (Nat.lt_succ_self _)
  have hap : ∀ l, (t.pongs ++ l.map (t.now, ·)).map (·.2) = t.pongs.map (·.2) ++ l := fun l => by simp [Function.comp_def]
  have han : answers (dn ++ dn') = answers dn ++ answers dn' := by simp [answers]
  have hms : msgs (dn ++ dn') = msgs dn ++ msgs dn' := by simp [msgs]
  unfold settle
  rcases k2 with ⟨b', j1, j2, j3, j4⟩ | ⟨res, b', g, j1, j2, j3, j4, j5⟩
  · rw [j1]
    dsimp only
    unfold goOn
    split
    · next he =>
      subst he
      -- nothing was read
      exact ⟨dn, rest, h1, h2, h3, h4⟩
    · refine ⟨dn ++ dn', rest', by rw [h1, k1, List.append_assoc], ?_, ?_, j2⟩
      · rw [hms, j3, List.append_nil]; exact h2
      · show (t.pongs ++ List.map _ _).map _ = _
        rw [hap, han, h3, List.map_append]
  · rw [j1]
    split
    · next heq => cases heq; exact absurd rfl j5
    · next heq =>
      cases heq
      refine ⟨dn ++ dn', rest', by rw [h1, k1, List.append_assoc], ?_, ?_, j2⟩
      · show (t.got ++ [(t.now, gives res)]).map _ = _
        rw [List.map_append, h2, hms, j3, j4]; rfl
      · show (t.pongs ++ List.map _ _).map _ = _
        rw [hap, han, h3, List.map_append]

theorem over_mono {c : Cfg} {t : T} (g : t.over = true) (e : Ev) : (step c t e).over = true := by
  unfold step
  cases e with
  | tick => dsimp only; split <;> exact g
  | data b => dsimp only; rw [if_pos (by simp [g])]; exact g
  | call => dsimp only; rw [if_pos (by simp [g])]; exact g
  | pingTimer => dsimp only; split
                 · unfold sendPing; split <;> exact g
                 · exact g
  | getTimer => dsimp only; split
                · rfl
                · exact g
  | evict => exact g

theorem run_reads {c : Cfg} {items : Items} (ok : ∀ x ∈ items, Carries c.max x.1 x.2) : ∀ (es : List Ev) {q : Bytes}, arrived es ++ q = enc items → (run c es).over = false →
    Reads items q (run c es) := by
  intro es
  induction es using snocInd with
  | h0 => intro q h _; exact ⟨[], items, rfl, rfl, rfl, h⟩
  | h1 es e ih =>
    intro q h ho
    rw [run_snoc] at ho ⊢
    rw [arrived_snoc, List.append_assoc] at h
    have ho' : (run c es).over = false := by
      cases hov : (run c es).over with
      | false => rfl
      | true => rw [over_mono hov] at ho; cases ho
    have r := ih h ho'
    cases e with
    | tick => unfold step; dsimp only; split <;> exact ⟨r.ex⟩
    | data b =>
      have h' : arrived [Ev.data b] = b := by simp [arrived]
      rw [h'] at r
      unfold step
      dsimp only
      obtain ⟨dn, rest, h1, h2, h3, h4⟩ := r.ex
      split
      · next hd =>
        simp only [ho', Bool.false_or, decide_eq_true_eq] at hd
        subst hd
        exact ⟨dn, rest, h1, h2, h3, h4⟩
      · unfold arrive
        have r' : Reads items q { run c es with buf := (run c es).buf ++ b, heard := (run c es).heard ++ [(run c es).now] } := ⟨dn, rest, h1, h2, h3, by rw [← h4]; simp⟩
        split
        · exact settle_reads ok r'
        · exact r'
    | call =>
      unfold step
      dsimp only
      split
      · exact r
      · exact settle_reads ok ⟨r.ex⟩
    | pingTimer =>
      unfold step
      dsimp only
      split
      · unfold sendPing; split <;> exact ⟨r.ex⟩
      · exact r
    | getTimer =>
      unfold step at ho ⊢
      dsimp only at ho ⊢
      split at ho
      · cases ho
      · next hd => rw [if_neg hd]; exact r
    | evict => exact ⟨r.ex⟩

end WsTimer
open WsTimer

/-- **C88**, the session itself, whenever its pieces arrive: as long as `receive` has not raised, what the handler has got are exactly
the messages among the first frames of the client, in order and each once, and exactly the pings among them have been
answered; the bytes of the other frames that have arrived are still there. -/
theorem C88_session {c : Cfg} {items : List (Spec.WebSocket.Frame × Spec.AsgiWs.Meaning)} (ok : ∀ x ∈ items, Spec.AsgiWs.Carries c.max x.1 x.2) (es : List Ev) {q : Bytes}
    (h : arrived es ++ q = (items.map (·.1.encode)).flatten) (ho : (run c es).over = false) :
    ∃ dn rest, items = dn ++ rest ∧ (run c es).got.map (·.2) = dn.filterMap (fun x => Spec.NativeWs.message x.2) ∧
      (run c es).pongs.map (·.2) = (dn.filterMap (·.2.answer)).map (·.encode) ∧ (run c es).buf ++ q = (rest.map (·.1.encode)).flatten :=
  (run_reads ok es h ho).ex

/-- Two units are half the time. The client is silent: ping after 2, the end after 4. A client that answers is kept. -/
example : (run { half := 2 } [.call, .tick, .tick, .tick, .pingTimer, .tick, .tick, .tick, .getTimer]).pings = [2] ∧
    (run { half := 2 } [.call, .tick, .tick, .tick, .pingTimer, .tick, .tick, .tick, .getTimer]).got = [(4, .raised (.wsServer 1000))] ∧
    (run { half := 2 } [.call, .tick, .tick, .pingTimer, .tick, .data [0x8A, 0], .tick, .tick, .pingTimer, .tick, .data [0x81, 1, 65]]).pings = [2, 5] ∧
    (run { half := 2 } [.call, .tick, .tick, .pingTimer, .tick, .data [0x8A, 0], .tick, .tick, .pingTimer, .tick, .data [0x81, 1, 65]]).got = [(6, .text "A")] := by decide +kernel

/-- **C88 fails** for a connection that has left the list (more than `keepalive_connections` others were kept meanwhile): it is not pinged, so a client
that answers every ping is dropped. -/
theorem C88_refuted_evicted : (run { half := 2 } [.call, .tick, .evict, .tick, .pingTimer, .tick, .tick, .getTimer]).pings = [] ∧
    (run { half := 2 } [.call, .tick, .evict, .tick, .pingTimer, .tick, .tick, .getTimer]).expired = some 4 := by decide +kernel

/-- **C88 fails** in the middle of a frame: there is one ping per frame, and the wait for the rest of it gets none. -/
theorem C88_refuted_slow : (run { half := 2 } [.call, .tick, .tick, .pingTimer, .data [0x81], .tick, .tick, .tick, .tick, .getTimer]).pings = [2] ∧
    (run { half := 2 } [.call, .tick, .tick, .pingTimer, .data [0x81], .tick, .tick, .tick, .tick, .getTimer]).expired = some 6 ∧
    (run { half := 2 } [.call, .tick, .tick, .pingTimer, .data [0x81], .tick, .tick, .tick, .tick, .getTimer]).listed = true := by decide +kernel

/-- **C88 fails** while the handler is not in `receive`: a ping of the client is not answered. -/
theorem C88_refuted_busy (c : Cfg) {t : T} (hw : t.waiting = false) (b : Bytes) : (step c t (.data b)).pongs = t.pongs := by
  unfold step
  dsimp only
  split
  · rfl
  · unfold arrive; rw [hw, if_neg (by simp)]

end Verif
