import Verif.Props.ConnFlow
import Verif.Proofs.Timers
/-!
# The first request of a connection, in all schedules

Unlike in `Props/ConnFlow`, handlers may queue end markers whenever they like, so that interim responses (100, 101) and
WebSocket sessions are covered. What is said ends with the first reset of the connection (`gen` becomes 1).
-/
namespace Verif
open Verif.Py Verif.Model.Conn Conn

namespace Solo
open Flow
open Spec.Stream (Minimal)

/-- Bytes are taken from `queue[0]`, and a request is upgraded, only once a handler was started; when the marker of a 101 is taken from the send queue, no
segment is still being queued. -/
def steady (s : St) : Ev → Prop
  | .take _ | .upgrade _ => s.started ≠ []
  | .send => s.q1.head? = some none → ∀ k r, s.cur = some k → s.reqs[k]? = some r → r.upgraded = true → ∀ x ∈ s.recvs, x = .done
  | _ => True

def Steady (c : Cfg) : St → List Ev → Prop
  | _, [] => True
  | s, e :: es => steady s e ∧ Steady c (step c s e) es

/-- No segment can be queued. -/
structure Shut (s : St) : Prop where
  fut : s.futDone[0]? = some false
  feed : ∀ f, RTask.feeding f ∉ s.recvs
  wait : ∀ d w, RTask.waiting d w ∈ s.recvs → waited s w = false
  last : waited s (s.receive.getD (.fut s.gen)) = false

/-- What a head task that has not started its handler holds. -/
def Early (s : St) : HTask → Prop
  | .new d n => s.rx = d ++ (s.recvs.map rback).flatten ∧ q0b s = [] ∧ ∃ m, n = m + 2 ∧ Spec.Head.FirstBlank d m
  | .feeding f _ raw => s.rx = raw ++ (q0b s ++ (f.rest ++ (s.recvs.map rback).flatten)) ∧ Minimal raw
  | .handling _ => False
  | _ => True

/-- A waiter of task `i`: the future of the first request, or an earlier task. -/
def Older (i : Nat) : Waiter → Prop
  | .fut g => g = 0
  | .task j => j < i

inductive Phase (s : St) : Prop
  | idle (buf : Bytes) (hb : s.hb = some buf) (heads : s.heads = []) (q : q0b s = []) (recvs : s.recvs = []) (receive : s.receive = none)
      (fut : s.futDone[0]? = some false) (rx : s.rx = buf) (log : s.log = [])
  | early (h : HTask) (hb : s.hb = none) (heads : s.heads = [h]) (log : s.log = []) (e : Early s h) (chain : Chain s.recvs s.receive) (shut : Shut s)
      (older : ∀ (i : Nat) d w, s.recvs[i]? = some (.waiting d w) → Older i w) (rc : Older s.recvs.length (s.receive.getD (.fut 0)))
  | going (k : Nat) (raw : Bytes) (acts : List Act) (hb : s.hb = none) (heads : s.heads = [.handling k]) (log : s.log = .head k raw :: acts)
      (bodies : ∀ a ∈ acts, ∃ k x, a = Act.body k x) (min : Minimal raw)
      (rx : s.rx = eaten s ++ (q0b s ++ (s.recvs.map rback).flatten)) (chain : Chain s.recvs s.receive)
      (older : ∀ (i : Nat) d w, s.recvs[i]? = some (.waiting d w) → Older i w) (rc : Older s.recvs.length (s.receive.getD (.fut 0)))

def Ok (s : St) : Prop := s.noWrite = true ∨ s.gen ≠ 0 ∨ (s.gen = 0 ∧ Phase s)

theorem Shut.congr {s s' : St} (h : Shut s) (h1 : s'.recvs = s.recvs) (h2 : s'.gen = s.gen) (h3 : s'.futDone = s.futDone) (h4 : s'.receive = s.receive) : Shut s' := by
  have hw : ∀ w, waited s' w = waited s w := by intro w; cases w <;> simp only [waited, h1, h3]
  exact ⟨by rw [h3]; exact h.fut, by rw [h1]; exact h.feed, by rw [h1]; intro d w hd; rw [hw]; exact h.wait d w hd, by rw [h4, h2, hw]; exact h.last⟩

theorem Early.congr {s s' : St} {h : HTask} (e : Early s h) (h1 : s'.recvs = s.recvs) (h2 : s'.rx = s.rx) (h3 : q0b s' = q0b s) : Early s' h := by
  cases h <;> simp only [Early, h1, h2, h3] at e ⊢ <;> exact e

theorem Phase.plain {s s' : St} (h : Phase s) (p : Plain s s') : Phase s' := by
  cases h with
  | idle buf hb heads q recvs receive fut rx log =>
    exact .idle buf (by rw [p.hb, hb]) (by rw [p.heads, heads]) (by rw [p.q0b, q]) (by rw [p.recvs, recvs]) (by rw [p.receive, receive]) (by rw [p.fut, fut])
      (by rw [p.rx, rx]) (by rw [p.log, log])
  | early h hb heads log e chain shut older rc =>
    exact .early h (by rw [p.hb, hb]) (by rw [p.heads, heads]) (by rw [p.log, log]) (e.congr p.recvs p.rx p.q0b) (by rw [p.recvs, p.receive]; exact chain)
      (shut.congr p.recvs p.gen p.fut p.receive) (by rw [p.recvs]; exact older) (by rw [p.recvs, p.receive]; exact rc)
  | going k raw acts hb heads log bodies min rx chain older rc =>
    refine .going k raw acts (by rw [p.hb, hb]) (by rw [p.heads, heads]) (by rw [p.log, log]) bodies min ?_ (by rw [p.recvs, p.receive]; exact chain)
      (by rw [p.recvs]; exact older) (by rw [p.recvs, p.receive]; exact rc)
    rw [p.rx, p.q0b, p.recvs, rx]; simp only [eaten, p.log]

theorem Ok.plain {s s' : St} (h : Ok s) (p : Plain s s') : Ok s' := by
  rcases h with h | h | ⟨h, h'⟩
  · left; cases hw : s'.noWrite with
    | true => rfl
    | false => rw [p.noWrite hw] at h; cases h
  · exact .inr (.inl (by rw [p.gen]; exact h))
  · exact .inr (.inr ⟨by rw [p.gen]; exact h, h'.plain p⟩)

/-! ## Steps -/

theorem older_append {l : List RTask} {d : Bytes} {rc : Option Waiter} (h : ∀ (i : Nat) d w, l[i]? = some (.waiting d w) → Older i w)
    (hr : Older l.length (rc.getD (.fut 0))) : ∀ (i : Nat) d' w, (l ++ [RTask.waiting d (rc.getD (.fut 0))])[i]? = some (.waiting d' w) → Older i w := by
  intro i d' w hi
  rcases Nat.lt_trichotomy i l.length with hl | hl | hl
  · rw [List.getElem?_append_left hl] at hi; exact h i d' w hi
  · subst hl; simp at hi; rw [← hi.2]; exact hr
  · rw [List.getElem?_eq_none (by simp; omega)] at hi; cases hi

theorem phase_data {c : Cfg} {d : Bytes} {s : St} (hg : s.gen = 0) (h : Phase s) : (dataReceived c d { s with rx := s.rx ++ d }).noWrite = true ∨
    ((dataReceived c d { s with rx := s.rx ++ d }).gen = 0 ∧ Phase (dataReceived c d { s with rx := s.rx ++ d })) := by
  have dc := data_cases c d { s with rx := s.rx ++ d }
  cases h with
  | idle buf hb heads q recvs receive fut rx log =>
    rcases dc with ⟨hd, e⟩ | ⟨hd, hb', e⟩ | ⟨buf', hd, hb', hc⟩
    · right; rw [e]; refine ⟨hg, .idle buf hb heads q recvs receive fut ?_ log⟩
      rw [hd]; simpa using rx
    · rw [show _ = s.hb from rfl, hb] at hb'; cases hb'
    · have e1 : s.hb = some buf' := hb'
      rw [hb] at e1; cases e1
      rcases hc with ⟨n, hf, hn, e⟩ | e | ⟨hf, e⟩ <;> rw [e]
      · right
        refine ⟨hg, .early (.new (buf ++ d) (n + 2)) rfl (by simp [heads]) log ⟨?_, q, n, rfl, Proofs.Head.firstBlank_iff.2 hf⟩ ?_ ?_ ?_ ?_⟩
        · simp [recvs, rx]
        · simp only [recvs]
          exact ⟨fun i f hi => (by simp at hi), fun i d w hi => (by simp at hi), fun i j _ hi => (by simp at hi), fun ⟨x, hx, _⟩ => (by cases hx)⟩
        · refine ⟨fut, fun f hf => ?_, fun d w hf => ?_, ?_⟩
          · simp [recvs] at hf
          · simp [recvs] at hf
          · simp [receive, waited, hg, fut]
        · intro i d w hi; simp [recvs] at hi
        · simp [receive, Older]
      · exact .inl rfl
      · right
        refine ⟨hg, .idle (buf ++ d) rfl heads q recvs receive fut ?_ log⟩
        simp [rx]
  | early x hb heads log ex chain shut older rc =>
    rcases dc with ⟨hd, e⟩ | ⟨hd, hb', e⟩ | ⟨buf', hd, hb', hc⟩
    · right; rw [e]; refine ⟨hg, (Phase.early x hb heads log ex chain shut older rc : Phase s).plain ?_⟩
      exact ⟨rfl, rfl, rfl, rfl, rfl, rfl, rfl, by simp [hd], rfl, rfl, id, id⟩
    · right; rw [e]
      refine ⟨hg, .early x hb heads log ?_ (chain.append d s.gen) ?_ ?_ ?_⟩
      · cases x <;> simp only [Early, q0b] at ex ⊢
        · exact ⟨by rw [ex.1]; simp [rback], ex.2⟩
        · exact ⟨by rw [ex.1]; simp [rback], ex.2⟩
      · have hw : ∀ w, waited s w = false → waited { s with rx := s.rx ++ d, reading := false, recvs := s.recvs ++ [.waiting d (s.receive.getD (.fut s.gen))], receive := some (.task s.recvs.length) } w = false := by
          intro w hw
          cases w with
          | fut g => exact hw
          | task t =>
            simp only [waited, beq_eq_false_iff_ne, ne_eq] at hw ⊢
            rcases Nat.lt_trichotomy t s.recvs.length with ht | ht | ht
            · rw [List.getElem?_append_left ht]; exact hw
            · subst ht; simp
            · rw [List.getElem?_eq_none (by simp; omega)]; simp
        refine ⟨shut.fut, ?_, ?_, ?_⟩
        · intro f hf
          rcases List.mem_append.1 hf with hf | hf
          · exact shut.feed f hf
          · simp at hf
        · intro d' w hd'
          rcases List.mem_append.1 hd' with hf | hf
          · exact hw _ (shut.wait d' w hf)
          · simp only [List.mem_singleton, RTask.waiting.injEq] at hf
            rw [hf.2]; exact hw _ shut.last
        · simp [waited]
      · rw [show s.gen = 0 from hg]; exact older_append older rc
      · simp [Older]
    · rw [show _ = s.hb from rfl, hb] at hb'; cases hb'
  | going k raw acts hb heads log bodies min rx chain older rc =>
    rcases dc with ⟨hd, e⟩ | ⟨hd, hb', e⟩ | ⟨buf', hd, hb', hc⟩
    · right; rw [e]; refine ⟨hg, (Phase.going k raw acts hb heads log bodies min rx chain older rc : Phase s).plain ?_⟩
      exact ⟨rfl, rfl, rfl, rfl, rfl, rfl, rfl, by simp [hd], rfl, rfl, id, id⟩
    · right; rw [e]
      refine ⟨hg, .going k raw acts hb heads log bodies min ?_ (chain.append d s.gen) ?_ ?_⟩
      · simp only [eaten, q0b] at rx ⊢; rw [rx]; simp [rback]
      · rw [show s.gen = 0 from hg]; exact older_append older rc
      · simp [Older]
    · rw [show _ = s.hb from rfl, hb] at hb'; cases hb'

/-- The task of the head queues what is behind the head. -/
theorem phase_fed {c : Cfg} {bs k : Nat} {f : Feed} {raw : Bytes} {x : HTask} {s s1 : St} {p : St × Option Feed} (hg : s.gen = 0) (hb : s.hb = none)
    (heads : s.heads = [x]) (log : s.log = []) (chain : Chain s.recvs s.receive) (shut : Shut s)
    (older : ∀ (i : Nat) d w, s.recvs[i]? = some (.waiting d w) → Older i w) (rc : Older s.recvs.length (s.receive.getD (.fut 0))) (pl : Plain s s1) (hm : Minimal raw)
    (hr : s.rx = raw ++ (q0b s ++ (f.rest ++ (s.recvs.map rback).flatten)))
    (hp : p = feed c bs f s1 ∨ (f.rest = [] ∧ p = (s1, none))) : (fed 0 k raw p).noWrite = true ∨ ((fed 0 k raw p).gen = 0 ∧ Phase (fed 0 k raw p)) := by
  have ended : ∀ s2 : St, Plain s s2 → f.rest = [] → (fed 0 k raw (s2, none)).gen = 0 ∧ Phase (fed 0 k raw (s2, none)) := by
    intro s2 p2 hn
    have hq := p2.q0b
    unfold q0b at hq
    refine ⟨by simp only [fed, begin, p2.gen, hg], .going k raw [] (by simp only [fed, begin, p2.hb, hb]) (by simp only [fed, begin, p2.heads, heads]; rfl)
      (by simp only [fed, begin, p2.log, log]; rfl) (fun a ha => (by cases ha)) hm ?_ ?_ ?_ ?_⟩
    · simp only [eaten, q0b, fed, begin, p2.rx, p2.log, hq, p2.recvs, log]
      rw [hr, hn]; simp [q0b, Act.bytes]
    · simp only [fed, begin, p2.recvs, p2.receive]; exact chain
    · simp only [fed, begin, p2.recvs]; exact older
    · simp only [fed, begin, p2.recvs, p2.receive]; exact rc
  rcases hp with hp | ⟨hn, hp⟩
  · rcases feed_flow c bs f s1 with ⟨hn, h2, hpl⟩ | hw | ⟨h2, h1⟩
    · have : p = ((feed c bs f s1).1, none) := by rw [hp, ← h2]
      rw [this]; exact .inr (ended _ (pl.trans hpl) hn)
    · left
      have : (fed 0 k raw p).noWrite = (feed c bs f s1).1.noWrite := by
        rw [hp]; rcases feed c bs f s1 with ⟨a, _ | b⟩ <;> rfl
      rw [this, hw]
    · right
      have e : p = (put0 (some (f.rest.take bs)) s1, some { f with rest := f.rest.drop bs }) := by rw [hp, ← h1, ← h2]
      subst e
      refine ⟨by simp only [fed, put0, pl.gen, hg], .early (.feeding { f with rest := f.rest.drop bs } k raw) (by simp only [fed, put0, pl.hb, hb])
        (by simp only [fed, put0, pl.heads, heads]; rfl) (by simp only [fed, put0, pl.log, log]) ⟨?_, hm⟩ ?_ ?_ ?_ ?_⟩
      · have hq : q0b (fed 0 k raw (put0 (some (f.rest.take bs)) s1, some { f with rest := f.rest.drop bs })) = q0b s ++ f.rest.take bs := by
          rw [← pl.q0b]; simp [fed, q0b, put0]
        rw [hq]
        simp only [fed, put0, pl.rx, pl.recvs]
        rw [hr, split_rest bs f.rest]; simp [List.append_assoc]
      · simp only [fed, put0, pl.recvs, pl.receive]; exact chain
      · exact shut.congr pl.recvs pl.gen pl.fut pl.receive
      · simp only [fed, put0, pl.recvs]; exact older
      · simp only [fed, put0, pl.recvs, pl.receive]; exact rc
  · rw [hp]; exact .inr (ended _ pl hn)

theorem phase_head {c : Cfg} {i : Nat} {s : St} (hg : s.gen = 0) (h : Phase s) : (headStep c i s).noWrite = true ∨ ((headStep c i s).gen = 0 ∧ Phase (headStep c i s)) := by
  have stay : ∀ {x}, s.heads[i]? = some x → i = 0 ∧ s.heads = [x] := by
    intro x hx
    cases h with
    | idle buf hb heads => rw [heads] at hx; simp at hx
    | early y hb heads => rw [heads] at hx; cases i with
      | zero => simp at hx; exact ⟨rfl, by rw [heads, hx]⟩
      | succ i => simp at hx
    | going k raw acts hb heads => rw [heads] at hx; cases i with
      | zero => simp at hx; exact ⟨rfl, by rw [heads, hx]⟩
      | succ i => simp at hx
  unfold headStep
  split
  · next d n hi =>
    obtain ⟨rfl, hh⟩ := stay hi
    cases h with
    | idle buf hb heads => rw [heads] at hh; cases hh
    | going k raw acts hb heads => rw [heads] at hh; cases hh
    | early y hb heads log ex chain shut older rc =>
      have : y = .new d n := by rw [heads] at hh; simpa using hh
      subst this
      obtain ⟨hrx, hq, m, hn, hfb⟩ := ex
      have ml := minimal_len hfb
      unfold startHead
      dsimp only
      have dead : ∀ (x : HTask) (s' : St), (x = .done ∨ ∃ k, x = .failing k) → s'.heads = s.heads.set 0 x → s'.hb = s.hb → s'.log = s.log → s'.recvs = s.recvs →
          s'.receive = s.receive → s'.gen = s.gen → s'.futDone = s.futDone → s'.noWrite = true ∨ (s'.gen = 0 ∧ Phase s') := by
        intro x s' hx e1 e2 e3 e4 e5 e6 e7
        refine .inr ⟨by rw [e6, hg], .early x (by rw [e2, hb]) (by rw [e1, heads]; rfl) (by rw [e3, log]) ?_ (by rw [e4, e5]; exact chain) (shut.congr e4 e6 e7 e5)
          (by rw [e4]; exact older) (by rw [e4, e5]; exact rc)⟩
        rcases hx with hx | ⟨k, hx⟩ <;> subst hx <;> trivial
      split
      · exact dead .done _ (.inl rfl) rfl rfl rfl rfl rfl rfl rfl
      · exact dead .done _ (.inl rfl) rfl rfl rfl rfl rfl rfl rfl
      · split
        · exact dead (.failing s.reqs.length) _ (.inr ⟨_, rfl⟩) rfl rfl rfl rfl rfl rfl rfl
        · exact dead .done _ (.inl rfl) rfl rfl rfl rfl rfl rfl rfl
      · next r hacc =>
        have pl : Plain s (if r.hasBody = true then newReq r s else put0 (some []) (newReq r s)) := by
          split
          · exact ⟨rfl, rfl, rfl, rfl, rfl, rfl, rfl, rfl, rfl, rfl, id, id⟩
          · exact ⟨rfl, rfl, by rw [q0b_put0]; simp [q0b, newReq], rfl, rfl, rfl, rfl, rfl, rfl, rfl, id, id⟩
        have hm : Minimal (d.take (n + 2)) := by rw [hn]; exact minimal_take hfb
        split
        · next hc =>
          refine phase_fed (f := { rest := d.drop (n + 2), size := (d.drop (n + 2)).length }) hg hb heads log chain shut older rc pl hm ?_ (.inl rfl)
          rw [hrx, hq, List.nil_append, ← List.append_assoc, List.take_append_drop]
        · next hc =>
          have hd : d.drop (n + 2) = [] := List.drop_eq_nil_of_le (by simp only [not_or] at hc; omega)
          refine phase_fed (c := c) (bs := 0) (f := { rest := [], size := 0 }) hg hb heads log chain shut older rc pl hm ?_ (.inr ⟨rfl, rfl⟩)
          have := List.take_append_drop (n + 2) d
          rw [hd, List.append_nil] at this
          rw [hrx, hq, this]; rfl
  · next f k raw hi =>
    obtain ⟨rfl, hh⟩ := stay hi
    cases h with
    | idle buf hb heads => rw [heads] at hh; cases hh
    | going k raw acts hb heads => rw [heads] at hh; cases hh
    | early y hb heads log ex chain shut older rc =>
      have : y = .feeding f k raw := by rw [heads] at hh; simpa using hh
      subst this
      exact phase_fed hg hb heads log chain shut older rc (.refl s) ex.2 ex.1 (.inl rfl)
  · exact .inr ⟨hg, h⟩

/-- A segment is queued. -/
theorem phase_recvFed {c : Cfg} {bs i : Nat} {f : Feed} {x : RTask} {s : St} (hg : s.gen = 0) (h : Phase s) (hx : s.recvs[i]? = some x) (hn : x ≠ .done)
    (hp : ∀ (j : Nat), j < i → s.recvs[j]? = some .done) (hf : rback x = f.rest) (nb : ¬ Shut s) :
    (recvFed i (feed c bs f s)).noWrite = true ∨ ((recvFed i (feed c bs f s)).gen = 0 ∧ Phase (recvFed i (feed c bs f s))) := by
  obtain ⟨hl, _⟩ := List.getElem?_eq_some_iff.1 hx
  cases h with
  | idle buf hb heads q recvs => rw [recvs] at hx; simp at hx
  | early y hb heads log ex chain shut => exact absurd shut nb
  | going k raw acts hb heads log bodies min rx chain older rc =>
    have hpre : ∀ (j : Nat) y, s.recvs[j]? = some y → j < i → rback y = [] := by
      intro j y hy hj; rw [hp j hj] at hy; cases hy; rfl
    have hset : ∀ y, ((s.recvs.set i y).map rback).flatten = rback y ++ ((s.recvs.drop (i + 1)).map rback).flatten := by
      intro y
      rw [flat_from (i := i) (x := y) (by simp [hl])]
      · rw [List.drop_set_of_lt (by omega)]
      · intro j z hz hj; rw [List.getElem?_set_ne (by omega)] at hz; exact hpre j z hz hj
    have heq : s.rx = eaten s ++ (q0b s ++ (f.rest ++ ((s.recvs.drop (i + 1)).map rback).flatten)) := by
      rw [rx, flat_from hx hpre, hf]
    have old : ∀ y, (y = .done ∨ ∃ f, y = .feeding f) → ∀ (j : Nat) d w, (s.recvs.set i y)[j]? = some (.waiting d w) → Older j w := by
      intro y hy j d w hj
      by_cases e : j = i
      · subst e
        simp only [List.getElem?_set_self hl, Option.some.injEq] at hj
        rcases hy with hy | ⟨f, hy⟩ <;> rw [hy] at hj <;> cases hj
      · rw [List.getElem?_set_ne (Ne.symm e)] at hj; exact older j d w hj
    rcases feed_flow c bs f s with ⟨hr, h2, hpl⟩ | hw | ⟨h2, h1⟩
    · right
      have e : feed c bs f s = ((feed c bs f s).1, none) := by rw [← h2]
      rw [e]
      generalize (feed c bs f s).1 = s2 at *
      have hq := hpl.q0b
      unfold q0b at hq
      refine ⟨by simp only [recvFed, hpl.gen, hg], .going k raw acts (by simp only [recvFed, hpl.hb, hb]) (by simp only [recvFed, hpl.heads, heads])
        (by simp only [recvFed, hpl.log, log]) bodies min ?_ ?_ ?_ ?_⟩
      · simp only [eaten, q0b, recvFed, hpl.rx, hpl.log, hq, hpl.recvs, hset]
        rw [heq, hr]; simp [eaten, q0b, rback]
      · simp only [recvFed, hpl.recvs, hpl.receive]; exact chain.set hx hn hp (.inl rfl)
      · simp only [recvFed, hpl.recvs]; exact old _ (.inl rfl)
      · simp only [recvFed, hpl.recvs, hpl.receive, List.length_set]; exact rc
    · left
      have : (recvFed i (feed c bs f s)).noWrite = (feed c bs f s).1.noWrite := by
        rcases feed c bs f s with ⟨a, _ | b⟩ <;> rfl
      rw [this, hw]
    · right
      have e : feed c bs f s = (put0 (some (f.rest.take bs)) s, some { f with rest := f.rest.drop bs }) := by rw [← h1, ← h2]
      rw [e]
      refine ⟨hg, .going k raw acts hb heads log bodies min ?_ (chain.set hx hn hp (.inr ⟨_, rfl⟩)) (old _ (.inr ⟨_, rfl⟩)) ?_⟩
      · have hq : q0b (recvFed i (put0 (some (f.rest.take bs)) s, some { f with rest := f.rest.drop bs })) = q0b s ++ f.rest.take bs := by
          simp [recvFed, q0b, put0]
        rw [hq]
        simp only [eaten, recvFed, put0, hset, rback]
        rw [heq, split_rest bs f.rest]
        simp [eaten, List.append_assoc]
      · simp only [recvFed, put0, List.length_set]; exact rc

theorem phase_recv {c : Cfg} {i : Nat} {s : St} (hg : s.gen = 0) (h : Phase s) : (recvStep c i s).noWrite = true ∨ ((recvStep c i s).gen = 0 ∧ Phase (recvStep c i s)) := by
  have ch : Chain s.recvs s.receive := by
    cases h with
    | idle buf hb heads q recvs => rw [recvs]; exact ⟨fun i f hi => (by simp at hi), fun i d w hi => (by simp at hi), fun i j _ hi => (by simp at hi), fun ⟨x, hx, _⟩ => (by cases hx)⟩
    | early _ _ _ _ _ chain => exact chain
    | going _ _ _ _ _ _ _ _ _ chain => exact chain
  unfold recvStep
  split
  · next d w hi =>
    split
    · next hw =>
      refine phase_recvFed hg h hi (by simp) (ch.ready hi hw) rfl (fun hs => ?_)
      have := hs.wait d w (List.mem_of_getElem? hi); rw [hw] at this; cases this
    · exact .inr ⟨hg, h⟩
  · next f hi =>
    exact phase_recvFed hg h hi (by simp) (ch.feed i f hi) rfl (fun hs => hs.feed f (List.mem_of_getElem? hi))
  · exact .inr ⟨hg, h⟩

/-- The marker of a 101 is taken. -/
theorem phase_upgrade {s : St} {w : Waiter} (hg : s.gen = 0) (h : Phase s) (hb : s.hb = none) (hr : ∀ x ∈ s.recvs, x = .done) (hw : w = .fut s.gen) {b1 b2 b3 : Bool} :
    Phase { s with receive := some w, first := b1, registered := b2, reading := b3 } := by
  subst hw
  have ch : Chain s.recvs s.receive → Chain s.recvs (some (.fut s.gen)) := fun h => ⟨h.feed, h.wait, h.done, fun ⟨x, hx, hn⟩ => absurd (hr x hx) hn⟩
  cases h with
  | idle buf hb' => rw [hb] at hb'; cases hb'
  | early y hb heads log ex chain shut older rc =>
    refine .early y hb heads log (ex.congr rfl rfl rfl) (ch chain) ⟨shut.fut, shut.feed, shut.wait, ?_⟩ older (by show s.gen = 0; exact hg)
    simp [waited, hg, shut.fut]
  | going k raw acts hb heads log bodies min rx chain older rc =>
    exact .going k raw acts hb heads log bodies min rx (ch chain) older (by show s.gen = 0; exact hg)

theorem drain_gen (c : Cfg) : ∀ (l : List Item) (s : St), (drain c l s).gen = s.gen
  | [], _ => rfl
  | x :: l, s => by
    show (drain c l (dataReceived c (x.getD []) s)).gen = _
    rw [drain_gen c l]
    rcases data_cases c (x.getD []) s with ⟨_, e⟩ | ⟨_, _, e⟩ | ⟨_, _, _, ⟨_, _, _, e⟩ | e | ⟨_, e⟩⟩ <;> rw [e] <;> rfl

theorem ok_keep {c : Cfg} {k : Nat} {r : Rq} {s : St} (h : Ok s) (hb : s.hb = none) (hr : r.upgraded = true → ∀ x ∈ s.recvs, x = .done) : Ok (handleKeepalive c k r s) := by
  unfold handleKeepalive
  dsimp only
  have p0 : Plain s { s with registered := s.registered || s.first } := ⟨rfl, rfl, rfl, rfl, rfl, rfl, rfl, rfl, rfl, rfl, id, id⟩
  have last : ∀ s' : St, Plain s' { s' with reading := true } := fun s' => ⟨rfl, rfl, rfl, rfl, rfl, rfl, rfl, rfl, rfl, rfl, id, id⟩
  split
  · exact h.plain (p0.trans (plain_close _))
  · split
    · exact h.plain ((p0.trans (plain_setReq _ _ _)).trans (last _))
    · split
      · next hu =>
        split
        · rcases h with h | h | ⟨h1, h2⟩
          · exact .inl h
          · exact .inr (.inl h)
          · exact .inr (.inr ⟨h1, phase_upgrade h1 h2 hb (hr hu) rfl⟩)
        · exact h.plain ((p0.trans (plain_close _)).trans (last _))
      · right; left
        show (if r.req.hasBody = true then _ else _ : St).gen ≠ 0
        split
        · simp [reset]
        · rw [drain_gen]; simp [reset]

theorem Plain.close' (s : St) : Plain s { (close s) with sendDone := true } := (plain_close s).trans ⟨rfl, rfl, rfl, rfl, rfl, rfl, rfl, rfl, rfl, rfl, id, id⟩

theorem ok_send {c : Cfg} {s : St} (h : Ok s) (hc : steady s .send) : Ok (sendStep c s) := by
  unfold sendStep
  split
  · exact h
  · split
    · exact h
    · next x q hq =>
      have p0 : Plain s { s with q1 := q, sent := s.sent ++ [x] } := ⟨rfl, rfl, rfl, rfl, rfl, rfl, rfl, rfl, rfl, rfl, id, id⟩
      have h0 := h.plain p0
      cases x with
      | some b =>
        dsimp only
        split
        · exact h0
        · exact h0.plain ⟨rfl, rfl, rfl, rfl, rfl, rfl, rfl, rfl, rfl, rfl, id, id⟩
      | none =>
        dsimp only
        have hc' := hc (by rw [hq]; rfl)
        unfold marker
        dsimp only
        split
        · exact h0.plain (Plain.close' _)
        · next k hk =>
          split
          · exact h0
          · next r hr =>
            split
            · next hx => exact ok_keep h0 hx.2 (fun hu => hc' k r hk hr hu)
            · exact h0.plain ((plain_setReq _ _ _).trans (Plain.close' _))

theorem phase_finish {k : Nat} {s : St} (h : Phase s) : Phase (finish k s) := by
  cases h with
  | idle buf hb heads q recvs receive fut rx log =>
    exact .idle buf hb (by simp [finish, heads]) q recvs receive fut rx log
  | early y hb heads log ex chain shut older rc =>
    refine .early (if y = .failing k then .done else y) hb (by simp [finish, heads]) log ?_ chain (shut.congr rfl rfl rfl rfl) older rc
    split
    · trivial
    · exact ex.congr rfl rfl rfl
  | going k' raw acts hb heads log bodies min rx chain older rc =>
    exact .going k' raw acts hb (by simp [finish, heads]) log bodies min rx chain older rc

theorem ok_of {s s' : St} (hw : s.noWrite = true → s'.noWrite = true) (hgn : s.gen ≠ 0 → s'.gen ≠ 0) (h : Ok s)
    (hp : s.gen = 0 → Phase s → s'.noWrite = true ∨ (s'.gen = 0 ∧ Phase s')) : Ok s' := by
  rcases h with h | h | ⟨h, h'⟩
  · exact .inl (hw h)
  · exact .inr (.inl (hgn h))
  · rcases hp h h' with x | x
    · exact .inl x
    · exact .inr (.inr x)

theorem feed_ng (c : Cfg) (bs : Nat) (f : Feed) (s : St) : (feed c bs f s).1.gen = s.gen ∧ (s.noWrite = true → (feed c bs f s).1.noWrite = true) := by
  unfold feed
  split
  · refine ⟨(plain_account c _ s).gen, fun h => ?_⟩
    cases hw : (account c f.size s).noWrite with
    | true => exact hw ▸ rfl
    | false => have := (plain_account c _ s).noWrite hw; rw [h] at this; cases this
  · dsimp only; split
    · exact ⟨rfl, fun _ => rfl⟩
    · exact ⟨rfl, id⟩

theorem fed_ng {i k : Nat} {raw : Bytes} {p : St × Option Feed} {s : St} (h : p.1.gen = s.gen ∧ (s.noWrite = true → p.1.noWrite = true)) :
    (fed i k raw p).gen = s.gen ∧ (s.noWrite = true → (fed i k raw p).noWrite = true) := by
  rcases p with ⟨a, _ | f⟩ <;> exact h

theorem head_ng (c : Cfg) (i : Nat) (s : St) : (headStep c i s).gen = s.gen ∧ (s.noWrite = true → (headStep c i s).noWrite = true) := by
  unfold headStep
  split
  · unfold startHead
    dsimp only
    split
    · exact ⟨rfl, id⟩
    · exact ⟨rfl, id⟩
    · split <;> exact ⟨rfl, id⟩
    · next r _ =>
      have hn : (if r.hasBody = true then newReq r s else put0 (some []) (newReq r s)).gen = s.gen ∧
          (s.noWrite = true → (if r.hasBody = true then newReq r s else put0 (some []) (newReq r s)).noWrite = true) := by
        split <;> exact ⟨rfl, id⟩
      split
      · refine fed_ng ?_
        have := fun f => feed_ng c c.firstSize f (if r.hasBody = true then newReq r s else put0 (some []) (newReq r s))
        exact ⟨(this _).1.trans hn.1, fun h => (this _).2 (hn.2 h)⟩
      · exact fed_ng hn
  · exact fed_ng (feed_ng _ _ _ _)
  · exact ⟨rfl, id⟩

theorem recv_ng (c : Cfg) (i : Nat) (s : St) : (recvStep c i s).gen = s.gen ∧ (s.noWrite = true → (recvStep c i s).noWrite = true) := by
  have go : ∀ (f : Feed), (recvFed i (feed c c.bufferSize f s)).gen = s.gen ∧ (s.noWrite = true → (recvFed i (feed c c.bufferSize f s)).noWrite = true) := by
    intro f
    have := feed_ng c c.bufferSize f s
    rcases h : feed c c.bufferSize f s with ⟨a, _ | b⟩ <;> rw [h] at this <;> exact this
  unfold recvStep
  split
  · split
    · exact go _
    · exact ⟨rfl, id⟩
  · exact go _
  · exact ⟨rfl, id⟩

theorem data_ng (c : Cfg) (d : Bytes) (s : St) : (dataReceived c d s).gen = s.gen ∧ (s.noWrite = true → (dataReceived c d s).noWrite = true) := by
  rcases data_cases c d s with ⟨_, e⟩ | ⟨_, _, e⟩ | ⟨_, _, _, ⟨_, _, _, e⟩ | e | ⟨_, e⟩⟩ <;> rw [e]
  · exact ⟨rfl, id⟩
  · exact ⟨rfl, id⟩
  · exact ⟨rfl, id⟩
  · exact ⟨rfl, fun _ => rfl⟩
  · exact ⟨rfl, id⟩

theorem plain_closeResponse (k : Nat) (keep : Bool) (s : St) : Plain s (closeResponse k keep s) := by
  unfold closeResponse
  split
  · exact plain_put1 _ _
  · exact (plain_setReq _ _ _).trans (plain_put1 _ _)

theorem ok_finish {k : Nat} {s : St} (h : Ok s) : Ok (finish k s) := ok_of (s := s) id id h (fun hg hp => .inr ⟨hg, phase_finish hp⟩)

theorem started_log {s : St} (h : s.log = []) : s.started = [] := by unfold St.started; rw [h]; rfl

theorem ok_step {c : Cfg} {s : St} {e : Ev} (h : Ok s) (hc : steady s e) : Ok (step c s e) := by
  cases e with
  | data d =>
    simp only [step]
    split
    · have n := data_ng c d { s with rx := s.rx ++ d }
      exact ok_of (s := s) n.2 (fun x => by rw [n.1]; exact x) h (fun hg hp => phase_data hg hp)
    · exact h
  | eof drop =>
    refine h.plain ((plain_put0 rfl s).trans ⟨rfl, rfl, rfl, rfl, rfl, rfl, rfl, rfl, rfl, rfl, fun x => (by cases x), fun x => ?_⟩)
    dsimp only [step] at x; rw [Bool.or_eq_false_iff] at x; exact x.1
  | head i => exact ok_of (head_ng c i s).2 (fun x => by simp only [step]; rw [(head_ng c i s).1]; exact x) h (fun hg hp => phase_head hg hp)
  | recv i => exact ok_of (recv_ng c i s).2 (fun x => by simp only [step]; rw [(recv_ng c i s).1]; exact x) h (fun hg hp => phase_recv hg hp)
  | send => exact ok_send h hc
  | emit k b => exact h.plain (plain_put1 _ _)
  | mark k keep => exact h.plain (plain_closeResponse k keep s)
  | take k =>
    simp only [step]
    split
    · next x q hq =>
      refine ok_of (s := s) id id h (fun hg hp => .inr ⟨hg, ?_⟩)
      cases hp with
      | idle buf hb heads _ recvs receive fut rx log => exact absurd (started_log log) hc
      | early y hb heads log => exact absurd (started_log log) hc
      | going k' raw acts hb heads log bodies min rx chain older rc =>
        refine .going k' raw (acts ++ [.body k x]) hb heads (by dsimp only; rw [log]; rfl) ?_ min ?_ chain older rc
        · intro a ha
          rcases List.mem_append.1 ha with ha | ha
          · exact bodies a ha
          · simp at ha; exact ⟨k, x, ha⟩
        · simp only [eaten, q0b, hq] at rx ⊢
          rw [rx]; simp [Act.bytes, List.append_assoc]
    · exact h
  | upgrade k => exact h.plain (plain_setReq _ _ _)
  | clear k => exact h.plain (plain_setReq _ _ _)
  | finish k => exact ok_finish h
  | leave k keep =>
    simp only [step]
    split
    · exact (ok_finish h).plain (plain_closeResponse k keep _)
    · exact h
  | abort => exact .inl rfl
  | kick => exact h.plain ⟨rfl, rfl, rfl, rfl, rfl, rfl, rfl, rfl, rfl, rfl, id, id⟩

/-! ## Whether reading goes on -/

def ups (s : St) : List Bool := s.reqs.map (·.upgraded)

/-- The session is upgraded. -/
def Up (s : St) : Prop := ∃ k, s.cur = some k ∧ (ups s)[k]? = some true

structure Tail (s : St) : Prop where
  early : s.started = [] → s.first = true ∧ ∀ b ∈ ups s, b = false
  fut : s.started ≠ [] → s.futDone[0]? = some true
  up : s.first = false → Up s
  flow : s.first = false → s.reading = true ∨ ∃ x ∈ s.recvs, x ≠ .done

/-- Nothing changes that `Tail` is about, except that reading may be resumed. -/
structure Soft (s s' : St) : Prop where
  started : s'.started = s.started
  first : s'.first = s.first
  ups : ups s' = ups s
  fut : s'.futDone = s.futDone
  cur : s'.cur = s.cur
  reading : s.reading = true → s'.reading = true
  recvs : s'.recvs = s.recvs

theorem Soft.refl (s : St) : Soft s s := ⟨rfl, rfl, rfl, rfl, rfl, id, rfl⟩
theorem Soft.trans {a b c : St} (h : Soft a b) (h' : Soft b c) : Soft a c :=
  ⟨h'.started.trans h.started, h'.first.trans h.first, h'.ups.trans h.ups, h'.fut.trans h.fut, h'.cur.trans h.cur, fun x => h'.reading (h.reading x), h'.recvs.trans h.recvs⟩

theorem Tail.soft {s s' : St} (h : Tail s) (p : Soft s s') : Tail s' := by
  refine ⟨by rw [p.started, p.first, p.ups]; exact h.early, by rw [p.started, p.fut]; exact h.fut, ?_, ?_⟩
  · rw [p.first]; unfold Up; rw [p.cur, p.ups]; exact h.up
  · rw [p.first, p.recvs]; intro hf; exact (h.flow hf).imp p.reading id

theorem soft_setReq (k : Nat) (f : Rq → Rq) (hf : ∀ r, (f r).upgraded = r.upgraded) (s : St) : Soft s (setReq k f s) := by
  unfold setReq
  split
  · next r hr =>
    refine ⟨rfl, rfl, ?_, rfl, rfl, id, rfl⟩
    unfold ups
    apply List.ext_getElem?
    intro j
    rw [List.getElem?_map, List.getElem?_map]
    by_cases e : k = j
    · subst e
      obtain ⟨hl, _⟩ := List.getElem?_eq_some_iff.1 hr
      rw [List.getElem?_set_self hl, hr]; simp [hf]
    · rw [List.getElem?_set_ne e]
  · exact .refl _

theorem soft_close (s : St) : Soft s (close s) := by unfold close; split <;> exact ⟨rfl, rfl, rfl, rfl, rfl, id, rfl⟩
theorem soft_put0 (x : Item) (s : St) : Soft s (put0 x s) := ⟨rfl, rfl, rfl, rfl, rfl, id, rfl⟩
theorem soft_put1 (x : Item) (s : St) : Soft s (put1 x s) := ⟨rfl, rfl, rfl, rfl, rfl, id, rfl⟩

theorem soft_account (c : Cfg) (n : Nat) (s : St) : Soft s (account c n s) := by
  unfold account
  split
  · exact .refl _
  · next k _ =>
    split
    · exact .refl _
    · next r hr =>
      split
      · exact ⟨rfl, rfl, rfl, rfl, rfl, fun _ => rfl, rfl⟩
      · dsimp only
        have h0 : Soft s { s with reqs := s.reqs.set k { r with bodySize := r.bodySize + n } } := by
          have := soft_setReq k (fun r => { r with bodySize := r.bodySize + n }) (fun _ => rfl) s
          unfold setReq at this; rw [hr] at this; exact this
        split
        · exact h0.trans (soft_put0 _ _)
        · split
          · exact h0.trans ⟨rfl, rfl, rfl, rfl, rfl, fun _ => rfl, rfl⟩
          · refine h0.trans ((soft_setReq k noKeep (fun _ => rfl) _).trans (.trans ?_ (soft_put1 none _)))
            exact ⟨rfl, rfl, rfl, rfl, rfl, id, rfl⟩

theorem account_up {c : Cfg} {n : Nat} {s : St} (h : Up s) : (account c n s).reading = true := by
  obtain ⟨k, h1, h2⟩ := h
  unfold ups at h2
  rw [List.getElem?_map] at h2
  cases hr : s.reqs[k]? with
  | none => rw [hr] at h2; cases h2
  | some r =>
    rw [hr] at h2
    have hu : r.upgraded = true := by simpa using h2
    unfold account
    rw [h1]; dsimp only; rw [hr]; dsimp only; rw [if_pos hu]

theorem soft_feed (c : Cfg) (bs : Nat) (f : Feed) (s : St) : Soft s (feed c bs f s).1 := by
  unfold feed
  split
  · exact soft_account c _ s
  · dsimp only
    split
    · exact ⟨rfl, rfl, rfl, rfl, rfl, id, rfl⟩
    · exact soft_put0 _ s

/-- The futures of the other generations do not matter here: there are none. -/
theorem tail_fed {i k : Nat} {raw : Bytes} {s : St} {p : St × Option Feed} (h : Tail s) (hs : s.started = []) (hl : s.futDone.length = 1) (hg : p.1.gen = 0) (hp : Soft s p.1) :
    Tail (fed i k raw p) := by
  obtain ⟨s', o⟩ := p
  dsimp only at hg hp
  cases o with
  | some f => exact h.soft (hp.trans ⟨rfl, rfl, rfl, rfl, rfl, id, rfl⟩)
  | none =>
    obtain ⟨hf, hu⟩ := h.early hs
    have hf' : s'.first = true := hp.first.trans hf
    refine ⟨fun e => ?_, fun _ => ?_, ?_, ?_⟩
    · exfalso; simp [fed, begin, St.started] at e
    · simp only [fed, begin, hf', hg, Bool.true_or, if_true]
      rw [List.getElem?_set_self (by rw [hp.fut, hl]; exact Nat.zero_lt_one)]
    · simp only [fed, begin, hf']; intro e; cases e
    · simp only [fed, begin, hf']; intro e; cases e

theorem phase_started {s : St} (h : Phase s) {i : Nat} {x : HTask} (hx : s.heads[i]? = some x) (hn : ∀ k, x ≠ .handling k) : s.started = [] := by
  cases h with
  | idle buf hb heads => rw [heads] at hx; simp at hx
  | early y hb heads log => exact started_log log
  | going k raw acts hb heads => rw [heads] at hx; cases i with
    | zero => simp at hx; exact absurd hx.symm (hn k)
    | succ i => simp at hx

theorem tail_head {c : Cfg} {i : Nat} {s : St} (h : Tail s) (hp : Phase s) (hg : s.gen = 0) (hl : s.futDone.length = 1) : Tail (headStep c i s) := by
  unfold headStep
  split
  · next d n hi =>
    have hs := phase_started hp hi (fun k => by simp)
    obtain ⟨hf, hu⟩ := h.early hs
    have new : ∀ (r : Model.Head.Req), Tail (newReq r s) := by
      intro r
      refine ⟨fun _ => ⟨hf, ?_⟩, fun e => absurd hs e, fun e => ?_, fun e => ?_⟩
      · unfold ups newReq; simp only [List.map_append, List.mem_append]
        rintro b (hb | hb)
        · exact hu b hb
        · simpa using hb
      · exfalso; rw [show (newReq r s).first = s.first from rfl, hf] at e; cases e
      · exfalso; rw [show (newReq r s).first = s.first from rfl, hf] at e; cases e
    unfold startHead
    dsimp only
    split
    · exact h.soft ((⟨rfl, rfl, rfl, rfl, rfl, id, rfl⟩ : Soft s { s with heads := s.heads.set i .done }).trans (soft_put1 _ _))
    · exact h.soft ⟨rfl, rfl, rfl, rfl, rfl, id, rfl⟩
    · split
      · exact (new _).soft ⟨rfl, rfl, rfl, rfl, rfl, id, rfl⟩
      · exact h.soft ⟨rfl, rfl, rfl, rfl, rfl, id, rfl⟩
    · next r _ =>
      have t : Tail (if r.hasBody = true then newReq r s else put0 (some []) (newReq r s)) := by
        split
        · exact new r
        · exact (new r).soft (soft_put0 _ _)
      have hs' : (if r.hasBody = true then newReq r s else put0 (some []) (newReq r s)).started = [] := by split <;> exact hs
      have hl' : (if r.hasBody = true then newReq r s else put0 (some []) (newReq r s)).futDone.length = 1 := by split <;> exact hl
      have hg' : (if r.hasBody = true then newReq r s else put0 (some []) (newReq r s)).gen = 0 := by split <;> exact hg
      split
      · exact tail_fed t hs' hl' ((feed_ng _ _ _ _).1.trans hg') (soft_feed _ _ _ _)
      · exact tail_fed t hs' hl' hg' (.refl _)
  · next f k raw hi =>
    exact tail_fed h (phase_started hp hi (fun k => by simp)) hl ((feed_ng _ _ _ _).1.trans hg) (soft_feed _ _ _ _)
  · exact h

theorem tail_recvFed {c : Cfg} {bs i : Nat} {f : Feed} {s : St} (h : Tail s) (hi : i < s.recvs.length) :
    (feed c bs f s).1.noWrite = true ∨ Tail (recvFed i (feed c bs f s)) := by
  have sf := soft_feed c bs f s
  by_cases hr : f.rest = []
  · right
    have e : feed c bs f s = (account c f.size s, none) := by unfold feed; rw [if_pos hr]
    rw [e] at sf ⊢
    refine ⟨fun x => ?_, fun x => ?_, fun x => ?_, fun x => ?_⟩
    · obtain ⟨h1, h2⟩ := h.early (sf.started.symm.trans x)
      exact ⟨sf.first.trans h1, by rw [show ups (recvFed i (account c f.size s, none)) = ups (account c f.size s) from rfl, sf.ups]; exact h2⟩
    · have := h.fut (by rw [← sf.started]; exact x)
      show (account c f.size s).futDone[0]? = _
      rw [sf.fut]; exact this
    · have := h.up (sf.first.symm.trans x)
      unfold Up at this ⊢
      rw [← sf.cur, ← sf.ups] at this; exact this
    · left; exact account_up (h.up (sf.first.symm.trans x))
  · by_cases hq : (put0 (some (f.rest.take bs)) s).q0.length > c.maxQueue
    · left; unfold feed; rw [if_neg hr]; dsimp only; rw [if_pos hq]; rfl
    · right
      have e : feed c bs f s = (put0 (some (f.rest.take bs)) s, some { f with rest := f.rest.drop bs }) := by
        unfold feed; rw [if_neg hr]; dsimp only; rw [if_neg hq]
      rw [e]
      refine ⟨h.early, h.fut, h.up, fun _ => .inr ⟨_, List.mem_set hi (.feeding { f with rest := f.rest.drop bs }), by simp⟩⟩

theorem tail_recv {c : Cfg} {i : Nat} {s : St} (h : Tail s) : (recvStep c i s).noWrite = true ∨ Tail (recvStep c i s) := by
  have go : ∀ f, i < s.recvs.length → (recvFed i (feed c c.bufferSize f s)).noWrite = true ∨ Tail (recvFed i (feed c c.bufferSize f s)) := by
    intro f hi
    rcases tail_recvFed (c := c) (bs := c.bufferSize) (f := f) h hi with x | x
    · left; rcases hh : feed c c.bufferSize f s with ⟨a, _ | b⟩ <;> rw [hh] at x <;> exact x
    · exact .inr x
  unfold recvStep
  split
  · next hi =>
    split
    · exact go _ (List.getElem?_eq_some_iff.1 hi).1
    · exact .inr h
  · next hi => exact go _ (List.getElem?_eq_some_iff.1 hi).1
  · exact .inr h

theorem tail_data {c : Cfg} {d : Bytes} {s : St} (h : Tail s) (hp : Phase s) : Tail (dataReceived c d { s with rx := s.rx ++ d }) := by
  have h0 : Tail { s with rx := s.rx ++ d } := h.soft ⟨rfl, rfl, rfl, rfl, rfl, id, rfl⟩
  rcases data_cases c d { s with rx := s.rx ++ d } with ⟨_, e⟩ | ⟨_, _, e⟩ | ⟨b, _, hb, hc⟩
  · rw [e]; exact h0
  · rw [e]; exact ⟨h.early, h.fut, h.up, fun _ => .inr ⟨_, List.mem_append_right _ (List.mem_singleton.2 rfl), by simp⟩⟩
  · have hs : s.started = [] := by
      cases hp with
      | idle _ _ _ _ _ _ _ _ log => exact started_log log
      | early _ _ _ log => exact started_log log
      | going _ _ _ hb' => exfalso; have : s.hb = some b := hb; rw [hb'] at this; cases this
    obtain ⟨hf, hu⟩ := h.early hs
    have fin : ∀ s' : St, s'.started = s.started → s'.first = s.first → ups s' = ups s → Tail s' := by
      intro s' e1 e2 e3
      refine ⟨fun _ => ⟨by rw [e2, hf], by rw [e3]; exact hu⟩, fun x => absurd (e1.trans hs) x, fun x => ?_, fun x => ?_⟩ <;> rw [e2, hf] at x <;> cases x
    rcases hc with ⟨_, _, _, e⟩ | e | ⟨_, e⟩ <;> rw [e] <;> exact fin _ rfl rfl rfl

theorem tail_keep {c : Cfg} {k : Nat} {r : Rq} {s : St} (h : Tail s) (hg : s.gen = 0) (hk : s.cur = some k) (hr : s.reqs[k]? = some r) :
    (handleKeepalive c k r s).gen ≠ 0 ∨ Tail (handleKeepalive c k r s) := by
  unfold handleKeepalive
  dsimp only
  have p0 : Soft s { s with registered := s.registered || s.first } := ⟨rfl, rfl, rfl, rfl, rfl, id, rfl⟩
  have last : ∀ s' : St, Soft s' { s' with reading := true } := fun s' => ⟨rfl, rfl, rfl, rfl, rfl, fun _ => rfl, rfl⟩
  split
  · exact .inr (h.soft (p0.trans (soft_close _)))
  · split
    · exact .inr (h.soft ((p0.trans (soft_setReq k (fun r => { r with req := { r.req with httpContinue := false } }) (fun _ => rfl) _)).trans (last _)))
    · split
      · next hu =>
        split
        · right
          have hup : (ups s)[k]? = some true := by unfold ups; rw [List.getElem?_map, hr]; simp [hu]
          refine ⟨fun x => ?_, h.fut, fun _ => ⟨k, hk, hup⟩, fun _ => .inl rfl⟩
          exfalso
          have := (h.early x).2 true (List.mem_of_getElem? hup)
          cases this
        · exact .inr (h.soft ((p0.trans (soft_close _)).trans (last _)))
      · left
        show (if r.req.hasBody = true then _ else _ : St).gen ≠ 0
        split
        · simp [reset]
        · rw [drain_gen]; simp [reset]

theorem tail_send {c : Cfg} {s : St} (h : Tail s) (hg : s.gen = 0) : (sendStep c s).gen ≠ 0 ∨ Tail (sendStep c s) := by
  unfold sendStep
  split
  · exact .inr h
  · split
    · exact .inr h
    · next x q hq =>
      have h0 : Tail { s with q1 := q, sent := s.sent ++ [x] } := h.soft ⟨rfl, rfl, rfl, rfl, rfl, id, rfl⟩
      cases x with
      | some b =>
        dsimp only
        split
        · exact .inr h0
        · exact .inr (h0.soft ⟨rfl, rfl, rfl, rfl, rfl, id, rfl⟩)
      | none =>
        dsimp only
        unfold marker
        dsimp only
        split
        · exact .inr (h0.soft ((soft_close _).trans ⟨rfl, rfl, rfl, rfl, rfl, id, rfl⟩))
        · next k hk =>
          split
          · exact .inr h0
          · next r hr =>
            split
            · exact tail_keep h0 hg hk hr
            · exact .inr (h0.soft ((soft_setReq k (fun r => { r with bodySize := 0 }) (fun _ => rfl) _).trans ((soft_close _).trans ⟨rfl, rfl, rfl, rfl, rfl, id, rfl⟩)))

theorem soft_closeResponse (k : Nat) (keep : Bool) (s : St) : Soft s (closeResponse k keep s) := by
  unfold closeResponse
  split
  · exact soft_put1 _ _
  · exact (soft_setReq k noKeep (fun _ => rfl) s).trans (soft_put1 _ _)

theorem tail_upgrade {k : Nat} {s : St} (h : Tail s) (hs : s.started ≠ []) : Tail (setReq k (fun r => { r with upgraded := true }) s) := by
  unfold setReq
  split
  · next r hr =>
    refine ⟨fun x => absurd x hs, h.fut, fun x => ?_, h.flow⟩
    obtain ⟨j, h1, h2⟩ := h.up x
    refine ⟨j, h1, ?_⟩
    unfold ups at h2 ⊢
    rw [List.getElem?_map] at h2 ⊢
    by_cases e : k = j
    · subst e
      obtain ⟨hl, _⟩ := List.getElem?_eq_some_iff.1 hr
      simp [List.getElem?_set_self hl]
    · simp only [List.getElem?_set_ne e]; exact h2
  · exact h

/-- While the first request lasts, there is one future. -/
def Ok2 (s : St) : Prop := s.noWrite = true ∨ s.gen ≠ 0 ∨ Tail s

theorem noWrite_step {c : Cfg} {s : St} {e : Ev} (hw : s.noWrite = true) : (step c s e).noWrite = true := by
  by_cases he : e = .send
  · subst he
    simp only [step]; unfold sendStep
    split
    · exact hw
    · split
      · exact hw
      · next x q hq =>
        cases x with
        | some b => dsimp only; split <;> exact hw
        | none =>
          obtain ⟨s', h1, h2⟩ := marker_quiet c { s with q1 := q, sent := s.sent ++ [none] }
          dsimp only
          rcases h2 with h2 | ⟨h2, _⟩ <;> rw [h2] <;> exact h1.noWrite hw
  · exact (quiet_step c s e he).noWrite hw

theorem gen_step {c : Cfg} {s : St} {e : Ev} (hg : s.gen ≠ 0) : (step c s e).gen ≠ 0 := by
  rcases Timers.grow_step c s e with ⟨_, h⟩ | ⟨_, h⟩ <;> rw [h]
  · exact hg
  · exact Nat.succ_ne_zero _

theorem len_step {c : Cfg} {s : St} {e : Ev} (hl : s.futDone.length = s.gen + 1) : (step c s e).futDone.length = (step c s e).gen + 1 := by
  rcases Timers.grow_step c s e with ⟨h | h, h'⟩ | ⟨h, h'⟩ <;> rw [h, h'] <;> simp [hl]

theorem ok2_step {c : Cfg} {s : St} {e : Ev} (hl : s.futDone.length = s.gen + 1) (hk : Ok s) (h : Ok2 s) (hc : steady s e) : Ok2 (step c s e) := by
  by_cases hw : s.noWrite = true
  · exact .inl (noWrite_step hw)
  by_cases hg : s.gen = 0
  · have ht : Tail s := (h.resolve_left hw).resolve_left (fun x => x hg)
    have hp : Phase s := ((hk.resolve_left hw).resolve_left (fun x => x hg)).2
    rw [hg] at hl
    cases e with
    | data d =>
      simp only [step]; split
      · exact .inr (.inr (tail_data ht hp))
      · exact .inr (.inr ht)
    | eof drop => exact .inr (.inr (ht.soft ⟨rfl, rfl, rfl, rfl, rfl, id, rfl⟩))
    | head i => exact .inr (.inr (tail_head ht hp hg hl))
    | recv i => exact (tail_recv ht).imp id .inr
    | send => exact .inr (tail_send ht hg)
    | emit k b => exact .inr (.inr (ht.soft (soft_put1 _ _)))
    | mark k keep => exact .inr (.inr (ht.soft (soft_closeResponse _ _ _)))
    | take k =>
      simp only [step]; split
      · refine .inr (.inr (ht.soft ⟨?_, rfl, rfl, rfl, rfl, id, rfl⟩))
        simp [St.started]
      · exact .inr (.inr ht)
    | upgrade k => exact .inr (.inr (tail_upgrade ht hc))
    | clear k => exact .inr (.inr (ht.soft (soft_setReq k (fun r => { r with bodySize := 0 }) (fun _ => rfl) s)))
    | finish k => exact .inr (.inr (ht.soft ⟨rfl, rfl, rfl, rfl, rfl, id, rfl⟩))
    | leave k keep =>
      simp only [step]; split
      · exact .inr (.inr (ht.soft ((⟨rfl, rfl, rfl, rfl, rfl, id, rfl⟩ : Soft s (finish k s)).trans (soft_closeResponse _ _ _))))
      · exact .inr (.inr ht)
    | abort => exact .inl rfl
    | kick => exact .inr (.inr (ht.soft ⟨rfl, rfl, rfl, rfl, rfl, id, rfl⟩))
  · exact .inr (.inl (gen_step hg))

/-! ## `first` -/

theorem fed_first {i k : Nat} {raw : Bytes} {p : St × Option Feed} : (fed i k raw p).first = p.1.first := by rcases p with ⟨a, _ | f⟩ <;> rfl

theorem head_first (c : Cfg) (i : Nat) (s : St) : (headStep c i s).first = s.first := by
  unfold headStep
  split
  · unfold startHead
    dsimp only
    split
    · rfl
    · rfl
    · split <;> rfl
    · next r _ =>
      have hn : (if r.hasBody = true then newReq r s else put0 (some []) (newReq r s)).first = s.first := by split <;> rfl
      split
      · rw [fed_first, (soft_feed _ _ _ _).first, hn]
      · rw [fed_first]; exact hn
  · rw [fed_first, (soft_feed _ _ _ _).first]
  · rfl

theorem recv_first (c : Cfg) (i : Nat) (s : St) : (recvStep c i s).first = s.first := by
  have go : ∀ (f : Feed), (recvFed i (feed c c.bufferSize f s)).first = s.first := by
    intro f
    have := (soft_feed c c.bufferSize f s).first
    rcases h : feed c c.bufferSize f s with ⟨a, _ | b⟩ <;> rw [h] at this <;> exact this
  unfold recvStep
  split
  · split
    · exact go _
    · rfl
  · exact go _
  · rfl

theorem data_first (c : Cfg) (d : Bytes) (s : St) : (dataReceived c d s).first = s.first := by
  rcases data_cases c d s with ⟨_, e⟩ | ⟨_, _, e⟩ | ⟨_, _, _, ⟨_, _, _, e⟩ | e | ⟨_, e⟩⟩ <;> rw [e] <;> rfl

theorem drain_first (c : Cfg) : ∀ (l : List Item) (s : St), (drain c l s).first = s.first
  | [], _ => rfl
  | x :: l, s => by
    show (drain c l (dataReceived c (x.getD []) s)).first = _
    rw [drain_first c l, data_first]

theorem setReq_first (k : Nat) (f : Rq → Rq) (s : St) : (setReq k f s).first = s.first ∧ (setReq k f s).gen = s.gen := by unfold setReq; split <;> exact ⟨rfl, rfl⟩
theorem close_first (s : St) : (close s).first = s.first ∧ (close s).gen = s.gen := by unfold close; split <;> exact ⟨rfl, rfl⟩

theorem keep_first (c : Cfg) (k : Nat) (r : Rq) (s : St) :
    (handleKeepalive c k r s).first = false ∨ ((handleKeepalive c k r s).first = s.first ∧ (handleKeepalive c k r s).gen = s.gen) := by
  unfold handleKeepalive
  dsimp only
  split
  · exact .inr (close_first _)
  · split
    · exact .inr (setReq_first _ _ _)
    · split
      · split
        · exact .inl rfl
        · exact .inr (close_first _)
      · left
        show (if r.req.hasBody = true then _ else _ : St).first = false
        split
        · rfl
        · rw [drain_first]; rfl

theorem send_first (c : Cfg) (s : St) : (sendStep c s).first = false ∨ ((sendStep c s).first = s.first ∧ (sendStep c s).gen = s.gen) := by
  unfold sendStep
  split
  · exact .inr ⟨rfl, rfl⟩
  · split
    · exact .inr ⟨rfl, rfl⟩
    · next x q hq =>
      cases x with
      | some b => dsimp only; split <;> exact .inr ⟨rfl, rfl⟩
      | none =>
        dsimp only
        unfold marker
        dsimp only
        split
        · exact .inr (close_first _)
        · next k hk =>
          split
          · exact .inr ⟨rfl, rfl⟩
          · split
            · exact keep_first c k _ _
            · right
              exact ⟨(close_first _).1.trans (setReq_first _ _ _).1, (close_first _).2.trans (setReq_first _ _ _).2⟩

theorem first_step {c : Cfg} {s : St} {e : Ev} (h : s.gen = 0 ∨ s.first = false) : (step c s e).gen = 0 ∨ (step c s e).first = false := by
  have keep : ∀ s' : St, s'.gen = s.gen → s'.first = s.first → s'.gen = 0 ∨ s'.first = false := by
    intro s' h1 h2; rw [h1, h2]; exact h
  cases e with
  | data d =>
    simp only [step]; split
    · exact keep _ (data_ng c d _).1 (data_first c d _)
    · exact h
  | eof drop => exact h
  | head i => exact keep _ (head_ng c i s).1 (head_first c i s)
  | recv i => exact keep _ (recv_ng c i s).1 (recv_first c i s)
  | send => rcases send_first c s with x | ⟨x, y⟩
            · exact .inr x
            · exact keep _ y x
  | emit k b => exact h
  | mark k b => exact keep _ (plain_closeResponse k b s).gen (soft_closeResponse k b s).first
  | take k => simp only [step]; split <;> exact h
  | upgrade k => exact keep _ (setReq_first _ _ _).2 (setReq_first _ _ _).1
  | clear k => exact keep _ (setReq_first _ _ _).2 (setReq_first _ _ _).1
  | finish k => exact h
  | leave k b =>
    simp only [step]; split
    · exact keep _ (plain_closeResponse k b (finish k s)).gen (soft_closeResponse k b (finish k s)).first
    · exact h
  | abort => exact h
  | kick => exact h

theorem first_run {c : Cfg} : ∀ (es : List Ev) {s : St}, (s.gen = 0 ∨ s.first = false) → (run c s es).gen = 0 ∨ (run c s es).first = false
  | [], _, h => h
  | e :: es, _, h => first_run es (s := step c _ e) (first_step h)

/-- On a transport that takes no writes, nothing is written. -/
theorem mute_step {c : Cfg} {s : St} {e : Ev} (hw : s.noWrite = true) : (step c s e).written = s.written := by
  by_cases he : e = .send
  · subst he
    simp only [step]; unfold sendStep
    split
    · rfl
    · split
      · rfl
      · next x q hq =>
        cases x with
        | some b => dsimp only; rw [if_pos hw]
        | none =>
          obtain ⟨s', h1, h2⟩ := marker_quiet c { s with q1 := q, sent := s.sent ++ [none] }
          dsimp only
          rcases h2 with h2 | ⟨h2, _⟩ <;> rw [h2] <;> exact h1.written
  · exact (quiet_step c s e he).written

theorem mute_run {c : Cfg} : ∀ (es : List Ev) {s : St}, s.noWrite = true → (run c s es).written = s.written
  | [], _, _ => rfl
  | e :: es, s, h => (mute_run es (s := step c s e) (noWrite_step h)).trans (mute_step h)

theorem closing_run {c : Cfg} : ∀ (es : List Ev) {s : St}, s.closing = true → (run c s es).closing = true
  | [], _, h => h
  | e :: es, _, h => closing_run es (s := step c _ e) (closing_step h)

/-! ## Runs -/

theorem ok_init : Ok {} := .inr (.inr ⟨rfl, .idle [] rfl rfl rfl rfl rfl rfl rfl rfl⟩)

theorem ok_run {c : Cfg} : ∀ (es : List Ev) {s : St}, Ok s → Steady c s es → Ok (run c s es)
  | [], _, h, _ => h
  | e :: es, _, h, hc => ok_run es (s := step c _ e) (ok_step h hc.1) hc.2

theorem all_run {c : Cfg} : ∀ (es : List Ev) {s : St}, s.futDone.length = s.gen + 1 → Ok s → Ok2 s → Steady c s es →
    (run c s es).futDone.length = (run c s es).gen + 1 ∧ Ok (run c s es) ∧ Ok2 (run c s es)
  | [], _, h1, h2, h3, _ => ⟨h1, h2, h3⟩
  | e :: es, _, h1, h2, h3, hc => all_run es (s := step c _ e) (len_step h1) (ok_step h2 hc.1) (ok2_step h1 h2 h3 hc.1) hc.2

theorem ok2_init : Ok2 {} := .inr (.inr ⟨fun _ => ⟨rfl, fun b hb => (by cases hb)⟩, fun h => absurd rfl h, fun h => (by cases h), fun h => (by cases h)⟩)

end Solo
end Verif
