import Verif.Model.Timers
import Verif.Props.ConnMore
/-!
# Invariants of a connection for C79 and C80
-/
namespace Verif
open Verif.Py Verif.Model.Conn Verif.Model.Head Conn

namespace Timers

/-- What the statements below are about is as before, or less. -/
structure Less (s s' : Model.Conn.St) : Prop where
  fut : s'.futDone = s.futDone
  gen : s'.gen = s.gen
  first : s'.first = s.first
  st : s'.started.length = s.started.length
  run : s'.running ≠ [] → s.running ≠ []
  mark : none ∈ s'.q1 → none ∈ s.q1
  cur : s'.cur = s.cur
  keep : ∀ (k : Nat) (r : Rq), s.reqs[k]? = some r → r.req.httpKeepalive = false → ∃ r', s'.reqs[k]? = some r' ∧ r'.req.httpKeepalive = false
  len : s.reqs.length ≤ s'.reqs.length
  hb : s'.hb.isSome = true → s.hb.isSome = true
  busy : ∀ h ∈ s'.heads, busy h = true → h ∈ s.heads

theorem Less.of_eq {s s' : Model.Conn.St} (h1 : s'.futDone = s.futDone) (h2 : s'.gen = s.gen) (h3 : s'.first = s.first) (h4 : s'.log = s.log)
    (h5 : s'.running = s.running) (h6 : s'.q1 = s.q1) (h7 : s'.cur = s.cur) (h8 : s'.reqs = s.reqs) (h9 : s'.hb = s.hb)
    (h10 : s'.heads = s.heads) : Less s s' where
  fut := h1
  gen := h2
  first := h3
  st := by unfold St.started; rw [h4]
  run := by rw [h5]; exact id
  mark := by rw [h6]; exact id
  cur := h7
  keep := fun k r hr hk => ⟨r, by rw [h8]; exact hr, hk⟩
  len := by rw [h8]; exact Nat.le_refl _
  hb := by rw [h9]; exact id
  busy := fun h hh _ => by rw [h10] at hh; exact hh

theorem Less.refl (s : Model.Conn.St) : Less s s := .of_eq rfl rfl rfl rfl rfl rfl rfl rfl rfl rfl

theorem Less.trans {a b c : Model.Conn.St} (h : Less a b) (g : Less b c) : Less a c where
  fut := g.fut.trans h.fut
  gen := g.gen.trans h.gen
  first := g.first.trans h.first
  st := g.st.trans h.st
  run := fun x => h.run (g.run x)
  mark := fun x => h.mark (g.mark x)
  cur := g.cur.trans h.cur
  keep := fun k r hr hk => by obtain ⟨r', a, b⟩ := h.keep k r hr hk; exact g.keep k r' a b
  len := Nat.le_trans h.len g.len
  hb := fun x => h.hb (g.hb x)
  busy := fun x hx hb => h.busy x (g.busy x hx hb) hb

theorem same_setReq {k : Nat} {f : Rq → Rq} (hf : ∀ r, r.req.httpKeepalive = false → (f r).req.httpKeepalive = false) (s : Model.Conn.St) :
    Less s (setReq k f s) := by
  unfold setReq
  split
  · next r hr =>
    exact {
      fut := rfl
      gen := rfl
      first := rfl
      st := rfl
      run := id
      mark := id
      cur := rfl
      keep := fun k' r' hr' hk' => by
        dsimp only
        by_cases e : k = k'
        · subst e
          rw [hr] at hr'; cases hr'
          exact ⟨f r, by rw [List.getElem?_set_self (by exact (List.getElem?_eq_some_iff.1 hr).1)], hf r hk'⟩
        · exact ⟨r', by rw [List.getElem?_set_ne e]; exact hr', hk'⟩
      len := by simp
      hb := id
      busy := fun _ hh _ => hh }
  · exact .refl s

theorem same_abort (s : Model.Conn.St) : Less s (abort s) := .of_eq rfl rfl rfl rfl rfl rfl rfl rfl rfl rfl
theorem same_put0 (x : Item) (s : Model.Conn.St) : Less s (put0 x s) := .of_eq rfl rfl rfl rfl rfl rfl rfl rfl rfl rfl
theorem same_close (s : Model.Conn.St) : Less s (close s) := by unfold close; split <;> exact .of_eq rfl rfl rfl rfl rfl rfl rfl rfl rfl rfl

/-- A body that is too large sets `tooLarge` for good. -/
def Big (s s' : Model.Conn.St) : Prop := s.tooLarge = true → s'.tooLarge = true

theorem same_account (c : Model.Conn.Cfg) (n : Nat) (s : Model.Conn.St) : (account c n s).tooLarge = true ∨ Less s (account c n s) := by
  unfold account
  split
  · exact .inr (.refl s)
  · next k hk =>
    split
    · exact .inr (.refl s)
    · next r hr =>
      split
      · exact .inr (.of_eq rfl rfl rfl rfl rfl rfl rfl rfl rfl rfl)
      · dsimp only
        have e : ({ s with reqs := s.reqs.set k { r with bodySize := r.bodySize + n } } : Model.Conn.St) =
            setReq k (fun r => { r with bodySize := r.bodySize + n }) s := by unfold setReq; rw [hr]
        have g : Less s { s with reqs := s.reqs.set k { r with bodySize := r.bodySize + n } } := by
          rw [e]; exact same_setReq (by intro _ h; exact h) s
        split
        · exact .inr (g.trans (same_put0 _ _))
        · split
          · exact .inr (g.trans (.of_eq rfl rfl rfl rfl rfl rfl rfl rfl rfl rfl))
          · exact .inl rfl

theorem same_feed (c : Model.Conn.Cfg) (bs : Nat) (f : Feed) (s : Model.Conn.St) : (feed c bs f s).1.tooLarge = true ∨ Less s (feed c bs f s).1 := by
  unfold feed
  split
  · exact same_account c _ s
  · dsimp only
    split
    · exact .inr ((same_put0 _ s).trans (same_abort _))
    · exact .inr (same_put0 _ s)

theorem big_feed (c : Model.Conn.Cfg) (bs : Nat) (f : Feed) (s : Model.Conn.St) : Big s (feed c bs f s).1 := by
  intro h
  rcases feed_fields c bs f s with g | g
  · exact g
  · rw [g.1]; exact h

/-- As long as the connection is not being closed and no body was too large: the futures of earlier waits are done; that of
the present one is done when its handler has started, and not before. -/
structure J (s : Model.Conn.St) : Prop where
  len : s.futDone.length = s.gen + 1
  old : ∀ i, i < s.gen → s.futDone[i]? = some true
  begun : s.running ≠ [] → s.futDone[s.gen]? = some true
  ended : none ∈ s.q1 → s.futDone[s.gen]? = some true ∨ s.cur = none ∨
    ∃ k r, s.cur = some k ∧ s.reqs[k]? = some r ∧ r.req.httpKeepalive = false
  wait : (s.hb.isSome = true ∨ ∃ h ∈ s.heads, busy h = true) → s.futDone[s.gen]? = some false ∧ (s.first = true ∨ 0 < s.gen)
  cnt : s.started.length = s.gen + (if s.futDone[s.gen]? = some true then 1 else 0)
  cur : ∀ k, s.cur = some k → k < s.reqs.length
  fail : ∀ k, HTask.failing k ∈ s.heads → s.cur = some k

theorem J.same {s s' : Model.Conn.St} (j : J s) (h : Less s s') : J s' where
  len := by rw [h.fut, h.gen]; exact j.len
  old := by rw [h.fut, h.gen]; exact j.old
  begun := fun x => by rw [h.fut, h.gen]; exact j.begun (h.run x)
  ended := fun x => by
    rw [h.fut, h.gen, h.cur]
    rcases j.ended (h.mark x) with e | e | ⟨k, r, e1, e2, e3⟩
    · exact .inl e
    · exact .inr (.inl e)
    · obtain ⟨r', a, b⟩ := h.keep k r e2 e3
      exact .inr (.inr ⟨k, r', e1, a, b⟩)
  wait := fun x => by
    rw [h.fut, h.gen, h.first]
    refine j.wait ?_
    rcases x with x | ⟨y, hy, hb⟩
    · exact .inl (h.hb x)
    · exact .inr ⟨y, h.busy y hy hb, hb⟩
  cnt := by rw [h.st, h.fut, h.gen]; exact j.cnt
  cur := fun k hk => by rw [h.cur] at hk; exact Nat.lt_of_lt_of_le (j.cur k hk) h.len
  fail := fun k hk => by rw [h.cur]; exact j.fail k (h.busy _ hk rfl)

def JJ (s : Model.Conn.St) : Prop := s.tooLarge = true ∨ s.closing = true ∨ J s

theorem JJ.same {s s' : Model.Conn.St} (j : JJ s) (hb : Big s s') (hc : s.closing = true → s'.closing = true) (h : s'.tooLarge = true ∨ Less s s') : JJ s' := by
  rcases h with h | h
  · exact .inl h
  · rcases j with j | j | j
    · exact .inl (hb j)
    · exact .inr (.inl (hc j))
    · exact .inr (.inr (j.same h))

theorem big_data (c : Model.Conn.Cfg) (d : Bytes) (s : Model.Conn.St) : (dataReceived c d s).tooLarge = s.tooLarge := by
  rcases data_cases c d s with ⟨_, e⟩ | ⟨_, _, e⟩ | ⟨buf, _, _, ⟨n, _, _, e⟩ | e | ⟨_, e⟩⟩ <;> rw [e] <;> rfl

theorem closing_data (c : Model.Conn.Cfg) (d : Bytes) (s : Model.Conn.St) (h : s.closing = true) : (dataReceived c d s).closing = true := by
  rcases data_cases c d s with ⟨_, e⟩ | ⟨_, _, e⟩ | ⟨buf, _, _, ⟨n, _, _, e⟩ | e | ⟨_, e⟩⟩ <;> rw [e] <;> first | exact h | rfl

theorem jj_data {c : Model.Conn.Cfg} {d : Bytes} {s : Model.Conn.St} (j : JJ s) : JJ (dataReceived c d s) := by
  rcases j with j | j | j
  · exact .inl (by rw [big_data]; exact j)
  · exact .inr (.inl (closing_data c d s j))
  · rcases data_cases c d s with ⟨_, e⟩ | ⟨_, _, e⟩ | ⟨buf, _, hb, ⟨n, _, _, e⟩ | e | ⟨_, e⟩⟩ <;> rw [e]
    · exact .inr (.inr j)
    · exact .inr (.inr (j.same (.of_eq rfl rfl rfl rfl rfl rfl rfl rfl rfl rfl)))
    · right; right
      have w := j.wait (.inl (by rw [hb]; rfl))
      exact { j with
        wait := fun _ => w
        fail := fun k hk => by
          rcases List.mem_append.1 hk with hk | hk
          · exact j.fail k hk
          · simp at hk }
    · exact .inr (.inl rfl)
    · right; right
      exact j.same { (Less.of_eq (s := s) (s' := s) rfl rfl rfl rfl rfl rfl rfl rfl rfl rfl) with hb := fun _ => by rw [hb]; rfl }

theorem jj_drain {c : Model.Conn.Cfg} : ∀ (l : List Item) {s : Model.Conn.St}, JJ s → JJ (drain c l s)
  | [], _, h => h
  | _ :: l, _, h => jj_drain l (jj_data h)

theorem drain_big (c : Model.Conn.Cfg) : ∀ (l : List Item) (s : Model.Conn.St), (drain c l s).tooLarge = s.tooLarge
  | [], _ => rfl
  | x :: l, s => (drain_big c l (dataReceived c (x.getD []) s)).trans (big_data c _ s)

/-- The head of the task is refused, and the task ends or fails. -/
theorem J.put1 {s : Model.Conn.St} (j : J s) (h : s.futDone[s.gen]? = some true ∨ s.cur = none ∨
    ∃ k r, s.cur = some k ∧ s.reqs[k]? = some r ∧ r.req.httpKeepalive = false) : J (put1 none s) :=
  { j with ended := fun _ => h }

/-- `_handle_request` starts the handler. -/
theorem j_begin {s : Model.Conn.St} {i k : Nat} {raw : Bytes} {x : HTask} (j : J s) (hi : s.heads[i]? = some x) (hx : busy x = true) (hl : load s ≤ 1) :
    J { (begin k raw s) with heads := s.heads.set i (.handling k) } := by
  obtain ⟨w1, w2⟩ := j.wait (.inr ⟨x, List.mem_of_getElem? hi, hx⟩)
  have hset : (if s.first || s.gen > 0 then s.futDone.set s.gen true else s.futDone) = s.futDone.set s.gen true := by
    rw [if_pos]; simpa using w2
  have hlen : s.gen < s.futDone.length := by rw [j.len]; exact Nat.lt_succ_self _
  have hget : (s.futDone.set s.gen true)[s.gen]? = some true := by rw [List.getElem?_set_self hlen]
  have h0 : 0 < s.heads.countP busy := List.countP_pos_iff.2 ⟨x, List.mem_of_getElem? hi, hx⟩
  have hc := countP_set_busy (y := .handling k) hi hx
  simp only [busy, Bool.false_eq_true, if_false] at hc
  unfold load at hl
  have hnb : ∀ h ∈ s.heads.set i (.handling k), busy h = false := by
    have : (s.heads.set i (.handling k)).countP busy = 0 := by omega
    intro h hh; have := List.countP_eq_zero.1 this h hh; simpa using this
  exact {
    len := by simp only [begin]; rw [hset, List.length_set]; exact j.len
    old := fun i hi => by
      simp only [begin] at hi ⊢; rw [hset, List.getElem?_set_ne (Nat.ne_of_gt hi)]; exact j.old i hi
    begun := fun _ => by simp only [begin]; rw [hset, hget]
    ended := fun _ => .inl (by simp only [begin]; rw [hset, hget])
    wait := fun hw => by
      rcases hw with hw | ⟨h, hh, hb⟩
      · simp only [begin] at hw
        cases hbuf : s.hb with
        | none => rw [hbuf] at hw; cases hw
        | some b => rw [hbuf] at hl; simp only [wish] at hl; omega
      · rw [hnb h hh] at hb; cases hb
    cnt := by
      have h1 := j.cnt
      rw [w1] at h1
      have e1 : ({ (begin k raw s) with heads := s.heads.set i (.handling k) } : Model.Conn.St).futDone[({ (begin k raw s) with heads := s.heads.set i (.handling k) } : Model.Conn.St).gen]? = some true := by
        simp only [begin]; rw [hset, hget]
      rw [if_pos e1]
      simp only [begin, St.started, List.filterMap_append, List.length_append] at h1 ⊢
      simpa using h1
    cur := j.cur
    fail := fun k' hk => by have := hnb _ hk; cases this }

theorem J.setHead {s : Model.Conn.St} {i : Nat} {x y : HTask} (j : J s) (hi : s.heads[i]? = some x) (hx : busy x = true)
    (hy : ∀ k, y ≠ .failing k) : J { s with heads := s.heads.set i y } :=
  { j with
    wait := fun h => j.wait (by
      rcases h with h | _
      · exact .inl h
      · exact .inr ⟨x, List.mem_of_getElem? hi, hx⟩)
    fail := fun k hk => by
      rcases List.mem_or_eq_of_mem_set hk with hk | hk
      · exact j.fail k hk
      · exact absurd hk.symm (hy k) }

theorem jj_fed {s : Model.Conn.St} {i k : Nat} {raw : Bytes} {p : Model.Conn.St × Option Feed} {x : HTask} (j : J s) (hi : s.heads[i]? = some x)
    (hx : busy x = true) (hl : load s ≤ 1) (hh : p.1.tooLarge = true ∨ p.1.tooLarge = s.tooLarge ∧ p.1.running = s.running ∧ p.1.heads = s.heads ∧ p.1.q1 = s.q1 ∧ p.1.hb = s.hb)
    (hp : p.1.tooLarge = true ∨ Less s p.1) : JJ (fed i k raw p) := by
  obtain ⟨s', o⟩ := p
  rcases hp with hp | hp
  · exact .inl (by cases o <;> exact hp)
  · rcases hh with hh | ⟨h0, h1, h2, h3, h4⟩
    · exact .inl (by cases o <;> exact hh)
    · have j' := j.same hp
      dsimp only at *
      right; right
      cases o with
      | none => exact j_begin j' (by rw [h2]; exact hi) hx (by rw [load_congr h1 h2 h3 h4]; exact hl)
      | some f => exact j'.setHead (by rw [h2]; exact hi) hx (fun k' h => by cases h)

/-- A head that is no request comes on a new connection only. -/
def noJunk (s : Model.Conn.St) : Model.Conn.Ev → Prop
  | .head i => ∀ d n, s.heads[i]? = some (.new d n) → acceptData d n = .error .notRequest → s.cur = none
  | .leave k keep => keep = true → HTask.failing k ∉ s.heads
  | .mark _ _ => False
  | _ => True

/-- A new request object. -/
theorem j_newReq {s : Model.Conn.St} {i n : Nat} {d : Bytes} (j : J s) (hi : s.heads[i]? = some (.new d n)) (hl : load s ≤ 1) (r : Req) :
    J (newReq r s) ∧ ∀ k, HTask.failing k ∉ s.heads := by
  have hx : busy (.new d n) = true := rfl
  have hc := countP_set_busy (y := .done) hi hx
  simp only [busy, Bool.false_eq_true, if_false] at hc
  have h0 : 0 < s.heads.countP busy := List.countP_pos_iff.2 ⟨_, List.mem_of_getElem? hi, hx⟩
  unfold load at hl
  have hnf : ∀ k, HTask.failing k ∉ s.heads := by
    intro k hk
    obtain ⟨m, hm⟩ := List.getElem?_of_mem hk
    have hne : i ≠ m := by intro e; subst e; rw [hi] at hm; cases hm
    have : 0 < (s.heads.set i .done).countP busy := List.countP_pos_iff.2 ⟨_, List.mem_of_getElem? (by rw [List.getElem?_set_ne hne]; exact hm), rfl⟩
    omega
  refine ⟨{ j with
    ended := fun h => ?_
    cur := fun k hk => ?_
    fail := fun k hk => absurd hk (hnf k) }, hnf⟩
  · have : 0 < s.q1.countP Option.isNone := List.countP_pos_iff.2 ⟨none, h, rfl⟩
    omega
  · simp only [newReq] at hk ⊢; cases hk; simp

theorem jj_startHead {c : Model.Conn.Cfg} {i n : Nat} {d : Bytes} {s : Model.Conn.St} (j : J s) (hl : load s ≤ 1) (hi : s.heads[i]? = some (.new d n))
    (hn : acceptData d n = .error .notRequest → s.cur = none) : JJ (startHead c i d n s) := by
  have hx : busy (.new d n) = true := rfl
  unfold startHead
  dsimp only
  split
  · next e => exact .inr (.inr ((j.setHead hi hx (fun k h => by cases h)).put1 (.inr (.inl (hn e)))))
  · exact .inr (.inr (j.setHead hi hx (fun k h => by cases h)))
  · split
    · next r _ =>
      right; right
      obtain ⟨j', hnf⟩ := j_newReq j hi hl (match setKeepalive r with | .ok r => r | .error _ => r)
      exact { j' with
        wait := fun h => j'.wait (by
          rcases h with h | _
          · exact .inl h
          · exact .inr ⟨_, List.mem_of_getElem? hi, hx⟩)
        fail := fun k hk => by
          rcases List.mem_or_eq_of_mem_set hk with hk | hk
          · exact absurd hk (hnf k)
          · cases hk; rfl }
    · exact .inr (.inr (j.setHead hi hx (fun k h => by cases h)))
  · next r _ =>
    obtain ⟨j', _⟩ := j_newReq j hi hl r
    have key : ∀ s0 : Model.Conn.St, J s0 → s0.heads = s.heads → load s0 ≤ 1 → JJ (if r.hasBody = true ∨ d.length > n + 2 then
        fed i s.reqs.length (d.take (n + 2)) (feed c c.firstSize { rest := d.drop (n + 2), size := (d.drop (n + 2)).length } s0)
        else fed i s.reqs.length (d.take (n + 2)) (s0, none)) := by
      intro s0 j0 h0 l0
      split
      · exact jj_fed j0 (by rw [h0]; exact hi) hx l0 (feed_fields _ _ _ _) (same_feed _ _ _ _)
      · exact jj_fed j0 (by rw [h0]; exact hi) hx l0 (.inr ⟨rfl, rfl, rfl, rfl, rfl⟩) (.inr (.refl _))
    by_cases hb : r.hasBody = true
    · simp only [hb, if_true]
      have := key (newReq r s) j' rfl (by rw [load_congr (s := s) (s' := newReq r s) rfl rfl rfl rfl]; exact hl)
      simpa only [hb] using this
    · simp only [if_neg hb]
      exact key (put0 (some []) (newReq r s)) (j'.same (same_put0 _ _)) rfl
        (by rw [load_congr (s := s) (s' := put0 (some []) (newReq r s)) rfl rfl rfl rfl]; exact hl)

theorem J.popSome {s : Model.Conn.St} {x : Item} {q : List Item} {sent : List Item} (j : J s) (hq : s.q1 = x :: q) : J { s with q1 := q, sent := sent } :=
  { j with ended := fun h => j.ended (by rw [hq]; exact List.mem_cons_of_mem _ h) }

theorem j_reset {s : Model.Conn.St} {k : Nat} (j : J s) (hf : s.futDone[s.gen]? = some true) (hr : s.running = []) (hm : none ∉ s.q1)
    (hb : ∀ h ∈ s.heads, busy h = false) : J (reset k s) := by
  have h := same_setReq (k := k) (f := fun r => { r with bodySize := 0 }) (by intro _ h; exact h) s
  have j' := j.same h
  have hlen : s.futDone.length = s.gen + 1 := j.len
  have e : (s.futDone ++ [false])[s.gen + 1]? = some false := by rw [List.getElem?_append_right (by omega), hlen]; simp
  unfold reset
  generalize setReq k (fun r => { r with bodySize := 0 }) s = s' at *
  exact {
    len := by simp [hlen]
    old := fun i hi => by
      show (s.futDone ++ [false])[i]? = some true
      have hi' : i < s.gen + 1 := hi
      rw [List.getElem?_append_left (by omega)]
      by_cases h1 : i < s.gen
      · exact j.old i h1
      · have : i = s.gen := by omega
        subst this; exact hf
    begun := fun hx => absurd hr (h.run hx)
    ended := fun hx => absurd (h.mark hx) hm
    wait := fun _ => ⟨e, .inr (Nat.succ_pos _)⟩
    cnt := by
      show s'.started.length = _
      rw [h.st, j.cnt, hf]
      simp only [e, if_true]
      simp
    cur := j'.cur
    fail := j'.fail }

theorem jj_marker {c : Model.Conn.Cfg} {s : Model.Conn.St} (j : J s) (hm : s.futDone[s.gen]? = some true ∨ s.cur = none ∨
    ∃ k r, s.cur = some k ∧ s.reqs[k]? = some r ∧ r.req.httpKeepalive = false) (hl : load s = 0) : JJ (marker c s) := by
  have closes : ∀ s : Model.Conn.St, (close s).closing = true := by
    intro s; unfold close; split
    · next h => exact h
    · rfl
  unfold marker
  split
  · exact .inr (.inl (closes s))
  · next k hk =>
    split
    · exact .inr (.inr j)
    · next r hr =>
      split
      · next hc =>
        have hf : s.futDone[s.gen]? = some true := by
          rcases hm with h | h | ⟨k', r', h1, h2, h3⟩
          · exact h
          · rw [hk] at h; cases h
          · rw [hk] at h1; cases h1; rw [hr] at h2; cases h2; rw [hc.1] at h3; cases h3
        unfold load at hl
        have hrun : s.running = [] := List.length_eq_zero_iff.1 (by omega)
        have hnm : none ∉ s.q1 := fun h => by
          have : 0 < s.q1.countP Option.isNone := List.countP_pos_iff.2 ⟨none, h, rfl⟩
          omega
        have hnb : ∀ h ∈ s.heads, busy h = false := by
          have : s.heads.countP busy = 0 := by omega
          intro h hh; have := List.countP_eq_zero.1 this h hh; simpa using this
        unfold handleKeepalive
        dsimp only
        split
        · exact .inr (.inl (closes _))
        · have g : Less s { s with registered := s.registered || s.first } := .of_eq rfl rfl rfl rfl rfl rfl rfl rfl rfl rfl
          have rd : ∀ s' : Model.Conn.St, JJ s' → JJ { s' with reading := true } := fun s' h =>
            h.same (fun x => x) (fun x => x) (.inr (.of_eq rfl rfl rfl rfl rfl rfl rfl rfl rfl rfl))
          refine rd _ ?_
          have j1 := j.same g
          split
          · exact .inr (.inr (j1.same (same_setReq (by intro _ h; exact h) _)))
          · split
            · split
              · right; right
                have hv : ¬ (s.hb.isSome = true ∨ ∃ h ∈ s.heads, busy h = true) := by
                  rintro (h | ⟨x, hx, hb⟩)
                  · simp only [hc.2] at h; cases h
                  · rw [hnb x hx] at hb; cases hb
                exact { j1 with wait := fun h => absurd h hv }
              · exact .inr (.inl (closes _))
            · have j2 : J (reset k { s with registered := s.registered || s.first }) := j_reset j1 hf hrun hnm hnb
              split
              · exact .inr (.inr j2)
              · exact jj_drain _ (.inr (.inr (j2.same (.of_eq rfl rfl rfl rfl rfl rfl rfl rfl rfl rfl))))
      · exact .inr (.inl (closes _))

theorem mem_finish {k k' : Nat} {s : Model.Conn.St} (h : HTask.failing k' ∈ (finish k s).heads) : HTask.failing k' ∈ s.heads := by
  simp only [finish, List.mem_map] at h
  obtain ⟨x, hx, e⟩ := h
  split at e
  · cases e
  · subst e; exact hx

theorem same_finish (k : Nat) (s : Model.Conn.St) : Less s (finish k s) :=
  { (Less.of_eq (s := s) (s' := s) rfl rfl rfl rfl rfl rfl rfl rfl rfl rfl) with
    run := fun h e => h (by simp [finish, e])
    busy := fun h hh hb => by
      simp only [finish, List.mem_map] at hh
      obtain ⟨x, hx, e⟩ := hh
      split at e
      · subst e; cases hb
      · subst e; exact hx }

theorem big_step {c : Model.Conn.Cfg} {s : Model.Conn.St} {e : Model.Conn.Ev} (j : s.tooLarge = true) : (Model.Conn.step c s e).tooLarge = true := by
  cases e with
  | data d => simp only [Model.Conn.step]; split
              · rw [big_data]; exact j
              · exact j
  | eof d => exact j
  | head i =>
    simp only [Model.Conn.step]; unfold headStep
    split
    · next d n hi =>
      unfold startHead; dsimp only
      split
      · exact j
      · exact j
      · split <;> exact j
      · next r _ =>
        have k0 : ∀ s' : Model.Conn.St, s'.tooLarge = true → ∀ o, (fed i s.reqs.length (d.take (n + 2)) (s', o)).tooLarge = true := by
          intro s' h o; cases o <;> exact h
        have k1 : (if r.hasBody = true then newReq r s else put0 (some []) (newReq r s)).tooLarge = true := by split <;> exact j
        split
        · exact k0 _ (big_feed _ _ _ _ k1) _
        · exact k0 _ k1 _
    · next f k raw hi =>
      have := big_feed c c.firstSize f s j
      generalize feed c c.firstSize f s = p at *
      obtain ⟨s', o⟩ := p
      cases o <;> exact this
    · exact j
  | recv i =>
    simp only [Model.Conn.step]; unfold recvStep
    have k0 : ∀ f, (recvFed i (feed c c.bufferSize f s)).tooLarge = true := by
      intro f
      have := big_feed c c.bufferSize f s j
      generalize feed c c.bufferSize f s = p at *
      obtain ⟨s', o⟩ := p
      cases o <;> exact this
    split
    · split
      · exact k0 _
      · exact j
    · exact k0 _
    · exact j
  | send =>
    simp only [Model.Conn.step]; unfold sendStep
    split
    · exact j
    · split
      · exact j
      · next x q hq =>
        cases x with
        | some b => dsimp only; split <;> exact j
        | none =>
          dsimp only
          unfold marker; dsimp only
          split
          · rw [(close_fields _).1]; exact j
          · split
            · exact j
            · next k _ r hr =>
              split
              · unfold handleKeepalive; dsimp only
                split
                · rw [(close_fields _).1]; exact j
                · split
                  · rw [(setReq_fields _ _ _).1]; exact j
                  · split
                    · split
                      · exact j
                      · rw [(close_fields _).1]; exact j
                    · split
                      · unfold reset; dsimp only; rw [(setReq_fields _ _ _).1]; exact j
                      · rw [drain_big]; unfold reset; dsimp only; rw [(setReq_fields _ _ _).1]; exact j
              · rw [(close_fields _).1, (setReq_fields _ _ _).1]; exact j
  | emit k b => exact j
  | mark k b =>
    simp only [Model.Conn.step]; unfold closeResponse; split
    · exact j
    · simp only [Model.Conn.put1]; rw [(setReq_fields _ _ _).1]; exact j
  | take k => simp only [Model.Conn.step]; split <;> exact j
  | upgrade k => simp only [Model.Conn.step]; rw [(setReq_fields _ _ _).1]; exact j
  | clear k => simp only [Model.Conn.step]; rw [(setReq_fields _ _ _).1]; exact j
  | finish k => exact j
  | leave k keep =>
    simp only [Model.Conn.step]
    split
    · unfold closeResponse; split
      · exact j
      · simp only [Model.Conn.put1]; rw [(setReq_fields _ _ _).1]; exact j
    · exact j
  | abort => exact j
  | kick => exact j

theorem jj_step {c : Model.Conn.Cfg} {s : Model.Conn.St} {e : Model.Conn.Ev} (he : noJunk s e) (ho : One s) (j : JJ s) : JJ (Model.Conn.step c s e) := by
  have hcl : s.closing = true → (Model.Conn.step c s e).closing = true := closing_step
  rcases j with j | j | j
  · exact .inl (big_step j)
  · exact .inr (.inl (hcl j))
  · rcases ho with ho | hl
    · exact .inl (big_step ho)
    · cases e with
      | data d =>
        simp only [Model.Conn.step]; split
        · exact jj_data (.inr (.inr (j.same (.of_eq rfl rfl rfl rfl rfl rfl rfl rfl rfl rfl))))
        · exact .inr (.inr j)
      | eof d => exact .inr (.inl rfl)
      | head i =>
        simp only [Model.Conn.step]; unfold headStep
        split
        · next d n hi => exact jj_startHead j hl hi (he d n hi)
        · next f k raw hi => exact jj_fed j hi rfl hl (feed_fields _ _ _ _) (same_feed _ _ _ _)
        · exact .inr (.inr j)
      | recv i =>
        have k0 : ∀ f, JJ (recvFed i (feed c c.bufferSize f s)) := by
          intro f
          have := same_feed c c.bufferSize f s
          generalize feed c c.bufferSize f s = p at *
          obtain ⟨s', o⟩ := p
          rcases this with h | h
          · exact .inl (by cases o <;> exact h)
          · have j' := j.same h
            exact .inr (.inr (by cases o <;> exact j'.same (.of_eq rfl rfl rfl rfl rfl rfl rfl rfl rfl rfl)))
        simp only [Model.Conn.step]; unfold recvStep
        split
        · split
          · exact k0 _
          · exact .inr (.inr j)
        · exact k0 _
        · exact .inr (.inr j)
      | send =>
        simp only [Model.Conn.step]; unfold sendStep
        split
        · exact .inr (.inr j)
        · split
          · exact .inr (.inr j)
          · next x q hq =>
            cases x with
            | some b =>
              dsimp only
              split
              · exact .inr (.inr (j.popSome hq))
              · exact .inr (.inr ((j.popSome (sent := s.sent ++ [some b]) hq).same (.of_eq rfl rfl rfl rfl rfl rfl rfl rfl rfl rfl)))
            | none =>
              refine jj_marker (j.popSome hq) (j.ended (by rw [hq]; simp)) ?_
              unfold load at hl ⊢; rw [hq] at hl
              simp only [List.countP_cons, Option.isNone_none, if_true] at hl
              dsimp only; omega
      | emit k b =>
        right; right
        exact { j with ended := fun h => j.ended (by simpa [Model.Conn.step, Model.Conn.put1] using h) }
      | mark k b => exact absurd he (by simp [noJunk])
      | take k =>
        simp only [Model.Conn.step]; split
        · right; right
          exact j.same { (Less.of_eq (s := s) (s' := s) rfl rfl rfl rfl rfl rfl rfl rfl rfl rfl) with
            st := by simp [St.started, List.filterMap_append] }
        · exact .inr (.inr j)
      | upgrade k => exact .inr (.inr (j.same (same_setReq (by intro _ h; exact h) s)))
      | clear k => exact .inr (.inr (j.same (same_setReq (by intro _ h; exact h) s)))
      | finish k => exact .inr (.inr (j.same (same_finish k s)))
      | leave k keep =>
        simp only [Model.Conn.step]
        split
        · next ha =>
          have j' := j.same (same_finish k s)
          unfold active at ha
          rw [Bool.or_eq_true] at ha
          right; right
          unfold closeResponse
          rcases ha with ha | ha
          · have hf : s.futDone[s.gen]? = some true := j.begun (by intro e; rw [e] at ha; simp at ha)
            split
            · exact j'.put1 (.inl hf)
            · have h := same_setReq (k := k) (f := noKeep) (by intro _ _; rfl) (finish k s)
              exact (j'.same h).put1 (.inl (by rw [h.fut, h.gen]; exact hf))
          · have hk : HTask.failing k ∈ s.heads := by simpa using ha
            split
            · next h => exact absurd hk (he h)
            · have hcur := j.fail k hk
              have hlt := j.cur k hcur
              have h := same_setReq (k := k) (f := noKeep) (by intro _ _; rfl) (finish k s)
              refine (j'.same h).put1 (.inr (.inr ?_))
              have hr : (finish k s).reqs[k]? = some s.reqs[k] := List.getElem?_eq_getElem hlt
              refine ⟨k, noKeep s.reqs[k], by rw [h.cur]; exact hcur, ?_, rfl⟩
              unfold setReq; rw [hr]; dsimp only
              rw [List.getElem?_set_self (by exact hlt)]
        · exact .inr (.inr j)
      | abort => exact .inr (.inl rfl)
      | kick => exact .inr (.inr (j.same (.of_eq rfl rfl rfl rfl rfl rfl rfl rfl rfl rfl)))

/-! ### For C80 -/

/-- What keeps a connection from being idle is as before, or more. -/
structure More (s s' : Model.Conn.St) : Prop where
  fut : s'.futDone = s.futDone
  gen : s'.gen = s.gen
  send : s'.sendDone = s.sendDone
  cur : s'.cur = s.cur
  len : s.reqs.length ≤ s'.reqs.length
  run : s.running ≠ [] → s'.running ≠ []
  mark : none ∈ s.q1 → none ∈ s'.q1
  closing : s.closing = true → s'.closing = true

theorem More.of_eq {s s' : Model.Conn.St} (h1 : s'.futDone = s.futDone) (h2 : s'.gen = s.gen) (h3 : s'.sendDone = s.sendDone) (h4 : s'.cur = s.cur)
    (h5 : s'.reqs = s.reqs) (h6 : s'.running = s.running) (h7 : s'.q1 = s.q1) (h8 : s'.closing = s.closing) : More s s' :=
  ⟨h1, h2, h3, h4, by rw [h5]; exact Nat.le_refl _, by rw [h6]; exact id, by rw [h7]; exact id, by rw [h8]; exact id⟩

theorem More.refl (s : Model.Conn.St) : More s s := .of_eq rfl rfl rfl rfl rfl rfl rfl rfl

theorem More.trans {a b c : Model.Conn.St} (h : More a b) (g : More b c) : More a c :=
  ⟨g.fut.trans h.fut, g.gen.trans h.gen, g.send.trans h.send, g.cur.trans h.cur, Nat.le_trans h.len g.len, fun x => g.run (h.run x),
    fun x => g.mark (h.mark x), fun x => g.closing (h.closing x)⟩

theorem more_setReq (k : Nat) (f : Rq → Rq) (s : Model.Conn.St) : More s (setReq k f s) := by
  unfold setReq
  split
  · exact ⟨rfl, rfl, rfl, rfl, by simp, id, id, id⟩
  · exact .refl s

theorem more_put1 (x : Item) (s : Model.Conn.St) : More s (put1 x s) :=
  ⟨rfl, rfl, rfl, rfl, Nat.le_refl _, id, fun h => List.mem_append_left _ h, id⟩

theorem more_abort (s : Model.Conn.St) : More s (abort s) := ⟨rfl, rfl, rfl, rfl, Nat.le_refl _, id, id, fun _ => rfl⟩

theorem more_account (c : Model.Conn.Cfg) (n : Nat) (s : Model.Conn.St) : More s (account c n s) := by
  unfold account
  split
  · exact .refl s
  · next k hk =>
    split
    · exact .refl s
    · next r hr =>
      split
      · exact .of_eq rfl rfl rfl rfl rfl rfl rfl rfl
      · dsimp only
        have g : More s { s with reqs := s.reqs.set k { r with bodySize := r.bodySize + n } } := ⟨rfl, rfl, rfl, rfl, by simp, id, id, id⟩
        split
        · exact g.trans (.of_eq rfl rfl rfl rfl rfl rfl rfl rfl)
        · split
          · exact g.trans (.of_eq rfl rfl rfl rfl rfl rfl rfl rfl)
          · refine (g.trans ((more_setReq k noKeep _).trans ?_)).trans (more_put1 _ _)
            exact .of_eq rfl rfl rfl rfl rfl rfl rfl rfl

theorem more_feed (c : Model.Conn.Cfg) (bs : Nat) (f : Feed) (s : Model.Conn.St) : More s (feed c bs f s).1 := by
  unfold feed
  split
  · exact more_account c _ s
  · dsimp only
    have g : More s (put0 (some (f.rest.take bs)) s) := .of_eq rfl rfl rfl rfl rfl rfl rfl rfl
    split
    · exact g.trans (more_abort _)
    · exact g

theorem more_data (c : Model.Conn.Cfg) (d : Bytes) (s : Model.Conn.St) : More s (dataReceived c d s) := by
  rcases data_cases c d s with ⟨_, e⟩ | ⟨_, _, e⟩ | ⟨buf, _, _, ⟨n, _, _, e⟩ | e | ⟨_, e⟩⟩ <;> rw [e]
  · exact .refl s
  · exact .of_eq rfl rfl rfl rfl rfl rfl rfl rfl
  · exact .of_eq rfl rfl rfl rfl rfl rfl rfl rfl
  · exact ⟨rfl, rfl, rfl, rfl, Nat.le_refl _, id, id, fun _ => rfl⟩
  · exact .of_eq rfl rfl rfl rfl rfl rfl rfl rfl

theorem more_drain (c : Model.Conn.Cfg) : ∀ (l : List Item) (s : Model.Conn.St), More s (drain c l s)
  | [], s => .refl s
  | x :: l, s => (more_data c (x.getD []) s).trans (more_drain c l (dataReceived c (x.getD []) s))

theorem more_recvFed {i : Nat} {s : Model.Conn.St} {p : Model.Conn.St × Option Feed} (h : More s p.1) : More s (recvFed i p) := by
  obtain ⟨s', o⟩ := p
  cases o <;> exact h.trans (.of_eq rfl rfl rfl rfl rfl rfl rfl rfl)

theorem more_finish {k : Nat} {s : Model.Conn.St} (hk : k ∉ s.running) : More s (finish k s) := by
  refine ⟨rfl, rfl, rfl, rfl, Nat.le_refl _, fun h => ?_, id, id⟩
  have : s.running.filter (· ≠ k) = s.running := List.filter_eq_self.2 (fun x hx => by simp only [ne_eq, decide_not, Bool.not_eq_true', decide_eq_false_iff_not]; intro e; subst e; exact hk hx)
  simp only [finish]
  rw [this]; exact h

/-- Unless the connection is being closed: a handler is running, or an end marker waits for the send task, or the timer of the
present wait has not been cancelled. -/
structure L (s : Model.Conn.St) : Prop where
  len : s.futDone.length = s.gen + 1
  send : s.sendDone = false
  cur : ∀ k, s.cur = some k → k < s.reqs.length
  held : s.running ≠ [] ∨ none ∈ s.q1 ∨ s.futDone[s.gen]? = some false

theorem L.more {s s' : Model.Conn.St} (l : L s) (h : More s s') : L s' where
  len := by rw [h.fut, h.gen]; exact l.len
  send := by rw [h.send]; exact l.send
  cur := fun k hk => by rw [h.cur] at hk; exact Nat.lt_of_lt_of_le (l.cur k hk) h.len
  held := by
    rcases l.held with x | x | x
    · exact .inl (h.run x)
    · exact .inr (.inl (h.mark x))
    · exact .inr (.inr (by rw [h.fut, h.gen]; exact x))

/-- Handlers end with completing their response; and when the send task takes an end marker of a request that is an upgrade or
has `Expect: 100-continue` (and has not sent the interim response), its handler is still running, or has queued another one. -/
def attended (s : Model.Conn.St) : Model.Conn.Ev → Prop
  | .finish k => k ∉ s.running
  | .send => s.q1.head? = some none → ∀ k r, s.cur = some k → s.reqs[k]? = some r →
      (r.req.httpContinue = true ∨ (r.upgraded = true ∧ s.first = true)) → s.running ≠ [] ∨ none ∈ s.q1.tail
  | _ => True

theorem l_begin {s s' : Model.Conn.St} {i k : Nat} {raw : Bytes} {o : Option Feed} (l : L s) (h : More s s') : L (fed i k raw (s', o)) := by
  have l' := l.more h
  cases o with
  | some f => exact l'.more (.of_eq rfl rfl rfl rfl rfl rfl rfl rfl)
  | none =>
    exact {
      len := by
        simp only [fed, begin]
        split
        · rw [List.length_set]; exact l'.len
        · exact l'.len
      send := l'.send
      cur := l'.cur
      held := .inl (by simp [fed, begin]) }

theorem l_reset {s : Model.Conn.St} {k : Nat} (h1 : s.futDone.length = s.gen + 1) (h2 : s.sendDone = false) (h3 : ∀ k, s.cur = some k → k < s.reqs.length) :
    L (reset k s) := by
  have h := more_setReq k (fun r => { r with bodySize := 0 }) s
  unfold reset
  generalize setReq k (fun r => { r with bodySize := 0 }) s = s' at *
  exact {
    len := by simp [h1]
    send := h.send.trans h2
    cur := fun k hk => by have hk' : s'.cur = some k := hk; rw [h.cur] at hk'; exact Nat.lt_of_lt_of_le (h3 k hk') h.len
    held := .inr (.inr (by show (s.futDone ++ [false])[s.gen + 1]? = some false; rw [List.getElem?_append_right (by omega), h1]; simp)) }

theorem closes (s : Model.Conn.St) : (close s).closing = true := by
  unfold close; split
  · next h => exact h
  · rfl

theorem l_step {c : Model.Conn.Cfg} {s : Model.Conn.St} {e : Model.Conn.Ev} (he : attended s e) (l : s.closing = true ∨ L s) :
    (Model.Conn.step c s e).closing = true ∨ L (Model.Conn.step c s e) := by
  rcases l with l | l
  · exact .inl (closing_step l)
  cases e with
  | data d =>
    right; simp only [Model.Conn.step]; split
    · exact (l.more (s' := { s with rx := s.rx ++ d }) (.of_eq rfl rfl rfl rfl rfl rfl rfl rfl)).more (more_data _ _ _)
    · exact l
  | eof d => exact .inl rfl
  | head i =>
    right
    simp only [Model.Conn.step]; unfold headStep
    split
    · next d n hi =>
      unfold startHead; dsimp only
      split
      · exact l.more (.trans (b := { s with heads := s.heads.set i .done }) (.of_eq rfl rfl rfl rfl rfl rfl rfl rfl) (more_put1 _ _))
      · exact l.more (.of_eq rfl rfl rfl rfl rfl rfl rfl rfl)
      · split
        · exact { len := l.len, send := l.send, held := l.held, cur := fun k hk => by simp only [newReq] at hk ⊢; cases hk; simp }
        · exact l.more (.of_eq rfl rfl rfl rfl rfl rfl rfl rfl)
      · next r _ =>
        have l0 : L (newReq r s) := { len := l.len, send := l.send, held := l.held, cur := fun k hk => by simp only [newReq] at hk ⊢; cases hk; simp }
        have m : More (newReq r s) (if r.hasBody = true then newReq r s else put0 (some []) (newReq r s)) := by
          split
          · exact .refl _
          · exact .of_eq rfl rfl rfl rfl rfl rfl rfl rfl
        split
        · exact l_begin l0 (m.trans (more_feed _ _ _ _))
        · exact l_begin l0 m
    · exact l_begin l (more_feed _ _ _ _)
    · exact l
  | recv i =>
    right
    simp only [Model.Conn.step]; unfold recvStep
    split
    · split
      · exact l.more (more_recvFed (more_feed _ _ _ _))
      · exact l
    · exact l.more (more_recvFed (more_feed _ _ _ _))
    · exact l
  | send =>
    simp only [Model.Conn.step]; unfold sendStep
    split
    · exact .inr l
    · split
      · exact .inr l
      · next x q hq =>
        have hq0 : (s.q1.head? = some none) ↔ x = none := by rw [hq]; simp
        cases x with
        | some b =>
          right
          have l1 : L { s with q1 := q, sent := s.sent ++ [some b] } :=
            { len := l.len, send := l.send, cur := l.cur, held := by
                rcases l.held with h | h | h
                · exact .inl h
                · rw [hq] at h; exact .inr (.inl (by simpa using h))
                · exact .inr (.inr h) }
          dsimp only
          split
          · exact l1
          · exact l1.more (.of_eq rfl rfl rfl rfl rfl rfl rfl rfl)
        | none =>
          dsimp only
          unfold marker; dsimp only
          split
          · exact .inl (closes _)
          · next k hk =>
            split
            · next hr =>
              have := l.cur k hk
              rw [List.getElem?_eq_none_iff] at hr; omega
            · next r hr =>
              split
              · next hc =>
                have ha := he (hq0.2 rfl) k r hk hr
                rw [hq] at ha
                unfold handleKeepalive; dsimp only
                split
                · exact .inl (closes _)
                · split
                  · next hcont =>
                    right
                    have l1 : L { s with q1 := q, sent := s.sent ++ [none] } :=
                      { len := l.len, send := l.send, cur := l.cur, held := by
                          rcases ha (.inl hcont) with h | h
                          · exact .inl h
                          · exact .inr (.inl h) }
                    refine (l1.more (s' := { s with q1 := q, sent := s.sent ++ [none], registered := s.registered || s.first }) (.of_eq rfl rfl rfl rfl rfl rfl rfl rfl)).more ((more_setReq k (fun r => { r with req := { r.req with httpContinue := false } }) _).trans ?_)
                    exact .of_eq rfl rfl rfl rfl rfl rfl rfl rfl
                  · split
                    · next hup =>
                      split
                      · next hfi =>
                        right
                        have l1 : L { s with q1 := q, sent := s.sent ++ [none] } :=
                          { len := l.len, send := l.send, cur := l.cur, held := by
                              rcases ha (.inr ⟨hup, hfi⟩) with h | h
                              · exact .inl h
                              · exact .inr (.inl h) }
                        exact l1.more (.of_eq rfl rfl rfl rfl rfl rfl rfl rfl)
                      · exact .inl (closes _)
                    · have l1 : L (reset k { s with q1 := q, sent := s.sent ++ [none], registered := s.registered || s.first }) :=
                        l_reset l.len l.send l.cur
                      right
                      split
                      · exact l1.more (.of_eq rfl rfl rfl rfl rfl rfl rfl rfl)
                      · refine l1.more (.trans ?_ ((more_drain c _ _).trans (.of_eq rfl rfl rfl rfl rfl rfl rfl rfl)))
                        exact .of_eq rfl rfl rfl rfl rfl rfl rfl rfl
              · exact .inl (closes _)
  | emit k b => exact .inr (l.more (more_put1 _ _))
  | mark k b =>
    right; simp only [Model.Conn.step]; unfold closeResponse
    split
    · exact l.more (more_put1 _ _)
    · exact l.more ((more_setReq _ _ _).trans (more_put1 _ _))
  | take k =>
    right; simp only [Model.Conn.step]; split
    · exact l.more (.of_eq rfl rfl rfl rfl rfl rfl rfl rfl)
    · exact l
  | upgrade k => exact .inr (l.more (more_setReq _ _ _))
  | clear k => exact .inr (l.more (more_setReq _ _ _))
  | finish k => exact .inr (l.more (more_finish he))
  | leave k keep =>
    right; simp only [Model.Conn.step]
    split
    · have lf : ∀ s' : Model.Conn.St, More { (finish k s) with running := s.running } { s' with running := s.running } → L (put1 none s') := by
        intro s' m
        exact {
          len := by show s'.futDone.length = s'.gen + 1; have h1 := m.fut; have h2 := m.gen; dsimp only at h1 h2; rw [h1, h2]; exact l.len
          send := m.send.trans l.send
          cur := fun k hk => by have hk' : s'.cur = some k := hk; have h1 := m.cur; dsimp only at h1; rw [h1] at hk'; exact Nat.lt_of_lt_of_le (l.cur k hk') m.len
          held := .inr (.inl (by simp [put1])) }
      unfold closeResponse
      split
      · exact lf _ (.refl _)
      · refine lf _ ?_
        have m := more_setReq k noKeep (finish k s)
        exact ⟨m.fut, m.gen, m.send, m.cur, m.len, id, m.mark, m.closing⟩
    · exact l
  | abort => exact .inl rfl
  | kick => exact .inr (l.more (.of_eq rfl rfl rfl rfl rfl rfl rfl rfl))

/-! ### The futures -/

/-- A step makes a future, or that of the present wait is done. -/
def Grow (s s' : Model.Conn.St) : Prop :=
  ((s'.futDone = s.futDone ∨ s'.futDone = s.futDone.set s.gen true) ∧ s'.gen = s.gen) ∨ (s'.futDone = s.futDone ++ [false] ∧ s'.gen = s.gen + 1)

theorem More.grow {s s' : Model.Conn.St} (h : More s s') : Grow s s' := .inl ⟨.inl h.fut, h.gen⟩

theorem Grow.of_eq {s s' : Model.Conn.St} (h1 : s'.futDone = s.futDone) (h2 : s'.gen = s.gen) : Grow s s' := .inl ⟨.inl h1, h2⟩

theorem grow_fed {s : Model.Conn.St} {i k : Nat} {raw : Bytes} {p : Model.Conn.St × Option Feed} (h1 : p.1.futDone = s.futDone) (h2 : p.1.gen = s.gen) :
    Grow s (fed i k raw p) := by
  obtain ⟨s', o⟩ := p
  dsimp only at h1 h2
  cases o with
  | some f => exact .of_eq h1 h2
  | none =>
    refine .inl ⟨?_, h2⟩
    simp only [fed, begin]
    split
    · rw [h1, h2]; exact .inr rfl
    · exact .inl h1

theorem grow_close (s : Model.Conn.St) : (close s).futDone = s.futDone ∧ (close s).gen = s.gen := by unfold close; split <;> exact ⟨rfl, rfl⟩

theorem grow_setReq (k : Nat) (f : Rq → Rq) (s : Model.Conn.St) : (setReq k f s).futDone = s.futDone ∧ (setReq k f s).gen = s.gen :=
  ⟨(more_setReq k f s).fut, (more_setReq k f s).gen⟩

theorem grow_step (c : Model.Conn.Cfg) (s : Model.Conn.St) (e : Model.Conn.Ev) : Grow s (Model.Conn.step c s e) := by
  cases e with
  | data d =>
    simp only [Model.Conn.step]; split
    · exact (More.trans (b := { s with rx := s.rx ++ d }) (.of_eq rfl rfl rfl rfl rfl rfl rfl rfl) (more_data _ _ _)).grow
    · exact .of_eq rfl rfl
  | eof d => exact .of_eq rfl rfl
  | head i =>
    simp only [Model.Conn.step]; unfold headStep
    split
    · next d n hi =>
      unfold startHead; dsimp only
      split
      · exact .of_eq rfl rfl
      · exact .of_eq rfl rfl
      · split <;> exact .of_eq rfl rfl
      · next r _ =>
        have m : ∀ x : Model.Conn.St, x = (if r.hasBody = true then newReq r s else put0 (some []) (newReq r s)) → x.futDone = s.futDone ∧ x.gen = s.gen := by
          intro x hx; subst hx; split <;> exact ⟨rfl, rfl⟩
        obtain ⟨m1, m2⟩ := m _ rfl
        split
        · have h := more_feed c c.firstSize { rest := d.drop (n + 2), size := (d.drop (n + 2)).length } (if r.hasBody = true then newReq r s else put0 (some []) (newReq r s))
          exact grow_fed (h.fut.trans m1) (h.gen.trans m2)
        · exact grow_fed m1 m2
    · next f k raw hi =>
      have h := more_feed c c.firstSize f s
      exact grow_fed h.fut h.gen
    · exact .of_eq rfl rfl
  | recv i =>
    simp only [Model.Conn.step]; unfold recvStep
    split
    · split
      · exact (more_recvFed (more_feed _ _ _ _)).grow
      · exact .of_eq rfl rfl
    · exact (more_recvFed (more_feed _ _ _ _)).grow
    · exact .of_eq rfl rfl
  | send =>
    simp only [Model.Conn.step]; unfold sendStep
    split
    · exact .of_eq rfl rfl
    · split
      · exact .of_eq rfl rfl
      · next x q hq =>
        cases x with
        | some b => dsimp only; split <;> exact .of_eq rfl rfl
        | none =>
          dsimp only
          unfold marker; dsimp only
          split
          · obtain ⟨a, b⟩ := grow_close { s with q1 := q, sent := s.sent ++ [none] }; exact .of_eq a b
          · next k hk =>
            split
            · exact .of_eq rfl rfl
            · next r hr =>
              split
              · unfold handleKeepalive; dsimp only
                split
                · obtain ⟨a, b⟩ := grow_close { s with q1 := q, sent := s.sent ++ [none], registered := s.registered || s.first }; exact .of_eq a b
                · split
                  · obtain ⟨a, b⟩ := grow_setReq k (fun r => { r with req := { r.req with httpContinue := false } }) { s with q1 := q, sent := s.sent ++ [none], registered := s.registered || s.first }
                    exact .of_eq a b
                  · split
                    · split
                      · exact .of_eq rfl rfl
                      · obtain ⟨a, b⟩ := grow_close { s with q1 := q, sent := s.sent ++ [none], registered := s.registered || s.first }; exact .of_eq a b
                    · split
                      · exact .inr ⟨rfl, rfl⟩
                      · have h := more_drain c (reset k { s with q1 := q, sent := s.sent ++ [none], registered := s.registered || s.first }).q0
                          { (reset k { s with q1 := q, sent := s.sent ++ [none], registered := s.registered || s.first }) with q0 := [] }
                        exact .inr ⟨by rw [h.fut]; rfl, by rw [h.gen]; rfl⟩
              · obtain ⟨a, b⟩ := grow_close (setReq k (fun r => { r with bodySize := 0 }) { s with q1 := q, sent := s.sent ++ [none] })
                obtain ⟨a', b'⟩ := grow_setReq k (fun r => { r with bodySize := 0 }) { s with q1 := q, sent := s.sent ++ [none] }
                exact .of_eq (a.trans a') (b.trans b')
  | emit k b => exact .of_eq rfl rfl
  | mark k b =>
    simp only [Model.Conn.step]; unfold closeResponse
    split
    · exact .of_eq rfl rfl
    · exact ((more_setReq _ _ _).trans (more_put1 _ _)).grow
  | take k => simp only [Model.Conn.step]; split <;> exact .of_eq rfl rfl
  | upgrade k => exact (more_setReq _ _ _).grow
  | clear k => exact (more_setReq _ _ _).grow
  | finish k => exact .of_eq rfl rfl
  | leave k keep =>
    simp only [Model.Conn.step]
    split
    · unfold closeResponse
      split
      · exact .of_eq rfl rfl
      · obtain ⟨a, b⟩ := grow_setReq k noKeep (finish k s); exact .of_eq a b
    · exact .of_eq rfl rfl
  | abort => exact .of_eq rfl rfl
  | kick => exact .of_eq rfl rfl

end Timers
end Verif
