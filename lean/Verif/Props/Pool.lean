import Verif.Model.Pool
import Verif.Proofs.Connections
import Verif.Props.ConnReply
import Verif.Proofs.ConnSocket
/-!
# C119: `keepalive_connections`
-/
namespace Verif
open Py Model.Pool

namespace Pool
open Model

/-! ## `registered` on one connection -/

theorem reg_setReq (k : Nat) (f : Conn.Rq → Conn.Rq) (s : Conn.St) : (Conn.setReq k f s).registered = s.registered := by
  unfold Conn.setReq; split <;> rfl
theorem reg_close (s : Conn.St) : (Conn.close s).registered = s.registered := by unfold Conn.close; split <;> rfl
theorem reg_account (c : Conn.Cfg) (n : Nat) (s : Conn.St) : (Conn.account c n s).registered = s.registered := by
  unfold Conn.account
  split
  · rfl
  · split
    · rfl
    · split
      · rfl
      · dsimp only
        split
        · rfl
        · split
          · rfl
          · show (Conn.setReq _ _ _).registered = _
            rw [reg_setReq]
theorem reg_feed (c : Conn.Cfg) (b : Nat) (f : Conn.Feed) (s : Conn.St) : (Conn.feed c b f s).1.registered = s.registered := by
  unfold Conn.feed
  split
  · exact reg_account ..
  · dsimp only; split <;> rfl
theorem reg_data (c : Conn.Cfg) (d : Bytes) (s : Conn.St) : (Conn.dataReceived c d s).registered = s.registered := by
  unfold Conn.dataReceived; split <;> rfl
theorem reg_fed (i k : Nat) (raw : Bytes) (x : Conn.St × Option Conn.Feed) : (Conn.fed i k raw x).registered = x.1.registered := by
  obtain ⟨s, f⟩ := x
  cases f <;> rfl
theorem reg_startHead (c : Conn.Cfg) (i : Nat) (d : Bytes) (n : Nat) (s : Conn.St) : (Conn.startHead c i d n s).registered = s.registered := by
  unfold Conn.startHead
  dsimp only
  split
  · rfl
  · rfl
  · split <;> rfl
  · split
    · rw [reg_fed, reg_feed]; split <;> rfl
    · rw [reg_fed]; dsimp only; split <;> rfl
theorem reg_headStep (c : Conn.Cfg) (i : Nat) (s : Conn.St) : (Conn.headStep c i s).registered = s.registered := by
  unfold Conn.headStep
  split
  · exact reg_startHead ..
  · rw [reg_fed, reg_feed]
  · rfl
theorem reg_recvFed (i : Nat) (x : Conn.St × Option Conn.Feed) : (Conn.recvFed i x).registered = x.1.registered := by
  obtain ⟨s, f⟩ := x
  cases f <;> rfl
theorem reg_recvStep (c : Conn.Cfg) (i : Nat) (s : Conn.St) : (Conn.recvStep c i s).registered = s.registered := by
  unfold Conn.recvStep
  split
  · split
    · rw [reg_recvFed, reg_feed]
    · rfl
  · rw [reg_recvFed, reg_feed]
  · rfl
theorem reg_drain (c : Conn.Cfg) (l : List Conn.Item) (s : Conn.St) : (Conn.drain c l s).registered = s.registered := by
  unfold Conn.drain
  induction l generalizing s with
  | nil => rfl
  | cons x t ih => rw [List.foldl_cons, ih, reg_data]
theorem reg_keep (c : Conn.Cfg) (k : Nat) (r : Conn.Rq) (s : Conn.St) :
    (Conn.handleKeepalive c k r s).registered = (s.registered || s.first) := by
  unfold Conn.handleKeepalive
  dsimp only
  split
  · rw [reg_close]
  · split
    · exact reg_setReq ..
    · split
      · split
        · rfl
        · exact reg_close _
      · split
        · show (Conn.setReq _ _ _).registered = _
          rw [reg_setReq]
        · show (Conn.drain _ _ _).registered = _
          rw [reg_drain]
          show (Conn.setReq _ _ _).registered = _
          rw [reg_setReq]
theorem reg_marker (c : Conn.Cfg) (s : Conn.St) (h : s.registered = true) : (Conn.marker c s).registered = true := by
  unfold Conn.marker
  split
  · show (Conn.close _).registered = _
    rw [reg_close, h]
  · split
    · exact h
    · split
      · rw [reg_keep, h]; rfl
      · show (Conn.close _).registered = _
        rw [reg_close, reg_setReq, h]
theorem reg_send (c : Conn.Cfg) (s : Conn.St) (h : s.registered = true) : (Conn.sendStep c s).registered = true := by
  unfold Conn.sendStep
  split
  · exact h
  · split
    · exact h
    · dsimp only
      split
      · split <;> exact h
      · exact reg_marker _ _ h
theorem reg_step (c : Conn.Cfg) (s : Conn.St) (e : Conn.Ev) (he : e ≠ .kick) (h : s.registered = true) : (Conn.step c s e).registered = true := by
  cases e with
  | data d => simp only [Conn.step]; split <;> first | (rw [reg_data]; exact h) | exact h
  | eof d => exact h
  | head i => simp only [Conn.step]; rw [reg_headStep, h]
  | recv i => simp only [Conn.step]; rw [reg_recvStep, h]
  | send => exact reg_send c s h
  | emit k b => exact h
  | mark k b => simp only [Conn.step, Conn.closeResponse]; split <;> first | exact h | (show (Conn.setReq _ _ _).registered = _; rw [reg_setReq, h])
  | take k => simp only [Conn.step]; split <;> exact h
  | upgrade k => simp only [Conn.step]; rw [reg_setReq, h]
  | clear k => simp only [Conn.step]; rw [reg_setReq, h]
  | finish k => exact h
  | leave k b =>
    simp only [Conn.step, Conn.closeResponse]
    split
    · split
      · exact h
      · show (Conn.setReq _ _ _).registered = _; rw [reg_setReq]; exact h
    · exact h
  | abort => exact h
  | kick => exact absurd rfl he

/-! ## The table and the connections agree -/

open Proofs.Connections Spec.Connections

structure Ok (p : St) : Prop where
  inv : Inv p.table
  reg : ∀ (j : Nat) (x : Cn), p.conns[j]? = some x → x.s.registered = Connections.mem p.table j
  real : ∀ (j : Nat), Connections.mem p.table j = true → ∃ x, p.conns[j]? = some x ∧ x.lost = false

theorem mem_set {t : Connections.Table Nat Unit} (h : Inv t) (i j : Nat) :
    (Connections.mem (Connections.set t i ()) j = true → j = i ∨ Connections.mem t j = true) ∧
    Connections.mem (Connections.set t i ()) i = true := by
  obtain ⟨h1, h2, h3⟩ := h
  have hk := dictSet_keys i () t.items
  simp only [mem_iff_present, present_iff]
  unfold Connections.set
  dsimp only
  split
  · next hl =>
    simp only [List.map_tail]
    rw [hk]
    have hl' : ((Connections.dictSet i () t.items).map (·.1)).length > t.maxlen := by simpa using hl
    rw [hk] at hl'
    split at hl'
    · simp at hl'; omega
    · next hn =>
      rw [if_neg hn]
      cases hm : t.items.map (·.1) with
      | nil => rw [hm] at hl'; simp at hl'; omega
      | cons a l =>
        simp only [List.cons_append, List.tail_cons, List.mem_append, List.mem_cons, List.not_mem_nil, or_false]
        exact ⟨fun h => h.elim (fun h => .inr (.inr h)) .inl, .inr trivial⟩
  · simp only
    rw [hk]
    split
    · next hm => exact ⟨.inr, hm⟩
    · simp only [List.mem_append, List.mem_singleton]
      exact ⟨fun h => h.symm.imp id id, .inr trivial⟩

theorem mem_del (t : Connections.Table Nat Unit) (i j : Nat) :
    Connections.mem (Connections.del t i) j = true ↔ Connections.mem t j = true ∧ j ≠ i := by
  simp only [mem_iff_present, present_iff, Connections.del]
  simp

theorem sync_get (t : Connections.Table Nat Unit) (l : List Cn) (j : Nat) :
    (sync t l)[j]? = (l[j]?).map (fun x => { x with s := { x.s with registered := Connections.mem t j } }) := by
  simp [sync, List.getElem?_mapIdx]

theorem sync_length (t : Connections.Table Nat Unit) (l : List Cn) : (sync t l).length = l.length := by simp [sync]

theorem lt_of_get {l : List Cn} {j : Nat} {x : Cn} (h : l[j]? = some x) : j < l.length := by
  rw [List.getElem?_eq_some_iff] at h; exact h.1

theorem inv_set {t : Connections.Table Nat Unit} (h : Inv t) (i : Nat) : Inv (Connections.set t i ()) ∧ (Connections.set t i ()).maxlen = t.maxlen :=
  inv_step t (.set i ()) h

theorem inv_del {t : Connections.Table Nat Unit} (h : Inv t) (i : Nat) : Inv (Connections.del t i) ∧ (Connections.del t i).maxlen = t.maxlen :=
  inv_step t (.del i) h

theorem ok_init {n : Nat} (hn : 1 ≤ n) : Ok (init n) := by
  refine ⟨⟨hn, by simp [init], by simp [init]⟩, fun j x h => ?_, fun j h => ?_⟩
  · simp [init] at h
  · simp [init, Connections.mem] at h

theorem ok_step {c : Conn.Cfg} {p : St} (h : Ok p) (e : Ev) : Ok (step c p e) ∧ (step c p e).table.maxlen = p.table.maxlen := by
  cases e with
  | made =>
    refine ⟨⟨h.inv, fun j x hx => ?_, fun j hm => ?_⟩, rfl⟩
    · simp only [step] at hx ⊢
      rw [List.getElem?_append] at hx
      split at hx
      · exact h.reg j x hx
      · next hl =>
        have : x = {} := by
          cases hj : j - p.conns.length with
          | zero => rw [hj] at hx; simp at hx; exact hx.symm
          | succ n => rw [hj] at hx; simp at hx
        subst this
        cases hm : Connections.mem p.table j with
        | false => rfl
        | true =>
          obtain ⟨y, hy, -⟩ := h.real j hm
          exact absurd (lt_of_get hy) hl
    · obtain ⟨y, hy, hl⟩ := h.real j hm
      exact ⟨y, by simp only [step]; rw [List.getElem?_append, if_pos (lt_of_get hy)]; exact hy, hl⟩
  | on i e =>
    simp only [step]
    split
    · next x hx =>
      split
      · exact ⟨h, rfl⟩
      · next hn =>
        rw [not_or] at hn
        refine ⟨⟨?_, fun j y hy => ?_, fun j hm => ?_⟩, ?_⟩
        · dsimp only; split
          · exact (inv_set h.inv i).1
          · exact h.inv
        · dsimp only at hy ⊢
          rw [sync_get] at hy
          cases hg : (p.conns.set i { x with s := Conn.step c x.s e })[j]? with
          | none => rw [hg] at hy; cases hy
          | some z => rw [hg] at hy; cases hy; rfl
        · dsimp only at hm ⊢
          rw [sync_get, List.getElem?_set]
          by_cases hij : i = j
          · subst hij
            rw [if_pos rfl, if_pos (lt_of_get hx)]
            exact ⟨_, rfl, by simpa using hn.1⟩
          · rw [if_neg hij]
            have : Connections.mem p.table j = true := by
              split at hm
              · exact ((mem_set h.inv i j).1 hm).resolve_left (Ne.symm hij)
              · exact hm
            obtain ⟨y, hy, hl⟩ := h.real j this
            rw [hy]
            exact ⟨_, rfl, hl⟩
        · dsimp only; split
          · exact (inv_set h.inv i).2
          · rfl
    · exact ⟨h, rfl⟩
  | lost i =>
    simp only [step]
    split
    · next x hx =>
      refine ⟨⟨(inv_del h.inv i).1, fun j y hy => ?_, fun j hm => ?_⟩, (inv_del h.inv i).2⟩
      · dsimp only at hy ⊢
        rw [sync_get] at hy
        cases hg : (p.conns.set i { x with lost := true })[j]? with
        | none => rw [hg] at hy; cases hy
        | some z => rw [hg] at hy; cases hy; rfl
      · dsimp only at hm ⊢
        rw [mem_del] at hm
        rw [sync_get, List.getElem?_set, if_neg (Ne.symm hm.2)]
        obtain ⟨y, hy, hl⟩ := h.real j hm.1
        rw [hy]
        exact ⟨_, rfl, hl⟩
    · exact ⟨h, rfl⟩

theorem run_append (c : Conn.Cfg) (p : St) (a b : List Ev) : run c p (a ++ b) = run c (run c p a) b := by simp [run]
theorem run_cons (c : Conn.Cfg) (p : St) (e : Ev) (b : List Ev) : run c p (e :: b) = run c (step c p e) b := rfl

theorem ok_run {c : Conn.Cfg} {p : St} (h : Ok p) (es : List Ev) : Ok (run c p es) ∧ (run c p es).table.maxlen = p.table.maxlen := by
  induction es generalizing p with
  | nil => exact ⟨h, rfl⟩
  | cons e es ih =>
    have := ok_step (c := c) h e
    have h2 := ih this.1
    exact ⟨h2.1, h2.2.trans this.2⟩

end Pool
open Pool Model

/-- What happens on connection `i` before it is lost, when `n` connections have been made so far. -/
def ownEvents (i : Nat) : Nat → List Ev → List Conn.Ev
  | _, [] => []
  | n, .made :: es => ownEvents i (n + 1) es
  | n, .on j e :: es => if j = i ∧ i < n ∧ e ≠ .kick then e :: ownEvents i n es else ownEvents i n es
  | n, .lost j :: es => if j = i ∧ i < n then [] else ownEvents i n es

namespace Pool

theorem own_of_le (i n : Nat) (e : Conn.Ev) (j : Nat) (es : List Ev) (h : ¬ i < n) : ownEvents i n (.on j e :: es) = ownEvents i n es := by
  simp only [ownEvents]; rw [if_neg (fun hh => h hh.2.1)]

/-- A lost connection changes no more, except that it is in no table. -/
theorem stays_lost {c : Conn.Cfg} {p : St} (h : Ok p) (es : List Ev) {i : Nat} {x : Cn} (hx : p.conns[i]? = some x) (hl : x.lost = true) :
    (run c p es).conns[i]? = some x := by
  induction es generalizing p with
  | nil => exact hx
  | cons e es ih =>
    rw [run_cons]
    have ok := ok_step (c := c) h e
    apply ih ok.1
    have hr : x.s.registered = false := by
      rw [h.reg i x hx]
      cases hm : Connections.mem p.table i with
      | false => rfl
      | true => obtain ⟨y, hy, hly⟩ := h.real i hm; rw [hx] at hy; cases hy; rw [hl] at hly; cases hly
    -- whatever the connection is now, it is `x` with the flag of the table
    have key : ∃ y, (step c p e).conns[i]? = some y ∧ y.lost = true ∧ { y.s with registered := false } = x.s := by
      cases e with
      | made =>
        refine ⟨x, ?_, hl, by rw [← hr]⟩
        simp only [step]; rw [List.getElem?_append, if_pos (lt_of_get hx)]; exact hx
      | on j e =>
        simp only [step]
        split
        · next y hy =>
          split
          · exact ⟨x, hx, hl, by rw [← hr]⟩
          · next hn =>
            by_cases hij : j = i
            · subst hij; rw [hx] at hy; cases hy; exact absurd (.inl hl) hn
            · dsimp only
              rw [sync_get, List.getElem?_set, if_neg hij, hx]
              exact ⟨_, rfl, hl, by dsimp only; rw [← hr]⟩
        · exact ⟨x, hx, hl, by rw [← hr]⟩
      | lost j =>
        simp only [step]
        split
        · next y hy =>
          dsimp only
          rw [sync_get, List.getElem?_set]
          by_cases hij : j = i
          · subst hij; rw [hx] at hy; cases hy
            rw [if_pos rfl, if_pos (lt_of_get hx)]
            exact ⟨_, rfl, rfl, by dsimp only; rw [← hr]⟩
          · rw [if_neg hij, hx]
            exact ⟨_, rfl, hl, by dsimp only; rw [← hr]⟩
        · exact ⟨x, hx, hl, by rw [← hr]⟩
    obtain ⟨y, hy, hly, hs⟩ := key
    have hry : y.s.registered = false := by
      rw [ok.1.reg i y hy]
      cases hm : Connections.mem (step c p e).table i with
      | false => rfl
      | true => obtain ⟨z, hz, hlz⟩ := ok.1.real i hm; rw [hy] at hz; cases hz; rw [hly] at hlz; cases hlz
    have : y = x := by
      obtain ⟨ys, yl⟩ := y
      obtain ⟨xs, xl⟩ := x
      simp only at hs hry hly hl
      rw [hly, hl, ← hs, ← hry]
    rw [hy, this]

/-- The flag of the table on a connection that goes on: nothing, or it was pushed out. -/
theorem flag (c : Conn.Cfg) (s : Conn.St) (b : Bool) (h : b = true → s.registered = true) :
    ∃ ks, { s with registered := b } = Conn.run c s ks ∧ (ks = [] ∨ ks = [.kick]) ∧ (ks = [] ↔ b = s.registered) := by
  cases b with
  | true => exact ⟨[], by rw [← h rfl]; rfl, .inl rfl, by simp [h rfl]⟩
  | false =>
    cases hr : s.registered with
    | false => exact ⟨[], by rw [← hr]; rfl, .inl rfl, by simp⟩
    | true => exact ⟨[.kick], rfl, .inr rfl, by simp⟩

/-- What one event of the worker does to a connection. -/
theorem view_step {c : Conn.Cfg} {p : St} (h : Ok p) (e : Ev) {i : Nat} {x : Cn} (hx : p.conns[i]? = some x) (hl : x.lost = false) :
    ∃ y ks, (step c p e).conns[i]? = some y ∧ y.lost = decide (e = .lost i) ∧ (ks = [] ∨ ks = [.kick]) ∧
      y.s = Conn.run c x.s ((match e with | .on j e => if j = i ∧ e ≠ .kick then [e] else [] | _ => []) ++ ks) ∧
      (ks ≠ [] → Connections.mem (step c p e).table i = false ∧ (e = .lost i ∨ ∃ j e', e = .on j e' ∧ j ≠ i ∧ Connections.mem p.table i = true)) := by
  have reg := h.reg i x hx
  cases e with
  | made =>
    refine ⟨x, [], ?_, by simp [hl], .inl rfl, rfl, fun h => absurd rfl h⟩
    simp only [step]; rw [List.getElem?_append, if_pos (lt_of_get hx)]; exact hx
  | on j e =>
    simp only [step]
    have stay : ∃ y ks, p.conns[i]? = some y ∧ y.lost = decide (Ev.on j e = .lost i) ∧ (ks = [] ∨ ks = [Conn.Ev.kick]) ∧
      y.s = Conn.run c x.s ([] ++ ks) ∧ (ks ≠ [] → False) :=
        ⟨x, [], hx, by simp [hl], .inl rfl, rfl, fun h => h rfl⟩
    split
    · next y hy =>
      split
      · next hn =>
        obtain ⟨y', ks, h1, h2, h3, h4, h5⟩ := stay
        refine ⟨y', ks, h1, h2, h3, ?_, fun h => (h5 h).elim⟩
        rw [if_neg]
        · exact h4
        · rintro ⟨rfl, he⟩
          rw [hx] at hy; cases hy
          rcases hn with hn | hn
          · rw [hl] at hn; cases hn
          · exact he hn
      · next hn =>
        rw [not_or] at hn
        dsimp only
        by_cases hij : j = i
        · subst hij
          rw [hx] at hy; cases hy
          rw [sync_get, List.getElem?_set, if_pos rfl, if_pos (lt_of_get hx), if_pos (show j = j ∧ e ≠ Conn.Ev.kick from ⟨rfl, hn.2⟩)]
          refine ⟨_, [], rfl, by simp [hl], .inl rfl, ?_, fun h => absurd rfl h⟩
          show ({ Conn.step c x.s e with registered := _ } : Conn.St) = Conn.step c x.s e
          have : Connections.mem (if (Conn.step c x.s e).registered = true then Connections.set p.table j () else p.table) j = (Conn.step c x.s e).registered := by
            cases hr : (Conn.step c x.s e).registered with
            | true => rw [if_pos rfl]; exact (mem_set h.inv j j).2
            | false =>
              rw [if_neg (by decide), ← reg]
              cases hr' : x.s.registered with
              | false => rfl
              | true => rw [reg_step c x.s e hn.2 hr'] at hr; cases hr
          rw [this]
        · rw [sync_get, List.getElem?_set, if_neg hij, hx, if_neg (show ¬ (j = i ∧ e ≠ Conn.Ev.kick) from fun hh => hij hh.1)]
          have hm : Connections.mem (if (Conn.step c y.s e).registered = true then Connections.set p.table j () else p.table) i = true → x.s.registered = true := by
            rw [reg]
            split
            · exact fun hm => ((mem_set h.inv j i).1 hm).resolve_left (Ne.symm hij)
            · exact id
          obtain ⟨ks, h1, h2, h3⟩ := flag c x.s _ hm
          refine ⟨_, ks, rfl, by simp [hl], h2, h1, fun hk => ?_⟩
          have hne := mt h3.mpr hk
          cases hb : Connections.mem (if (Conn.step c y.s e).registered = true then Connections.set p.table j () else p.table) i with
          | true => rw [hb] at hne; exact absurd (hm hb).symm hne
          | false =>
            refine ⟨rfl, .inr ⟨j, e, rfl, hij, ?_⟩⟩
            rw [hb] at hne
            rw [← reg]
            cases hr : x.s.registered with
            | true => rfl
            | false => rw [hr] at hne; exact absurd rfl hne
    · next hy =>
      obtain ⟨y', ks, h1, h2, h3, h4, h5⟩ := stay
      refine ⟨y', ks, h1, h2, h3, ?_, fun h => (h5 h).elim⟩
      rw [if_neg]
      · exact h4
      · rintro ⟨rfl, -⟩; rw [hx] at hy; cases hy
  | lost j =>
    simp only [step]
    by_cases hij : j = i
    · subst hij
      rw [hx]
      dsimp only
      rw [sync_get, List.getElem?_set, if_pos rfl, if_pos (lt_of_get hx)]
      have hf : Connections.mem (Connections.del p.table j) j = false := by
        rw [← Bool.not_eq_true, mem_del]; exact fun h => h.2 rfl
      obtain ⟨ks, h1, h2, h3⟩ := flag c x.s (Connections.mem (Connections.del p.table j) j) (by rw [hf]; exact fun h => by cases h)
      exact ⟨_, ks, rfl, by simp, h2, h1, fun _ => ⟨hf, .inl rfl⟩⟩
    · split
      · next y hy =>
        dsimp only
        rw [sync_get, List.getElem?_set, if_neg hij, hx]
        have hf : Connections.mem (Connections.del p.table j) i = x.s.registered := by
          rw [reg, Bool.eq_iff_iff, mem_del]; exact ⟨fun h => h.1, fun h => ⟨h, Ne.symm hij⟩⟩
        refine ⟨_, [], rfl, by simp [hl, hij], .inl rfl, ?_, fun h => absurd rfl h⟩
        dsimp only
        rw [hf]; rfl
      · exact ⟨x, [], hx, by simp [hl, hij], .inl rfl, rfl, fun h => absurd rfl h⟩

theorem conn_append (c : Conn.Cfg) (s : Conn.St) (a b : List Conn.Ev) : Conn.run c s (a ++ b) = Conn.run c (Conn.run c s a) b := by simp [Conn.run]

theorem made_length (c : Conn.Cfg) (p : St) (e : Ev) : (step c p e).conns.length = p.conns.length + if e = .made then 1 else 0 := by
  cases e with
  | made => simp [step]
  | on i e =>
    simp only [step]
    split
    · split
      · rfl
      · dsimp only; rw [sync_length]; simp
    · rfl
  | lost i =>
    simp only [step]
    split
    · dsimp only; rw [sync_length]; simp
    · rfl

theorem view {c : Conn.Cfg} (i : Nat) (es : List Ev) : ∀ {p : St}, Ok p → ∀ {x y : Cn}, p.conns[i]? = some x → x.lost = false → (run c p es).conns[i]? = some y →
    ∃ es', y.s = Conn.run c x.s es' ∧ es'.filter (· ≠ .kick) = ownEvents i p.conns.length es := by
  induction es with
  | nil =>
    intro p h x y hx hl hy
    rw [show run c p [] = p from rfl, hx] at hy; cases hy
    exact ⟨[], rfl, rfl⟩
  | cons e es ih =>
    intro p h x y hx hl hy
    obtain ⟨z, ks, hz, hlz, hk, hs, -⟩ := view_step (c := c) h e hx hl
    have ok := (ok_step (c := c) h e).1
    have hlen := made_length c p e
    have hi := lt_of_get hx
    have hkf : ks.filter (· ≠ Conn.Ev.kick) = [] := by rcases hk with rfl | rfl <;> simp
    rw [run_cons] at hy
    by_cases he : e = .lost i
    · subst he
      rw [stays_lost ok es hz (by simpa using hlz)] at hy
      cases hy
      refine ⟨_, hs, ?_⟩
      simp only [ownEvents, List.nil_append]
      rw [hkf, if_pos ⟨trivial, hi⟩]
    · have hlz' : z.lost = false := by simpa [he] using hlz
      obtain ⟨es', h1, h2⟩ := ih ok hz hlz' hy
      refine ⟨_, by rw [h1, hs, ← conn_append], ?_⟩
      rw [List.filter_append, List.filter_append, hkf, List.append_nil, h2, hlen]
      cases e with
      | made => simp [ownEvents]
      | on j e =>
        simp only [ownEvents]
        by_cases hc : j = i ∧ e ≠ .kick
        · rw [if_pos hc, if_neg (by simp), Nat.add_zero, if_pos ⟨hc.1, hi, hc.2⟩]; simp [hc.2]
        · rw [if_neg hc, if_neg (by simp), Nat.add_zero, if_neg (show ¬ (j = i ∧ i < p.conns.length ∧ e ≠ Conn.Ev.kick) from fun hh => hc ⟨hh.1, hh.2.2⟩)]; simp
      | lost j =>
        simp only [ownEvents]
        rw [if_neg (show ¬ (j = i ∧ i < p.conns.length) from fun hh => he (by rw [hh.1]))]; simp

/-- A connection that is made later. -/
theorem view_new {c : Conn.Cfg} (i : Nat) (es : List Ev) : ∀ {p : St}, Ok p → p.conns.length ≤ i → ∀ {y : Cn}, (run c p es).conns[i]? = some y →
    ∃ es', y.s = Conn.run c {} es' ∧ es'.filter (· ≠ .kick) = ownEvents i p.conns.length es := by
  induction es with
  | nil =>
    intro p h hi y hy
    have := lt_of_get hy
    exact absurd this (Nat.not_lt.2 hi)
  | cons e es ih =>
    intro p h hi y hy
    have ok := (ok_step (c := c) h e).1
    have hlen := made_length c p e
    rw [run_cons] at hy
    cases e with
    | made =>
      rw [if_pos rfl] at hlen
      simp only [ownEvents]
      by_cases hii : i = p.conns.length
      · have hg : (step c p .made).conns[i]? = some {} := by simp only [step]; rw [hii]; simp
        obtain ⟨es', h1, h2⟩ := view i es ok hg rfl hy
        exact ⟨es', h1, by rw [h2, hlen]⟩
      · obtain ⟨es', h1, h2⟩ := ih ok (by omega) hy
        exact ⟨es', h1, by rw [h2, hlen]⟩
    | on j e =>
      rw [if_neg (by simp)] at hlen
      obtain ⟨es', h1, h2⟩ := ih ok (by omega) hy
      exact ⟨es', h1, by rw [h2, hlen, own_of_le _ _ _ _ _ (by omega)]; rfl⟩
    | lost j =>
      rw [if_neg (by simp)] at hlen
      obtain ⟨es', h1, h2⟩ := ih ok (by omega) hy
      refine ⟨es', h1, ?_⟩
      rw [h2, hlen]
      simp only [ownEvents]
      rw [if_neg (fun hh => by omega)]; rfl

/-! ## Being pushed out of the table -/

/-- `self.request` is a request object. -/
def CurOk (s : Conn.St) : Prop := ∀ k, s.cur = some k → k < s.reqs.length

/-- What the steps other than those of the send task leave as it is. -/
structure Fr (s s' : Conn.St) : Prop where
  first : s'.first = s.first
  reg : s'.registered = s.registered
  sent : s'.sent = s.sent
  ok : CurOk s → CurOk s'

theorem Fr.refl (s : Conn.St) : Fr s s := ⟨rfl, rfl, rfl, id⟩
theorem Fr.trans {a b d : Conn.St} (h : Fr a b) (h' : Fr b d) : Fr a d :=
  ⟨h'.first.trans h.first, h'.reg.trans h.reg, h'.sent.trans h.sent, fun x => h'.ok (h.ok x)⟩

theorem fr_setReq (k : Nat) (f : Conn.Rq → Conn.Rq) (s : Conn.St) : Fr s (Conn.setReq k f s) := by
  unfold Conn.setReq
  split
  · exact ⟨rfl, rfl, rfl, fun h i hi => by simpa using h i hi⟩
  · exact .refl _
theorem fr_account (c : Conn.Cfg) (n : Nat) (s : Conn.St) : Fr s (Conn.account c n s) := by
  unfold Conn.account
  split
  · exact .refl _
  · next k _ =>
    split
    · exact .refl _
    · next r _ =>
      have h0 : Fr s { s with reqs := s.reqs.set k { r with bodySize := r.bodySize + n } } := ⟨rfl, rfl, rfl, fun h i hi => by simpa using h i hi⟩
      split
      · exact ⟨rfl, rfl, rfl, id⟩
      · dsimp only
        split
        · exact h0.trans ⟨rfl, rfl, rfl, id⟩
        · split
          · exact h0.trans ⟨rfl, rfl, rfl, id⟩
          · exact h0.trans ((fr_setReq k Conn.noKeep _).trans ⟨rfl, rfl, rfl, id⟩)
theorem fr_feed (c : Conn.Cfg) (b : Nat) (f : Conn.Feed) (s : Conn.St) : Fr s (Conn.feed c b f s).1 := by
  unfold Conn.feed
  split
  · exact fr_account ..
  · dsimp only; split <;> exact ⟨rfl, rfl, rfl, id⟩
theorem fr_data (c : Conn.Cfg) (d : Bytes) (s : Conn.St) : Fr s (Conn.dataReceived c d s) := by
  unfold Conn.dataReceived; split <;> exact ⟨rfl, rfl, rfl, id⟩
theorem fr_drain (c : Conn.Cfg) (l : List Conn.Item) (s : Conn.St) : Fr s (Conn.drain c l s) := by
  unfold Conn.drain
  induction l generalizing s with
  | nil => exact .refl _
  | cons x t ih => exact (fr_data c _ s).trans (ih _)
theorem fr_fed (i k : Nat) (raw : Bytes) (x : Conn.St × Option Conn.Feed) : Fr x.1 (Conn.fed i k raw x) := by
  obtain ⟨s, f⟩ := x
  cases f <;> exact ⟨rfl, rfl, rfl, id⟩
theorem fr_recvFed (i : Nat) (x : Conn.St × Option Conn.Feed) : Fr x.1 (Conn.recvFed i x) := by
  obtain ⟨s, f⟩ := x
  cases f <;> exact ⟨rfl, rfl, rfl, id⟩
theorem fr_newReq (r : Head.Req) (s : Conn.St) : Fr s (Conn.newReq r s) :=
  ⟨rfl, rfl, rfl, fun _ i hi => by simp only [Conn.newReq, Option.some.injEq] at hi ⊢; subst hi; simp⟩
theorem fr_startHead (c : Conn.Cfg) (i : Nat) (d : Bytes) (n : Nat) (s : Conn.St) : Fr s (Conn.startHead c i d n s) := by
  unfold Conn.startHead
  dsimp only
  split
  · exact ⟨rfl, rfl, rfl, id⟩
  · exact ⟨rfl, rfl, rfl, id⟩
  · split
    · exact (fr_newReq _ s).trans ⟨rfl, rfl, rfl, id⟩
    · exact ⟨rfl, rfl, rfl, id⟩
  · next r _ =>
    have h0 : Fr s (if r.hasBody then Conn.newReq r s else Conn.put0 (some []) (Conn.newReq r s)) := by
      split
      · exact fr_newReq _ s
      · exact (fr_newReq _ s).trans ⟨rfl, rfl, rfl, id⟩
    split
    · exact (h0.trans (fr_feed ..)).trans (fr_fed ..)
    · exact h0.trans (fr_fed _ _ _ (_, none))
theorem fr_headStep (c : Conn.Cfg) (i : Nat) (s : Conn.St) : Fr s (Conn.headStep c i s) := by
  unfold Conn.headStep
  split
  · exact fr_startHead ..
  · exact (fr_feed ..).trans (fr_fed ..)
  · exact .refl _
theorem fr_recvStep (c : Conn.Cfg) (i : Nat) (s : Conn.St) : Fr s (Conn.recvStep c i s) := by
  unfold Conn.recvStep
  split
  · split
    · exact (fr_feed ..).trans (fr_recvFed ..)
    · exact .refl _
  · exact (fr_feed ..).trans (fr_recvFed ..)
  · exact .refl _
theorem fr_closeResponse (k : Nat) (keep : Bool) (s : Conn.St) : Fr s (Conn.closeResponse k keep s) := by
  unfold Conn.closeResponse
  split
  · exact ⟨rfl, rfl, rfl, id⟩
  · exact (fr_setReq k Conn.noKeep s).trans ⟨rfl, rfl, rfl, id⟩
theorem fr_close (s : Conn.St) : Fr s (Conn.close s) := by
  unfold Conn.close; split <;> exact ⟨rfl, rfl, rfl, id⟩

theorem fr_step (c : Conn.Cfg) (s : Conn.St) (e : Conn.Ev) (h1 : e ≠ .send) (h2 : e ≠ .kick) : Fr s (Conn.step c s e) := by
  cases e with
  | data d =>
    simp only [Conn.step]
    split
    · exact Fr.trans (b := { s with rx := s.rx ++ d }) ⟨rfl, rfl, rfl, id⟩ (fr_data ..)
    · exact .refl _
  | eof d => exact ⟨rfl, rfl, rfl, id⟩
  | head i => exact fr_headStep ..
  | recv i => exact fr_recvStep ..
  | send => exact absurd rfl h1
  | emit k b => exact ⟨rfl, rfl, rfl, id⟩
  | mark k b => exact fr_closeResponse ..
  | take k => simp only [Conn.step]; split <;> exact ⟨rfl, rfl, rfl, id⟩
  | upgrade k => exact fr_setReq ..
  | clear k => exact fr_setReq ..
  | finish k => exact ⟨rfl, rfl, rfl, id⟩
  | leave k b =>
    simp only [Conn.step]
    split
    · exact Fr.trans (b := Conn.finish k s) ⟨rfl, rfl, rfl, id⟩ (fr_closeResponse ..)
    · exact .refl _
  | abort => exact ⟨rfl, rfl, rfl, id⟩
  | kick => exact absurd rfl h2

theorem cur_keep (c : Conn.Cfg) (k : Nat) (r : Conn.Rq) (s : Conn.St) (h : CurOk s) : CurOk (Conn.handleKeepalive c k r s) := by
  unfold Conn.handleKeepalive
  dsimp only
  have h' : CurOk { s with registered := s.registered || s.first } := h
  split
  · exact (fr_close _).ok h'
  · split
    · exact (fr_setReq ..).ok h'
    · split
      · split
        · exact h'
        · exact (fr_close _).ok h'
      · have hr : CurOk (Conn.reset k { s with registered := s.registered || s.first }) := (fr_setReq ..).ok h'
        split
        · exact hr
        · exact (fr_drain c _ _).ok hr

theorem cur_marker (c : Conn.Cfg) (s : Conn.St) (h : CurOk s) : CurOk (Conn.marker c s) := by
  unfold Conn.marker
  split
  · exact (fr_close _).ok h
  · split
    · exact h
    · split
      · exact cur_keep _ _ _ _ h
      · exact ((fr_setReq ..).trans (fr_close _)).ok h

theorem cur_step (c : Conn.Cfg) (s : Conn.St) (e : Conn.Ev) (h : CurOk s) : CurOk (Conn.step c s e) := by
  by_cases h1 : e = .send
  · subst h1
    simp only [Conn.step, Conn.sendStep]
    split
    · exact h
    · split
      · exact h
      · split
        · split <;> exact h
        · exact cur_marker _ _ h
  · by_cases h2 : e = .kick
    · subst h2; exact h
    · exact (fr_step c s e h1 h2).ok h

theorem cur_run (c : Conn.Cfg) (es : List Conn.Ev) : ∀ (s : Conn.St), CurOk s → CurOk (Conn.run c s es) := by
  induction es with
  | nil => exact fun _ h => h
  | cons e es ih => exact fun s h => ih _ (cur_step c s e h)

theorem close_closing (s : Conn.St) : (Conn.close s).closing = true := by
  unfold Conn.close; split
  · assumption
  · rfl

/-- A connection that is no longer in the table is closed at the next end of a response. -/
theorem gone_step {c : Conn.Cfg} {s : Conn.St} (e : Conn.Ev) (h : CurOk s) (hf : s.first = false) (hr : s.registered = false) :
    (Conn.step c s e).closing = true ∨
      ((Conn.step c s e).first = false ∧ (Conn.step c s e).registered = false ∧ (Conn.step c s e).sent.count none = s.sent.count none) := by
  by_cases h1 : e = .send
  · subst h1
    simp only [Conn.step, Conn.sendStep]
    split
    · exact .inr ⟨hf, hr, rfl⟩
    · split
      · exact .inr ⟨hf, hr, rfl⟩
      · split
        · next q b hq =>
          split <;> exact .inr ⟨hf, hr, by simp⟩
        · refine .inl ?_
          unfold Conn.marker
          split
          · exact close_closing _
          · next k hk =>
            have hlt := h k hk
            split
            · next hn => exact absurd hn (by simp [hlt])
            · split
              · unfold Conn.handleKeepalive
                dsimp only
                rw [if_pos (by simp [hf, hr])]
                exact close_closing _
              · exact close_closing _
  · by_cases h2 : e = .kick
    · subst h2; exact .inr ⟨hf, rfl, rfl⟩
    · have f := fr_step c s e h1 h2
      exact .inr ⟨f.first.trans hf, f.reg.trans hr, by rw [f.sent]⟩

theorem gone_run {c : Conn.Cfg} (es : List Conn.Ev) : ∀ {s : Conn.St}, CurOk s → s.first = false → s.registered = false →
    (Conn.run c s es).closing = true ∨ (Conn.run c s es).sent.count none = s.sent.count none := by
  induction es with
  | nil => exact fun _ _ _ => .inr rfl
  | cons e es ih =>
    intro s h hf hr
    rcases gone_step (c := c) e h hf hr with h1 | ⟨h1, h2, h3⟩
    · exact .inl (Solo.closing_run es h1)
    · exact (ih (cur_step c s e h) h1 h2).imp id (fun x => x.trans h3)

/-! ## Counting -/

open Proofs.Connections Spec.Connections

theorem nodup_le : ∀ (l m : List Nat), l.Nodup → (∀ x ∈ l, x ∈ m) → l.length ≤ m.length
  | [], _, _, _ => Nat.zero_le _
  | x :: l, m, hn, hs => by
    rw [List.nodup_cons] at hn
    have hx := hs x (by simp)
    have := nodup_le l (m.erase x) hn.2 (fun y hy => by
      have hne : y ≠ x := fun e => hn.1 (by rw [← e]; exact hy)
      rw [List.mem_erase_of_ne hne]; exact hs y (by simp [hy]))
    rw [List.length_erase_of_mem hx] at this
    have := List.length_pos_of_mem hx
    simp only [List.length_cons]; omega

/-- The indices of the connections with a property. -/
def idx (P : Cn → Bool) (l : List Cn) : List Nat := (List.range l.length).filter (fun j => (l[j]?.map P).getD false)

theorem idx_length (P : Cn → Bool) (l : List Cn) : (idx P l).length = (l.filter P).length := by
  induction l using snocInd with
  | h0 => rfl
  | h1 l x ih =>
    unfold idx at ih ⊢
    rw [List.length_append, List.length_singleton, List.range_succ, List.filter_append, List.filter_append, List.length_append, List.length_append, ← ih]
    congr 1
    · congr 1
      apply List.filter_congr
      intro j hj
      rw [List.mem_range] at hj
      rw [List.getElem?_append, if_pos hj]
    · cases h : P x <;> simp [h]

theorem mem_idx (P : Cn → Bool) (l : List Cn) (j : Nat) : j ∈ idx P l ↔ ∃ x, l[j]? = some x ∧ P x = true := by
  unfold idx
  rw [List.mem_filter, List.mem_range]
  constructor
  · rintro ⟨h1, h2⟩
    rw [List.getElem?_eq_getElem h1] at h2 ⊢
    exact ⟨_, rfl, by simpa using h2⟩
  · rintro ⟨x, h1, h2⟩
    exact ⟨lt_of_get h1, by rw [h1]; simpa using h2⟩

theorem idx_nodup (P : Cn → Bool) (l : List Cn) : (idx P l).Nodup := List.Pairwise.filter _ List.nodup_range

theorem le_filter {l : List Nat} {m : List Cn} {P : Cn → Bool} (hn : l.Nodup) (h : ∀ j ∈ l, ∃ x, m[j]? = some x ∧ P x = true) :
    l.length ≤ (m.filter P).length := by
  rw [← idx_length]
  exact nodup_le _ _ hn (fun j hj => (mem_idx P m j).2 (h j hj))

theorem filter_le {l : List Nat} {m : List Cn} {P : Cn → Bool} (h : ∀ (j : Nat) (x : Cn), m[j]? = some x → P x = true → j ∈ l) :
    (m.filter P).length ≤ l.length := by
  rw [← idx_length]
  exact nodup_le _ _ (idx_nodup P m) (fun j hj => by
    obtain ⟨x, h1, h2⟩ := (mem_idx P m j).1 hj
    exact h j x h1 h2)

theorem mem_keys (t : Connections.Table Nat Unit) (j : Nat) : Connections.mem t j = true ↔ j ∈ t.items.map (·.1) := by
  simp only [mem_iff_present, present_iff]

theorem set_drops {t : Connections.Table Nat Unit} (h : Inv t) {i j : Nat} (hm : Connections.mem t i = true)
    (hn : Connections.mem (Connections.set t j ()) i = false) :
    ∃ l, t.items.map (·.1) = i :: l ∧ (Connections.set t j ()).items.map (·.1) = l ++ [j] ∧ j ∉ i :: l ∧ l.length + 1 = t.maxlen := by
  obtain ⟨h1, h2, h3⟩ := h
  have hk := dictSet_keys j () t.items
  rw [mem_keys] at hm
  rw [← Bool.not_eq_true, mem_keys] at hn
  unfold Connections.set at hn ⊢
  dsimp only at hn ⊢
  split at hn
  · next hl =>
    rw [if_pos hl]
    simp only [List.map_tail] at hn ⊢
    rw [hk] at hn ⊢
    have hl' : ((Connections.dictSet j () t.items).map (·.1)).length > t.maxlen := by simpa using hl
    rw [hk] at hl'
    split at hl'
    · simp at hl'; omega
    · next hj =>
      rw [if_neg hj] at hn ⊢
      cases hi : t.items.map (·.1) with
      | nil => rw [hi] at hm; simp at hm
      | cons a l =>
        rw [hi] at hn hm hl' hj
        simp only [List.cons_append, List.tail_cons, List.mem_append, List.mem_cons, List.not_mem_nil, or_false] at hn hm ⊢
        rw [not_or] at hn
        have ha : i = a := hm.resolve_right hn.1
        subst ha
        have hlen : (t.items.map (·.1)).length = l.length + 1 := by rw [hi]; rfl
        simp only [List.length_map] at hlen
        simp only [List.length_append, List.length_cons, List.length_nil] at hl'
        exact ⟨l, rfl, rfl, by simpa using hj, by omega⟩
  · exfalso
    rw [hk] at hn
    split at hn
    · exact hn hm
    · exact hn (by simp [hm])

end Pool
open Pool Model

/-- The connections in the table, in the order in which they entered it. -/
def kept (p : Model.Pool.St) : List Nat := p.table.items.map (·.1)

/-- The number of connections that are not lost. -/
def opened (p : Model.Pool.St) : Nat := (p.conns.filter (fun x => !x.lost)).length

namespace Pool

theorem drops {c : Conn.Cfg} {p : St} (h : Ok p) {e : Ev} {i : Nat} (h1 : i ∈ kept p) (h2 : i ∉ kept (step c p e)) (h3 : e ≠ .lost i) :
    ∃ j e' l x, e = .on j e' ∧ p.conns[j]? = some x ∧ x.lost = false ∧ kept p = i :: l ∧ kept (step c p e) = l ++ [j] ∧ j ∉ i :: l ∧ l.length + 1 = p.table.maxlen := by
  unfold kept at h1 h2 ⊢
  cases e with
  | made => exact absurd h1 h2
  | on j e' =>
    simp only [step] at h2 ⊢
    split at h2
    · next x hx =>
      split at h2
      · exact absurd h1 h2
      · next hn =>
        dsimp only at h2 ⊢
        rw [if_neg hn]
        dsimp only
        by_cases hr : (Conn.step c x.s e').registered = true
        · rw [if_pos hr] at h2 ⊢
          obtain ⟨l, a, b, d, f⟩ := set_drops h.inv ((mem_keys _ _).2 h1) (Bool.eq_false_iff.2 (fun hh => h2 ((mem_keys _ _).1 hh)))
          rw [not_or] at hn
          exact ⟨j, e', l, x, rfl, hx, by simpa using hn.1, a, b, d, f⟩
        · rw [if_neg hr] at h2; exact absurd h1 h2
    · exact absurd h1 h2
  | lost j =>
    exfalso
    simp only [step] at h2
    split at h2
    · dsimp only at h2
      apply h2
      rw [← mem_keys, mem_del, mem_keys]
      exact ⟨h1, fun e => h3 (by rw [e])⟩
    · exact h2 h1

theorem kept_open {p : St} (h : Ok p) : ∀ j ∈ kept p, ∃ x, p.conns[j]? = some x ∧ (fun x : Cn => !x.lost) x = true := fun j hj => by
  obtain ⟨x, h1, h2⟩ := h.real j ((mem_keys _ _).2 hj)
  exact ⟨x, h1, by simp [h2]⟩

/-- A connection is pushed out of the table only when more are open than the table holds. -/
theorem full {c : Conn.Cfg} {p : St} (h : Ok p) {e : Ev} {i : Nat} (h1 : i ∈ kept p) (h2 : i ∉ kept (step c p e)) (h3 : e ≠ .lost i) :
    p.table.maxlen < opened p := by
  obtain ⟨j, e', l, x, -, hx, hl, a, -, hj, hlen⟩ := drops h h1 h2 h3
  have nd : (kept p).Nodup := h.inv.2.2
  rw [a] at nd
  have := le_filter (l := j :: i :: l) (m := p.conns) (P := fun x => !x.lost) (List.nodup_cons.2 ⟨hj, nd⟩) (fun k hk => by
    rcases List.mem_cons.1 hk with rfl | hk
    · exact ⟨x, hx, by simp [hl]⟩
    · exact kept_open h k (by rw [a]; exact hk))
  simp only [List.length_cons] at this
  unfold opened
  omega

theorem room_view {c : Conn.Cfg} (i : Nat) (es : List Ev) : ∀ {p : St}, Ok p → (∀ a b, es = a ++ b → opened (run c p a) ≤ p.table.maxlen) →
    ∀ {x y : Cn}, p.conns[i]? = some x → x.lost = false → (run c p es).conns[i]? = some y → y.lost = false →
    y.s = Conn.run c x.s (ownEvents i p.conns.length es) := by
  induction es with
  | nil =>
    intro p h _ x y hx _ hy _
    rw [show run c p [] = p from rfl, hx] at hy; cases hy
    rfl
  | cons e es ih =>
    intro p h hb x y hx hl hy hly
    obtain ⟨z, ks, hz, hlz, hk, hs, hks⟩ := view_step (c := c) h e hx hl
    have ok := ok_step (c := c) h e
    have hlen := made_length c p e
    have hi := lt_of_get hx
    rw [run_cons] at hy
    by_cases he : e = .lost i
    · subst he
      rw [stays_lost ok.1 es hz (by simpa using hlz)] at hy
      cases hy
      rw [hly] at hlz; simp at hlz
    · have hlz' : z.lost = false := by simpa [he] using hlz
      have hb' : ∀ a b, es = a ++ b → opened (run c (step c p e) a) ≤ (step c p e).table.maxlen := fun a b hab => by
        rw [ok.2]; exact hb (e :: a) b (by rw [hab]; rfl)
      have h1 := ih ok.1 hb' hz hlz' hy hly
      have hk0 : ks = [] := by
        refine Decidable.byContradiction (fun hk0 => ?_)
        obtain ⟨a, b⟩ := hks hk0
        rcases b with b | ⟨j, e', he', hji, b⟩
        · exact he b
        · have := full (c := c) (e := e) h ((mem_keys _ _).1 b) (fun hh => by rw [(mem_keys _ _).2 hh] at a; cases a) he
          have := hb [] _ rfl
          exact absurd this (by show ¬ opened p ≤ _; omega)
      subst hk0
      rw [h1, hs, ← conn_append, hlen]
      congr 1
      cases e with
      | made => simp [ownEvents]
      | on j e =>
        simp only [ownEvents]
        by_cases hc : j = i ∧ e ≠ .kick
        · rw [if_pos hc, if_neg (by simp), Nat.add_zero, if_pos ⟨hc.1, hi, hc.2⟩]; simp
        · rw [if_neg hc, if_neg (by simp), Nat.add_zero, if_neg (show ¬ (j = i ∧ i < p.conns.length ∧ e ≠ Conn.Ev.kick) from fun hh => hc ⟨hh.1, hh.2.2⟩)]; simp
      | lost j =>
        simp only [ownEvents]
        rw [if_neg (show ¬ (j = i ∧ i < p.conns.length) from fun hh => he (by rw [hh.1]))]; simp

theorem room_new {c : Conn.Cfg} (i : Nat) (es : List Ev) : ∀ {p : St}, Ok p → (∀ a b, es = a ++ b → opened (run c p a) ≤ p.table.maxlen) →
    p.conns.length ≤ i → ∀ {y : Cn}, (run c p es).conns[i]? = some y → y.lost = false →
    y.s = Conn.run c {} (ownEvents i p.conns.length es) := by
  induction es with
  | nil =>
    intro p h _ hi y hy _
    exact absurd (lt_of_get hy) (Nat.not_lt.2 hi)
  | cons e es ih =>
    intro p h hb hi y hy hly
    have ok := ok_step (c := c) h e
    have hlen := made_length c p e
    have hb' : ∀ a b, es = a ++ b → opened (run c (step c p e) a) ≤ (step c p e).table.maxlen := fun a b hab => by
      rw [ok.2]; exact hb (e :: a) b (by rw [hab]; rfl)
    rw [run_cons] at hy
    cases e with
    | made =>
      rw [if_pos rfl] at hlen
      simp only [ownEvents]
      by_cases hii : i = p.conns.length
      · have hg : (step c p .made).conns[i]? = some {} := by simp only [step]; rw [hii]; simp
        rw [← hlen]
        exact room_view i es ok.1 hb' hg rfl hy hly
      · rw [← hlen]; exact ih ok.1 hb' (by omega) hy hly
    | on j e =>
      rw [if_neg (by simp)] at hlen
      have := ih ok.1 hb' (by omega) hy hly
      rw [this, hlen, own_of_le _ _ _ _ _ (by omega)]; rfl
    | lost j =>
      rw [if_neg (by simp)] at hlen
      have := ih ok.1 hb' (by omega) hy hly
      rw [this, hlen]
      simp only [ownEvents]
      rw [if_neg (fun hh => by omega)]; rfl

theorem own_run {c : Conn.Cfg} (i : Nat) (l : List Conn.Ev) : ∀ {p : St}, Ok p → (∀ e ∈ l, e ≠ .kick) → ∀ {x : Cn}, p.conns[i]? = some x → x.lost = false →
    (run c p (l.map (.on i))).conns[i]? = some { x with s := Conn.run c x.s l } := by
  induction l with
  | nil => exact fun _ _ _ hx _ => hx
  | cons e l ih =>
    intro p h hk x hx hl
    obtain ⟨z, ks, hz, hlz, -, hs, hks⟩ := view_step (c := c) h (.on i e) hx hl
    have hk0 : ks = [] := by
      refine Decidable.byContradiction (fun hk0 => ?_)
      rcases (hks hk0).2 with b | ⟨j, e', he', hji, -⟩
      · cases b
      · cases he'; exact hji rfl
    subst hk0
    have hzl : z.lost = false := by simpa using hlz
    have hzs : z.s = Conn.step c x.s e := by
      dsimp only at hs
      rw [hs, if_pos (show i = i ∧ e ≠ Conn.Ev.kick from ⟨rfl, hk e (by simp)⟩)]; rfl
    rw [List.map_cons, run_cons, ih (ok_step h _).1 (fun e he => hk e (by simp [he])) hz hzl, hzs, hzl, hl]
    rfl

theorem other_run {c : Conn.Cfg} (i j : Nat) (hij : i ≠ j) (l : List Conn.Ev) : ∀ {p : St}, Ok p → ∀ {x : Cn}, p.conns[j]? = some x → x.lost = false →
    ∃ y, (run c p (l.map (.on i))).conns[j]? = some y ∧ y.lost = false ∧ { y.s with registered := false } = { x.s with registered := false } := by
  induction l with
  | nil => exact fun _ x hx hl => ⟨x, hx, hl, rfl⟩
  | cons e l ih =>
    intro p h x hx hl
    obtain ⟨z, ks, hz, hlz, hk, hs, -⟩ := view_step (c := c) h (.on i e) hx hl
    obtain ⟨y, hy, hyl, hys⟩ := ih (ok_step h _).1 hz (by simpa using hlz)
    refine ⟨y, hy, hyl, hys.trans ?_⟩
    dsimp only at hs
    rw [hs, if_neg (show ¬ (i = j ∧ e ≠ Conn.Ev.kick) from fun hh => hij hh.1)]
    rcases hk with rfl | rfl <;> rfl

/-- A request without a body and its answer. -/
def visit : List Conn.Ev :=
  [.data b!"GET / HTTP/1.1\r\nhost: a\r\n\r\n", .head 0, .emit 0 b!"HTTP/1.1 200 OK\r\n\r\n", .leave 0 true, .send, .send]

/-- Clients that connect one after the other, each with one request. -/
def visits : Nat → List Ev
  | 0 => []
  | k + 1 => visits k ++ .made :: visit.map (.on k)

theorem visits_run {n : Nat} (hn : 1 ≤ n) : ∀ (k : Nat), (run {} (init n) (visits k)).conns.length = k ∧
    ∀ (j : Nat) (x : Cn), (run {} (init n) (visits k)).conns[j]? = some x →
      x.lost = false ∧ { x.s with registered := false } = { Conn.run {} {} visit with registered := false }
  | 0 => ⟨rfl, fun j x h => by simp [visits, run, init] at h⟩
  | k + 1 => by
    obtain ⟨ih1, ih2⟩ := visits_run hn k
    have ok := (ok_run (c := {}) (ok_init hn) (visits k)).1
    simp only [visits]
    rw [run_append, run_cons]
    generalize run {} (init n) (visits k) = p at ih1 ih2 ok
    have ok' := (ok_step (c := {}) ok .made).1
    have hlen : ∀ (l : List Conn.Ev) (p : St), (run {} p (l.map (.on k))).conns.length = p.conns.length := by
      intro l
      induction l with
      | nil => exact fun _ => rfl
      | cons e l ih => intro p; rw [List.map_cons, run_cons, ih, made_length]; simp
    refine ⟨by rw [hlen, made_length, ih1]; simp, fun j x hx => ?_⟩
    by_cases hj : k = j
    · subst hj
      have hg : (step {} p .made).conns[k]? = some {} := by simp only [step]; rw [← ih1]; simp
      rw [own_run k visit ok' (by decide) hg rfl] at hx
      cases hx
      exact ⟨rfl, rfl⟩
    · have hlt := lt_of_get hx
      rw [hlen, made_length, ih1, if_pos rfl] at hlt
      have hjk : j < p.conns.length := by omega
      have hg : (step {} p .made).conns[j]? = some p.conns[j] := by
        simp only [step]; rw [List.getElem?_append, if_pos hjk, List.getElem?_eq_getElem hjk]
      obtain ⟨a, b⟩ := ih2 j _ (List.getElem?_eq_getElem hjk)
      obtain ⟨y, hy, hyl, hys⟩ := other_run (c := {}) k j hj visit ok' hg a
      rw [hy] at hx; cases hx
      exact ⟨hyl, hys.trans b⟩

end Pool

/-- Every connection of a worker behaves as one of `Model/Conn`, with the same events, among which it may be pushed out of the
table: what is proved about one connection holds for each one of a worker. -/
theorem C119_view {c : Conn.Cfg} {n : Nat} (hn : 1 ≤ n) (es : List Ev) {i : Nat} {y : Cn} (hy : (run c (init n) es).conns[i]? = some y) :
    ∃ es', y.s = Conn.run c {} es' ∧ es'.filter (· ≠ .kick) = ownEvents i 0 es :=
  view_new i es (ok_init hn) (Nat.zero_le _) hy

/-- At no time are there more than `keepalive_connections` connections in the table; none is there twice; a lost one never is. -/
theorem C119_bounded {c : Conn.Cfg} {n : Nat} (hn : 1 ≤ n) (es : List Ev) :
    (kept (run c (init n) es)).length ≤ n ∧ (kept (run c (init n) es)).Nodup ∧
    ((run c (init n) es).conns.filter (·.s.registered)).length ≤ n ∧
    ∀ i, i ∈ kept (run c (init n) es) ↔ ∃ x, (run c (init n) es).conns[i]? = some x ∧ x.lost = false ∧ x.s.registered = true := by
  obtain ⟨ok, hm⟩ := ok_run (c := c) (ok_init hn) es
  generalize run c (init n) es = p at ok hm
  have hl : (kept p).length ≤ n := by
    have := ok.inv.2.1
    rw [hm] at this
    simpa [kept, init] using this
  refine ⟨hl, ok.inv.2.2, Nat.le_trans (filter_le (fun j x hx hr => ?_)) hl, fun i => ⟨fun h => ?_, ?_⟩⟩
  · rw [ok.reg j x hx] at hr; exact (mem_keys _ _).1 hr
  · have hk := (mem_keys _ _).2 h
    obtain ⟨x, h1, h2⟩ := ok.real i hk
    exact ⟨x, h1, h2, (ok.reg i x h1).trans hk⟩
  · rintro ⟨x, h1, -, h3⟩
    rw [ok.reg i x h1] at h3; exact (mem_keys _ _).1 h3

/-- A connection leaves the table only when it is lost, or when the table is full, it is the one that has been in it longest,
and another connection enters. -/
theorem C119_kicked {c : Conn.Cfg} {n : Nat} (hn : 1 ≤ n) (es : List Ev) {e : Ev} {i : Nat} (h1 : i ∈ kept (run c (init n) es))
    (h2 : i ∉ kept (run c (init n) (es ++ [e]))) (h3 : e ≠ .lost i) :
    ∃ j e' l, e = .on j e' ∧ kept (run c (init n) es) = i :: l ∧ kept (run c (init n) (es ++ [e])) = l ++ [j] ∧ j ∉ i :: l ∧ l.length + 1 = n := by
  obtain ⟨ok, hm⟩ := ok_run (c := c) (ok_init hn) es
  rw [run_append] at h2 ⊢
  obtain ⟨j, e', l, x, a, -, -, b, d, f, g⟩ := drops (c := c) ok h1 h2 h3
  exact ⟨j, e', l, a, b, d, f, by rw [g, hm]; rfl⟩

/-- While no more connections are open than the option allows, it has no effect: a connection does what it does alone. -/
theorem C119_room {c : Conn.Cfg} {n : Nat} (hn : 1 ≤ n) (es : List Ev) (h : ∀ a b, es = a ++ b → opened (run c (init n) a) ≤ n) {i : Nat} {y : Cn}
    (hy : (run c (init n) es).conns[i]? = some y) (hl : y.lost = false) : y.s = Conn.run c {} (ownEvents i 0 es) :=
  room_new i es (ok_init hn) h (Nat.zero_le _) hy hl

/-- Then what happens on other connections makes no difference to a connection. -/
theorem C119_isolated {c : Conn.Cfg} {n m : Nat} (hn : 1 ≤ n) (hm : 1 ≤ m) (es fs : List Ev) (h : ∀ a b, es = a ++ b → opened (run c (init n) a) ≤ n)
    (h' : ∀ a b, fs = a ++ b → opened (run c (init m) a) ≤ m) {i j : Nat} (ho : ownEvents i 0 es = ownEvents j 0 fs) {x y : Cn}
    (hx : (run c (init n) es).conns[i]? = some x) (hy : (run c (init m) fs).conns[j]? = some y) (hxl : x.lost = false) (hyl : y.lost = false) : x.s = y.s := by
  rw [C119_room hn es h hx hxl, C119_room hm fs h' hy hyl, ho]

/-- A connection that was pushed out of the table completes no response without being closed: at most the one that it is
working on, or the next one, is its last, whatever else happens in the worker. -/
theorem C119_last {c : Conn.Cfg} {n : Nat} (hn : 1 ≤ n) (es es2 : List Ev) {i : Nat} {x y : Cn} (hx : (run c (init n) es).conns[i]? = some x)
    (hl : x.lost = false) (hf : x.s.first = false) (hk : i ∉ kept (run c (init n) es)) (hy : (run c (init n) (es ++ es2)).conns[i]? = some y) :
    y.s.closing = true ∨ y.s.sent.count none = x.s.sent.count none := by
  obtain ⟨ok, hm⟩ := ok_run (c := c) (ok_init hn) es
  obtain ⟨es', h1, -⟩ := C119_view hn es hx
  rw [run_append] at hy
  obtain ⟨es'', h2, -⟩ := view i es2 ok hx hl hy
  have hr : x.s.registered = false := by
    rw [ok.reg i x hx]
    exact Bool.eq_false_iff.2 (fun hh => hk ((mem_keys _ _).1 hh))
  have hc : CurOk x.s := by rw [h1]; exact cur_run c es' {} (fun k hk => by cases hk)
  rw [h2]
  exact gone_run es'' hc hf hr

/-- The option does not bound the connections that are open and wait for another request: whatever it is, any number of clients
may have been answered, and all their connections are open and idle. (Only the keep-alive timeout ends them, C79.) -/
theorem C119_refuted_idle {n : Nat} (hn : 1 ≤ n) (k : Nat) : ∃ es, (run {} (init n) es).conns.length = k ∧ opened (run {} (init n) es) = k ∧
    ∀ (j : Nat) (x : Cn), (run {} (init n) es).conns[j]? = some x → x.lost = false ∧ x.s.closing = false ∧ x.s.sendDone = false ∧ x.s.hb = some [] ∧ x.s.reading = true ∧
      x.s.first = false ∧ x.s.running = [] ∧ x.s.q1 = [] ∧ x.s.written = [b!"HTTP/1.1 200 OK\r\n\r\n"] := by
  obtain ⟨h1, h2⟩ := visits_run hn k
  refine ⟨visits k, h1, ?_, fun j x hx => ?_⟩
  · unfold opened
    rw [List.filter_eq_self.2, h1]
    intro x hx
    obtain ⟨j, hj⟩ := List.getElem?_of_mem hx
    rw [(h2 j x hj).1]; rfl
  · obtain ⟨a, b⟩ := h2 j x hx
    have key : ∀ {α : Type} (f : Conn.St → α), (∀ s, f { s with registered := false } = f s) → f x.s = f (Conn.run {} {} visit) := fun f hf => by
      rw [← hf x.s, b, hf]
    refine ⟨a, ?_, ?_, ?_, ?_, ?_, ?_, ?_, ?_⟩
    · rw [key (·.closing) (fun _ => rfl)]; decide +kernel
    · rw [key (·.sendDone) (fun _ => rfl)]; decide +kernel
    · rw [key (·.hb) (fun _ => rfl)]; decide +kernel
    · rw [key (·.reading) (fun _ => rfl)]; decide +kernel
    · rw [key (·.first) (fun _ => rfl)]; decide +kernel
    · rw [key (·.running) (fun _ => rfl)]; decide +kernel
    · rw [key (·.q1) (fun _ => rfl)]; decide +kernel
    · rw [key (·.written) (fun _ => rfl)]; decide +kernel

/-- Two clients with `keepalive_connections = 1`: both are answered; only the second is in the table. -/
example : kept (run {} (init 1) (visits 2)) = [1] ∧ opened (run {} (init 1) (visits 2)) = 2 := by decide +kernel

/-- The first one was in it (C119_kicked). -/
example : kept (run {} (init 1) ((visits 2).dropLast)) = [0] := by decide +kernel

/-- The first client's next request is answered, and its connection closed (C119_last). -/
example : ((run {} (init 1) (visits 2 ++ [.on 0 (.data b!"GET /2 HTTP/1.1\r\nhost: a\r\n\r\n"), .on 0 (.head 1), .on 0 (.emit 1 b!"x"), .on 0 (.leave 1 true), .on 0 .send, .on 0 .send])).conns[0]?).map
    (fun x => (x.s.closing, x.s.written)) = some (true, [b!"HTTP/1.1 200 OK\r\n\r\n", b!"x"]) := by decide +kernel

/-- With `keepalive_connections = 2` it stays open (C119_room). -/
example : ((run {} (init 2) (visits 2 ++ [.on 0 (.data b!"GET /2 HTTP/1.1\r\nhost: a\r\n\r\n"), .on 0 (.head 1), .on 0 (.emit 1 b!"x"), .on 0 (.leave 1 true), .on 0 .send, .on 0 .send])).conns[0]?).map
    (fun x => (x.s.closing, x.s.hb)) = some (false, some []) := by decide +kernel

end Verif
