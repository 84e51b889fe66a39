import Verif.Spec.Worker
import Verif.Proofs.Worker
/-!
# C50: connections never see each other's data
-/
namespace Verif
open Verif.Model Verif.Model.Worker Verif.Spec.Worker
namespace WorkerProofs
open Verif.Proofs.Worker
open Verif.Proofs.Queue (get_set_self get_set_ne lt_of_get)

variable {α : Type}

structure J (s : St α) : Prop where
  uniq : ∀ fd a b, Attached s fd a → Attached s fd b → a = b
  obj : ∀ fd side, I (Attached s fd) (s.objs fd side).owner (s.objs fd side).q
  hold : ∀ h ∈ s.holds, h.tied = true ∧ (h.alive = true → Attached s h.fd h.conn)
  got : ∀ y ∈ s.got, y.2.2.1 = y.1

theorem J_init : J ({} : St α) where
  uniq := by rintro fd a b ⟨k, h, _⟩; cases h
  obj := fun _ _ => I_init _
  hold := by intro h hh; cases hh
  got := by intro y hy; cases hy

theorem J_onObj {s : St α} (j : J s) (fd : Nat) (side : Bool) (f : Obj α → Obj α)
    (h : I (Attached s fd) (f (s.objs fd side)).owner (f (s.objs fd side)).q) : J (onObj s fd side f) where
  uniq := j.uniq
  obj := fun fd' side' => by
    simp only [onObj]
    split
    next e => obtain ⟨rfl, rfl⟩ := e; exact h
    · exact j.obj fd' side'
  hold := j.hold
  got := j.got

theorem usable_some {s : St α} {c : Nat} {k : Conn} (h : usable s c = some k) : Attached s k.fd c ∧ s.conns[c]? = some k ∧ k.live = true := by
  unfold usable at h
  split at h
  next k' hk =>
    split at h
    next ha =>
      cases h
      rw [Bool.and_eq_true] at ha
      exact ⟨⟨_, hk, ha.1, rfl⟩, hk, ha.2⟩
    · cases h
  · cases h

theorem attached_mono {s : St α} {c : Nat} {k k' : Conn} (h : s.conns[c]? = some k) (hk : k'.attached = true → k.attached = true ∧ k'.fd = k.fd)
    {fd a : Nat} (ha : Attached { s with conns := s.conns.set c k' } fd a) : Attached s fd a := by
  obtain ⟨z, h1, h2, h3⟩ := ha
  rcases get_set_or h1 with ⟨rfl, e⟩ | h1
  · subst e
    exact ⟨k, h, (hk h2).1, (hk h2).2 ▸ h3⟩
  · exact ⟨z, h1, h2, h3⟩

/-- Closing the socket changes nothing about the queues. -/
theorem attached_closed {s : St α} {c : Nat} {k : Conn} (h : s.conns[c]? = some k) {fd a : Nat} :
    Attached { s with conns := s.conns.set c { k with isOpen := false } } fd a ↔ Attached s fd a := by
  constructor
  · exact attached_mono (k' := { k with isOpen := false }) h (fun h => ⟨h, rfl⟩)
  · rintro ⟨z, h1, h2, h3⟩
    by_cases e : a = c
    · subst e
      rw [h] at h1; cases h1
      exact ⟨{ k with isOpen := false }, get_set_self h, h2, h3⟩
    · exact ⟨z, by rw [get_set_ne e]; exact h1, h2, h3⟩

theorem J_closed {s : St α} (j : J s) {c : Nat} {k : Conn} (h : s.conns[c]? = some k) :
    J { s with conns := s.conns.set c { k with isOpen := false } } where
  uniq := fun fd a b ha hb => j.uniq fd a b ((attached_closed h).1 ha) ((attached_closed h).1 hb)
  obj := fun fd side => I_mono (fun _ hc => (attached_closed h).2 hc) (j.obj fd side)
  hold := fun x hx => ⟨(j.hold x hx).1, fun ha => (attached_closed h).2 ((j.hold x hx).2 ha)⟩
  got := j.got

theorem J_cleanup {s : St α} (j : J s) (c : Nat) : J (cleanup c s) := by
  unfold cleanup
  split
  next k hk =>
    split
    next ha =>
      have hc : Attached s k.fd c := ⟨k, hk, ha, rfl⟩
      have back : ∀ {fd a : Nat}, Attached { s with conns := s.conns.set c { k with attached := false } } fd a → Attached s fd a :=
        fun h => attached_mono hk (by intro h; cases h) h
      have forth : ∀ {fd a : Nat}, Attached s fd a → a ≠ c → Attached { s with conns := s.conns.set c { k with attached := false } } fd a := by
        rintro fd a ⟨z, h1, h2, h3⟩ e
        exact ⟨z, by rw [get_set_ne e]; exact h1, h2, h3⟩
      dsimp only
      refine ⟨?_, ?_, ?_, j.got⟩
      · intro fd a b h1 h2
        exact j.uniq fd a b (back h1) (back h2)
      · intro fd side
        by_cases hfd : fd = k.fd
        · subst hfd
          have h : I (fun _ => False) (clearObj c (s.objs k.fd side)).owner (clearObj c (s.objs k.fd side)).q :=
            I_clear (j.uniq k.fd) hc (j.obj k.fd side)
          have e : (onObj (onObj s k.fd false (clearObj c)) k.fd true (clearObj c)).objs k.fd side = clearObj c (s.objs k.fd side) := by
            cases side <;> simp [onObj]
          dsimp only
          rw [e]
          exact I_mono (fun _ h => h.elim) h
        · have e : (onObj (onObj s k.fd false (clearObj c)) k.fd true (clearObj c)).objs fd side = s.objs fd side := by
            simp [onObj, hfd]
          dsimp only
          rw [e]
          refine I_mono (fun a h => ?_) (j.obj fd side)
          refine forth h ?_
          rintro rfl
          obtain ⟨z, h1, h2, h3⟩ := h
          rw [hk] at h1; cases h1
          exact hfd h3.symm
      · intro h hh
        obtain ⟨h0, hm, rfl⟩ := List.mem_map.1 hh
        have hm : h0 ∈ s.holds := hm
        split
        · exact ⟨(j.hold h0 hm).1, fun h => by cases h⟩
        next hn =>
          refine ⟨(j.hold h0 hm).1, fun hal => ?_⟩
          refine forth ((j.hold h0 hm).2 hal) ?_
          rintro e
          exact hn ⟨e, (j.hold h0 hm).1⟩
    · exact j
  · exact j

theorem J_step {m : Bool} {s : St α} (j : J s) (e : Ev α) (ht : (∀ c side, e ≠ .hold c side false) ∧ ∀ c side, e ≠ .get c side false)
    (hc : ∀ fd, e = .made fd → ¬ InUse s fd → ∀ c, ¬ Attached s fd c) : J (step m s e) := by
  cases e with
  | made fd =>
    unfold step
    dsimp only
    split
    · exact j
    next hu =>
      have hu : ¬ InUse s fd := by
        rintro ⟨k, h1, h2, h3⟩
        exact hu (List.any_eq_true.2 ⟨k, h1, by simp [h2, h3]⟩)
      have old : ∀ {l : Bool} {fd' a : Nat}, Attached s fd' a → Attached { s with conns := s.conns ++ [{ fd := fd, live := l }] } fd' a := by
        rintro l fd' a ⟨z, h1, h2, h3⟩
        exact ⟨z, by rw [List.getElem?_append_left (lt_of_get h1)]; exact h1, h2, h3⟩
      have new : ∀ {l : Bool} {fd' a : Nat}, Attached { s with conns := s.conns ++ [{ fd := fd, live := l }] } fd' a →
          (fd' = fd ∧ a = s.conns.length) ∨ Attached s fd' a := by
        rintro l fd' a ⟨z, h1, h2, h3⟩
        by_cases ha : a < s.conns.length
        · exact .inr ⟨z, by rw [List.getElem?_append_left ha] at h1; exact h1, h2, h3⟩
        · have := lt_of_get h1
          simp only [List.length_append, List.length_singleton] at this
          have ha : a = s.conns.length := by omega
          subst ha
          simp only [List.getElem?_concat_length, Option.some.injEq] at h1
          subst h1
          exact .inl ⟨h3.symm, rfl⟩
      refine ⟨?_, fun fd' side => I_mono (fun _ h => old h) (j.obj fd' side), fun h hh => ⟨(j.hold h hh).1, fun ha => old ((j.hold h hh).2 ha)⟩, j.got⟩
      intro fd' a b h1 h2
      rcases new h1 with ⟨e, ea⟩ | h3
      · rcases new h2 with ⟨_, eb⟩ | h4
        · rw [ea, eb]
        · rw [e] at h4; exact absurd h4 (hc _ rfl hu b)
      · rcases new h2 with ⟨e, eb⟩ | h4
        · rw [e] at h3; exact absurd h3 (hc _ rfl hu a)
        · exact j.uniq fd' a b h3 h4
  | put c side x =>
    unfold step
    dsimp only
    split
    next k hk => exact J_onObj j _ _ _ (I_put (j.uniq k.fd) (c, x) (usable_some hk).1 (j.obj _ _))
    · exact j
  | hold c side tied =>
    unfold step
    dsimp only
    split
    next k hk =>
      refine ⟨j.uniq, j.obj, ?_, j.got⟩
      intro h hh
      rcases List.mem_append.1 hh with hh | hh
      · exact j.hold h hh
      · rw [List.mem_singleton] at hh; subst hh
        refine ⟨?_, fun _ => (usable_some hk).1⟩
        cases tied with
        | true => rfl
        | false => exact absurd rfl (ht.1 c side)
    · exact j
  | putHeld h x =>
    unfold step
    dsimp only
    split
    next h hk =>
      split
      next ha =>
        exact J_onObj j _ _ _ (I_put (j.uniq h.fd) (h.conn, x) ((j.hold h (List.mem_of_getElem? hk)).2 ha) (j.obj _ _))
      · exact j
    · exact j
  | get c side tied =>
    have ht : tied = true := by cases tied with
      | true => rfl
      | false => exact absurd rfl (ht.2 c side)
    subst ht
    unfold step
    dsimp only
    split
    next k hk => exact J_onObj j _ _ _ (I_start (j.uniq k.fd) (j.obj _ _) (usable_some hk).1)
    · exact j
  | getNowait c side =>
    unfold step
    dsimp only
    split
    next k hk =>
      split
      next x xs hq =>
        have j' := J_onObj j k.fd side (fun o => { o with q := Queue.getNowait o.q }) (I_getNowait (j.obj _ _))
        refine ⟨j'.uniq, j'.obj, j'.hold, ?_⟩
        intro y hy
        rcases List.mem_append.1 hy with hy | hy
        · exact j.got y hy
        · rw [List.mem_singleton] at hy; subst hy
          exact j.uniq k.fd _ _ ((j.obj k.fd side).que x (by rw [hq]; simp)) (usable_some hk).1
      · exact j
    · exact j
  | resume fd side t => exact J_onObj j _ _ _ (I_resume (j.uniq fd) t (j.obj _ _))
  | cancel fd side t => exact J_onObj j _ _ _ (I_cancel t (j.obj _ _))
  | lost c =>
    unfold step
    dsimp only
    split
    next k hk =>
      split
      · split
        · exact J_closed j hk
        · exact J_cleanup (J_closed j hk) c
      · exact j
    · exact j
  | cleanup c =>
    unfold step
    dsimp only
    split
    · split
      · exact J_cleanup j c
      · exact j
    · exact j

theorem run_snoc (m : Bool) (s : St α) (es : List (Ev α)) (e : Ev α) : run m s (es ++ [e]) = step m (run m s es) e := by
  simp [run]

theorem J_run {m : Bool} {es : List (Ev α)} (ht : Tied es) (hc : Clean m es) : J (run m {} es) := by
  induction es using snocInd with
  | h0 => exact J_init
  | h1 es e ih =>
    rw [run_snoc]
    refine J_step (ih (fun x hx => ht x (List.mem_append_left _ hx)) ?_) e (ht e (by simp)) ?_
    · intro pre fd post h
      exact hc pre fd (post ++ [e]) (by rw [h]; simp)
    · rintro fd rfl
      exact hc es fd [] rfl

/-- Without close middlewares `connection_lost` cleans up at once. -/
theorem cleanup_conns {s : St α} {c a : Nat} {z : Conn} (h : (cleanup c s).conns[a]? = some z) (hz : z.attached = true) :
    a ≠ c ∧ s.conns[a]? = some z := by
  unfold cleanup at h
  split at h
  next k hk =>
    split at h
    next ha =>
      dsimp only at h
      rcases get_set_or h with ⟨rfl, e⟩ | h1
      · subst e; cases hz
      · refine ⟨?_, h1⟩
        rintro rfl
        rw [show (onObj (onObj s k.fd false (clearObj a)) k.fd true (clearObj a)).conns = s.conns from rfl, get_set_self hk] at h
        cases h; cases hz
    next ha =>
      refine ⟨?_, h⟩
      rintro rfl
      rw [hk] at h; cases h
      exact ha hz
  next hk =>
    refine ⟨?_, h⟩
    rintro rfl
    rw [hk] at h; cases h

theorem onObj_conns (s : St α) (fd : Nat) (side : Bool) (f : Obj α → Obj α) : (onObj s fd side f).conns = s.conns := rfl

theorem open_step {s : St α} (h : ∀ (c : Nat) (k : Conn), s.conns[c]? = some k → k.attached = true → k.isOpen = true) (e : Ev α) :
    ∀ (c : Nat) (k : Conn), (step false s e).conns[c]? = some k → k.attached = true → k.isOpen = true := by
  intro a z hz ha
  cases e with
  | made fd =>
    simp only [step] at hz
    split at hz
    · exact h a z hz ha
    · by_cases hl : a < s.conns.length
      · rw [List.getElem?_append_left hl] at hz; exact h a z hz ha
      · have := lt_of_get hz
        simp only [List.length_append, List.length_singleton] at this
        have e : a = s.conns.length := by omega
        subst e
        simp only [List.getElem?_concat_length, Option.some.injEq] at hz
        subst hz; rfl
  | put c side x => simp only [step] at hz; split at hz <;> exact h a z hz ha
  | hold c side t => simp only [step] at hz; split at hz <;> exact h a z hz ha
  | putHeld i x =>
    simp only [step] at hz
    split at hz
    · split at hz <;> exact h a z hz ha
    · exact h a z hz ha
  | get c side t => simp only [step] at hz; split at hz <;> exact h a z hz ha
  | getNowait c side =>
    simp only [step] at hz
    split at hz
    · split at hz <;> exact h a z hz ha
    · exact h a z hz ha
  | resume fd side t => exact h a z hz ha
  | cancel fd side t => exact h a z hz ha
  | lost c =>
    simp only [step] at hz
    split at hz
    next k hk =>
      split at hz
      · rw [if_neg (by simp)] at hz
        obtain ⟨hn, h1⟩ := cleanup_conns hz ha
        rw [show ({ s with conns := s.conns.set c { k with isOpen := false } } : St α).conns = s.conns.set c { k with isOpen := false } from rfl,
          get_set_ne hn] at h1
        exact h a z h1 ha
      · exact h a z hz ha
    · exact h a z hz ha
  | cleanup c =>
    simp only [step] at hz
    split at hz
    · rw [if_neg (by simp)] at hz; exact h a z hz ha
    · exact h a z hz ha

theorem open_run (es : List (Ev α)) : ∀ (c : Nat) (k : Conn), (run false ({} : St α) es).conns[c]? = some k → k.attached = true → k.isOpen = true := by
  induction es using snocInd with
  | h0 => intro c k h; cases h
  | h1 es e ih => rw [run_snoc]; exact open_step ih e

theorem clean_all (es : List (Ev α)) : Clean false es := by
  rintro pre fd post - hn c ⟨k, h1, h2, h3⟩
  exact hn ⟨k, List.mem_of_getElem? h1, open_run pre c k h1 h2, h3⟩

/-! ### The order -/


def E (q : Queue.St (Nat × α)) : Prop := q.getters ≠ [] → q.queue = []
def allQ (q : Queue.St (Nat × α)) : List (Nat × α) := q.handed.map (·.2) ++ q.queue

theorem putLoop_all (x : Nat × α) : ∀ (gs : List Nat) (q : Queue.St (Nat × α)), (gs ≠ [] → q.queue = []) →
    allQ (Queue.putLoop x gs q) = allQ q ++ [x] ∧ E (Queue.putLoop x gs q)
  | [], q, _ => by
    unfold Queue.putLoop
    exact ⟨by simp [allQ], fun h => absurd rfl h⟩
  | f :: gs, q, h => by
    have hq := h (by simp)
    unfold Queue.putLoop
    split
    · exact ⟨by simp [allQ, hq, Queue.setFut], fun _ => hq⟩
    · exact putLoop_all x gs q (fun _ => hq)

theorem put_all (x : Nat × α) {q : Queue.St (Nat × α)} (h : E q) : allQ (Queue.put x q) = allQ q ++ [x] ∧ E (Queue.put x q) :=
  putLoop_all x q.getters q h

theorem tail_all (t : Nat) {q : Queue.St (Nat × α)} (h : E q) : allQ (Queue.tail t q) = allQ q ∧ E (Queue.tail t q) := by
  unfold Queue.tail
  split
  next x xs hq =>
    refine ⟨by simp [allQ, hq, Queue.setCall], fun hg => ?_⟩
    have := h hg; rw [hq] at this; cases this
  next hq => exact ⟨rfl, fun _ => hq⟩

theorem start_all {q : Queue.St (Nat × α)} (h : E q) : allQ (Queue.start q) = allQ q ∧ E (Queue.start q) := by
  unfold Queue.start
  dsimp only
  have h' : E { q with calls := q.calls ++ [.done .cancelledError] } := h
  split
  · exact tail_all _ h'
  · split
    · exact ⟨rfl, h⟩
    · exact tail_all _ h'
    · exact ⟨rfl, h⟩

theorem resume_all (t : Nat) {q : Queue.St (Nat × α)} (h : E q) : allQ (Queue.resume t q) = allQ q ∧ E (Queue.resume t q) := by
  unfold Queue.resume
  split
  · split
    · split
      · exact ⟨rfl, h⟩
      · exact tail_all _ h
    · exact ⟨rfl, h⟩
    · exact ⟨rfl, h⟩
  · split
    · split <;> exact ⟨rfl, h⟩
    · exact ⟨rfl, h⟩
    · exact ⟨rfl, h⟩
  · exact ⟨rfl, h⟩

theorem cancel_all (t : Nat) {q : Queue.St (Nat × α)} (h : E q) : allQ (Queue.cancel t q) = allQ q ∧ E (Queue.cancel t q) := by
  unfold Queue.cancel
  split
  · split <;> exact ⟨rfl, h⟩
  · split <;> exact ⟨rfl, h⟩
  · exact ⟨rfl, h⟩

theorem getNowait_all {q : Queue.St (Nat × α)} (h : E q) : allQ (Queue.getNowait q) = allQ q ∧ E (Queue.getNowait q) := by
  unfold Queue.getNowait
  split
  next x xs hq =>
    refine ⟨by simp [allQ, hq], fun hg => ?_⟩
    have := h hg; rw [hq] at this; cases this
  · exact ⟨rfl, h⟩

theorem cancels_handed (ow : List (Nat × Bool)) (c : Nat) : ∀ (ts : List Nat) (q : Queue.St (Nat × α)), (cancels ow c ts q).handed = q.handed
  | [], _ => rfl
  | t :: ts, q => by
    unfold cancels
    rw [List.foldl_cons]
    have := cancels_handed ow c ts
    unfold cancels at this
    rw [this]
    split
    · unfold Queue.cancel Queue.setFut; split <;> (try split) <;> rfl
    · rfl

theorem clear_all (c : Nat) (o : Obj α) : (∀ x ∈ allQ (clearObj c o).q, x ∈ allQ o.q) ∧ E (clearObj c o).q := by
  refine ⟨fun x hx => ?_, fun h => absurd rfl h⟩
  have e : allQ (clearObj c o).q = (cancels o.owner c (List.range o.owner.length) o.q).handed.map (·.2) := by
    simp [allQ, clearObj, Queue.clear, cancels]
  rw [e, cancels_handed] at hx
  exact List.mem_append_left _ hx

structure K (s : St α) (log : List (Nat × Bool × α)) : Prop where
  e : ∀ fd side, E (s.objs fd side).q
  tag : ∀ fd side, ∀ x ∈ allQ (s.objs fd side).q, x.1 < s.conns.length
  nolog : ∀ p ∈ log, p.1 < s.conns.length
  ord : ∀ c fd side, Attached s fd c → (allQ (s.objs fd side).q).filter (fun x => x.1 == c) =
    (log.filter fun p => p.1 == c && p.2.1 == side).map fun p => (c, p.2.2)

theorem K_init : K ({} : St α) [] where
  e := fun _ _ h => absurd rfl h
  tag := by intro fd side x hx; cases hx
  nolog := by intro p hp; cases hp
  ord := by rintro c fd side ⟨k, h, _⟩; cases h

/-- An event that puts nothing and leaves each queue's content as it is. -/
theorem K_onObj {s : St α} {log : List (Nat × Bool × α)} (i : K s log) (fd : Nat) (side : Bool) (f : Obj α → Obj α)
    (h : allQ (f (s.objs fd side)).q = allQ (s.objs fd side).q ∧ E (f (s.objs fd side)).q) : K (onObj s fd side f) log := by
  have key : ∀ fd' side', allQ ((onObj s fd side f).objs fd' side').q = allQ (s.objs fd' side').q ∧ E ((onObj s fd side f).objs fd' side').q := by
    intro fd' side'
    simp only [onObj]
    split
    next e => obtain ⟨rfl, rfl⟩ := e; exact h
    · exact ⟨rfl, i.e _ _⟩
  refine ⟨fun a b => (key a b).2, fun a b => ?_, i.nolog, fun c a b hc => ?_⟩
  · rw [(key a b).1]; exact i.tag a b
  · rw [(key a b).1]; exact i.ord c a b hc

theorem attached_lt {s : St α} {fd c : Nat} (h : Attached s fd c) : c < s.conns.length := by
  obtain ⟨k, h, _⟩ := h; exact lt_of_get h

theorem attached_fd {s : St α} {fd fd' c : Nat} (h : Attached s fd c) (h' : Attached s fd' c) : fd = fd' := by
  obtain ⟨k, h1, _, h2⟩ := h
  obtain ⟨k', h3, _, h4⟩ := h'
  rw [h1] at h3; cases h3
  exact h2.symm.trans h4

theorem K_put {s : St α} {log : List (Nat × Bool × α)} (i : K s log) {fd c : Nat} (hc : Attached s fd c) (side : Bool) (x : α) :
    K (onObj s fd side (putObj c x)) (log ++ [(c, side, x)]) := by
  have hp := put_all (c, x) (i.e fd side)
  have key : ∀ fd' side', (fd' = fd ∧ side' = side ∧ allQ ((onObj s fd side (putObj c x)).objs fd' side').q = allQ (s.objs fd' side').q ++ [(c, x)] ∧
        E ((onObj s fd side (putObj c x)).objs fd' side').q) ∨
      (¬ (fd' = fd ∧ side' = side) ∧ (onObj s fd side (putObj c x)).objs fd' side' = s.objs fd' side') := by
    intro fd' side'
    simp only [onObj]
    split
    next e => obtain ⟨rfl, rfl⟩ := e; exact .inl ⟨rfl, rfl, hp⟩
    next e => exact .inr ⟨e, rfl⟩
  refine ⟨?_, ?_, ?_, ?_⟩
  · intro a b
    rcases key a b with ⟨_, _, _, h⟩ | ⟨_, h⟩
    · exact h
    · rw [h]; exact i.e a b
  · intro a b y hy
    rcases key a b with ⟨_, _, h, _⟩ | ⟨_, h⟩
    · rw [h] at hy
      rcases List.mem_append.1 hy with hy | hy
      · exact i.tag a b y hy
      · rw [List.mem_singleton] at hy; subst hy; exact attached_lt hc
    · rw [h] at hy; exact i.tag a b y hy
  · intro p hp
    rcases List.mem_append.1 hp with hp | hp
    · exact i.nolog p hp
    · rw [List.mem_singleton] at hp; subst hp; exact attached_lt hc
  · intro c' a b hc'
    have hc' : Attached s a c' := hc'
    rw [List.filter_append, List.map_append]
    rcases key a b with ⟨rfl, rfl, h, _⟩ | ⟨hn, h⟩
    · rw [h, List.filter_append, i.ord c' a b hc']
      by_cases e : c = c'
      · subst e; simp
      · simp [e]
    · rw [h, i.ord c' a b hc']
      by_cases e : c = c'
      · subst e
        have := attached_fd hc hc'
        subst this
        have hb : b ≠ side := fun e => hn ⟨rfl, e⟩
        simp [Ne.symm hb]
      · simp [e]

theorem K_closed {s : St α} {log : List (Nat × Bool × α)} (i : K s log) {c : Nat} {k : Conn} (h : s.conns[c]? = some k) :
    K { s with conns := s.conns.set c { k with isOpen := false } } log :=
  ⟨i.e, fun fd side x hx => by simpa using i.tag fd side x hx, fun p hp => by simpa using i.nolog p hp,
    fun c' fd side hc => i.ord c' fd side ((attached_closed h).1 hc)⟩

theorem K_cleanup {s : St α} {log : List (Nat × Bool × α)} (j : J s) (i : K s log) (c : Nat) : K (cleanup c s) log := by
  unfold cleanup
  split
  next k hk =>
    split
    next ha =>
      have hc : Attached s k.fd c := ⟨k, hk, ha, rfl⟩
      have key : ∀ fd side, (fd = k.fd ∧ (onObj (onObj s k.fd false (clearObj c)) k.fd true (clearObj c)).objs fd side = clearObj c (s.objs fd side)) ∨
          (fd ≠ k.fd ∧ (onObj (onObj s k.fd false (clearObj c)) k.fd true (clearObj c)).objs fd side = s.objs fd side) := by
        intro fd side
        by_cases e : fd = k.fd
        · exact .inl ⟨e, by subst e; cases side <;> simp [onObj]⟩
        · exact .inr ⟨e, by simp [onObj, e]⟩
      dsimp only
      refine ⟨?_, ?_, fun p hp => by simpa [onObj] using i.nolog p hp, ?_⟩
      · intro fd side
        dsimp only
        rcases key fd side with ⟨_, h⟩ | ⟨_, h⟩
        · rw [h]; exact (clear_all c _).2
        · rw [h]; exact i.e fd side
      · intro fd side x hx
        dsimp only at hx
        simp only [List.length_set]
        rcases key fd side with ⟨_, h⟩ | ⟨_, h⟩
        · rw [h] at hx; exact i.tag fd side x ((clear_all c _).1 x hx)
        · rw [h] at hx; exact i.tag fd side x hx
      · intro c' fd side hc'
        have h' : Attached s fd c' := attached_mono hk (k' := { k with attached := false }) (by intro h; cases h) hc'
        dsimp only
        rcases key fd side with ⟨rfl, h⟩ | ⟨_, h⟩
        · have : c' = c := j.uniq _ _ _ h' hc
          subst this
          obtain ⟨z, h1, h2, _⟩ := hc'
          rw [show ({ onObj (onObj s k.fd false (clearObj c')) k.fd true (clearObj c') with
            conns := (onObj (onObj s k.fd false (clearObj c')) k.fd true (clearObj c')).conns.set c' { k with attached := false }
            holds := (onObj (onObj s k.fd false (clearObj c')) k.fd true (clearObj c')).holds.map fun h =>
              if h.conn = c' ∧ h.tied then { h with alive := false } else h } : St α).conns = s.conns.set c' { k with attached := false } from rfl,
            get_set_self hk] at h1
          cases h1; cases h2
        · rw [h]; exact i.ord c' fd side h'
    · exact i
  · exact i

theorem K_step {m : Bool} {s : St α} {log : List (Nat × Bool × α)} (j : J s) (i : K s log) (e : Ev α) : K (step m s e) (log ++ putBy s e) := by
  have nil : ∀ {s' : St α}, K s' log → K s' (log ++ []) := fun h => by rw [List.append_nil]; exact h
  cases e with
  | made fd =>
    refine nil ?_
    simp only [step]
    split
    · exact i
    · refine ⟨i.e, fun a b x hx => by simp only [List.length_append]; exact Nat.lt_add_right _ (i.tag a b x hx),
        fun p hp => by simp only [List.length_append]; exact Nat.lt_add_right _ (i.nolog p hp), ?_⟩
      rintro c fd' side ⟨z, h1, h2, h3⟩
      by_cases ha : c < s.conns.length
      · refine i.ord c fd' side ⟨z, ?_, h2, h3⟩
        rw [List.getElem?_append_left ha] at h1; exact h1
      · rw [List.filter_eq_nil_iff.2, List.filter_eq_nil_iff.2]
        · rfl
        · intro p hp
          have := i.nolog p hp
          simp only [Bool.and_eq_true, beq_iff_eq, not_and]; omega
        · intro x hx
          have := i.tag fd' side x hx
          simp only [beq_iff_eq]; omega
  | put c side x =>
    simp only [step]
    cases hk : usable s c with
    | some k =>
      obtain ⟨h1, h2, h3⟩ := usable_some hk
      obtain ⟨z, h4, h5, _⟩ := h1
      rw [h2] at h4; cases h4
      have : putBy s (.put c side x) = [(c, side, x)] := by simp [putBy, h2, h3, h5]
      rw [this]
      exact K_put i (usable_some hk).1 side x
    | none =>
      have : putBy s (.put c side x) = [] := by
        unfold usable at hk
        simp only [putBy]
        split
        next k h => rw [h] at hk; dsimp only at hk; split at hk
                    · cases hk
                    next hn => rw [if_neg hn]
        · rfl
      rw [this]; exact nil i
  | hold c side t =>
    refine nil ?_
    simp only [step]
    split
    · exact ⟨i.e, i.tag, i.nolog, i.ord⟩
    · exact i
  | putHeld h x =>
    simp only [step, putBy]
    cases hk : s.holds[h]? with
    | some h =>
      dsimp only
      by_cases ha : h.alive = true
      · rw [if_pos ha, if_pos ha]
        exact K_put i ((j.hold h (List.mem_of_getElem? hk)).2 ha) h.side x
      · rw [if_neg ha, if_neg ha]; exact nil i
    | none => exact nil i
  | get c side t =>
    refine nil ?_
    simp only [step]
    split
    · exact K_onObj i _ _ _ (start_all (i.e _ _))
    · exact i
  | getNowait c side =>
    refine nil ?_
    simp only [step]
    split
    next k hk =>
      split
      · have h := K_onObj i k.fd side (fun o => { o with q := Queue.getNowait o.q }) (getNowait_all (i.e _ _))
        exact ⟨h.e, h.tag, h.nolog, h.ord⟩
      · exact i
    · exact i
  | resume fd side t => exact nil (K_onObj i _ _ _ (resume_all t (i.e _ _)))
  | cancel fd side t => exact nil (K_onObj i _ _ _ (cancel_all t (i.e _ _)))
  | lost c =>
    refine nil ?_
    simp only [step]
    split
    next k hk =>
      split
      · split
        · exact K_closed i hk
        · exact K_cleanup (J_closed j hk) (K_closed i hk) c
      · exact i
    · exact i
  | cleanup c =>
    refine nil ?_
    simp only [step]
    split
    · split
      · exact K_cleanup j i c
      · exact i
    · exact i

theorem puts_snoc (m : Bool) (e : Ev α) : ∀ (es : List (Ev α)) (s : St α), puts m s (es ++ [e]) = puts m s es ++ putBy (run m s es) e
  | [], s => by simp [puts, run]
  | a :: es, s => by
    simp only [List.cons_append, puts, puts_snoc m e es, List.append_assoc]
    rfl

theorem clean_init {m : Bool} {es : List (Ev α)} {e : Ev α} (h : Clean m (es ++ [e])) : Clean m es :=
  fun pre fd post he => h pre fd (post ++ [e]) (by rw [he]; simp)

theorem K_run {m : Bool} {es : List (Ev α)} (ht : Tied es) (hc : Clean m es) : K (run m {} es) (puts m {} es) := by
  induction es using snocInd with
  | h0 => exact K_init
  | h1 es e ih =>
    have ht' : Tied es := fun x hx => ht x (List.mem_append_left _ hx)
    rw [run_snoc, puts_snoc]
    exact K_step (J_run ht' (clean_init hc)) (ih ht' (clean_init hc)) e

end WorkerProofs

open WorkerProofs
variable {α : Type}

/-- C50, partial: as long as no descriptor is given out again before the connection that had it is cleaned up, and only
tasks that `connection_lost` cancels wait on the queues or in `put_to_queue`, a connection is given only what its own
tasks put. What is missing: with close middlewares the descriptor can be given out too early (`C50_refuted_close`), and a
task that the application makes is not cancelled (`C50_refuted_task`). -/
theorem C50_partial {closeMw : Bool} {es : List (Ev α)} (ht : Tied es) (hc : Clean closeMw es) {c : Nat} {x : Nat × α}
    (h : Given (run closeMw {} es) c x) : x.1 = c := by
  have j := J_run ht hc
  rcases h with ⟨fd, side, t, b, h1, h2⟩ | ⟨side, h⟩
  · have := (j.obj fd side).got t x h1
    rw [h2] at this; cases this; rfl
  · exact j.got _ h

/-- Without close middlewares no descriptor is ever given out too early: isolation holds for every history. -/
theorem C50_without_partial {es : List (Ev α)} (ht : Tied es) {c : Nat} {x : Nat × α} (h : Given (run false {} es) c x) : x.1 = c :=
  C50_partial ht (clean_all es) h

/-- The queues that a connection is given are empty, so that it is never aborted for an "uncleaned queue" (82-85). -/
theorem C50_empty {closeMw : Bool} {es : List (Ev α)} (ht : Tied es) (hc : Clean closeMw es) {fd : Nat}
    (hu : ¬ InUse (run closeMw {} es) fd) (hc' : Clean closeMw (es ++ [.made fd])) :
    (∀ side, ((run closeMw ({} : St α) es).objs fd side).q.queue = []) ∧
    (run closeMw ({} : St α) (es ++ [.made fd])).conns = (run closeMw ({} : St α) es).conns ++ [{ fd := fd }] := by
  have j := J_run ht hc
  have he : ∀ side, ((run closeMw ({} : St α) es).objs fd side).q.queue = [] := by
    intro side
    cases hq : ((run closeMw ({} : St α) es).objs fd side).q.queue with
    | nil => rfl
    | cons x xs => exact absurd ((j.obj fd side).que x (by rw [hq]; simp)) (hc' es fd [] rfl hu _)
  refine ⟨he, ?_⟩
  rw [run_snoc]
  simp only [step]
  rw [if_neg]
  · rw [he false]; rfl
  · intro h
    obtain ⟨k, h1, h2⟩ := List.any_eq_true.1 h
    simp only [Bool.and_eq_true, beq_iff_eq] at h2
    exact hu ⟨k, h1, h2.1, h2.2⟩

/-- What a connection has put is handed over in the order in which it was put, and nothing of it is lost or doubled: what
was handed over, followed by what still waits, is what was put. -/
theorem C50_order {closeMw : Bool} {es : List (Ev α)} (ht : Tied es) (hc : Clean closeMw es) {c fd : Nat}
    (ha : Attached (run closeMw {} es) fd c) (side : Bool) :
    (((((run closeMw ({} : St α) es).objs fd side).q.handed.map (·.2)).filter fun x => x.1 == c) ++
      ((run closeMw ({} : St α) es).objs fd side).q.queue).map (·.2) = putsOf closeMw es c side := by
  have j := J_run ht hc
  have k := (K_run ht hc).ord c fd side ha
  have hq : (((run closeMw ({} : St α) es).objs fd side).q.queue).filter (fun x => x.1 == c) = ((run closeMw ({} : St α) es).objs fd side).q.queue := by
    rw [List.filter_eq_self]
    intro x hx
    rw [beq_iff_eq]
    exact j.uniq fd _ _ ((j.obj fd side).que x hx) ha
  unfold allQ at k
  rw [List.filter_append, hq] at k
  rw [k]
  simp [putsOf, List.map_map, Function.comp_def]

/-- Not vacuous: three clients, one after the other and side by side; the second has the descriptor of the first. -/
def serving : List (Ev Nat) :=
  [.made 7, .get 0 true true, .made 8, .put 0 true 10, .resume 7 true 0, .put 1 true 20, .get 1 true true, .hold 0 true true,
   .putHeld 0 11, .lost 0, .made 7, .putHeld 0 12, .get 2 true true, .put 2 true 30, .resume 7 true 1]
example : ((run false {} serving).objs 7 true).q.calls = [.done (.got (0, 10)), .done (.got (2, 30))] ∧
    ((run false {} serving).objs 8 true).q.calls = [.done (.got (1, 20))] ∧ ((run false {} serving).objs 7 true).owner = [(0, true), (2, true)] := by
  decide +kernel
example : Tied serving := by
  intro e he
  simp only [serving, List.mem_cons, List.not_mem_nil, or_false] at he
  rcases he with rfl | rfl | rfl | rfl | rfl | rfl | rfl | rfl | rfl | rfl | rfl | rfl | rfl | rfl | rfl <;>
    exact ⟨fun _ _ h => (by cases h), fun _ _ h => (by cases h)⟩
example : putsOf false serving 2 true = [30] ∧ putsOf false serving 0 true = [10, 11] := by decide +kernel

/-- C50 does not hold with close middlewares: while they run, the queues are still those of the connection that is gone,
and what its handler goes on writing is sent to the next client with the same descriptor. -/
theorem C50_refuted_close : ∃ es : List (Ev Nat), Tied es ∧ Given (run true {} es) 1 (0, 5) := by
  refine ⟨[.made 7, .get 0 true true, .lost 0, .made 7, .get 1 true true, .put 0 true 4, .resume 7 true 0, .resume 7 true 1,
    .put 0 true 5, .resume 7 true 1], ?_, .inl ⟨7, true, 1, true, by decide +kernel, by decide +kernel⟩⟩
  intro e he
  simp only [List.mem_cons, List.not_mem_nil, or_false] at he
  rcases he with rfl | rfl | rfl | rfl | rfl | rfl | rfl | rfl | rfl | rfl <;> exact ⟨fun _ _ h => (by cases h), fun _ _ h => (by cases h)⟩

/-- Nor the other way round: what is written to the new client is taken by the task that sends to the old one. -/
theorem C50_refuted_taken : ∃ es : List (Ev Nat), Tied es ∧ Given (run true {} es) 0 (1, 5) := by
  refine ⟨[.made 7, .get 0 true true, .lost 0, .made 7, .put 1 true 5, .resume 7 true 0], ?_,
    .inl ⟨7, true, 0, true, by decide +kernel, by decide +kernel⟩⟩
  intro e he
  simp only [List.mem_cons, List.not_mem_nil, or_false] at he
  rcases he with rfl | rfl | rfl | rfl | rfl | rfl <;> exact ⟨fun _ _ h => (by cases h), fun _ _ h => (by cases h)⟩

/-- The body that the new client sends is read by the handler of the old one. -/
theorem C50_refuted_read : ∃ es : List (Ev Nat), Tied es ∧ Given (run true {} es) 0 (1, 5) ∧
    ∀ e ∈ es, (∀ x, e ≠ .put 0 true x) ∧ ∀ x, e ≠ .put 1 true x := by
  refine ⟨[.made 7, .get 0 false true, .lost 0, .made 7, .put 1 false 5, .resume 7 false 0], ?_,
    .inl ⟨7, false, 0, true, by decide +kernel, by decide +kernel⟩, ?_⟩
  · intro e he
    simp only [List.mem_cons, List.not_mem_nil, or_false] at he
    rcases he with rfl | rfl | rfl | rfl | rfl | rfl <;> exact ⟨fun _ _ h => (by cases h), fun _ _ h => (by cases h)⟩
  · intro e he
    simp only [List.mem_cons, List.not_mem_nil, or_false] at he
    rcases he with rfl | rfl | rfl | rfl | rfl | rfl <;> exact ⟨fun _ h => (by cases h), fun _ h => (by cases h)⟩

/-- When the close middlewares are through, the queues of the new client are cleared with its own future in them: nothing
that is written to it afterwards is ever sent. -/
theorem C50_refuted_stuck (xs : List Nat) :
    let s := run true {} ([.made 7, .lost 0, .made 7, .get 1 true true, .cleanup 0] ++ xs.map fun x => Ev.put 1 true x)
    (s.objs 7 true).q.calls = [.own 0] ∧ (s.objs 7 true).q.futs = [(0, .pending)] ∧ (s.objs 7 true).q.queue = xs.map fun x => (1, x) := by
  have h : ∀ xs : List Nat,
      let s := run true {} ([.made 7, .lost 0, .made 7, .get 1 true true, .cleanup 0] ++ xs.map fun x => Ev.put 1 true x)
      (s.objs 7 true).q.calls = [.own 0] ∧ (s.objs 7 true).q.futs = [(0, .pending)] ∧ (s.objs 7 true).q.queue = (xs.map fun x => (1, x)) ∧
      (s.objs 7 true).q.getters = [] ∧ usable s 1 = some { fd := 7 } := by
    intro xs
    induction xs using snocInd with
    | h0 => exact ⟨by decide +kernel, by decide +kernel, by decide +kernel, by decide +kernel, by decide +kernel⟩
    | h1 xs x ih =>
      dsimp only at ih ⊢
      rw [List.map_append, ← List.append_assoc]
      simp only [List.map_cons, List.map_nil]
      rw [run_snoc]
      generalize run true {} _ = s at ih ⊢
      obtain ⟨h1, h2, h3, h4, h5⟩ := ih
      have e : step true s (.put 1 true x) = onObj s 7 true (putObj 1 x) := by simp only [step, h5]
      rw [e]
      have e2 : (onObj s 7 true (putObj 1 x)).objs 7 true = putObj 1 x (s.objs 7 true) := by simp [onObj]
      rw [e2]
      refine ⟨?_, ?_, ?_, ?_, ?_⟩
      · simp only [putObj, Queue.put, h4, Queue.putLoop]; exact h1
      · simp only [putObj, Queue.put, h4, Queue.putLoop]; exact h2
      · simp only [putObj, Queue.put, h4, Queue.putLoop, h3]; simp
      · simp only [putObj, Queue.put, h4, Queue.putLoop]
      · exact h5
  exact ⟨(h xs).1, (h xs).2.1, (h xs).2.2.1⟩

/-- C50 does not hold without close middlewares either, if the application sends from a task of its own: `put_to_queue`
goes on with the queue object it was given, which is the next client's. -/
theorem C50_refuted_task : ∃ es : List (Ev Nat), Given (run false {} es) 1 (0, 5) :=
  ⟨[.made 7, .hold 0 true false, .lost 0, .made 7, .get 1 true true, .putHeld 0 5, .resume 7 true 0],
    .inl ⟨7, true, 0, true, by decide +kernel, by decide +kernel⟩⟩

/-- `connection_made` looks at `queue[0]` twice (82), so that what such a task left in `queue[1]` is not noticed and is sent
to the next client; what it left in `queue[0]` has that client's connection aborted. -/
theorem C50_refuted_unseen :
    (∃ es : List (Ev Nat), ((run false {} es).objs 7 true).q.queue ≠ [] ∧
      (run false {} (es ++ [.made 7])).conns[1]? = some { fd := 7 } ∧ Given (run false {} (es ++ [.made 7, .get 1 true true])) 1 (0, 5)) ∧
    ∃ es : List (Ev Nat), (run false {} (es ++ [.made 7])).conns[1]? = some { fd := 7, live := false } :=
  ⟨⟨[.made 7, .hold 0 true false, .lost 0, .putHeld 0 5], by decide +kernel, by decide +kernel,
      .inl ⟨7, true, 0, true, by decide +kernel, by decide +kernel⟩⟩,
    [.made 7, .hold 0 false false, .lost 0, .putHeld 0 5], by decide +kernel⟩

end Verif
