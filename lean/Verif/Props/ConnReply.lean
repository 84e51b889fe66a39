import Verif.Props.ConnLive
/-!
# C90: each response goes out behind the one before it
-/
namespace Verif
open Verif.Py Verif.Model.Conn Conn Flow

namespace Reply

/-- What the handler of request `k` queues while it runs, in order; a marker is the end of a response `100 Continue`. -/
def items (k : Nat) (es : List Ev) : List Item :=
  es.filterMap (fun | .emit j b => if j = k then some (some b) else none | .mark j _ => if j = k then some none else none | _ => none)

def marks (l : List Item) : Nat := l.countP Option.isNone

/-- The bytes that the handler of request `k` queues. -/
def emitted (k : Nat) (es : List Ev) : Bytes := ((items k es).map (·.getD [])).flatten

/-- A handler queues bytes only while it runs, and it ends with completing its response. -/
def own (s : St) : Ev → Prop
  | .emit k _ => k ∈ s.running
  | .finish _ => False
  | _ => True

def Own (c : Cfg) : St → List Ev → Prop
  | _, [] => True
  | s, e :: es => own s e ∧ Own c (step c s e) es

theorem items_snoc (k : Nat) (es : List Ev) (e : Ev) : items k (es ++ [e]) = items k es ++ items k [e] := by simp [items]

/-- The requests whose handlers have started. -/
def ks (s : St) : List Nat := s.started.map (·.1)

/-- What is queued when the handlers `l` have started and `run` are running. -/
def due (es : List Ev) (l run : List Nat) : List Item := l.flatMap (fun k => items k es ++ if k ∈ run then [] else [none])

/-- What the head of a request says; nothing changes it later. -/
def ident (q : Rq) : Bytes × Bytes × Bytes × Model.HttpParser.HDict := (q.req.method, q.req.url, q.req.version, q.req.headers)

/-- The request object `k` was made from the head `raw`. -/
def Known (s : St) (k : Nat) (raw : Bytes) : Prop :=
  ∃ data n r, Spec.Head.FirstBlank data (n - 2) ∧ 2 ≤ n ∧ raw = data.take (n + 2) ∧ Model.Head.acceptData data n = .ok r ∧
    (s.reqs[k]?).map ident = some (ident { req := r })

structure J (es : List Ev) (s : St) : Prop where
  queued : s.queued = due es (ks s) s.running
  nodup : (ks s).Nodup
  old : ∀ k ∈ ks s, k < s.reqs.length
  feeds : ∀ f k raw, HTask.feeding f k raw ∈ s.heads → k < s.reqs.length ∧ k ∉ ks s
  mine : ∀ k, items k es ≠ [] → k ∈ ks s
  run : ∀ k ∈ s.running, k ∈ ks s
  marks : ∀ k ∈ s.running, Reply.marks s.q1 ≤ Reply.marks (items k es)
  known : ∀ k raw, ((k, raw) ∈ s.started ∨ ∃ f, HTask.feeding f k raw ∈ s.heads) → Known s k raw

/-- Nothing that `J` is about changes. -/
structure Still (s s' : St) : Prop where
  queued : s'.queued = s.queued
  started : s'.started = s.started
  running : s'.running = s.running
  reqs : s.reqs.length ≤ s'.reqs.length
  marks : Reply.marks s'.q1 ≤ Reply.marks s.q1
  same : ∀ k : Nat, k < s.reqs.length → (s'.reqs[k]?).map ident = (s.reqs[k]?).map ident
  feeds : ∀ f k raw, HTask.feeding f k raw ∈ s'.heads → ∃ f', HTask.feeding f' k raw ∈ s.heads

theorem Still.refl (s : St) : Still s s := ⟨rfl, rfl, rfl, Nat.le_refl _, Nat.le_refl _, fun _ _ => rfl, fun f _ _ h => ⟨f, h⟩⟩
theorem Still.trans {a b c : St} (h : Still a b) (h' : Still b c) : Still a c :=
  ⟨h'.queued.trans h.queued, h'.started.trans h.started, h'.running.trans h.running, Nat.le_trans h.reqs h'.reqs, Nat.le_trans h'.marks h.marks, fun k hk => (h'.same k (Nat.lt_of_lt_of_le hk h.reqs)).trans (h.same k hk),
    fun f k raw hx => (by obtain ⟨f', h1⟩ := h'.feeds f k raw hx; exact h.feeds f' k raw h1)⟩
theorem still_of {s s' : St} (h1 : s'.queued = s.queued) (h2 : s'.log = s.log) (h3 : s'.running = s.running) (h4 : s'.reqs = s.reqs)
    (h5 : s'.heads = s.heads) (h6 : s'.q1 = s.q1 := by rfl) : Still s s' :=
  ⟨h1, by unfold St.started; rw [h2], h3, by rw [h4]; exact Nat.le_refl _, by rw [h6]; exact Nat.le_refl _, fun _ _ => (by rw [h4]), fun f k raw h => ⟨f, by rw [← h5]; exact h⟩⟩

theorem still_set {s : St} {k : Nat} {q q' : Rq} (hq : s.reqs[k]? = some q) (hi : ident q' = ident q) : Still s { s with reqs := s.reqs.set k q' } := by
  obtain ⟨hl, _⟩ := List.getElem?_eq_some_iff.1 hq
  refine ⟨rfl, rfl, rfl, by simp, Nat.le_refl _, fun j _ => ?_, fun f _ _ h => ⟨f, h⟩⟩
  by_cases hj : j = k
  · subst hj
    show ((s.reqs.set j q')[j]?).map ident = _
    rw [List.getElem?_set_self hl, hq, Option.map_some, Option.map_some, hi]
  · show ((s.reqs.set k q')[j]?).map ident = _
    rw [List.getElem?_set_ne (Ne.symm hj)]
theorem still_setReq (k : Nat) (f : Rq → Rq) (s : St) (hf : ∀ q, ident (f q) = ident q := by intro q; rfl) : Still s (setReq k f s) := by
  unfold setReq; split
  · next q hq => exact still_set hq (hf q)
  · exact .refl _
theorem still_close (s : St) : Still s (close s) := by
  unfold close; split
  · exact .refl _
  · exact still_of rfl rfl rfl rfl rfl
theorem still_put0 (x : Item) (s : St) : Still s (put0 x s) := still_of rfl rfl rfl rfl rfl

theorem still_account {c : Cfg} {n : Nat} {s : St} (h : (account c n s).tooLarge = false) : Still s (account c n s) := by
  revert h
  unfold account
  split
  · intro _; exact .refl _
  · next k _ =>
    split
    · intro _; exact .refl _
    · next r hr =>
      split
      · intro _; exact still_of rfl rfl rfl rfl rfl
      · dsimp only
        have h0 : Still s { s with reqs := s.reqs.set k { r with bodySize := r.bodySize + n } } := still_set hr rfl
        split
        · intro _; exact h0.trans (still_put0 _ _)
        · split
          · intro _; exact h0.trans (still_of rfl rfl rfl rfl rfl)
          · intro h; cases h

theorem still_feed {c : Cfg} {bs : Nat} {f : Feed} {s : St} (h : (feed c bs f s).1.tooLarge = false) : Still s (feed c bs f s).1 := by
  revert h
  unfold feed
  split
  · exact still_account
  · dsimp only; split <;> intro _ <;> exact still_of rfl rfl rfl rfl rfl

theorem still_data (c : Cfg) (d : Bytes) (s : St) : Still s (dataReceived c d s) := by
  rcases data_cases c d s with ⟨_, e⟩ | ⟨_, _, e⟩ | ⟨buf, _, hb, ⟨n, _, _, e⟩ | e | ⟨_, e⟩⟩ <;> rw [e]
  · exact .refl _
  · exact still_of rfl rfl rfl rfl rfl
  · refine ⟨rfl, rfl, rfl, Nat.le_refl _, Nat.le_refl _, fun _ _ => rfl, fun f k raw h => ⟨f, ?_⟩⟩
    simpa using h
  · exact still_of rfl rfl rfl rfl rfl
  · exact still_of rfl rfl rfl rfl rfl

theorem still_drain (c : Cfg) : ∀ (l : List Item) (s : St), Still s (drain c l s)
  | [], s => .refl s
  | x :: l, s => (still_data c (x.getD []) s).trans (still_drain c l _)

theorem still_reading {s s' : St} (h : Still s s') : Still s { s' with reading := true } := h.trans (still_of rfl rfl rfl rfl rfl)

theorem still_keep (c : Cfg) (k : Nat) (r : Rq) (s : St) : Still s (handleKeepalive c k r s) := by
  unfold handleKeepalive
  dsimp only
  have h0 : Still s { s with registered := s.registered || s.first } := still_of rfl rfl rfl rfl rfl
  split
  · exact h0.trans (still_close _)
  · refine still_reading ?_
    split
    · exact h0.trans (still_setReq _ _ _)
    · split
      · split
        · exact still_of rfl rfl rfl rfl rfl
        · exact h0.trans (still_close _)
      · have hr : ∀ s1, Still s1 (reset k s1) := fun s1 => (still_setReq k _ s1).trans (still_of rfl rfl rfl rfl rfl)
        split
        · exact h0.trans (hr _)
        · exact (h0.trans (hr _)).trans (.trans (b := { (reset k { s with registered := s.registered || s.first }) with q0 := [] }) (still_of rfl rfl rfl rfl rfl) (still_drain c _ _))

theorem still_send (c : Cfg) (s : St) : Still s (sendStep c s) := by
  unfold sendStep
  split
  · exact .refl _
  · split
    · exact .refl _
    · next x q hq =>
      have h0 : Still s { s with q1 := q, sent := s.sent ++ [x] } :=
        ⟨rfl, rfl, rfl, Nat.le_refl _, by rw [hq]; unfold Reply.marks; rw [List.countP_cons]; exact Nat.le_add_right _ _, fun _ _ => rfl, fun f _ _ h => ⟨f, h⟩⟩
      cases x with
      | some b =>
        dsimp only
        split
        · exact h0
        · exact h0.trans (still_of rfl rfl rfl rfl rfl)
      | none =>
        dsimp only
        refine h0.trans ?_
        generalize { s with q1 := q, sent := s.sent ++ [none] } = s1
        unfold marker
        split
        · exact (still_close _).trans (still_of rfl rfl rfl rfl rfl)
        · split
          · exact .refl _
          · split
            · exact still_keep _ _ _ _
            · exact ((still_setReq _ _ _).trans (still_close _)).trans (still_of rfl rfl rfl rfl rfl)

theorem still_recvStep {c : Cfg} {i : Nat} {s : St} (hg : Good (recvStep c i s)) : Still s (recvStep c i s) := by
  have fin : ∀ f, Good (recvFed i (feed c c.bufferSize f s)) → Still s (recvFed i (feed c c.bufferSize f s)) := by
    intro f hg
    have ht : (feed c c.bufferSize f s).1.tooLarge = false := by
      have := hg.1
      revert this
      generalize feed c c.bufferSize f s = p
      rcases p with ⟨a, _ | b⟩ <;> exact id
    have hs := still_feed ht
    revert hs
    generalize feed c c.bufferSize f s = p
    intro hs
    rcases p with ⟨q, _ | o⟩
    · exact hs.trans (still_of rfl rfl rfl rfl rfl)
    · exact hs.trans (still_of rfl rfl rfl rfl rfl)
  revert hg
  unfold recvStep
  split
  · split
    · exact fin _
    · intro _; exact .refl _
  · exact fin _
  · intro _; exact .refl _

theorem Known.still {s s' : St} {k : Nat} {raw : Bytes} (h : Known s k raw) (hs : Still s s') (hk : k < s.reqs.length) : Known s' k raw := by
  obtain ⟨d, n, r, h1, h2, h3, h4, h5⟩ := h
  exact ⟨d, n, r, h1, h2, h3, h4, (hs.same k hk).trans h5⟩

theorem J.known_still {es : List Ev} {s s' : St} (j : J es s) (h : Still s s') {k : Nat} {raw : Bytes}
    (hx : (k, raw) ∈ s'.started ∨ ∃ f, HTask.feeding f k raw ∈ s'.heads) : Known s' k raw := by
  rcases hx with hx | ⟨f, hx⟩
  · rw [h.started] at hx
    exact (j.known k raw (.inl hx)).still h (j.old k (List.mem_map.2 ⟨_, hx, rfl⟩))
  · obtain ⟨f', hf⟩ := h.feeds f k raw hx
    exact (j.known k raw (.inr ⟨f', hf⟩)).still h (j.feeds f' k raw hf).1

theorem J.still {es : List Ev} {e : Ev} {s s' : St} (j : J es s) (h : Still s s') (he : ∀ k, items k [e] = []) : J (es ++ [e]) s' := by
  have hk : ks s' = ks s := by unfold ks; rw [h.started]
  have hi : ∀ k, items k (es ++ [e]) = items k es := fun k => by rw [items_snoc, he, List.append_nil]
  refine ⟨?_, by rw [hk]; exact j.nodup, ?_, ?_, ?_, ?_, ?_, ?_⟩
  · rw [h.queued, j.queued, hk, h.running]; unfold due; simp only [hi]
  · rw [hk]; exact fun k hx => Nat.lt_of_lt_of_le (j.old k hx) h.reqs
  · rw [hk]; intro f k raw hx
    obtain ⟨f', hf⟩ := h.feeds f k raw hx
    exact ⟨Nat.lt_of_lt_of_le (j.feeds f' k raw hf).1 h.reqs, (j.feeds f' k raw hf).2⟩
  · intro k hx; rw [hi] at hx; rw [hk]; exact j.mine k hx
  · rw [hk, h.running]; exact j.run
  · rw [h.running]; intro k hx; rw [hi]; exact Nat.le_trans h.marks (j.marks k hx)
  · exact fun k raw hx => j.known_still h hx

theorem due_congr {es es' : List Ev} {l run run' : List Nat} (h : ∀ k ∈ l, items k es' = items k es) (hr : ∀ k ∈ l, k ∈ run' ↔ k ∈ run) : due es' l run' = due es l run := by
  induction l with
  | nil => rfl
  | cons a l ih =>
    have ih := ih (fun k hk => h k (by simp [hk])) (fun k hk => hr k (by simp [hk]))
    unfold due at ih ⊢
    rw [List.flatMap_cons, List.flatMap_cons, ih, h a (by simp)]
    by_cases hx : a ∈ run
    · rw [if_pos hx, if_pos ((hr a (by simp)).2 hx)]
    · rw [if_neg hx, if_neg (fun y => hx ((hr a (by simp)).1 y))]

theorem due_snoc (es : List Ev) (l : List Nat) (k : Nat) (run : List Nat) : due es (l ++ [k]) run = due es l run ++ (items k es ++ if k ∈ run then [] else [none]) := by
  simp [due]

theorem started_snoc {s s' : St} {k : Nat} {raw : Bytes} (h : s'.log = s.log ++ [.head k raw]) : ks s' = ks s ++ [k] := by
  unfold ks St.started
  rw [h, List.filterMap_append, List.map_append]; rfl

/-- A head begins: `p` is `s` after queueing a piece, or `s` itself with a new request. -/
theorem J.fed {es : List Ev} {e : Ev} {s s1 : St} {i k : Nat} {raw : Bytes} {x : HTask} {p : St × Option Feed} (j : J es s) (hl : load s ≤ 1)
    (hx : s.heads[i]? = some x) (hb : busy x = true) (h : Still s s1) (h1 : s1.heads = s.heads) (hk : k < s1.reqs.length) (hn : k ∉ ks s) (hkn : Known s1 k raw) (hp : Still s1 p.1) (hp2 : p.1.heads = s1.heads) (he : ∀ k, items k [e] = []) :
    J (es ++ [e]) (Model.Conn.fed i k raw p) := by
  obtain ⟨q, o⟩ := p
  dsimp only at hp hp2
  have hq : Still s q := h.trans hp
  have hrun : s.running = [] := by
    have : 0 < s.heads.countP busy := List.countP_pos_iff.2 ⟨x, List.mem_of_getElem? hx, hb⟩
    unfold load at hl
    exact List.eq_nil_of_length_eq_zero (by omega)
  have oth := (others hl hx hb).1
  have jq := j.still hq he
  have hkq : ks q = ks s := by unfold ks; rw [hq.started]
  have hi : ∀ k, items k (es ++ [e]) = items k es := fun k => by rw [items_snoc, he, List.append_nil]
  cases o with
  | some f =>
    simp only [Model.Conn.fed]
    refine ⟨jq.queued, jq.nodup, jq.old, fun f' k' raw' hm => ?_, jq.mine, jq.run, jq.marks, fun k' raw' hx => ?_⟩
    · dsimp only at hm
      rcases List.mem_or_eq_of_mem_set hm with hm | hm
      · exact jq.feeds f' k' raw' hm
      · cases hm
        refine ⟨Nat.lt_of_lt_of_le hk hp.reqs, ?_⟩
        show k ∉ ks q
        rw [hkq]; exact hn
    · show Known q k' raw'
      rcases hx with hx | ⟨f', hx⟩
      · exact jq.known k' raw' (.inl hx)
      · dsimp only at hx
        rcases List.mem_or_eq_of_mem_set hx with hx | hx
        · exact jq.known k' raw' (.inr ⟨f', hx⟩)
        · cases hx; exact hkn.still hp hk
  | none =>
    simp only [Model.Conn.fed, begin]
    have hst : ∀ s' : St, s'.log = q.log ++ [.head k raw] → ks s' = ks s ++ [k] := by
      intro s' hs'
      rw [started_snoc hs', hkq]
    have e1 := hst { q with futDone := if q.first || q.gen > 0 then q.futDone.set q.gen true else q.futDone, running := q.running ++ [k], log := q.log ++ [.head k raw], heads := q.heads.set i (.handling k) } rfl
    have hno : items k (es ++ [e]) = [] := by
      rw [hi]; exact Classical.byContradiction (fun hne => hn (j.mine k hne))
    have noFeed : ∀ f' k' raw', HTask.feeding f' k' raw' ∉ q.heads.set i (.handling k) := by
      intro f' k' raw' hm
      rw [hp2, h1] at hm
      obtain ⟨n, hn1, hn2⟩ := List.getElem_of_mem hm
      rw [List.getElem_set] at hn2
      split at hn2
      · cases hn2
      · next hne =>
        have := oth n _ (List.getElem?_eq_some_iff.2 ⟨by simpa using hn1, hn2⟩) (fun hx => hne hx.symm)
        simp [busy] at this
    refine ⟨?_, ?_, ?_, ?_, ?_, ?_, ?_, ?_⟩
    · rw [e1, due_snoc, hno]
      dsimp only
      rw [hq.running, hrun, hq.queued, j.queued, hrun]
      simp only [List.nil_append, List.mem_singleton, if_true, List.append_nil]
      refine (due_congr (fun k' _ => (hi k')) (fun k' hk' => ?_)).symm
      simp only [List.mem_singleton, List.not_mem_nil, iff_false]
      exact fun hx => hn (hx ▸ hk')
    · rw [e1]
      exact List.nodup_append.2 ⟨j.nodup, by simp, fun a ha b hb => by simp at hb; subst hb; exact fun hx => hn (hx ▸ ha)⟩
    · rw [e1]; intro k' hk'
      rcases List.mem_append.1 hk' with h' | h'
      · exact Nat.lt_of_lt_of_le (j.old k' h') hq.reqs
      · simp at h'; subst h'; exact Nat.lt_of_lt_of_le hk hp.reqs
    · exact fun f' k' raw' hm => (noFeed f' k' raw' hm).elim
    · rw [e1]; intro k' hk'
      rw [hi] at hk'
      exact List.mem_append_left _ (j.mine k' hk')
    · rw [e1]; dsimp only
      rw [hq.running, hrun]
      intro k' hk'
      simp at hk'; subst hk'; simp
    · intro k' _
      have h0 : Reply.marks s.q1 = 0 := by
        have : 0 < s.heads.countP busy := List.countP_pos_iff.2 ⟨x, List.mem_of_getElem? hx, hb⟩
        unfold load at hl; unfold Reply.marks; omega
      have := hq.marks
      show Reply.marks q.q1 ≤ _
      omega
    · intro k' raw' hx
      show Known q k' raw'
      rcases hx with hx | ⟨f', hx⟩
      · have hs : ∀ s' : St, s'.log = q.log ++ [.head k raw] → s'.started = q.started ++ [(k, raw)] := by
          intro s' h'
          unfold St.started
          rw [h', List.filterMap_append]; rfl
        rw [hs _ rfl] at hx
        rcases List.mem_append.1 hx with hx | hx
        · exact jq.known k' raw' (.inl hx)
        · simp at hx; obtain ⟨rfl, rfl⟩ := hx
          exact hkn.still hp hk
      · exact (noFeed f' k' raw' hx).elim

theorem lastHead_ks {s : St} {k : Nat} (h : lastHead s.log = some k) : ∃ l, ks s = l ++ [k] := by
  generalize hl : s.log = l at h
  induction l using snocInd generalizing s with
  | h0 => cases h
  | h1 l a ih =>
    cases a with
    | head j raw => rw [lastHead_head] at h; cases h; exact ⟨_, started_snoc (s := { s with log := l }) hl⟩
    | body j x =>
      rw [lastHead_body] at h
      obtain ⟨l', e⟩ := ih (s := { s with log := l }) rfl h
      refine ⟨l', Eq.trans ?_ e⟩
      unfold ks St.started
      rw [hl, List.filterMap_append]
      simp

theorem feed_heads {c : Cfg} {bs : Nat} {f : Feed} {s : St} (h : (feed c bs f s).1.tooLarge = false) : (feed c bs f s).1.heads = s.heads := by
  rcases feed_fields c bs f s with h' | h'
  · rw [h] at h'; cases h'
  · exact h'.2.2.1

theorem fed_tooLarge {i k : Nat} {raw : Bytes} {p : St × Option Feed} (h : (fed i k raw p).tooLarge = false) : p.1.tooLarge = false := by
  revert h
  rcases p with ⟨a, _ | b⟩ <;> exact id

theorem j_step {c : Cfg} {es : List Ev} {s : St} {e : Ev} (j : J es s) (i : Flow.Inv [] s) (hc : calm s e) (ho : own s e) (hg : Good (step c s e)) : J (es ++ [e]) (step c s e) := by
  cases e with
  | mark k b =>
    have hr : k ∈ s.running := hc.1
    obtain ⟨l, hl⟩ := lastHead_ks (i.cur k hr)
    have hnd := j.nodup
    rw [hl] at hnd
    have hnl : k ∉ l := fun hx => (List.nodup_append.1 hnd).2.2 k hx k (by simp) rfl
    have hi : ∀ k', k' ≠ k → items k' (es ++ [.mark k b]) = items k' es := by
      intro k' hk'
      rw [items_snoc]; simp [items, Ne.symm hk']
    have hik : items k (es ++ [.mark k b]) = items k es ++ [none] := by rw [items_snoc]; simp [items]
    simp only [step]
    have hs' : Still s (if b then s else setReq k noKeep s) := by
      split
      · exact .refl _
      · exact still_setReq _ _ _
    have e : closeResponse k b s = put1 none (if b then s else setReq k noKeep s) := rfl
    have hq : (if b then s else setReq k noKeep s).q1 = s.q1 := by
      split
      · rfl
      · exact (setReq_fields _ _ _).2.2.2.1
    rw [e]
    generalize (if b then s else setReq k noKeep s) = s1 at hs' hq ⊢
    have hk1 : ks (put1 none s1) = ks s := by unfold ks; exact congrArg (fun l => List.map (·.1) l) hs'.started
    have hr1 : (put1 none s1).running = s.running := hs'.running
    refine ⟨?_, by rw [hk1]; exact j.nodup, ?_, ?_, ?_, ?_, ?_, ?_⟩
    · show s1.queued ++ [none] = due _ (ks (put1 none s1)) (put1 none s1).running
      rw [hk1, hr1, hs'.queued, j.queued, hl, due_snoc, due_snoc, if_pos hr, hik]
      have hd : due (es ++ [.mark k b]) l s.running = due es l s.running :=
        due_congr (fun k' hk' => hi k' (fun hx => hnl (hx ▸ hk'))) (fun _ _ => Iff.rfl)
      rw [hd]
      simp
    · rw [hk1]; exact fun k' hk' => Nat.lt_of_lt_of_le (j.old k' hk') hs'.reqs
    · rw [hk1]; intro f k' raw hm
      obtain ⟨f', hm'⟩ := hs'.feeds f k' raw hm
      exact ⟨Nat.lt_of_lt_of_le (j.feeds f' k' raw hm').1 hs'.reqs, (j.feeds f' k' raw hm').2⟩
    · rw [hk1]; intro k' hk'
      by_cases hk : k' = k
      · subst hk; exact j.run k' hr
      · rw [hi k' hk] at hk'; exact j.mine k' hk'
    · rw [hk1, hr1]; exact j.run
    · rw [hr1, i.one.only hr]
      intro k' hk'
      simp at hk'; subst hk'
      have := j.marks k' hr
      have e2 : (put1 none s1).q1 = s.q1 ++ [none] := by rw [← hq]; rfl
      rw [e2, hik]
      unfold Reply.marks at this ⊢
      rw [List.countP_append, List.countP_append]; omega
    · exact fun k' raw hx => j.known_still hs' hx
  | finish k => exact ho.elim
  | data d =>
    refine j.still ?_ (fun _ => rfl)
    simp only [step]; split
    · exact .trans (b := { s with rx := s.rx ++ d }) (still_of rfl rfl rfl rfl rfl) (still_data c d _)
    · exact .refl _
  | eof drop => exact j.still (still_of rfl rfl rfl rfl rfl) (fun _ => rfl)
  | recv n => exact j.still (still_recvStep hg) (fun _ => rfl)
  | send => exact j.still (still_send c s) (fun _ => rfl)
  | upgrade k => exact j.still (still_setReq _ _ _) (fun _ => rfl)
  | clear k => exact j.still (still_setReq _ _ _) (fun _ => rfl)
  | abort => exact j.still (still_of rfl rfl rfl rfl rfl) (fun _ => rfl)
  | kick => exact j.still (still_of rfl rfl rfl rfl rfl) (fun _ => rfl)
  | take k =>
    refine j.still ?_ (fun _ => rfl)
    simp only [step]; split
    · exact ⟨rfl, by simp [St.started], rfl, Nat.le_refl _, Nat.le_refl _, fun _ _ => rfl, fun f _ _ h => ⟨f, h⟩⟩
    · exact .refl _
  | emit k b =>
    have hr : k ∈ s.running := ho
    obtain ⟨l, hl⟩ := lastHead_ks (i.cur k hr)
    have hnd := j.nodup
    rw [hl] at hnd
    have hnl : k ∉ l := fun hx => (List.nodup_append.1 hnd).2.2 k hx k (by simp) rfl
    have hks : ks (step c s (.emit k b)) = ks s := rfl
    have hi : ∀ k', k' ≠ k → items k' (es ++ [.emit k b]) = items k' es := by
      intro k' hk'
      rw [items_snoc]; simp [items, Ne.symm hk']
    refine ⟨?_, j.nodup, j.old, j.feeds, fun k' hk' => ?_, j.run, fun k' hk' => ?_, j.known⟩
    · show s.queued ++ [some b] = due _ (ks s) s.running
      rw [j.queued, hl, due_snoc, due_snoc, if_pos hr, items_snoc]
      have hd : due (es ++ [.emit k b]) l s.running = due es l s.running :=
        due_congr (fun k' hk' => hi k' (fun hx => hnl (hx ▸ hk'))) (fun _ _ => Iff.rfl)
      rw [hd]
      simp [items]
    · by_cases hk : k' = k
      · subst hk; exact j.run k' hr
      · rw [hi k' hk] at hk'; exact j.mine k' hk'
    · have := j.marks k' hk'
      show Reply.marks (s.q1 ++ [some b]) ≤ _
      rw [items_snoc]
      unfold Reply.marks at this ⊢
      rw [List.countP_append, List.countP_append]
      simp; omega
  | leave k keep =>
    simp only [step] at hg ⊢
    split
    · next ha =>
      have hrun : k ∈ s.running := by
        unfold active at ha
        rw [Bool.or_eq_true] at ha
        rcases ha with ha | ha
        · simpa using ha
        · exact (i.good (.failing k) (by simpa using ha)).elim
      obtain ⟨l, hl⟩ := lastHead_ks (i.cur k hrun)
      have hnd := j.nodup
      rw [hl] at hnd
      have hnl : k ∉ l := fun hx => (List.nodup_append.1 hnd).2.2 k hx k (by simp) rfl
      have hs' : Still (finish k s) (if keep then finish k s else setReq k noKeep (finish k s)) := by
        split
        · exact .refl _
        · exact still_setReq _ _ _
      have hi : ∀ k', items k' (es ++ [.leave k keep]) = items k' es := fun k' => by rw [items_snoc]; simp [items]
      have hf : (finish k s).heads = s.heads := finish_heads i.good
      have hks : ks (closeResponse k keep (finish k s)) = ks s := by
        unfold ks closeResponse put1 St.started; dsimp only
        exact congrArg (fun l => List.map (·.1) l) hs'.started
      have hrn : (closeResponse k keep (finish k s)).running = s.running.filter (· ≠ k) := hs'.running
      have hone : s.running = [k] := i.one.only hrun
      refine ⟨?_, by rw [hks]; exact j.nodup, ?_, ?_, ?_, ?_, ?_, ?_⟩
      · show (if keep then finish k s else setReq k noKeep (finish k s)).queued ++ [none] = _
        rw [hs'.queued]
        show s.queued ++ [none] = _
        rw [hks, hrn, j.queued, hone, hl, due_snoc, due_snoc]
        simp only [List.mem_singleton, if_true, hi]
        have hd : due (es ++ [.leave k keep]) l ([k].filter (· ≠ k)) = due es l [k] :=
          due_congr (fun k' _ => hi k') (fun k' hk' => (by
            have hne : k' ≠ k := fun hx => hnl (hx ▸ hk')
            simp [hne]))
        rw [hd]
        simp
      · rw [hks]; exact fun k' hk' => Nat.lt_of_lt_of_le (j.old k' hk') hs'.reqs
      · rw [hks]; intro f k' raw hm
        obtain ⟨f', hm'⟩ := hs'.feeds f k' raw hm
        rw [hf] at hm'
        exact ⟨Nat.lt_of_lt_of_le (j.feeds f' k' raw hm').1 hs'.reqs, (j.feeds f' k' raw hm').2⟩
      · rw [hks]; intro k' hk'; rw [hi] at hk'; exact j.mine k' hk'
      · rw [hks, hrn]; intro k' hk'; exact j.run k' (List.mem_filter.1 hk').1
      · rw [hrn, hone]; intro k' hk'; simp at hk'
      · intro k' raw hx
        have hx' : (k', raw) ∈ s.started ∨ ∃ f, HTask.feeding f k' raw ∈ s.heads := by
          rcases hx with hx | ⟨f, hx⟩
          · left
            have : (closeResponse k keep (finish k s)).started = s.started := hs'.started
            rw [← this]; exact hx
          · right
            obtain ⟨f', hx'⟩ := hs'.feeds f k' raw hx
            rw [hf] at hx'; exact ⟨f', hx'⟩
        have hlt : k' < s.reqs.length := by
          rcases hx' with hx | ⟨f, hx⟩
          · exact j.old k' (List.mem_map.2 ⟨_, hx, rfl⟩)
          · exact (j.feeds f k' raw hx).1
        have h2 := (show Known (finish k s) k' raw from j.known k' raw hx').still hs' hlt
        exact h2
    · exact j.still (.refl _) (fun _ => rfl)
  | head n =>
    revert hg
    simp only [step]
    unfold headStep
    split
    · next d m hx =>
      obtain ⟨hl, _⟩ := List.getElem?_eq_some_iff.1 hx
      have bad : ∀ (x : HTask) (s' : St), ¬ good x → s'.heads = s.heads.set n x → Good s' → False := by
        intro x s' hx hs hgood
        exact hx (hgood.2.2 x (by rw [hs]; exact List.mem_set hl x))
      unfold startHead
      dsimp only
      split
      · intro hg; exact (bad .done _ id rfl hg).elim
      · intro hg; exact (bad .done _ id rfl hg).elim
      · split
        · intro hg; exact (bad (.failing s.reqs.length) _ id rfl hg).elim
        · intro hg; exact (bad .done _ id rfl hg).elim
      · next r hr =>
        intro hg
        generalize hs1 : (if r.hasBody = true then newReq r s else put0 (some []) (newReq r s)) = s1 at hg ⊢
        have e1 : Still s s1 ∧ s1.heads = s.heads ∧ s.reqs.length < s1.reqs.length := by
          subst hs1; split
          · exact ⟨⟨rfl, rfl, rfl, by simp [newReq], Nat.le_refl _, fun k hk => by simp [newReq, List.getElem?_append_left hk], fun f _ _ h => ⟨f, h⟩⟩, rfl, by simp [newReq]⟩
          · exact ⟨⟨rfl, rfl, rfl, by simp [newReq, put0], Nat.le_refl _, fun k hk => by simp [newReq, put0, List.getElem?_append_left hk], fun f _ _ h => ⟨f, h⟩⟩, rfl, by simp [newReq, put0]⟩
        have hkn : Known s1 s.reqs.length (d.take (m + 2)) := by
          obtain ⟨_, m', hm, hfb⟩ := i.new d m (List.mem_of_getElem? hx)
          refine ⟨d, m, r, by rw [hm]; exact hfb, by omega, rfl, hr, ?_⟩
          subst hs1; split <;> simp [newReq, put0]
        have hn : s.reqs.length ∉ ks s := fun hx => Nat.lt_irrefl _ (j.old _ hx)
        split at hg
        · next hcnd =>
          rw [if_pos hcnd]
          have ht := fed_tooLarge hg.1
          exact j.fed (i.one.busy (List.mem_of_getElem? hx) rfl) hx rfl e1.1 e1.2.1 e1.2.2 hn hkn (still_feed ht) (feed_heads ht) (fun _ => rfl)
        · next hcnd =>
          rw [if_neg hcnd]
          exact j.fed (i.one.busy (List.mem_of_getElem? hx) rfl) hx rfl e1.1 e1.2.1 e1.2.2 hn hkn (.refl _) rfl (fun _ => rfl)
    · next f k raw hx =>
      intro hg
      have ht := fed_tooLarge hg.1
      have hm := j.feeds f k raw (List.mem_of_getElem? hx)
      exact j.fed (i.one.busy (List.mem_of_getElem? hx) rfl) hx rfl (.refl s) rfl hm.1 hm.2 (j.known k raw (.inr ⟨f, List.mem_of_getElem? hx⟩)) (still_feed ht) (feed_heads ht) (fun _ => rfl)
    · intro _; exact j.still (.refl _) (fun _ => rfl)

theorem j_run {c : Cfg} : ∀ (es h : List Ev) {s : St}, J h s → Flow.Inv [] s → s.tooLarge = false → Calm c s es → Own c s es → J (h ++ es) (run c s es)
  | [], h, _, j, _, _, _, _ => by rw [List.append_nil]; exact j
  | e :: es, h, s, j, i, ht, hc, ho => by
    have := j_run es (h ++ [e]) (s := step c s e) (j_step j i hc.1 ho.1 hc.2.1) (inv_step i hc.1 ht hc.2.1) hc.2.1.1 hc.2.2 ho.2
    rw [List.append_assoc, List.singleton_append] at this
    exact this

theorem j_init : J [] {} := ⟨rfl, List.nodup_nil, fun _ h => (by cases h), fun _ _ _ h => (by cases h), fun _ h => absurd rfl h, fun _ h => (by cases h), fun _ h => (by cases h), fun _ _ h => (by rcases h with h | ⟨_, h⟩ <;> cases h)⟩


/-! ## What was written -/

theorem bytes_items : ∀ l : List Item, (l.filterMap id).flatten = (l.map (·.getD [])).flatten
  | [] => rfl
  | none :: l => by have := bytes_items l; simpa using this
  | some b :: l => by have := bytes_items l; simpa using this

theorem due_bytes (es : List Ev) (run : List Nat) : ∀ l : List Nat, ((due es l run).filterMap id).flatten = (l.map (emitted · es)).flatten
  | [] => rfl
  | k :: l => by
    have ih := due_bytes es run l
    have hk : ((items k es ++ if k ∈ run then [] else [none]).filterMap id).flatten = emitted k es := by
      have h1 : (if k ∈ run then ([] : List Item) else [none]).filterMap id = [] := by split <;> rfl
      rw [List.filterMap_append, h1, List.append_nil]
      exact bytes_items _
    unfold due at ih ⊢
    rw [List.flatMap_cons, List.filterMap_append, List.flatten_append, hk, ih]
    rfl

theorem due_ends (es : List Ev) {l : List Nat} {run : List Nat} (hr : ∀ k ∈ l, k ∉ run) : due es l run = [] ∨ ∃ a, due es l run = a ++ [none] := by
  induction l using snocInd with
  | h0 => exact .inl rfl
  | h1 l k _ => exact .inr ⟨due es l run ++ items k es, by rw [due_snoc, if_neg (hr k (by simp))]; simp⟩

/-- What is queued with no more markers than the last part has comes from the last part. -/
theorem cut {A B S Q : List Item} (h : A ++ B = S ++ Q) (hA : A = [] ∨ ∃ a, A = a ++ [none]) (hQ : marks Q ≤ marks B) : ∃ B1, B = B1 ++ Q ∧ S = A ++ B1 := by
  rcases List.append_eq_append_iff.1 h with ⟨x, h1, h2⟩ | ⟨x, h1, h2⟩
  · exact ⟨x, h2, h1⟩
  · rcases hA with rfl | ⟨a, rfl⟩
    · have := List.append_eq_nil_iff.1 h1.symm
      obtain ⟨rfl, rfl⟩ := this
      exact ⟨[], by simpa using h2.symm, rfl⟩
    · induction x using snocInd with
      | h0 => exact ⟨[], by simpa using h2.symm, by simpa using h1.symm⟩
      | h1 x y _ =>
        exfalso
        rw [← List.append_assoc] at h1
        have := (List.append_inj' h1 rfl).2
        simp at this
        subst this
        rw [h2] at hQ
        unfold marks at hQ
        simp only [List.countP_append, List.countP_singleton, Option.isNone_none, if_true] at hQ
        omega

end Reply

open Reply

/-- **C90**: the responses of a connection go out one behind the other, in the order of the requests. What has been written is
made of complete responses and the start of the next; while a handler runs, all earlier responses have been written; and when
the connection waits for a request, or the send task comes to a marker that does not end a response `100 Continue`,
everything that the handlers queued has been written. -/
theorem C90_order (c : Cfg) {es : List Ev} (h : Calm c {} es) (ho : Own c {} es) :
    (ks (run c {} es)).Nodup ∧
    (run c {} es).written.flatten <+: ((ks (run c {} es)).map (emitted · es)).flatten ∧
    (∀ k ∈ (run c {} es).running, ∃ l p, ks (run c {} es) = l ++ [k] ∧ p <+: emitted k es ∧
      (run c {} es).written.flatten = (l.map (emitted · es)).flatten ++ p) ∧
    ((run c {} es).hb.isSome = true ∨ ((run c {} es).q1.head? = some none ∧ ¬ Expecting (run c {} es)) →
      (run c {} es).written.flatten = ((ks (run c {} es)).map (emitted · es)).flatten) := by
  have j := j_run es [] (s := {}) j_init Flow.inv_init rfl h ho
  have i := Flow.inv_run es Flow.inv_init rfl h
  have g := good_run (c := c) (es := es) (s := {}) ⟨rfl, rfl, fun _ hx => by cases hx⟩ h
  obtain ⟨o1, o2, o3⟩ := C52_order c es
  rw [List.nil_append] at j
  generalize run c {} es = s at *
  have hw := o2 g.2.1
  have hq : ((s.queued).filterMap id).flatten = ((ks s).map (emitted · es)).flatten := by rw [j.queued, due_bytes]
  refine ⟨j.nodup, ?_, fun k hk => ?_, fun hx => ?_⟩
  · obtain ⟨t, ht⟩ := o3
    rw [← hq, ← ht, List.flatten_append]
    exact List.prefix_append _ _
  · obtain ⟨l, hl⟩ := lastHead_ks (i.cur k hk)
    have hone : s.running = [k] := i.one.only hk
    have hnd := j.nodup
    rw [hl] at hnd
    have hnl : ∀ k' ∈ l, k' ∉ s.running := fun k' hk' hx => by
      rw [hone] at hx; simp at hx; subst hx
      exact (List.nodup_append.1 hnd).2.2 k' hk' k' (by simp) rfl
    have e := j.queued
    rw [hl, due_snoc, if_pos hk, List.append_nil, o1] at e
    obtain ⟨B1, b1, b2⟩ := cut e.symm (due_ends es hnl) (j.marks k hk)
    refine ⟨l, (B1.filterMap id).flatten, hl, ?_, ?_⟩
    · have : ((items k es).filterMap id).flatten = emitted k es := by
        have := due_bytes es s.running [k]
        simp only [due, List.flatMap_cons, List.flatMap_nil, if_pos hk, List.append_nil, List.map_cons, List.map_nil, List.flatten_cons, List.flatten_nil] at this
        exact this
      rw [← this, b1, List.filterMap_append, List.flatten_append]
      exact List.prefix_append _ _
    · rw [hw, b2, List.filterMap_append, List.flatten_append, due_bytes]
  · have key : ∀ S Q, s.queued = S ++ Q → marks Q = 0 → s.running = [] → Q = [] := by
      intro S Q e hn hr
      have e' := j.queued
      rw [e] at e'
      obtain ⟨B1, b1, _⟩ := cut (A := due es (ks s) s.running) (B := []) (S := S) (Q := Q) (by rw [List.append_nil]; exact e'.symm)
        (due_ends es (fun k _ => by rw [hr]; simp)) (by omega)
      exact (List.append_eq_nil_iff.1 b1.symm).2
    rcases hx with hx | ⟨hx, hne⟩
    · have one := i.one.wish hx
      unfold load at one
      have hwish : wish s.hb = 1 := by
        cases hb : s.hb with
        | none => rw [hb] at hx; cases hx
        | some b => rfl
      have := key s.sent s.q1 o1 (show marks s.q1 = 0 by unfold marks; omega) (List.eq_nil_of_length_eq_zero (by omega))
      rw [← hq, o1, this, List.append_nil, hw]
    · have one : load s ≤ 1 := i.one.resolve_right (fun h => hne h.exp)
      unfold load at one
      cases hq1 : s.q1 with
      | nil => rw [hq1] at hx; cases hx
      | cons x q =>
        rw [hq1] at hx one o1
        simp at hx; subst hx
        simp only [List.countP_cons, Option.isNone_none, if_true] at one
        have := key (s.sent ++ [none]) q (by rw [o1]; simp) (show marks q = 0 by unfold marks; omega) (List.eq_nil_of_length_eq_zero (by omega))
        rw [← hq, o1, this, List.filterMap_append, hw]
        simp

end Verif
