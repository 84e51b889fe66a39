import Verif.Proofs.Timers
/-!
# C79, C80: how long a connection may wait for a head

Generation `g` of the futures belongs to the wait for the head of request number `g` (from 0) of the connection, `gen` is the present one.
-/
namespace Verif
open Verif.Py Verif.Model.Head Model.Timers Timers
open Model.Conn (HTask Rq)

namespace Timers

theorem run_snoc (c : Cfg) (es : List Ev) (e : Ev) : run c (es ++ [e]) = step c (run c es) e := by simp [run, List.foldl_append]

/-- `P` holds for every step of the connection. -/
def Along (P : Model.Conn.St → Model.Conn.Ev → Prop) (c : Cfg) (es : List Ev) : Prop :=
  ∀ pre e post, es = pre ++ .conn e :: post → P (run c pre).s e

theorem Along.init {P c es e} (h : Along P c (es ++ [e])) : Along P c es := fun pre x post he => h pre x (post ++ [e]) (by rw [he]; simp)
theorem Along.last {P c es e} (h : Along P c (es ++ [.conn e])) : P (run c es).s e := h es e [] rfl

/-- `born` and the futures belong together. -/
theorem born_len (c : Cfg) (es : List Ev) : (run c es).born.length = (run c es).s.futDone.length ∧ (run c es).s.futDone.length = (run c es).s.gen + 1 := by
  induction es using snocInd with
  | h0 => exact ⟨rfl, rfl⟩
  | h1 es e ih =>
    rw [run_snoc]
    generalize run c es = t at *
    obtain ⟨i1, i2⟩ := ih
    cases e with
    | tick => exact ⟨i1, i2⟩
    | fire g => simp only [step]; split <;> exact ⟨i1, i2⟩
    | conn e =>
      simp only [step]
      rcases grow_step c.conn t.s e with ⟨h | h, g⟩ | ⟨h, g⟩ <;> rw [h, g] <;> simp <;> omega

/-- A future that is not done was not done before, or is a new one. -/
theorem undone {c : Cfg} {es : List Ev} {e : Model.Conn.Ev} {g : Nat} (h : (run c (es ++ [.conn e])).s.futDone[g]? = some false) :
    ((run c es).s.futDone[g]? = some false ∧ (run c (es ++ [.conn e])).born[g]? = (run c es).born[g]?) ∨
    (g = (run c es).s.gen + 1 ∧ (run c (es ++ [.conn e])).born[g]? = some (run c es).now) := by
  obtain ⟨i1, i2⟩ := born_len c es
  rw [run_snoc] at h ⊢
  generalize run c es = t at *
  simp only [step] at h ⊢
  rcases grow_step c.conn t.s e with ⟨k | k, kg⟩ | ⟨k, kg⟩ <;> rw [k] at h ⊢
  · left; refine ⟨h, ?_⟩; rw [i1, Nat.sub_self]; simp
  · left
    rw [List.length_set, i1, Nat.sub_self]
    refine ⟨?_, by simp⟩
    by_cases e : t.s.gen = g
    · subst e; rw [List.getElem?_set_self (by omega)] at h; cases h
    · rw [List.getElem?_set_ne e] at h; exact h
  · by_cases hg : g < t.s.futDone.length
    · left
      rw [List.getElem?_append_left hg] at h
      exact ⟨h, by rw [List.getElem?_append_left (by omega)]⟩
    · right
      have : g < t.s.futDone.length + 1 := by
        have := (List.getElem?_eq_some_iff.1 h).1; simpa using this
      refine ⟨by omega, ?_⟩
      rw [List.getElem?_append_right (by omega), List.length_append, i1, show g - t.s.futDone.length = 0 by omega]
      simp

theorem inv_run {c : Cfg} {es : List Ev} (h : Along noJunk c es) : Conn.One (run c es).s ∧ JJ (run c es).s := by
  induction es using snocInd with
  | h0 =>
    refine ⟨.inr (show Conn.load {} ≤ 1 by decide), .inr (.inr ?_)⟩
    exact {
      len := rfl
      old := fun i hi => absurd hi (Nat.not_lt_zero i)
      begun := fun h => absurd rfl h
      ended := fun h => by cases h
      wait := fun _ => ⟨rfl, .inl rfl⟩
      cnt := rfl
      cur := fun k hk => by cases hk
      fail := fun k hk => by cases hk }
  | h1 es e ih =>
    rw [run_snoc]
    obtain ⟨i1, i2⟩ := ih h.init
    cases e with
    | tick => exact ⟨i1, i2⟩
    | fire g =>
      simp only [step]; split
      · exact ⟨Conn.one_congr rfl rfl rfl rfl rfl i1, .inr (.inl rfl)⟩
      · exact ⟨i1, i2⟩
    | conn e =>
      have he := h.last
      refine ⟨Conn.one_step (fun k keep hk => ?_) i1, jj_step he i1 i2⟩
      subst hk; exact he

theorem l_run {c : Cfg} {es : List Ev} (h : Along attended c es) : (run c es).s.closing = true ∨ L (run c es).s := by
  induction es using snocInd with
  | h0 => exact .inr { len := rfl, send := rfl, cur := fun k hk => (by cases hk), held := .inr (.inr rfl) }
  | h1 es e ih =>
    rw [run_snoc]
    have i := ih h.init
    cases e with
    | tick => exact i
    | fire g =>
      simp only [step]; split
      · exact .inl rfl
      · exact i
    | conn e => exact l_step h.last i

end Timers

/-- What the options say: `request_timeout` for the first wait of a connection, `keepalive_timeout` for every later one. -/
def allowed (c : Cfg) (g : Nat) : Nat := if g = 0 then c.requestTimeout else c.keepaliveTimeout

theorem allowed_limit (c : Cfg) (g : Nat) : limit c g = allowed c g := by cases g <;> rfl

/-! ## C79 -/

/-- **C79**: in every schedule, a connection is aborted by such a timer at most once, and never before `request_timeout` (the first
wait) or `keepalive_timeout` (a later one) has passed since the wait began. -/
theorem C79_early (c : Cfg) (es : List Ev) : (run c es).aborts.length ≤ 1 ∧
    ∀ p ∈ (run c es).aborts, ∃ b, (run c es).born[p.1]? = some b ∧ b + allowed c p.1 ≤ p.2 ∧ p.2 ≤ (run c es).now := by
  suffices h : ((run c es).aborts.length ≤ 1 ∧ ((run c es).aborts ≠ [] → (run c es).s.closing = true)) ∧
      ∀ p ∈ (run c es).aborts, ∃ b, (run c es).born[p.1]? = some b ∧ b + allowed c p.1 ≤ p.2 ∧ p.2 ≤ (run c es).now from ⟨h.1.1, h.2⟩
  induction es using snocInd with
  | h0 => exact ⟨⟨Nat.zero_le _, fun h => absurd rfl h⟩, fun p hp => by cases hp⟩
  | h1 es e ih =>
    rw [run_snoc]
    generalize run c es = t at *
    obtain ⟨⟨i1, i2⟩, i3⟩ := ih
    cases e with
    | tick =>
      refine ⟨⟨i1, i2⟩, fun p hp => ?_⟩
      obtain ⟨b, h1, h2, h3⟩ := i3 p hp
      exact ⟨b, h1, h2, Nat.le_succ_of_le h3⟩
    | conn e =>
      refine ⟨⟨i1, fun h => Conn.closing_step (i2 h)⟩, fun p hp => ?_⟩
      obtain ⟨b, h1, h2, h3⟩ := i3 p hp
      refine ⟨b, ?_, h2, h3⟩
      simp only [step]
      rw [List.getElem?_append_left (List.getElem?_eq_some_iff.1 h1).1]; exact h1
    | fire g =>
      simp only [step]
      split
      · next h =>
        rw [Bool.and_eq_true, Bool.not_eq_true'] at h
        have he : t.aborts = [] := Classical.byContradiction fun hn => by rw [i2 hn] at h; cases h.2
        rw [he]
        refine ⟨⟨by simp, fun _ => rfl⟩, fun p hp => ?_⟩
        have hp' : p = (g, t.now) := by simpa using hp
        subst hp'
        have hd := h.1
        unfold due at hd
        rw [Bool.and_eq_true] at hd
        have h2 := hd.2
        cases hb : t.born[g]? with
        | none => rw [hb] at h2; cases h2
        | some b => rw [hb] at h2; exact ⟨b, rfl, allowed_limit c g ▸ of_decide_eq_true h2, Nat.le_refl _⟩
      · exact ⟨⟨i1, i2⟩, i3⟩

/-- **C79** in schedules in which handlers queue the end marker in their last step, no body is too large, and a head that is no request
comes only as the first of its connection (`noJunk`; and error responses do not keep the connection, which is so in
`handle_exception`): if a timer aborts the connection, it is that of the present wait, which has lasted its full time; all earlier requests
were handled, no handler has been started for the present wait, and none is running. Missing: see the refutations. -/
theorem C79_partial {c : Cfg} {es : List Ev} (h : Along noJunk c es) (hl : (run c es).s.tooLarge = false) {g : Nat}
    (ha : (run c (es ++ [.fire g])).aborts ≠ (run c es).aborts) :
    g = (run c es).s.gen ∧ (∃ b, (run c es).born[g]? = some b ∧ b + allowed c g ≤ (run c es).now) ∧
    (run c es).s.started.length = g ∧ (run c es).s.running = [] := by
  obtain ⟨_, j⟩ := inv_run h
  have hlen := born_len c es
  rw [run_snoc] at ha
  generalize run c es = t at *
  simp only [step] at ha
  split at ha
  · next hd =>
    rw [Bool.and_eq_true, Bool.not_eq_true'] at hd
    rcases j with j | j | j
    · rw [hl] at j; cases j
    · rw [hd.2] at j; cases j
    · have hf := hd.1
      unfold due at hf
      rw [Bool.and_eq_true, beq_iff_eq] at hf
      have hlt := (List.getElem?_eq_some_iff.1 hf.1).1
      have hg : g = t.s.gen := by
        have h1 := j.len
        by_cases h2 : g < t.s.gen
        · have := j.old g h2; rw [hf.1] at this; cases this
        · omega
      subst hg
      refine ⟨rfl, ?_, ?_, ?_⟩
      · have h2 := hf.2
        cases hb : t.born[t.s.gen]? with
        | none => rw [hb] at h2; cases h2
        | some b => rw [hb] at h2; exact ⟨b, rfl, allowed_limit c t.s.gen ▸ of_decide_eq_true h2⟩
      · rw [j.cnt, hf.1]; simp
      · exact Classical.byContradiction fun hn => by have := j.begun hn; rw [hf.1] at this; cases this
  · exact absurd rfl ha

/-! ## C80 -/

/-- **C80 (the deadline).** In every schedule, `born` lists when the waits began, one entry for each; whatever arrives during a wait,
its entry, and so its deadline, stays. -/
theorem C80_deadline (c : Cfg) (es : List Ev) (e : Ev) :
    (run c es).born.length = (run c es).s.gen + 1 ∧
    (((run c (es ++ [e])).s.gen = (run c es).s.gen ∧ (run c (es ++ [e])).born = (run c es).born) ∨
     ((run c (es ++ [e])).s.gen = (run c es).s.gen + 1 ∧ (run c (es ++ [e])).born = (run c es).born ++ [(run c es).now])) := by
  obtain ⟨h1, h2⟩ := born_len c es
  refine ⟨h1.trans h2, ?_⟩
  rw [run_snoc]
  generalize run c es = t at *
  cases e with
  | tick => exact .inl ⟨rfl, rfl⟩
  | fire g => left; simp only [step]; split <;> exact ⟨rfl, rfl⟩
  | conn e =>
    simp only [step]
    rcases grow_step c.conn t.s e with ⟨k | k, kg⟩ | ⟨k, kg⟩
    · exact .inl ⟨kg, by rw [k, h1]; simp⟩
    · exact .inl ⟨kg, by rw [k, List.length_set, h1]; simp⟩
    · exact .inr ⟨kg, by rw [k, List.length_append, h1]; simp⟩

/-- **C80** in schedules in which handlers end with completing their response and interim responses are sent while the handler runs
(`attended`): unless the connection is being closed, a handler is running, or an end marker waits for the send task, or the timer of the
present wait runs, and closes the connection when the time is over. Missing: see the refutations; WebSockets. -/
theorem C80_partial {c : Cfg} {es : List Ev} (h : Along attended c es) :
    (run c es).s.closing = true ∨ (run c es).s.running ≠ [] ∨ (none ∈ (run c es).s.q1 ∧ (run c es).s.sendDone = false) ∨
    ∃ b, (run c es).born[(run c es).s.gen]? = some b ∧ (run c es).s.futDone[(run c es).s.gen]? = some false ∧
      (b + allowed c (run c es).s.gen ≤ (run c es).now → (run c (es ++ [.fire (run c es).s.gen])).s.closing = true) := by
  have hlen := born_len c es
  rcases l_run h with l | l
  · exact .inl l
  · rcases l.held with x | x | x
    · exact .inr (.inl x)
    · exact .inr (.inr (.inl ⟨x, l.send⟩))
    · right; right; right
      have hlt : (run c es).s.gen < (run c es).born.length := by omega
      refine ⟨_, List.getElem?_eq_getElem hlt, x, fun hd => ?_⟩
      rw [run_snoc]
      generalize run c es = t at *
      simp only [step]
      split
      · rfl
      · next hn =>
        have hdue : due c t t.s.gen = true := by
          rw [← allowed_limit] at hd; unfold due; rw [x, List.getElem?_eq_getElem hlt]; simpa using hd
        rw [hdue] at hn
        simpa using hn

/-- The clock does not go on while a timer is due. -/
def Punctual (c : Cfg) (es : List Ev) : Prop :=
  ∀ pre post, es = pre ++ .tick :: post → (run c pre).s.closing = true ∨ ∀ g, due c (run c pre) g = false

/-- **C80**: with timers that run on time, such a connection has not waited longer than the limit for its head. -/
theorem C80_bounded_partial {c : Cfg} {es : List Ev} (h : Along attended c es) (hp : Punctual c es) (hc : (run c es).s.closing = false)
    (hr : (run c es).s.running = []) (hm : none ∉ (run c es).s.q1) :
    ∃ b, (run c es).born[(run c es).s.gen]? = some b ∧ (run c es).now ≤ b + allowed c (run c es).s.gen := by
  have key : (run c es).s.closing = true ∨ ∀ (g b : Nat), (run c es).s.futDone[g]? = some false → (run c es).born[g]? = some b → (run c es).now ≤ b + limit c g := by
    clear h hc hr hm
    induction es using snocInd with
    | h0 => exact .inr (fun g b _ _ => Nat.zero_le _)
    | h1 es e ih =>
      have i := ih (fun pre post he => hp pre (post ++ [e]) (by rw [he]; simp))
      cases e with
      | tick =>
        have hd := hp es [] rfl
        rw [run_snoc]
        generalize run c es = t at *
        rcases i with i | i
        · exact .inl i
        · rcases hd with hd | hd
          · exact .inl hd
          · right
            intro g b hf hb
            have hg := hd g
            unfold due at hg
            have hf' : t.s.futDone[g]? = some false := hf
            have hb' : t.born[g]? = some b := hb
            rw [hf', hb'] at hg
            simp only [beq_self_eq_true, Bool.true_and, decide_eq_false_iff_not] at hg
            show t.now + 1 ≤ _
            omega
      | fire g =>
        rw [run_snoc]; simp only [step]
        split
        · exact .inl rfl
        · exact i
      | conn e =>
        rcases i with i | i
        · left; rw [run_snoc]; exact Conn.closing_step i
        · right
          intro g b hf hb
          have hnow : (run c (es ++ [.conn e])).now = (run c es).now := by rw [run_snoc]; rfl
          rw [hnow]
          rcases undone hf with ⟨h1, h2⟩ | ⟨_, h2⟩
          · exact i g b h1 (by rw [← h2]; exact hb)
          · rw [hb] at h2; cases h2; exact Nat.le_add_right _ _
  rcases key with k | k
  · rw [hc] at k; cases k
  · rcases C80_partial h with x | x | x | ⟨b, h1, h2, _⟩
    · rw [hc] at x; cases x
    · exact absurd hr x
    · exact absurd x.1 hm
    · exact ⟨b, h1, allowed_limit c _ ▸ k _ b h2 h1⟩

/-! ## Cases and refutations -/

/-- A request is answered at time 3; the client is silent for `keepalive_timeout`. -/
def idleClient : List Ev :=
  [.conn (.data b!"GET / HTTP/1.1\r\n\r\n"), .conn (.head 0), .tick, .tick, .tick, .conn (.emit 0 b!"one"), .conn (.leave 0 true), .conn .send, .conn .send,
   .tick, .tick, .tick, .tick, .tick]

/-- A client that sends its head too slowly. -/
def slowHead : List Ev := [.conn (.data b!"GET / HT"), .tick, .tick, .conn (.data b!"TP/1.1\r\n"), .tick, .conn (.data b!"Host: h\r\n"), .tick]

def exCfg : Cfg := { requestTimeout := 4, keepaliveTimeout := 5 }

namespace Timers

def noJunkB (s : Model.Conn.St) : Model.Conn.Ev → Bool
  | .head i => match s.heads[i]? with
    | some (.new d n) => (match acceptData d n with | .error .notRequest => s.cur.isNone | _ => true)
    | _ => true
  | .leave k keep => !(keep && s.heads.contains (.failing k))
  | .mark _ _ => false
  | _ => true

theorem noJunk_of {s : Model.Conn.St} {e : Model.Conn.Ev} (h : noJunkB s e = true) : noJunk s e := by
  cases e with
  | head i =>
    intro d n hi ha
    unfold noJunkB at h
    dsimp only at h; rw [hi] at h; dsimp only at h; rw [ha] at h
    simpa using h
  | leave k keep =>
    intro hk hm
    unfold noJunkB at h
    rw [hk] at h
    simp [hm] at h
  | mark k b => cases h
  | _ => trivial

def attendedB (s : Model.Conn.St) : Model.Conn.Ev → Bool
  | .finish k => !s.running.contains k
  | .send => match s.q1, s.cur with
    | none :: q, some k => (match s.reqs[k]? with
      | some r => !(r.req.httpContinue || (r.upgraded && s.first)) || !s.running.isEmpty || q.contains none
      | none => true)
    | _, _ => true
  | _ => true

theorem attended_of {s : Model.Conn.St} {e : Model.Conn.Ev} (h : attendedB s e = true) : attended s e := by
  cases e with
  | finish k => unfold attendedB at h; simpa [attended] using h
  | send =>
    intro hq k r hk hr hx
    cases hq1 : s.q1 with
    | nil => rw [hq1] at hq; cases hq
    | cons x q =>
      rw [hq1] at hq
      simp only [List.head?_cons, Option.some.injEq] at hq
      subst hq
      unfold attendedB at h
      rw [hq1, hk] at h; dsimp only at h; rw [hr] at h; dsimp only at h
      simp only [Bool.or_eq_true, Bool.not_eq_true'] at h
      rcases h with (h | h) | h
      · simp only [Bool.or_eq_false_iff, Bool.and_eq_false_iff] at h
        rcases hx with hx | ⟨h1, h2⟩
        · rw [hx] at h; simp at h
        · rw [h1, h2] at h; simp at h
      · left; intro e; rw [e] at h; cases h
      · right; simpa using h
  | _ => trivial

def alongB (p : Model.Conn.St → Model.Conn.Ev → Bool) (c : Cfg) : St → List Ev → Bool
  | _, [] => true
  | t, e :: es => (match e with | .conn x => p t.s x | _ => true) && alongB p c (step c t e) es

theorem along_of {p : Model.Conn.St → Model.Conn.Ev → Bool} {P : Model.Conn.St → Model.Conn.Ev → Prop} (hp : ∀ {s e}, p s e = true → P s e) {c : Cfg}
    {es : List Ev} (h : alongB p c {} es = true) : Along P c es := by
  have key : ∀ (es : List Ev) (t : St), alongB p c t es = true → ∀ pre e post, es = pre ++ .conn e :: post → P (pre.foldl (step c) t).s e := by
    intro es
    induction es with
    | nil => intro t _ pre e post h; cases pre <;> cases h
    | cons x es ih =>
      intro t h pre e post he
      unfold alongB at h
      rw [Bool.and_eq_true] at h
      cases pre with
      | nil => simp only [List.nil_append, List.cons.injEq] at he; obtain ⟨rfl, rfl⟩ := he; exact hp h.1
      | cons y pre =>
        simp only [List.cons_append, List.cons.injEq] at he
        obtain ⟨rfl, rfl⟩ := he
        exact ih _ h.2 pre e post rfl
  exact key es {} h

end Timers

/-- The hypotheses of `C79_partial` and `C80_partial` hold for them, and both are closed by their timers at the deadline, not before. -/
example : Along noJunk exCfg idleClient ∧ Along attended exCfg idleClient ∧ (run exCfg idleClient).s.tooLarge = false ∧
    (run exCfg (idleClient ++ [.fire 1])).aborts = [(1, 8)] ∧ (run exCfg (idleClient ++ [.fire 0])).aborts = [] ∧
    (run exCfg (idleClient.dropLast ++ [.fire 1])).aborts = [] ∧ (run exCfg idleClient).born = [0, 3] :=
  ⟨along_of noJunk_of (by decide +kernel), along_of attended_of (by decide +kernel), by decide +kernel, by decide +kernel, by decide +kernel,
    by decide +kernel, by decide +kernel⟩
example : Along noJunk exCfg slowHead ∧ Along attended exCfg slowHead ∧ (run exCfg slowHead).s.running = [] ∧ none ∉ (run exCfg slowHead).s.q1 ∧
    (run exCfg slowHead).s.closing = false ∧ (run exCfg (slowHead ++ [.fire 0])).aborts = [(0, 4)] :=
  ⟨along_of noJunk_of (by decide +kernel), along_of attended_of (by decide +kernel), by decide +kernel, by decide +kernel, by decide +kernel, by decide +kernel⟩

/-- **C79 is false** after a head that is no request, on a connection that was kept: its wait is replaced by a new one, but its timer goes
on, and later aborts the connection in the middle of a request whose head came at once. -/
theorem C79_refuted_junk :
    let es : List Ev := [.conn (.data b!"GET / HTTP/1.1\r\n\r\n"), .conn (.head 0), .conn (.leave 0 true), .conn .send, .tick, .tick, .tick, .tick,
      .conn (.data b!"nonsense\r\n\r\n"), .conn (.head 1), .conn .send, .conn (.data b!"GET /x HTTP/1.1\r\n\r\n"), .conn (.head 2), .tick]
    let t := run exCfg es
    t.born = [0, 0, 4] ∧ t.now = 5 ∧ t.s.gen = 2 ∧ t.s.running = [1] ∧ (run exCfg (es ++ [.fire 1])).aborts = [(1, 5)] := by decide +kernel

/-- **C79 is false** for a head that comes in time with a part of its body: the timer is cancelled only after these bytes were queued,
for which `put_to_queue` sleeps. -/
theorem C79_refuted_feeding :
    let es : List Ev := [.tick, .tick, .tick, .conn (.data b!"POST / HTTP/1.1\r\nContent-Length: 9\r\n\r\nhello"), .conn (.head 0), .tick]
    (run exCfg es).s.rx = b!"POST / HTTP/1.1\r\nContent-Length: 9\r\n\r\nhello" ∧ (run exCfg (es ++ [.fire 0])).aborts = [(0, 4)] := by decide +kernel

/-- **C79 is false** for a head that comes in time and is refused: the timer is not cancelled, and may abort the connection before the
error response was sent. -/
theorem C79_refuted_refused :
    let es : List Ev := [.conn (.data b!"POST / HTTP/1.0\r\nTransfer-Encoding: chunked\r\n\r\n"), .conn (.head 0), .tick, .tick, .tick, .tick, .conn (.emit 0 b!"400"), .conn (.leave 0 false)]
    (run exCfg es).s.heads = [.done] ∧ (run exCfg es).s.q1 = [some b!"400", none] ∧
      (run exCfg (es ++ [.fire 0, .conn .send])).aborts = [(0, 4)] ∧ (run exCfg (es ++ [.fire 0, .conn .send])).s.written = [] := by decide +kernel

namespace Timers
/-- No timer is running, and no handler. -/
def stuck (t : St) : Bool :=
  !t.s.closing && t.s.running.isEmpty && t.s.q1.isEmpty && t.s.hb.isNone && t.s.futDone.all id
end Timers

/-- **C80 is false** for a request with `Expect: 100-continue` whose handler does not read the body: once it is answered, no timer runs. -/
theorem C80_refuted_continue :
    stuck (run exCfg [.conn (.data b!"POST / HTTP/1.1\r\nContent-Length: 5\r\nExpect: 100-continue\r\n\r\n"), .conn (.head 0), .conn (.head 0),
      .conn (.emit 0 b!"no"), .conn (.leave 0 true), .conn .send, .conn .send]) = true := by decide +kernel

/-- **C80 is false** for a handler that ends without completing its response ("the connection possibly left open", http_server.py:128). -/
theorem C80_refuted_open :
    stuck (run exCfg [.conn (.data b!"GET / HTTP/1.1\r\n\r\n"), .conn (.head 0), .conn (.finish 0)]) = true := by decide +kernel

/-- Such a connection is not aborted by any of these timers, however long it lasts. -/
theorem C80_refuted_forever {t : St} (h : stuck t = true) (c : Cfg) (n g : Nat) : step c { t with now := n } (.fire g) = { t with now := n } := by
  unfold stuck at h
  simp only [Bool.and_eq_true] at h
  have h1 : t.s.futDone[g]? ≠ some false := by
    intro hf
    have := List.all_eq_true.1 h.2 false (List.mem_of_getElem? hf)
    cases this
  have : due c { t with now := n } g = false := by
    unfold due
    rw [Bool.and_eq_false_iff]; left
    simpa using h1
  simp only [step]
  rw [this]; rfl

end Verif
