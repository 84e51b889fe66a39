import Verif.Proofs.ResponseSet
import Verif.Proofs.ResponseNum
/-!
# What the flows emit
-/
namespace Verif.Proofs.Response
open Verif.Py Verif.Py.Dict Verif.Model.Upload Verif.Model.Response Verif.Spec.Response

/-! ## Lines of a table by name -/

theorem takeWhile_colon {n v : Bytes} (h : (58 : UInt8) ∉ n) : (n ++ 58 :: v).takeWhile (· ≠ 58) = n ∧ (n ++ 58 :: v).dropWhile (· ≠ 58) = 58 :: v := by
  induction n with
  | nil => simp
  | cons a t ih =>
    have ha : a ≠ 58 := fun e => h (by simp [e])
    have := ih (fun hm => h (by simp [hm]))
    simp [ha] at this ⊢
    exact this

theorem nameOf_line {n v : Bytes} (h : (58 : UInt8) ∉ n) : nameOf (line n v) = lower n := by
  unfold nameOf line
  rw [show n ++ b!": " ++ v = n ++ 58 :: 32 :: v by simp, (takeWhile_colon h).1]

theorem valueOf_line {n v : Bytes} (h : (58 : UInt8) ∉ n) : Spec.Response.valueOf (line n v) = lstrip v := by
  unfold Spec.Response.valueOf line
  rw [show n ++ b!": " ++ v = n ++ 58 :: 32 :: v by simp, (takeWhile_colon h).2]
  rfl

theorem Entry.name {k x : Bytes} (h : Entry k x) : nameOf x = k := by
  obtain ⟨n, v, ⟨e, h1, _, _⟩, hk⟩ := h
  rw [e, ← hk]; exact nameOf_line h1

theorem get_none_of_not_mem {h : Dict Bytes (List Bytes)} {k} (hn : k ∉ h.map (·.1)) : Dict.get h k = none := by
  cases hg : Dict.get h k with
  | none => rfl
  | some l => exact absurd (List.mem_map.2 ⟨_, get_mem hg, rfl⟩) hn

/-- The lines named `k` are the list stored under `k`. -/
theorem flat_filter {h : Dict Bytes (List Bytes)} (hn : (h.map (·.1)).Nodup) (he : ∀ k l, (k, l) ∈ h → ∀ x ∈ l, nameOf x = k) (k : Bytes) :
    (flat h).filter (fun x => nameOf x = k) = (Dict.get h k).getD [] := by
  induction h with
  | nil => simp [flat, Dict.get]
  | cons p t ih =>
    obtain ⟨k0, l0⟩ := p
    have ih := ih (by simp at hn; exact hn.2) (fun k l hm => he k l (List.mem_cons_of_mem _ hm))
    have h0 := he k0 l0 (by simp)
    have e : flat ((k0, l0) :: t) = l0 ++ flat t := by simp [flat]
    rw [e, List.filter_append, ih]
    by_cases hk : k0 = k
    · subst hk
      have : Dict.get t k0 = none := get_none_of_not_mem (by simp at hn ⊢; exact hn.1)
      rw [this, List.filter_eq_self.2 (by simpa using h0)]
      simp [Dict.get]
    · rw [List.filter_eq_nil_iff.2 (by intro x hx; simp [h0 x hx, hk])]
      simp [Dict.get, hk]

theorem nodup_filter {h : Dict Bytes (List Bytes)} (hn : (h.map (·.1)).Nodup) (q) : ((h.filter q).map (·.1)).Nodup :=
  hn.sublist (List.Sublist.map _ List.filter_sublist)

theorem Table.names {b : Bool} {h} (t : Table b h) (hl : mem h kLine = false) : ∀ k l, (k, l) ∈ h → ∀ x ∈ l, nameOf x = k := by
  intro k l hm x hx
  have : k ≠ kLine := by
    rintro rfl
    have : mem h kLine = true := (mem_iff h kLine).2 ⟨l, hm⟩
    rw [hl] at this; cases this
  exact ((t.field k l hm this).2 x hx).name

/-! ## `get_status` and `get_content_type` -/

theorem del_absent {h : Dict Bytes (List Bytes)} {k} (hn : Dict.get h k = none) : del h k = h := by
  unfold del
  refine List.filter_eq_self.2 fun p hp => ?_
  have : p.1 ≠ k := by
    intro ek
    have : mem h k = true := (mem_iff h k).2 ⟨p.2, by rw [← ek]; exact hp⟩
    simp [mem, hn] at this
  simpa using this

/-- `get_status` gives the status set last. -/
theorem getStatus_spec {c b calls h} {s : St} (e : s.headers = some h) (t : TableIs c b calls h s.status s.ctype) :
    ∃ st', getStatus s = (.ok (lastStatus calls), { s with headers := some (del h kLine), status := st' }) ∧ (b = false → s.status.tail = st' ) := by
  have hl := t.lineOk
  unfold getStatus
  rw [bind_ok (headers_some e)]
  cases b with
  | true =>
    rw [if_pos rfl] at hl
    refine ⟨s.status, ?_, fun h => by cases h⟩
    simp only [hl, bind_ok (putHeaders_run _ _), intDec_fmtInt]
    rfl
  | false =>
    rw [if_neg (by decide)] at hl
    have hs := t.status rfl
    rw [del_absent hl]
    simp only [hl]
    have he : ∀ st, { s with headers := some h, status := st } = { s with status := st } := by
      intro st; rw [← e]
    rcases es : s.status with _ | ⟨top, rest⟩
    · rw [es] at hs
      have hs : (200, b!"OK") = lastStatus calls := hs
      refine ⟨[], ?_, fun _ => rfl⟩
      rw [he, ← hs]
      simp only [← es]
    · rw [es] at hs
      have hs : top = lastStatus calls := hs
      refine ⟨rest, ?_, fun _ => rfl⟩
      rw [he, ← hs]

/-- Taking the content type out of the table. -/
theorem getType_spec {h ty} {s : St} (e : s.headers = some h) (ht : lstrip (curType h s.ctype) = lstrip ty)
    (sg : ∀ l, Dict.get h kCT = some l → l.length = 1) :
    ∃ ct ct', getContentType s = (.ok ct, { s with headers := some (del h kCT), ctype := ct' }) ∧ lstrip ct = lstrip ty := by
  unfold getContentType
  rw [bind_ok (headers_some e)]
  rcases hl : Dict.get h kCT with _ | l
  · have hd : del h kCT = h := del_absent hl
    rw [hd]
    simp only [curType, hl] at ht
    simp only
    rcases es : s.ctype with _ | ⟨top, rest⟩
    · rw [es] at ht
      refine ⟨htmlType, [], ?_, ht⟩
      have : s = { s with headers := some h, ctype := [] } := by cases s; simp at es e; subst es; subst e; rfl
      rw [← this]
    · rw [es] at ht
      refine ⟨top, rest, ?_, ht⟩
      have : { s with ctype := rest } = { s with headers := some h, ctype := rest } := by cases s; simp at e; subst e; rfl
      rw [← this]
  · have h1 := sg l hl
    rcases l with _ | ⟨v, rest⟩
    · cases h1
    · simp only [curType, hl] at ht
      refine ⟨lstrip (v.drop 13), s.ctype, rfl, ?_⟩
      rw [← ht]
      show lstrip (lstrip _) = _
      exact lstrip_idem _
where
  lstrip_idem (x : Bytes) : lstrip (lstrip x) = lstrip x := by
    unfold lstrip
    induction x with
    | nil => rfl
    | cons a t ih =>
      by_cases h : isSpace a
      · rw [List.dropWhile_cons_of_pos h]; exact ih
      · rw [List.dropWhile_cons_of_neg h, List.dropWhile_cons_of_neg h]

/-- Names the server manages itself in `end`. -/
abbrev managed : List Bytes := reserved ++ excluded

/-- What a head emitted by `end` says. -/
structure EndLines (c : Cfg) (calls : List Call) (len : Nat) (k : Bool) (t : Bytes) (rest : List Bytes) : Prop where
  is : HeadIs t (statusLine c (lastStatus calls)) rest
  ctype : ∃ ct, rest.filter (fun x => nameOf x = kCT) = [line b!"Content-Type" ct] ∧ lstrip ct = lstrip (lastType calls)
  clen : rest.filter (fun x => nameOf x = kCL) = [line b!"Content-Length" (fmtNat len)]
  conn : rest.filter (fun x => nameOf x = kConn) = [line b!"Connection" (keepOrClose k)]
  te : rest.filter (fun x => nameOf x = kTE) = []
  lines : ∀ n, n ∉ managed → rest.filter (fun x => nameOf x = n) = linesFor n calls

/-- What `end` leaves behind. -/
structure Ended (c : Cfg) (calls : List Call) (d : Bytes) (k : Bool) (o : SendOpts) (log0 : List Emit) (s' : St) : Prop where
  ex : ∃ t rest, s'.log = log0 ++ [.head t (endBody c (lastStatus calls).1 d) o, .mark k] ∧ EndLines c calls d.length k t rest
  keepalive : s'.keepalive = k
  headers : s'.headers = none

/-- What `end` does on a response whose head has not been sent. -/
theorem end_spec {c : Cfg} (hc : CfgOk c) {g s0 b calls s} (i : Inv c g s0 b calls s) (d : Bytes) (k : Bool) (o : SendOpts) :
    ∃ s', end_ c d k o s = (.ok (), s') ∧ Ended c calls d (k && s0.keepalive) o s0.log s' ∧ s'.upgraded = s0.upgraded ∧ s'.aborted = s0.aborted := by
  have hsent : headersSent s = false := by
    obtain ⟨h0, e0, _⟩ := i.ex
    simp [headersSent, e0]
  obtain ⟨ok, i1⟩ := inv_base hc i
  generalize hb : setBaseHeader c s = x at ok i1
  obtain ⟨x, s1⟩ := x
  dsimp only at ok i1
  subst ok
  obtain ⟨h, e1, t1⟩ := i1.ex
  obtain ⟨st', h2, _⟩ := getStatus_spec e1 t1
  have wt := (i1.wf.table h e1)
  have w2 : Wf true { s1 with headers := some (del h kLine), status := st' } ∧ (10 : UInt8) ∉ (lastStatus calls).2 := by
    have := keep_getStatus (b := true) s1 i1.wf
    rw [h2] at this; exact this
  have t2 : curType (del h kLine) s1.ctype = curType h s1.ctype := by
    simp only [curType, get_del, show kCT ≠ kLine by decide, ne_eq, not_false_eq_true, if_true]
  have sg : ∀ l, Dict.get (del h kLine) kCT = some l → l.length = 1 := by
    intro l hl
    rw [get_del, if_pos (by decide)] at hl
    exact t1.single l hl
  obtain ⟨ct, ct', h3, hlt⟩ := getType_spec (s := { s1 with headers := some (del h kLine), status := st' }) (ty := lastType calls) rfl (by rw [t2]; exact t1.type) sg
  have hct : (10 : UInt8) ∉ ct := by
    have := keep_getContentType (b := true) _ w2.1
    rw [h3] at this; exact this.2
  have nl : mem (del (del h kLine) kCT) kLine = false := by rw [mem_del, mem_del]; simp
  have wd : Table true (del (del h kLine) kCT) := (wt.del (by decide)).del (by decide)
  have hi := endHead_is (n := d.length) (k := k && s1.keepalive) hc wd nl w2.2 hct
  have run : end_ c d k o s = (.ok (), { s1 with
      headers := none, status := st', ctype := ct', keepalive := k && s1.keepalive,
      log := s1.log ++ [.head (endHead c (lastStatus calls) ct d.length (k && s1.keepalive) (del (del h kLine) kCT)) (endBody c (lastStatus calls).1 d) o] ++
        [.mark (k && s1.keepalive)] }) := by
    unfold end_ endSend
    rw [bind_run, bind_ok (get_run s), if_neg (by simp [hsent]), bind_ok hb, bind_ok h2, bind_ok h3,
      bind_ok (headers_some rfl), bind_ok (get_run _), bind_ok (emit_run _ _)]
    simp only [setSent_run]
    rw [close_run]
  rw [i1.same.keepalive] at run hi
  refine ⟨_, run, ⟨⟨_, _, ?_, hi, ?_, ?_, ?_, ?_, ?_⟩, rfl, rfl⟩, i1.same.upgraded, i1.same.aborted⟩
  · rw [i1.same.log]; simp
  all_goals
    have nd : (((del (del h kLine) kCT).filter (fun p => p.1 ∉ excluded)).map (·.1)).Nodup :=
      nodup_filter (nodup_filter (nodup_filter t1.nodup (fun p => p.1 ≠ kLine)) (fun p => p.1 ≠ kCT)) (fun p => p.1 ∉ excluded)
    have nm : ∀ k l, (k, l) ∈ (del (del h kLine) kCT).filter (fun p => p.1 ∉ excluded) → ∀ x ∈ l, nameOf x = k :=
      fun k l hm => wd.names nl k l (List.mem_filter.1 hm).1
    have key : ∀ n, (flat ((del (del h kLine) kCT).filter (fun p => p.1 ∉ excluded))).filter (fun x => nameOf x = n) =
        if n ∉ excluded then (if n ≠ kCT then if n ≠ kLine then Dict.get h n else none else none).getD [] else [] := by
      intro n
      have hg := flat_filter nd nm n
      have hg2 := get_filter (del (del h kLine) kCT) (fun k => decide (k ∉ excluded)) n
      rw [hg]
      rw [hg2, get_del, get_del]
      by_cases hn : n ∈ excluded
      · rw [if_neg (fun h => (of_decide_eq_true h) hn), if_neg (fun h => h hn)]; rfl
      · rw [if_pos (decide_eq_true hn), if_pos hn]
    have n1 : nameOf (line b!"Content-Type" ct) = kCT := nameOf_line (by decide)
    have n2 : nameOf (line b!"Content-Length" (fmtNat d.length)) = kCL := nameOf_line (by decide)
    have n3 : nameOf (line b!"Connection" (keepOrClose (k && s0.keepalive))) = kConn := nameOf_line (by decide)
    have first : ∀ n, ([line b!"Content-Type" ct, line b!"Content-Length" (fmtNat d.length), line b!"Connection" (keepOrClose (k && s0.keepalive))] ++
        flat ((del (del h kLine) kCT).filter (fun p => p.1 ∉ excluded))).filter (fun x => nameOf x = n) =
        (if kCT = n then [line b!"Content-Type" ct] else []) ++ (if kCL = n then [line b!"Content-Length" (fmtNat d.length)] else []) ++
        (if kConn = n then [line b!"Connection" (keepOrClose (k && s0.keepalive))] else []) ++
        (if n ∉ excluded then (if n ≠ kCT then if n ≠ kLine then Dict.get h n else none else none).getD [] else []) := by
      intro n
      rw [List.filter_append, key n]
      congr 1
      simp only [List.filter_cons, n1, n2, n3, decide_eq_true_eq, List.filter_nil]
      split <;> split <;> split <;> simp_all
  · exact ⟨ct, by rw [first]; rfl, hlt⟩
  · rw [first]; rfl
  · rw [first]; rfl
  · rw [first]; rfl
  · intro n hn
    rw [first]
    have hr : n ∉ reserved := fun hm => hn (List.mem_append_left _ hm)
    have hx : n ∉ excluded := fun hm => hn (List.mem_append_right _ hm)
    have e1 : kCT ≠ n := by rintro rfl; exact hr (by decide)
    have e2 : kCL ≠ n := by rintro rfl; exact hx (by decide)
    have e3 : kConn ≠ n := by rintro rfl; exact hx (by decide)
    have e4 : n ≠ kLine := by rintro rfl; exact hr (by decide)
    rw [if_neg e1, if_neg e2, if_neg e3, if_pos hx, if_pos (Ne.symm e1), if_pos e4]
    exact t1.lines n hr

/-! ## Sending the head with `write` -/

/-- What a head emitted by `write` says. -/
structure SentLines (c : Cfg) (calls : List Call) (typed : Bool) (t : Bytes) (rest : List Bytes) : Prop where
  is : HeadIs t (statusLine c (lastStatus calls)) rest
  ctype : typed = true → ∃ x, rest.filter (fun x => nameOf x = kCT) = [x] ∧ Spec.Response.valueOf x = lstrip (lastType calls)
  lines : ∀ n, n ∉ reserved → rest.filter (fun x => nameOf x = n) = linesFor n calls

def Typed (s : St) : Prop := ∃ h, s.headers = some h ∧ mem h kCT = true

theorem flush_lines {c : Cfg} {s0 calls s} (i : Inv c true s0 true calls s) {ty : Bool} (ht : ty = true → Typed s) :
    ∃ t rest, flushHead s = (.ok (), { s with headers := none, log := s.log ++ [.head t [] { throttle := false }] }) ∧ SentLines c calls ty t rest ∧
      ∀ h n, s.headers = some h → n ≠ kLine → named n rest = (Dict.get h n).getD [] := by
  obtain ⟨h, e, t⟩ := i.ex
  have hl := t.lineOk
  rw [if_pos rfl] at hl
  have w := i.wf.table h e
  have wd : Table true (del h kLine) := w.del (by decide)
  have nl : mem (del h kLine) kLine = false := by rw [mem_del]; simp
  have hlf := w.lines _ (get_mem hl)
  refine ⟨writeHead [b!"HTTP/" ++ c.version, fmtInt (lastStatus calls).1, (lastStatus calls).2] (del h kLine), flat (del h kLine), ?_, ⟨?_, ?_, ?_⟩, ?_⟩
  · unfold flushHead
    rw [bind_ok (headers_some e), bind_ok (emit_run _ _), hl]; rfl
  · have := writeHead_is wd nl hlf
    have e2 : join b!" " [b!"HTTP/" ++ c.version, fmtInt (lastStatus calls).1, (lastStatus calls).2] = statusLine c (lastStatus calls) := by
      simp [join, statusLine]
    rw [e2] at this; exact this
  all_goals
    have key : ∀ n, (flat (del h kLine)).filter (fun x => nameOf x = n) = (if n ≠ kLine then Dict.get h n else none).getD [] := by
      intro n
      rw [flat_filter (h := del h kLine) (nodup_filter t.nodup (fun p => p.1 ≠ kLine)) (wd.names nl) n, get_del]
  · intro hty
    obtain ⟨h', e', hm⟩ := ht hty
    rw [e] at e'; cases e'
    rw [key, if_pos (by decide)]
    have h1 := t.single
    have h2 := t.type
    have h3 : ∀ l, Dict.get h kCT = some l → ∀ x ∈ l, Entry kCT x := fun l hl => (w.field _ l (get_mem hl) (by decide)).2
    rcases hg : Dict.get h kCT with _ | l
    · simp [mem, hg] at hm
    · have hlen := h1 l hg
      rcases l with _ | ⟨x, _ | ⟨y, r⟩⟩
      · cases hlen
      · refine ⟨x, rfl, ?_⟩
        simp only [curType, hg] at h2
        obtain ⟨n, v, ⟨ex, hn, _, _⟩, hk⟩ := h3 _ hg x (by simp)
        rw [← h2, ex]
        rw [show n ++ b!": " ++ v = line n v from rfl, line_drop hk]
        exact valueOf_line hn
      · simp at hlen
  · intro n hn
    rw [key, if_pos (by rintro rfl; exact hn (by decide))]
    exact t.lines n hn
  · intro h' n e' hn
    rw [e] at e'; cases e'
    unfold named
    rw [key, if_pos hn]

theorem flush_spec {c : Cfg} {s0 calls s} (i : Inv c true s0 true calls s) {ty : Bool} (ht : ty = true → Typed s) :
    ∃ t rest, flushHead s = (.ok (), { s with headers := none, log := s.log ++ [.head t [] { throttle := false }] }) ∧ SentLines c calls ty t rest :=
  let ⟨t, rest, h1, h2, _⟩ := flush_lines i ht
  ⟨t, rest, h1, h2⟩

theorem inv_set {c : Cfg} (hc : CfgOk c) {s0 b calls s} (i : Inv c true s0 b calls s) {n v : Bytes} (h1 : (10 : UInt8) ∉ n) (h2 : (10 : UInt8) ∉ v)
    (h3 : (58 : UInt8) ∉ n) (h4 : lower n ≠ kLine) :
    ∃ s', setHeader n v s = (.ok (), s') ∧ Inv c true s0 b (calls ++ [.setHeader n v]) s' ∧ (Typed s → Typed s') := by
  have i' := inv_call hc (.setHeader n v) ⟨h3, h4⟩ (.inl rfl) i
  obtain ⟨h, e, _⟩ := i.ex
  have : Call.run c (.setHeader n v) s = (.ok (), { s with headers := some (Dict.set h (lower n) [line n v]) }) := setHeader_ok h1 h2 e
  rw [this] at i'
  refine ⟨_, this, i', fun ⟨h', e', hm⟩ => ⟨_, rfl, ?_⟩⟩
  rw [e] at e'; cases e'
  rw [mem_set, hm]; simp

/-- A head call leaves the content type line where it is. -/
theorem typed_call {c : Cfg} (call : Call) (hf : Call.Fine call) {s : St} (ht : Typed s) : Typed (call.run c s).2 := by
  obtain ⟨h, e, hm⟩ := ht
  have put : ∀ k v, Typed { s with headers := some (Dict.set h k v) } := fun k v => ⟨_, rfl, by rw [mem_set, hm]; simp⟩
  have same : Typed s := ⟨h, e, hm⟩
  have hset : ∀ {n v} {s : St} {h}, s.headers = some h → mem h kCT = true → Typed (setHeader n v s).2 := by
    intro n v s h e hm
    unfold setHeader
    split
    · exact ⟨h, e, hm⟩
    · rw [bind_ok (headers_some e)]; exact ⟨_, rfl, by rw [mem_set, hm]; simp⟩
  cases call with
  | appendHeader n v => show Typed (appendHeader n v s).2; unfold appendHeader; rw [bind_ok (headers_some e)]; exact put _ _
  | setHeader n v => exact hset e hm
  | setCookie v =>
    show Typed (setCookie v s).2
    unfold setCookie
    split
    · exact same
    · unfold appendHeader; rw [bind_ok (headers_some e)]; exact put _ _
  | setBaseHeader =>
    show Typed (setBaseHeader c s).2
    unfold setBaseHeader
    rw [bind_ok (get_run s)]
    have : h ≠ [] := by rintro rfl; simp [mem, Dict.get] at hm
    rw [if_pos (.inr (by rw [e]; simpa using this))]; exact same
  | setStatus st m =>
    show Typed (setStatus st m s).2
    unfold setStatus
    split
    · exact same
    · rw [bind_ok (headers_some e)]
      rcases hl : Dict.get h kLine with _ | (_ | ⟨v, _ | ⟨w, _ | ⟨y, rest⟩⟩⟩)
      · exact ⟨h, e, hm⟩
      · exact same
      · exact same
      · exact put _ _
      · exact put _ _
  | setContentType ct =>
    show Typed (setContentType ct s).2
    unfold setContentType
    split
    · exact same
    · rw [bind_ok (headers_some e)]
      rcases hl : Dict.get h kCT with _ | l
      · exact ⟨h, e, hm⟩
      · exact put _ _
  | getStatus => cases hf
  | getContentType => cases hf
  | write d ch o => cases hf
  | end_ d k o => cases hf
  | close k => cases hf
  | stream => cases hf

/-! ## Loops over middlewares -/

/-- A predicate that head calls preserve. -/
def Stable (c : Cfg) (P : St → Prop) : Prop := ∀ call, Call.Fine call → ∀ s, P s → P (call.run c s).2

theorem stable_true (c : Cfg) : Stable c (fun _ => True) := fun _ _ _ _ => trivial
theorem stable_typed (c : Cfg) (ty : Bool) : Stable c (fun s => ty = true → Typed s) := fun call hf _ h ht => typed_call call hf (h ht)

theorem stable_script {c : Cfg} {P : St → Prop} (hP : Stable c P) : ∀ (sc : Script), Script.Fine sc → ∀ s, P s → P (runScript c sc s).2
  | [], _, s, h => h
  | (call, g) :: rest, hf, s, h => by
    have h1 := hP call (hf (call, g) (by simp)) s h
    have ih := stable_script hP rest (fun p hp => hf p (by simp [hp]))
    unfold runScript
    generalize call.run c s = x at h1 ⊢
    obtain ⟨x, s'⟩ := x
    cases x with
    | ok a => exact ih s' h1
    | error e =>
      dsimp only
      cases g with
      | true => exact ih s' h1
      | false => exact h1

theorem inv_opts {c : Cfg} (hc : CfgOk c) {g s0 b calls st ct} {P : St → Prop} (hP : Stable c P) :
    Tri (fun s => Inv c g s0 b calls s ∧ P s) (applyOpts st ct) (fun _ s => Inv c g s0 b (calls ++ optCalls st ct) s ∧ P s) (fun _ => True) := by
  have one : ∀ {calls} (call : Call), Call.Fine call → Call.NoHeader call →
      Tri (fun s => Inv c g s0 b calls s ∧ P s) (call.run c) (fun _ s => Inv c g s0 b (calls ++ [call]) s ∧ P s) (fun _ => True) := by
    intro calls call hf hn s i
    have i' := inv_call hc call hf (.inr hn) i.1
    have p' := hP call hf s i.2
    generalize call.run c s = x at i' p' ⊢
    obtain ⟨x, s'⟩ := x
    cases x with
    | ok a => exact ⟨i', p'⟩
    | error e => trivial
  have hb : ∀ {calls} ct, Tri (fun s => Inv c g s0 b calls s ∧ P s) (optType ct) (fun _ s => Inv c g s0 b (calls ++ optCalls none ct) s ∧ P s) (fun _ => True) := by
    intro calls ct
    rcases ct with _ | ct
    · exact Tri.pure _ (fun s i => by simpa [optCalls] using i)
    · exact one (.setContentType ct) trivial trivial
  unfold applyOpts
  rcases st with _ | ⟨x, m⟩
  · exact Tri.bind (Q := fun _ s => Inv c g s0 b calls s ∧ P s) (Tri.pure _ (fun _ h => h)) (fun _ => hb ct)
  · have e : calls ++ optCalls (some (x, m)) ct = calls ++ [.setStatus x m] ++ optCalls none ct := by simp [optCalls]
    rw [e]
    exact Tri.bind (one (.setStatus x m) trivial trivial) (fun _ => hb ct)

/-- A middleware that returned data after others that returned nothing. -/
def MwEnded (c : Cfg) (s0 : St) (calls : List Call) (ms : List Mw) (s' : St) : Prop :=
  ∃ pre m post d, ms = pre ++ m :: post ∧ (∀ x ∈ pre, x.ret = .none) ∧ m.ret = .data d ∧
    Ended c (calls ++ mwCalls pre ++ callsOf m.script ++ optCalls m.status m.ctype) d s0.keepalive { throttle := false } s0.log s'

/-- A middleware that returned something else, after others that returned nothing. -/
def MwOdd (ms : List Mw) : Prop := ∃ pre m post, ms = pre ++ m :: post ∧ (∀ x ∈ pre, x.ret = .none) ∧ m.ret = .odd

/-- What a loop over middlewares gives when it does not raise. -/
def LoopPost (c : Cfg) (g : Bool) (s0 : St) (b : Bool) (P : St → Prop) (calls : List Call) (ms : List Mw) : Bool → St → Prop
  | true, s' => Inv c g s0 b (calls ++ mwCalls ms) s' ∧ P s' ∧ ∀ m ∈ ms, m.ret = .none
  | false, s' => MwEnded c s0 calls ms s' ∨ (MwOdd ms ∧ s'.log = s0.log)

theorem inv_base' {c : Cfg} (hc : CfgOk c) {g s0 b calls} {P : St → Prop} (hP : Stable c P) :
    Tri (fun s => Inv c g s0 b calls s ∧ P s) (setBaseHeader c) (fun _ s => Inv c true s0 b calls s ∧ P s) (fun _ => True) := by
  intro s i
  have h := inv_base hc i.1
  have p' := hP .setBaseHeader trivial s i.2
  change P (setBaseHeader c s).2 at p'
  generalize setBaseHeader c s = x at h p' ⊢
  obtain ⟨x, s'⟩ := x
  obtain ⟨h1, h2⟩ := h
  dsimp only at h1 h2
  subst h1
  exact ⟨h2, p'⟩

theorem inv_script' {c : Cfg} (hc : CfgOk c) {s0 b} {P : St → Prop} (hP : Stable c P) (sc : Script) (hs : Script.Fine sc) {calls} :
    Tri (fun s => Inv c true s0 b calls s ∧ P s) (runScript c sc) (fun _ s => Inv c true s0 b (calls ++ callsOf sc) s ∧ P s) (fun _ => True) := by
  intro s i
  have h := inv_script hc sc hs s i.1
  have p' := stable_script hP sc hs s i.2
  generalize runScript c sc s = x at h p' ⊢
  obtain ⟨x, s'⟩ := x
  cases x with
  | ok a => exact ⟨h, p'⟩
  | error e => trivial

theorem loop_spec {c : Cfg} (hc : CfgOk c) {s0 b} {P : St → Prop} (hP : Stable c P) : ∀ (ms : List Mw), (∀ m ∈ ms, Script.Fine m.script) → ∀ {g calls},
    Tri (fun s => Inv c g s0 b calls s ∧ P s) (responseLoop c ms) (fun go s' => LoopPost c g s0 b P calls ms go s') (fun _ => True)
  | [], _, g, calls => Tri.pure _ (fun s i => ⟨by simpa [mwCalls] using i.1, i.2, by simp⟩)
  | m :: ms, hf, g, calls => by
    have ih := loop_spec hc (s0 := s0) (b := b) hP ms (fun x hx => hf x (by simp [hx])) (g := g) (calls := calls ++ callsOf m.script)
    have ec : calls ++ mwCalls (m :: ms) = calls ++ callsOf m.script ++ mwCalls ms := by simp [mwCalls]
    unfold responseLoop handleMiddleware
    refine Tri.bind (Q := fun go s' => (go = true → Inv c true s0 b (calls ++ callsOf m.script) s' ∧ P s' ∧ m.ret = .none) ∧
        (go = false → (∃ d, m.ret = .data d ∧ Ended c (calls ++ callsOf m.script ++ optCalls m.status m.ctype) d s0.keepalive { throttle := false } s0.log s') ∨
          (m.ret = .odd ∧ s'.log = s0.log))) ?_ (fun go => ?_)
    · refine Tri.bind (inv_base' hc hP) (fun _ => Tri.bind (inv_script' hc hP m.script (hf m (by simp))) (fun _ => ?_))
      cases hr : m.ret with
      | none => exact Tri.pure _ (fun s i => ⟨fun _ => ⟨i.1, i.2, rfl⟩, fun h => by cases h⟩)
      | odd => exact Tri.pure _ (fun s i => ⟨fun h => (by cases h), fun _ => .inr ⟨rfl, i.1.same.log⟩⟩)
      | raise e => exact fun _ _ => trivial
      | data d =>
        refine Tri.bind (inv_opts hc hP) (fun _ => ?_)
        intro s i
        obtain ⟨s', run, en, _⟩ := end_spec hc i.1 d true { throttle := false }
        rw [bind_ok run]
        exact ⟨fun h => (by cases h), fun _ => .inl ⟨d, rfl, by simpa using en⟩⟩
    · cases go with
      | true =>
        rw [if_pos rfl]
        intro s hs
        have hn : m.ret = .none := (hs.1 rfl).2.2
        have := ih s ⟨(hs.1 rfl).1.weaken, (hs.1 rfl).2.1⟩
        generalize responseLoop c ms s = x at this ⊢
        obtain ⟨x, s'⟩ := x
        cases x with
        | error e => trivial
        | ok go =>
          cases go with
          | true =>
            obtain ⟨h1, h2, h3⟩ := this
            refine ⟨by rw [ec]; exact h1, h2, fun x hx => ?_⟩
            rcases List.mem_cons.1 hx with rfl | hx
            · exact hn
            · exact h3 x hx
          | false =>
            rcases this with ⟨pre, m', post, d, e, h1, h2, h3⟩ | ⟨⟨pre, m', post, e, h1, h2⟩, h3⟩
            · refine .inl ⟨m :: pre, m', post, d, by rw [e]; rfl, ?_, h2, ?_⟩
              · intro x hx
                rcases List.mem_cons.1 hx with rfl | hx
                · exact hn
                · exact h1 x hx
              · have : calls ++ mwCalls (m :: pre) = calls ++ callsOf m.script ++ mwCalls pre := by simp [mwCalls]
                rw [this]; exact h3
            · refine .inr ⟨⟨m :: pre, m', post, by rw [e]; rfl, ?_, h2⟩, h3⟩
              intro x hx
              rcases List.mem_cons.1 hx with rfl | hx
              · exact hn
              · exact h1 x hx
      | false =>
        rw [if_neg (by decide)]
        refine Tri.pure _ (fun s h => ?_)
        rcases h.2 rfl with ⟨d, h1, h2⟩ | ⟨h1, h2⟩
        · exact .inl ⟨[], m, ms, d, rfl, by simp, h1, by simpa [mwCalls] using h2⟩
        · exact .inr ⟨⟨[], m, ms, rfl, by simp, h1⟩, h2⟩

theorem requestLoop_eq (c : Cfg) : ∀ ms, requestLoop c ms = responseLoop c ms
  | [] => rfl
  | m :: ms => by unfold requestLoop responseLoop; rw [requestLoop_eq c ms]

end Verif.Proofs.Response
