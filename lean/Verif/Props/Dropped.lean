import Verif.Props.SequentialChunked
/-!
# C111: what becomes of a head that the server refuses

`_handle_request` (http_protocol.py:267-354) answers a head that is no request by the marker `None` alone (272-277). This closes the
connection if it is the first head on it, but not if the last request was to keep the connection (424-433, 466-504). If `HTTPRequest(…)`
raises (279), outside the `try`, then the task dies. Other refusals are answered.
-/
namespace Verif
open Verif.Py Verif.Model.Conn Conn Flow Reply Pipe
open Verif.Spec.HttpParser (ReqHead valuesOf)
open Verif.Model.HttpParser (parse parseLoop startLine reqLine respLine crlfLines kMethod kUrl getmethod geturl)
open Verif.Model.Head (acceptData initReq)
open Serial

namespace Dropped

/-- A first line that the server takes for a request line: at most 8190 bytes, no LF, and ` HTTP/` with something before it. -/
def RequestLike (l : Bytes) : Prop := l.length ≤ 8190 ∧ (10 : UInt8) ∉ l ∧ ∃ a v, l = a ++ b!" HTTP/" ++ v ∧ a ≠ [] ∧ ¬ b!"HTTP/" <:+: v

/-- The first line of `d` is `l`. -/
def FirstLine (l d : Bytes) : Prop := (∃ r, d = l ++ CRLF ++ r) ∧ ¬ CRLF <:+: l ++ [13]

theorem find_line {l d : Bytes} (h : FirstLine l d) : find CRLF d = some l.length := by
  obtain ⟨⟨r, rfl⟩, h2⟩ := h
  rw [find_eq_some_iff]
  refine ⟨by simp, by simp, fun m hm hp => h2 ?_⟩
  have hm' : m < l.length := hm
  rw [List.append_assoc, List.drop_append_of_le_length (by omega)] at hp
  have hd : 1 ≤ (l.drop m).length := by simp; omega
  have e : l.drop m ++ (CRLF ++ r) = (l.drop m ++ [13]) ++ (10 :: r) := by simp
  rw [e] at hp
  have hp2 : CRLF <+: l.drop m ++ [13] := List.prefix_of_prefix_length_le hp (List.prefix_append _ _) (by simp; omega)
  have e2 : l.drop m ++ [13] <:+ l ++ [13] := by
    rw [← List.drop_append_of_le_length (by omega)]; exact List.drop_suffix ..
  exact hp2.isInfix.trans e2.isInfix

theorem loop_isRequest (ex : List Bytes) (mls : Nat) : ∀ (ls : List Bytes) (left : Nat) (p : Model.HttpParser.Parsed),
    (parseLoop ex mls false left p ls).isRequest = p.isRequest
  | [], _, p => by unfold parseLoop; exact (Proofs.HttpParser.finish_fields p).1
  | l :: ls, left, p => by
    unfold parseLoop
    split
    · rfl
    · rw [if_neg (by simp)]
      split
      · rw [loop_isRequest ex mls ls]
      · exact (Proofs.HttpParser.finish_fields _).1

theorem respLine_isRequest (l : Bytes) (p : Model.HttpParser.Parsed) : (respLine l p).isRequest = p.isRequest := by
  unfold respLine
  dsimp only
  split
  · split <;> rfl
  · rfl

theorem reqLine_isRequest (l : Bytes) (n : Nat) (p : Model.HttpParser.Parsed) : (reqLine l n p).isRequest = true := by
  unfold reqLine
  dsimp only
  split <;> rfl

theorem startLine_isRequest (l : Bytes) (p : Model.HttpParser.Parsed) (h : p.isRequest = false) :
    (startLine l p).isRequest = true ↔ ∃ a v, l = a ++ b!" HTTP/" ++ v ∧ a ≠ [] ∧ ¬ b!"HTTP/" <:+: v := by
  constructor
  · intro hs
    unfold startLine at hs
    dsimp only at hs
    split at hs
    · rw [respLine_isRequest, h] at hs; cases hs
    · rename_i n hn0 hf
      split at hs
      · rename_i hc
        obtain ⟨h1, h2⟩ := hc
        obtain ⟨⟨v, hv⟩, hlast⟩ := Proofs.HttpParser.rfind_some (by simp) hf
        obtain ⟨hlt, e2⟩ := List.getElem?_eq_some_iff.1 h2
        refine ⟨l.take (n - 1), v, ?_, ?_, ?_⟩
        · have := List.drop_eq_getElem_cons hlt
          rw [e2, show n - 1 + 1 = n by omega, ← hv] at this
          have e3 : b!" HTTP/" ++ v = l.drop (n - 1) := by rw [this]; rfl
          rw [List.append_assoc, e3, List.take_append_drop]
        · intro e
          have := congrArg List.length e
          rw [List.length_take, List.length_nil] at this
          omega
        · rintro ⟨a, b, hab⟩
          apply hlast (n + 5 + a.length) (by omega)
          rw [← List.drop_drop, ← List.drop_drop, ← hv, ← hab]
          simp
      · rw [h] at hs; cases hs
    · rw [h] at hs; cases hs
  · rintro ⟨a, v, rfl, ha, hv⟩
    have e : rfind b!"HTTP/" (a ++ b!" HTTP/" ++ v) = some (a.length + 1) := by
      have := Proofs.HttpParser.rfind_http (a := a ++ b!" ") hv
      simpa using this
    have hl : 0 < a.length := List.length_pos_iff.2 ha
    unfold startLine
    rw [e]
    show (if a.length + 1 > 1 ∧ (a ++ b!" HTTP/" ++ v)[a.length + 1 - 1]? = some 32 then reqLine (a ++ b!" HTTP/" ++ v) (a.length + 1) p else p).isRequest = true
    rw [if_pos ⟨by omega, by simp⟩]
    exact reqLine_isRequest ..

/-- On an idle connection: the next head task takes `d`. -/
theorem data_head {c : Cfg} {s : St} {d : Bytes} {i : Nat} (hb : s.hb = some []) (hr : s.reading = true) (hc : s.closing = false)
    (hi : find CRLF2 d = some i) (hm : i + 2 ≤ c.maxHeader) :
    step c s (.data d) = { s with rx := s.rx ++ d, hb := none, reading := false, heads := s.heads ++ [.new d (i + 2)] } := by
  have hd : d ≠ [] := by rintro rfl; cases hi
  rw [data_taken hr hc]
  unfold dataReceived Model.Head.dataReceived
  simp only [hb, if_neg hd, List.nil_append, hi]
  rw [if_pos ⟨by show 1 < i + 2; omega, hm⟩]

theorem head_new {c : Cfg} {s : St} {d : Bytes} {n : Nat} {hs : List HTask} (h : s.heads = hs ++ [.new d n]) :
    step c s (.head hs.length) = startHead c hs.length d n s := by
  show headStep c _ s = _
  unfold headStep
  rw [h, List.getElem?_append_right (Nat.le_refl _)]
  simp

theorem set_last {α : Type} (hs : List α) (x y : α) : (hs ++ [x]).set hs.length y = hs ++ [y] := by
  rw [List.set_append_right _ _ (Nat.le_refl _)]; simp

/-- A head that is no request, up to the marker. -/
theorem notRequest_run {c : Cfg} {s : St} {d : Bytes} {i : Nat} (hb : s.hb = some []) (hr : s.reading = true) (hc : s.closing = false)
    (hi : find CRLF2 d = some i) (hm : i + 2 ≤ c.maxHeader) (hq : s.q1 = []) (hsd : s.sendDone = false)
    (hn : acceptData d (i + 2) = .error .notRequest) :
    run c s [.data d, .head s.heads.length, .send] =
      marker c { s with rx := s.rx ++ d, hb := none, reading := false, heads := s.heads ++ [.done], q1 := [], queued := s.queued ++ [none], sent := s.sent ++ [none] } := by
  have e : run c s [.data d, .head s.heads.length, .send] = step c (step c (step c s (.data d)) (.head s.heads.length)) .send := rfl
  rw [e, data_head hb hr hc hi hm, head_new rfl]
  unfold startHead
  simp only [hn, set_last]
  show sendStep c _ = _
  unfold sendStep put1
  simp only [hsd, hq, Bool.false_eq_true, if_false, List.nil_append]

theorem idle_of {c : Cfg} {rs : List (ReqHead × Bytes)} {s : St} (h : Phase c rs s) {b : Bytes} (hb : s.hb = some b) : ∃ m, Idle rs m s := by
  cases h with
  | idle m h => exact ⟨m, h⟩
  | starting m q b b1 h => rw [h.hb] at hb; cases hb
  | feeding m q b b1 r f hs h => rw [h.hb] at hb; cases hb
  | handling m q b b1 rq h => rw [h.hb] at hb; cases hb
  | leaving m q b rq h => rw [h.hb] at hb; cases hb

theorem idle_run {c : Cfg} {rs : List (ReqHead × Bytes)} (hrs : ∀ x ∈ rs, Serial.Mixed c x) {es : List Ev} (h : Fair c rs {} es)
    {b : Bytes} (hb : (run c {} es).hb = some b) : ∃ m, Idle rs m (run c {} es) :=
  idle_of (phase_run (fun x hx => (hrs x hx).sound) es (phase_init c rs) h).1 hb

theorem idle_started {rs : List (ReqHead × Bytes)} {m : Nat} {s : St} (h : Idle rs m s) : s.started.length = m := by
  rw [h.base.started]; simp

theorem close_eq {s : St} (h : s.closing = false) : close s = { s with closing := true, noWrite := true } := by
  unfold close; rw [if_neg (by simp [h])]

theorem dropped {c : Cfg} {rs : List (ReqHead × Bytes)} {m : Nat} {s : St} {d : Bytes} {i : Nat} (h : Idle rs m s) (hb : s.hb = some []) (hq : s.q1 = [])
    (hm : 0 < m) (hi : find CRLF2 d = some i) (hx : i + 2 ≤ c.maxHeader) (hn : acceptData d (i + 2) = .error .notRequest) :
    ∃ k L, run c s [.data d, .head s.heads.length, .send] =
      { s with rx := s.rx ++ d, hb := some [], reading := true, heads := s.heads ++ [.done], q1 := [], queued := s.queued ++ [none], sent := s.sent ++ [none],
               registered := true, reqs := L, gen := s.gen + 1, first := false, receive := none, futDone := s.futDone ++ [false], cur := some k, q0 := [] } := by
  rw [notRequest_run hb h.reading h.base.closing hi hx hq h.base.sendDone hn]
  rcases h.last with ⟨h0, _⟩ | ⟨k, rq, hk, hc, hr, h1, h2, h3⟩
  · omega
  · obtain ⟨L, hL⟩ : ∃ L, L = s.reqs.set k { rq with bodySize := 0 } := ⟨_, rfl⟩
    refine ⟨k, L, ?_⟩
    unfold marker
    simp only [hc, hr]
    rw [if_pos ⟨h1, trivial⟩]
    unfold handleKeepalive
    simp only [h.base.reg, Bool.not_true, Bool.false_eq_true, if_false, h2, h3]
    unfold reset setReq
    simp only [hr, h.q0, drain, List.foldl_nil]
    subst hL
    split <;> rfl

theorem first {c : Cfg} {rs : List (ReqHead × Bytes)} {s : St} {d : Bytes} {i : Nat} (h : Idle rs 0 s) (hb : s.hb = some []) (hq : s.q1 = [])
    (hi : find CRLF2 d = some i) (hx : i + 2 ≤ c.maxHeader) (hn : acceptData d (i + 2) = .error .notRequest) :
    run c s [.data d, .head s.heads.length, .send] =
      { s with rx := s.rx ++ d, hb := none, reading := false, heads := s.heads ++ [.done], q1 := [], queued := s.queued ++ [none], sent := s.sent ++ [none],
               closing := true, noWrite := true, sendDone := true } := by
  rw [notRequest_run hb h.reading h.base.closing hi hx hq h.base.sendDone hn]
  rcases h.last with ⟨_, hc⟩ | ⟨k, rq, hk, _⟩
  · unfold marker
    simp only [hc]
    rw [close_eq (by exact h.base.closing)]
  · omega

theorem refusal_ne (r : Model.Head.Req) : ((do
      let r ← Model.Head.setKeepalive r
      if r.hasBody then
        let r ← Model.Head.setTransferEncoding (Model.Head.setContentType r)
        let r ← Model.Head.setContentLength r
        Model.Head.setContinue r
      else .ok r) : Except Model.Head.Refusal Model.Head.Req) ≠ .error .notRequest ∧ ((do
      let r ← Model.Head.setKeepalive r
      if r.hasBody then
        let r ← Model.Head.setTransferEncoding (Model.Head.setContentType r)
        let r ← Model.Head.setContentLength r
        Model.Head.setContinue r
      else .ok r) : Except Model.Head.Refusal Model.Head.Req) ≠ .error .ctorError := by
  constructor
  all_goals
    intro h
    cases hk : Model.Head.setKeepalive r with
    | error e' => rw [hk] at h; cases h; exact absurd (setKeepalive_err hk) (by decide)
    | ok r1 =>
      rw [hk] at h
      simp only [bind, Except.bind] at h
      split at h
      · cases ht : Model.Head.setTransferEncoding (Model.Head.setContentType r1) with
        | error e' => rw [ht] at h; cases h; exact absurd (setTransferEncoding_err ht) (by decide)
        | ok r2 =>
          rw [ht] at h
          simp only at h
          cases hl : Model.Head.setContentLength r2 with
          | error e' => rw [hl] at h; cases h; exact absurd (setContentLength_err hl) (by decide)
          | ok r3 => rw [hl] at h; exact absurd (setContinue_err h) (by decide)
      · cases h

theorem accept_notRequest {d : Bytes} {n : Nat} : acceptData d n = .error .notRequest ↔ (parse d n [b!"proxy"]).isRequest = false := by
  unfold acceptData Model.Head.accept
  cases h : (parse d n [b!"proxy"]).isRequest with
  | false => simp
  | true =>
    simp only [Bool.not_true, Bool.false_eq_true, if_false, Bool.true_eq_false, iff_false]
    cases initReq (parse d n [b!"proxy"]) with
    | none => intro h; cases h
    | some r => exact (refusal_ne r).1

/-- What becomes of a request whose start line is well-formed but that has a field named as the parser's keys. -/
theorem dict_key {q : ReqHead} (hw : q.Wf 100 8190) (rest : Bytes) :
    let seen := fun (x : Bytes) (extra : List Bytes) => if extra = [] then Model.HttpParser.HVal.one x else .many (x :: extra)
    let p := parse (q.wire rest) q.text.length [b!"proxy"]
    getmethod p = some (seen q.method (valuesOf q.pairs b!"_method")) ∧ geturl p = some (seen q.url (valuesOf q.pairs b!"_url")) ∧ p.isRequest = true := by
  have fold_some : ∀ (x : Bytes) (vs : List Bytes), vs.foldl Proofs.HttpParser.addVal (some (.one x)) =
      some (if vs = [] then Model.HttpParser.HVal.one x else .many (x :: vs)) := by
    intro x vs
    cases vs with
    | nil => rfl
    | cons w ws => simp [Proofs.HttpParser.addVal, Proofs.HttpParser.fold_many]
  obtain ⟨d1, d2, _, _, _⟩ := Proofs.HttpParser.hget_lineDict q.line q.method q.url q.version
  intro seen p
  have hp : p = _ := Proofs.HttpParser.parse_wf hw [b!"proxy"] rest
  refine ⟨?_, ?_, ?_⟩
  · unfold getmethod
    rw [hp, Proofs.HttpParser.finish_hget _ _ (by decide), Proofs.HttpParser.hget_fold, d1, fold_some]
  · unfold geturl
    rw [hp, Proofs.HttpParser.finish_hget _ _ (by decide), Proofs.HttpParser.hget_fold, d2, fold_some]
  · rw [hp, (Proofs.HttpParser.finish_fields _).1]

theorem accept_ctor {d : Bytes} {n : Nat} (h : (parse d n [b!"proxy"]).isRequest = true) :
    acceptData d n = .error .ctorError ↔ initReq (parse d n [b!"proxy"]) = none := by
  unfold acceptData Model.Head.accept
  simp only [h, Bool.not_true, Bool.false_eq_true, if_false]
  cases initReq (parse d n [b!"proxy"]) with
  | none => simp
  | some r => simpa using (refusal_ne r).2

theorem initReq_none {p : Model.HttpParser.Parsed} {m u : Bytes} {ms us : List Bytes}
    (h1 : getmethod p = some (if ms = [] then Model.HttpParser.HVal.one m else .many (m :: ms)))
    (h2 : geturl p = some (if us = [] then Model.HttpParser.HVal.one u else .many (u :: us))) : initReq p = none ↔ ms ≠ [] ∨ us ≠ [] := by
  unfold initReq
  rw [h1, h2]
  cases ms <;> cases us <;> simp

/-- The states after a head on which the task dies. -/
theorem stuck {c : Cfg} {rs : List (ReqHead × Bytes)} {m : Nat} {s : St} {d : Bytes} {i : Nat} (h : Idle rs m s) (hb : s.hb = some [])
    (hi : find CRLF2 d = some i) (hx : i + 2 ≤ c.maxHeader) (hn : acceptData d (i + 2) = .error .ctorError) :
    run c s [.data d, .head s.heads.length] = { s with rx := s.rx ++ d, hb := none, reading := false, heads := s.heads ++ [.done] } := by
  have e : run c s [.data d, .head s.heads.length] = step c (step c s (.data d)) (.head s.heads.length) := rfl
  rw [e, data_head hb h.reading h.base.closing hi hx, head_new rfl]
  unfold startHead
  simp only [hn, set_last]

/-- A head that is refused by an answer, and the answer. -/
theorem refused {c : Cfg} {rs : List (ReqHead × Bytes)} {m : Nat} {s : St} {d o : Bytes} {i : Nat} {e : Model.Head.Refusal} (h : Idle rs m s) (hb : s.hb = some []) (hq : s.q1 = [])
    (hi : find CRLF2 d = some i) (hx : i + 2 ≤ c.maxHeader) (hn : acceptData d (i + 2) = .error e) (he : e.status ≠ none) :
    let s' := run c s [.data d, .head s.heads.length, .emit m o, .leave m false, .send, .send]
    s'.closing = true ∧ s'.noWrite = true ∧ s'.written = s.written ++ [o] ∧ s'.started = s.started ∧ s'.running = [] ∧ s'.q1 = [] := by
  have hne1 : e ≠ .notRequest := by rintro rfl; exact he rfl
  have hne2 : e ≠ .ctorError := by rintro rfl; exact he rfl
  obtain ⟨r, hr⟩ : ∃ r, initReq (parse d (i + 2) [b!"proxy"]) = some r := by
    have h1 : (parse d (i + 2) [b!"proxy"]).isRequest = true := by
      cases hh : (parse d (i + 2) [b!"proxy"]).isRequest with
      | true => rfl
      | false => rw [accept_notRequest.2 hh] at hn; cases hn; exact absurd rfl hne1
    cases hh : initReq (parse d (i + 2) [b!"proxy"]) with
    | some r => exact ⟨r, rfl⟩
    | none => rw [(accept_ctor h1).2 hh] at hn; cases hn; exact absurd rfl hne2
  obtain ⟨r', e2⟩ : ∃ r', step c (step c s (.data d)) (.head s.heads.length) =
      { s with rx := s.rx ++ d, hb := none, reading := false, heads := s.heads ++ [.failing m], reqs := s.reqs ++ [{ req := r' }], cur := some m } := by
    rw [data_head hb h.reading h.base.closing hi hx, head_new rfl]
    unfold startHead
    cases e with
    | notRequest => exact absurd rfl hne1
    | ctorError => exact absurd rfl hne2
    | _ =>
      simp only [hn, hr, newReq, set_last, h.reqs]
      exact ⟨_, rfl⟩
  have e3 : run c s [.data d, .head s.heads.length, .emit m o, .leave m false, .send, .send] =
      step c (step c (step c (step c (step c (step c s (.data d)) (.head s.heads.length)) (.emit m o)) (.leave m false)) .send) .send := rfl
  have hact : ∀ s' : St, s'.heads = s.heads ++ [.failing m] → active m s' = true := by
    intro s' hs; unfold active; rw [hs]; simp
  have e4 : ∀ t : St, t.heads = s.heads ++ [.failing m] → step c t (.leave m false) = closeResponse m false (finish m t) := by
    intro t ht
    show (if active m t = true then _ else _) = _
    rw [if_pos (hact t ht)]
  have e5 : ∀ (t : St) (b : Bytes), step c t (.emit m b) = put1 (some b) t := fun _ _ => rfl
  have e6 : ∀ t : St, step c t .send = sendStep c t := fun _ => rfl
  have hget : (s.reqs ++ [({ req := r' } : Rq)])[m]? = some ({ req := r' } : Rq) := by rw [← h.reqs]; simp
  have hget2 : ∀ x : Rq, ((s.reqs ++ [({ req := r' } : Rq)]).set m x)[m]? = some x := by
    intro x; rw [List.getElem?_set_self]; rw [← h.reqs]; simp
  dsimp only
  rw [e3, e2, e5, e4 _ rfl, e6, e6]
  simp only [closeResponse, Bool.false_eq_true, if_false, put1, finish, setReq, hget, hq, List.nil_append, List.cons_append, sendStep, h.base.sendDone, h.base.noWrite, marker, hget2, noKeep,
    close, h.base.closing, false_and]
  exact ⟨trivial, trivial, trivial, rfl, by simp [h.running], trivial⟩

end Dropped
open Dropped


/-- **C111 (exact)**: a head is no request for the server unless its first line has at most 8190 bytes, no LF, and ` HTTP/` with something
before it. -/
theorem C111_exact {d l : Bytes} {i : Nat} (hi : find CRLF2 d = some i) (hl : FirstLine l d) :
    acceptData d (i + 2) = .error .notRequest ↔ ¬ RequestLike l := by
  rw [accept_notRequest, ← Bool.not_eq_true, not_congr]
  have hf := find_line hl
  have hle : l.length ≤ i := by
    obtain ⟨_, hp, _⟩ := find_some hi
    obtain ⟨_, _, hmin⟩ := find_some hf
    refine Nat.le_of_not_lt (fun h => hmin i h ?_)
    exact (show CRLF <+: CRLF2 from ⟨CRLF, rfl⟩).trans hp
  have hf2 : find CRLF (d.take (i + 2)) = some l.length := by
    apply find_of_append (t := d.drop (i + 2))
    · rw [List.take_append_drop]; exact hf
    · have := find_some_length hi
      simp at this ⊢; omega
  unfold parse
  rw [Proofs.HttpParser.crlfLines_unfold, hf2]
  have ht : (d.take (i + 2)).take l.length = l := by
    obtain ⟨⟨r, rfl⟩, _⟩ := hl
    rw [List.take_take, Nat.min_eq_left (by omega), List.append_assoc]; simp
  dsimp only
  rw [ht]
  unfold parseLoop RequestLike
  split
  · rename_i hc
    rcases hc with hc | hc | hc
    · cases hc
    · simp only [Bool.false_eq_true, false_iff]; rintro ⟨h1, -⟩; omega
    · simp only [Bool.false_eq_true, false_iff]; rintro ⟨-, h1, -⟩; exact h1 (contains_singleton.1 hc)
  · rename_i hc
    rw [if_pos rfl, loop_isRequest, startLine_isRequest _ _ rfl]
    have h1 : l.length ≤ 8190 := Nat.le_of_not_lt (fun h => hc (.inr (.inl h)))
    have h2 : (10 : UInt8) ∉ l := fun h => hc (.inr (.inr (contains_singleton.2 h)))
    exact ⟨fun h => ⟨h1, h2, h⟩, fun h => h.2.2⟩

/-- **C111 (first, partial)**: if the first head on a connection is no request, the connection ends, without an answer. -/
theorem C111_first_partial (c : Cfg) {rs : List (ReqHead × Bytes)} (hrs : ∀ x ∈ rs, Serial.Mixed c x) {es : List Ev} (h : Fair c rs {} es)
    (hb : (run c {} es).hb = some []) (hq : (run c {} es).q1 = []) (hs : (run c {} es).started = []) {d l : Bytes} {i : Nat}
    (hi : find CRLF2 d = some i) (hm : i + 2 ≤ c.maxHeader) (hl : FirstLine l d) (hn : ¬ RequestLike l) :
    let s' := run c {} (es ++ [.data d, .head (run c {} es).heads.length, .send])
    s'.closing = true ∧ s'.noWrite = true ∧ s'.written = (run c {} es).written ∧ s'.started = [] := by
  obtain ⟨m, hid⟩ := idle_run hrs h hb
  have h0 := idle_started hid
  rw [hs] at h0
  obtain rfl : m = 0 := h0.symm
  have e : run c {} (es ++ [.data d, .head (run c {} es).heads.length, .send]) = run c (run c {} es) [.data d, .head (run c {} es).heads.length, .send] := by
    unfold run; rw [List.foldl_append]
  dsimp only
  rw [e, first hid hb hq hi hm ((C111_exact hi hl).2 hn)]
  exact ⟨rfl, rfl, rfl, hs⟩

/-- **C111 (refused, partial)**: a head that is refused by an exception within the `try` is answered, and then the connection ends; no
handler starts. -/
theorem C111_refused_partial (c : Cfg) {rs : List (ReqHead × Bytes)} (hrs : ∀ x ∈ rs, Serial.Mixed c x) {es : List Ev} (h : Fair c rs {} es)
    (hb : (run c {} es).hb = some []) (hq : (run c {} es).q1 = []) {d o : Bytes} {i : Nat} {e : Model.Head.Refusal}
    (hi : find CRLF2 d = some i) (hm : i + 2 ≤ c.maxHeader) (hn : acceptData d (i + 2) = .error e) (he : e.status ≠ none) :
    let s := run c {} es
    let s' := run c {} (es ++ [.data d, .head s.heads.length, .emit s.reqs.length o, .leave s.reqs.length false, .send, .send])
    s'.closing = true ∧ s'.noWrite = true ∧ s'.written = s.written ++ [o] ∧ s'.started = s.started ∧ s'.running = [] := by
  obtain ⟨m, hid⟩ := idle_run hrs h hb
  intro s
  have e : run c {} (es ++ [.data d, .head s.heads.length, .emit s.reqs.length o, .leave s.reqs.length false, .send, .send]) =
      run c s [.data d, .head s.heads.length, .emit s.reqs.length o, .leave s.reqs.length false, .send, .send] := by
    unfold run; rw [List.foldl_append]; rfl
  dsimp only
  rw [e, show s.reqs.length = m from hid.reqs]
  have := refused (o := o) hid hb hq hi hm hn he
  exact ⟨this.1, this.2.1, this.2.2.1, this.2.2.2.1, this.2.2.2.2.1⟩

/-- **C111 (refuted: dropped)**: after any requests on a connection, a head that is no request is neither answered nor does it end the
connection: the server is ready for the next one, as if nothing had come. -/
theorem C111_refuted_dropped (c : Cfg) {rs : List (ReqHead × Bytes)} (hrs : ∀ x ∈ rs, Serial.Mixed c x) {es : List Ev} (h : Fair c rs {} es)
    (hb : (run c {} es).hb = some []) (hq : (run c {} es).q1 = []) (hs : (run c {} es).started ≠ []) {d l : Bytes} {i : Nat}
    (hi : find CRLF2 d = some i) (hm : i + 2 ≤ c.maxHeader) (hl : FirstLine l d) (hn : ¬ RequestLike l) :
    let s := run c {} es
    let s' := run c {} (es ++ [.data d, .head s.heads.length, .send])
    s'.hb = some [] ∧ s'.reading = true ∧ s'.closing = false ∧ s'.noWrite = false ∧ s'.q0 = [] ∧ s'.q1 = [] ∧ s'.running = [] ∧
    s'.written = s.written ∧ s'.log = s.log ∧ s'.rx = s.rx ++ d := by
  obtain ⟨m, hid⟩ := idle_run hrs h hb
  have h0 := idle_started hid
  have hpos : 0 < m := by
    rcases Nat.eq_zero_or_pos m with rfl | h
    · exact absurd (List.length_eq_zero_iff.1 h0) hs
    · exact h
  intro s
  have e : run c {} (es ++ [.data d, .head s.heads.length, .send]) = run c s [.data d, .head s.heads.length, .send] := by
    unfold run; rw [List.foldl_append]; rfl
  obtain ⟨k, L, e2⟩ := dropped hid hb hq hpos hi hm ((C111_exact hi hl).2 hn)
  dsimp only
  rw [e, e2]
  exact ⟨rfl, rfl, hid.base.closing, hid.base.noWrite, rfl, rfl, hid.running, rfl, rfl, rfl⟩

/-- **C111 (refuted: stuck)**: if `HTTPRequest(…)` raises, then there is no answer, the connection is not closed, and nothing more is read:
no task of the server can go on (only a timer ends it). -/
theorem C111_refuted_stuck (c : Cfg) {rs : List (ReqHead × Bytes)} (hrs : ∀ x ∈ rs, Serial.Mixed c x) {es : List Ev} (h : Fair c rs {} es)
    (hb : (run c {} es).hb = some []) (hq : (run c {} es).q1 = []) {d : Bytes} {i : Nat}
    (hi : find CRLF2 d = some i) (hm : i + 2 ≤ c.maxHeader) (hn : acceptData d (i + 2) = .error .ctorError) :
    let s := run c {} es
    let s' := run c {} (es ++ [.data d, .head s.heads.length])
    s'.closing = false ∧ s'.noWrite = false ∧ s'.reading = false ∧ s'.written = s.written ∧ s'.started = s.started ∧ s'.running = [] ∧
    (∀ j, headStep c j s' = s') ∧ (∀ j, recvStep c j s' = s') ∧ sendStep c s' = s' ∧ ∀ b, step c s' (.data b) = s' := by
  obtain ⟨m, hid⟩ := idle_run hrs h hb
  intro s
  have e : run c {} (es ++ [.data d, .head s.heads.length]) = run c s [.data d, .head s.heads.length] := by
    unfold run; rw [List.foldl_append]; rfl
  dsimp only
  rw [e, stuck hid hb hi hm hn]
  refine ⟨hid.base.closing, hid.base.noWrite, rfl, rfl, rfl, hid.running, fun j => ?_, fun j => ?_, ?_, fun b => ?_⟩
  · unfold headStep
    dsimp only
    split
    · rename_i x n hx
      have := List.mem_of_getElem? hx
      rcases List.mem_append.1 this with h | h
      · obtain ⟨k, hk⟩ := hid.heads _ h; cases hk
      · simp at h
    · rename_i x n y hx
      have := List.mem_of_getElem? hx
      rcases List.mem_append.1 this with h | h
      · obtain ⟨k, hk⟩ := hid.heads _ h; cases hk
      · simp at h
    · rfl
  · unfold recvStep
    dsimp only
    split
    · rename_i x w hx
      have := hid.recvs _ (List.mem_of_getElem? hx)
      cases this
    · rename_i f hx
      have := hid.recvs _ (List.mem_of_getElem? hx)
      cases this
    · rfl
  · unfold sendStep
    simp only [hq]
    split <;> rfl
  · simp [step]

/-- **C111 (exact)**: a well-formed head gets stuck so exactly if it has a field `_method` or `_url`, in any letter case. -/
theorem C111_keys {q : ReqHead} (hw : q.Wf 100 8190) (rest : Bytes) :
    acceptData (q.wire rest) q.text.length = .error .ctorError ↔ ∃ f ∈ q.fields, lower f.name = b!"_method" ∨ lower f.name = b!"_url" := by
  obtain ⟨h1, h2, h3⟩ := dict_key hw rest
  rw [accept_ctor h3, initReq_none h1 h2]
  have key : ∀ k, valuesOf q.pairs k ≠ [] ↔ ∃ f ∈ q.fields, lower f.name = k := by
    intro k
    rw [Ne, Proofs.HttpParser.valuesOf_eq_nil]
    constructor
    · intro h
      apply Classical.byContradiction
      intro hno
      refine h (fun x hx e => hno ?_)
      obtain ⟨f, hf, rfl⟩ := List.mem_map.1 hx
      exact ⟨f, hf, e⟩
    · rintro ⟨f, hf, e⟩ h
      exact h _ (List.mem_map_of_mem hf) e
  rw [key, key]
  constructor
  · rintro (⟨f, h, e⟩ | ⟨f, h, e⟩)
    · exact ⟨f, h, .inl e⟩
    · exact ⟨f, h, .inr e⟩
  · rintro ⟨f, h, e | e⟩
    · exact .inl ⟨f, h, e⟩
    · exact .inr ⟨f, h, e⟩

/-- Requests that are none: one whose line has more than 8190 bytes (it is within `client_max_header_size`, and not answered with 414 or
400), and any request behind an empty line, which RFC 9112 2.2 asks to ignore. -/
theorem C111_long {q : ReqHead} (hl : 8190 < q.line.length) (hf : (10 : UInt8) ∉ q.line) (rest : Bytes) :
    FirstLine q.line (q.wire rest) ∧ ¬ RequestLike q.line ∧ FirstLine [] (CRLF ++ q.wire rest) ∧ ¬ RequestLike [] := by
  refine ⟨⟨⟨(q.fields.map (fun f => f.line ++ CRLF)).flatten ++ CRLF ++ rest, by simp [ReqHead.wire, ReqHead.text]⟩, ?_⟩, fun h => ?_, ⟨⟨q.wire rest, by simp⟩, by decide⟩, ?_⟩
  · intro h
    have : (10 : UInt8) ∈ q.line ++ [13] := h.subset (by decide)
    rcases List.mem_append.1 this with h | h
    · exact hf h
    · simp at h
  · exact absurd h.1 (by omega)
  · rintro ⟨-, -, a, v, h, -⟩
    simp at h

namespace Dropped
def bad : Bytes := b!"GET /x\r\nHost: a\r\n\r\n"
def keyed : ReqHead := ⟨b!"GET", b!"/", b!"1.1", [⟨b!"Host", true, b!"a"⟩, ⟨b!"_Method", true, b!"x"⟩]⟩
def esD : List Ev := [.data (get2.wire []), .head 0, .emit 0 out1, .leave 0 true, .send, .send]
end Dropped

/-- The hypotheses on a concrete connection: one request is served, and `bad` is no request. -/
example : Fair {} [(get2, [])] {} esD ∧ (run {} {} esD).hb = some [] ∧ (run {} {} esD).q1 = [] ∧ (run {} {} esD).started ≠ [] ∧
    find CRLF2 bad = some 15 ∧ acceptData bad 17 = .error .notRequest ∧ acceptData (keyed.wire []) keyed.text.length = .error .ctorError ∧
    acceptData b!"GET / HTTP/1.1\r\nHost: a\r\nContent-Length: x\r\n\r\n" 44 = .error .valueError :=
  ⟨FairB.fair (by decide +kernel), by decide +kernel, by decide +kernel, by decide +kernel, by decide +kernel, by rfl, by rfl, by rfl⟩

/-- **C111 (refuted: shift)**: a client sends three requests, of which the server does not take the second for one. It reads two answers, and
the second of them, which it has to take for that to its second request, is that to the third. -/
theorem C111_refuted_shift : ∃ es : List Ev,
    (run {} {} es).rx = get2.wire [] ++ bad ++ post.wire b!"xyz" ∧ (run {} {} es).hb = some [] ∧ (run {} {} es).closing = false ∧
    (run {} {} es).started = [(0, get2.wire []), (1, post.wire [])] ∧ (run {} {} es).written = [out1, out2] ∧
    ((run {} {} es).reqs.map (·.req.method)) = [b!"GET", b!"POST"] ∧
    (Spec.Client.readAll false [b!"GET", b!"GET"] (run {} {} es).written.flatten).map (fun p => (p.1.map (·.body), p.2)) = some ([b!"hello", b!"abcd"], []) :=
  ⟨esD ++ [.data bad, .head 1, .send, .data (post.wire b!"xyz"), .head 2, .head 2, .take 1, .take 1, .emit 1 out2, .leave 1 true, .send, .send], by decide +kernel⟩

end Verif
