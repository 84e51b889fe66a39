import Verif.Proofs.Sequential
/-!
# C93: a connection serves any number of requests, in every schedule of its tasks

Here nothing is assumed about the tasks of the server: the client keeps its requests in segments of their own (as one that waits for
each response does), the handlers read the bodies of their requests before they end, and all interleavings are allowed.
-/
namespace Verif
open Verif.Py Verif.Model.Conn Conn Flow Reply Pipe
open Verif.Spec.HttpParser (ReqHead valuesOf)
open Verif.Spec.Client (Delimited Resp readAll)
open Verif.Proofs.Head
open Serial (Fair Sound Phase)

namespace Serial
open Verif.Model.Head Verif.Model.HttpParser

/-- A request as an HTTP/1.1 client sends it: a persistent connection, a length for the body if there is one, and sizes within the
server's limits. -/
structure Plain (c : Cfg) (x : ReqHead × Bytes) : Prop where
  wf : x.1.Wf 100 8190
  names : x.1.NoReserved
  size : x.1.text.length < c.maxHeader
  version : x.1.version = b!"1.1"
  connection : valuesOf x.1.pairs b!"connection" = [] ∨ ∃ v, valuesOf x.1.pairs b!"connection" = [v] ∧ b!"close" ∉ Spec.Head.options v
  encoding : valuesOf x.1.pairs b!"transfer-encoding" = []
  expect : valuesOf x.1.pairs b!"expect" = []
  body : (valuesOf x.1.pairs b!"content-length" = [] ∧ x.2 = []) ∨
    ∃ v, valuesOf x.1.pairs b!"content-length" = [v] ∧ Spec.Head.Canonical v ∧ Spec.Head.valueOf v = x.2.length ∧ x.2.length ≤ c.maxBody

/-- The same, but a request with a body may ask for `100 Continue`. -/
structure Polite (c : Cfg) (x : ReqHead × Bytes) : Prop where
  wf : x.1.Wf 100 8190
  names : x.1.NoReserved
  size : x.1.text.length < c.maxHeader
  version : x.1.version = b!"1.1"
  connection : valuesOf x.1.pairs b!"connection" = [] ∨ ∃ v, valuesOf x.1.pairs b!"connection" = [v] ∧ b!"close" ∉ Spec.Head.options v
  encoding : valuesOf x.1.pairs b!"transfer-encoding" = []
  expect : valuesOf x.1.pairs b!"expect" = [] ∨ (Asks x.1 ∧ x.2 ≠ [])
  body : (valuesOf x.1.pairs b!"content-length" = [] ∧ x.2 = []) ∨
    ∃ v, valuesOf x.1.pairs b!"content-length" = [v] ∧ Spec.Head.Canonical v ∧ Spec.Head.valueOf v = x.2.length ∧ x.2.length ≤ c.maxBody

/-- The same, but a body may be chunked. -/
structure Mixed (c : Cfg) (x : ReqHead × Bytes) : Prop where
  wf : x.1.Wf 100 8190
  names : x.1.NoReserved
  size : x.1.text.length < c.maxHeader
  version : x.1.version = b!"1.1"
  connection : valuesOf x.1.pairs b!"connection" = [] ∨ ∃ v, valuesOf x.1.pairs b!"connection" = [v] ∧ b!"close" ∉ Spec.Head.options v
  expect : valuesOf x.1.pairs b!"expect" = [] ∨ (Asks x.1 ∧ x.2 ≠ [])
  body : (valuesOf x.1.pairs b!"transfer-encoding" = [] ∧ ((valuesOf x.1.pairs b!"content-length" = [] ∧ x.2 = []) ∨
      ∃ v, valuesOf x.1.pairs b!"content-length" = [v] ∧ Spec.Head.Canonical v ∧ Spec.Head.valueOf v = x.2.length ∧ x.2.length ≤ c.maxBody)) ∨
    (valuesOf x.1.pairs b!"content-length" = [] ∧ (∃ t, valuesOf x.1.pairs b!"transfer-encoding" = [t]) ∧ x.2 ≠ [] ∧ x.2.length < c.maxBody)

theorem Polite.mixed {c : Cfg} {x : ReqHead × Bytes} (h : Polite c x) : Mixed c x := { h with body := .inl ⟨h.encoding, h.body⟩ }

theorem Plain.polite {c : Cfg} {x : ReqHead × Bytes} (h : Plain c x) : Polite c x := { h with expect := .inl h.expect }

theorem Plain.asks {c : Cfg} {x : ReqHead × Bytes} (h : Plain c x) : ¬ Asks x.1 := by
  rintro ⟨v, hv, _⟩
  rw [h.expect] at hv; cases hv

theorem accept_body (P : Parsed) (a b : Bytes) : accept (Model.HttpParser.finish { P with body := a }) = accept (Model.HttpParser.finish { P with body := b }) := by
  unfold Model.HttpParser.finish
  dsimp only
  split <;> rfl

theorem accept_any {q : ReqHead} (hw : q.Wf 100 8190) (rest : Bytes) : acceptData (q.wire rest) q.text.length = acceptData (q.wire []) q.text.length := by
  unfold acceptData
  rw [Proofs.HttpParser.parse_wf hw, Proofs.HttpParser.parse_wf hw]
  exact accept_body { isRequest := true, validReq := true, headers := q.pairs.foldl (fun h q => addField h q.1 q.2) (Proofs.HttpParser.lineDict q.line q.method q.url q.version),
                      list := q.pairs.filter (fun q => ¬ q.1 ∈ [b!"proxy"]) } rest []

theorem Mixed.sound {c : Cfg} {x : ReqHead × Bytes} (h : Mixed c x) : Sound c x := by
  refine ⟨h.wf, h.size, ?_⟩
  obtain ⟨q, b⟩ := x
  have v1 := vals_wire h.wf [] (k := b!"connection") (by decide)
  have v2 := vals_wire h.wf [] (k := b!"content-length") (by decide)
  have v3 := vals_wire h.wf [] (k := b!"transfer-encoding") (by decide)
  have v4 := vals_wire h.wf [] (k := b!"expect") (by decide)
  have g1 := hget_wire h.wf [] b!"content-length" (by decide) (by decide)
  have g2 := hget_wire h.wf [] b!"transfer-encoding" (by decide) (by decide)
  obtain ⟨l1, l2, l3, _⟩ := hget_wire_line h.wf h.names []
  have hreq : (parse (q.wire []) q.text.length [b!"proxy"]).isRequest = true := by
    rw [Proofs.HttpParser.parse_wf h.wf, (Proofs.HttpParser.finish_fields _).1]
  have hi : ∃ r0, initReq (parse (q.wire []) q.text.length [b!"proxy"]) = some r0 := by
    unfold initReq getmethod geturl
    rw [l1, l2]
    exact ⟨_, rfl⟩
  obtain ⟨r0, hi⟩ := hi
  have hver : r0.version = b!"1.1" := by
    rw [(initReq_some hi).2.2.2.2]
    unfold getversion
    rw [l3, show (q, b).1.version = b!"1.1" from h.version]
    simp
  have hacc := C07_accepts (data := q.wire []) (hs := q.text.length) hreq hi (by
    rw [v2, v3, v4]
    have hx : (valuesOf q.pairs b!"expect").length ≤ 1 := by rcases h.expect with he | ⟨⟨_, he, _⟩, _⟩ <;> rw [he] <;> simp
    rcases h.body with ⟨h3, ⟨h1, _⟩ | ⟨v, h1, h2, _⟩⟩ | ⟨h1, ⟨t, h2⟩, _⟩
    · exact .inl ⟨h1, h3⟩
    · exact .inr ⟨⟨.inr ⟨v, h1, h2⟩, .inl h3, fun _ _ t ht => (by rw [h3] at ht; cases ht), fun hv => (by rw [hver] at hv; cases hv)⟩, hx⟩
    · exact .inr ⟨⟨.inl h1, .inr ⟨t, h2⟩, fun v hv => (by rw [h1] at hv; cases hv), fun hv => (by rw [hver] at hv; cases hv)⟩, hx⟩) (by
    rw [v1]
    rcases h.connection with h1 | ⟨v, h1, _⟩ <;> rw [h1] <;> simp)
  obtain ⟨r, hr⟩ := hacc
  obtain ⟨r1, _, hi1, _, hh, _, _, _, hfr⟩ := accept_iff hr
  rw [hi] at hi1; cases hi1
  obtain ⟨r2, _, _, _, _, hcont⟩ := accept_rest hr
  have hhd : r.headers = (parse (q.wire []) q.text.length [b!"proxy"]).headers := hh.trans (initReq_some hi).1
  have hcl : hmem r.headers b!"content-length" = (dictVal (valuesOf q.pairs b!"content-length")).isSome := by unfold hmem; rw [hhd, g1]
  have hte : hmem r.headers b!"transfer-encoding" = (dictVal (valuesOf q.pairs b!"transfer-encoding")).isSome := by unfold hmem; rw [hhd, g2]
  refine ⟨r, ⟨?_, fun hb => ?_, fun hb => ?_⟩, fun rest => by rw [accept_any h.wf]; exact hr, fun hc => ?_⟩
  · rw [C17_wire h.wf h.names [] hr]
    rcases h.connection with h1 | ⟨v, h1, h2⟩
    · refine .inr ⟨h1, ?_⟩
      rw [show q.version = b!"1.1" from h.version]; decide
    · exact .inl ⟨v, h1, h2⟩
  · rcases h.body with ⟨_, ⟨_, h2⟩ | ⟨v, h1, _⟩⟩ | ⟨_, ⟨t, h1⟩, _⟩
    · exact h2
    · unfold Req.hasBody at hb
      rw [hcl, h1] at hb; cases hb
    · unfold Req.hasBody at hb
      rw [hte, h1, Bool.or_eq_false_iff] at hb; cases hb.2
  · rcases h.body with ⟨h0, ⟨h1, h2⟩ | ⟨v, h1, _, h2, h3⟩⟩ | ⟨h1, ⟨t, h2⟩, h3, h4⟩
    · unfold Req.hasBody at hb
      rw [hcl, hte, h1, h0] at hb; cases hb
    · refine .inl ⟨by rw [hcl, h1]; rfl, ?_, h3⟩
      rcases hfr with ⟨e, _⟩ | ⟨_, e, _⟩
      · rw [v2, h1] at e; cases e
      · rw [e v (by rw [v2, h1]), h2]
    · exact .inr ⟨by rw [hcl, h1]; rfl, h4, h3, by unfold Chunked; rw [h2]; simp⟩
  · obtain ⟨hb, v, hv, hl⟩ := hcont.1 hc
    rw [v4] at hv
    rcases h.expect with he | ⟨_, he⟩
    · rw [he] at hv; cases hv
    · exact ⟨⟨v, hv, hl⟩, hb, he⟩

theorem Polite.sound {c : Cfg} {x : ReqHead × Bytes} (h : Polite c x) : Sound c x := h.mixed.sound

theorem requests (c : Cfg) {rs : List (ReqHead × Bytes)} (hrs : ∀ x ∈ rs, Mixed c x) {es : List Ev} (h : Fair c rs {} es) :
    (run c {} es).noWrite = false ∧ (run c {} es).closing = false ∧ (run c {} es).started.length ≤ rs.length ∧
    ∀ i q b, i < (run c {} es).started.length → rs[i]? = some (q, b) → ∃ r, (run c {} es).started[i]? = some (i, q.wire []) ∧ (run c {} es).reqs[i]? = some r ∧
      r.req.method = upper q.method ∧ r.req.url = q.url ∧ bodyOf i (run c {} es).log <+: b ∧ (i ∉ (run c {} es).running → bodyOf i (run c {} es).log = b) := by
  obtain ⟨hp, hc, ho⟩ := phase_run (fun x hx => (hrs x hx).sound) es (phase_init c rs) h
  have j := j_run es [] (s := {}) j_init Flow.inv_init rfl hc ho
  rw [List.nil_append] at j
  generalize run c {} es = s at *
  obtain ⟨m, n, hb, hmn⟩ := hp.base
  have hlen : s.started.length = n := by rw [hb.started]; simp
  refine ⟨hb.noWrite, hb.closing, by rw [hlen]; exact hb.le, fun i q b hi hq => ?_⟩
  have hst : s.started[i]? = some (i, q.wire []) := by
    rw [hb.started, List.getElem?_map, List.getElem?_range (by omega)]
    simp [headAt, hq]
  have hx := hrs _ (List.mem_of_getElem? hq)
  obtain ⟨r, r1, r2, r3⟩ := known_wire hx.wf hx.names (j.known i _ (.inl (List.mem_of_getElem? hst)))
  have full : i < m → bodyOf i s.log = b := by intro hm; rw [hb.bodies i hm]; simp [bodyAt, hq]
  refine ⟨r, hst, r1, r2, r3, ?_, fun hr => ?_⟩
  · by_cases him : i < m
    · rw [full him]; exact List.prefix_refl _
    · cases hp with
      | handling m' q' b' b1 rq h' =>
        have h1 := congrArg List.length h'.base.started
        simp only [List.length_map, List.length_range] at h1
        have : i = m' := by
          rcases hmn with rfl | ⟨rfl, hr⟩
          · omega
          · rw [h'.running] at hr; simp at hr; omega
        subst this
        have := h'.at_
        rw [hq] at this; cases this
        refine List.IsPrefix.trans ?_ h'.pre
        cases h'.sub with
        | bare _ _ _ _ hl _ => rw [hl]; simp
        | wait _ _ _ _ _ _ _ _ hby => rw [← hby]; simp
        | busy _ _ _ _ _ _ _ hx => rcases hx with ⟨_, _, _, _, _, e⟩ | ⟨_, _, _, e⟩ <;> (rw [← e, List.append_assoc]; simp)
        | full _ _ _ _ e _ hby => rw [e, ← hby]; simp
      | idle m' h' =>
        exfalso
        have := h'.base.started; rw [hb.started] at this; have := congrArg List.length this; simp at this
        rcases hmn with rfl | ⟨_, hr⟩
        · omega
        · rw [h'.running] at hr; cases hr
      | starting m' _ _ _ h' =>
        exfalso
        have := h'.base.started; rw [hb.started] at this; have := congrArg List.length this; simp at this
        rcases hmn with rfl | ⟨_, hr⟩
        · omega
        · rw [h'.running] at hr; cases hr
      | feeding m' _ _ _ _ _ _ h' =>
        exfalso
        have := h'.base.started; rw [hb.started] at this; have := congrArg List.length this; simp at this
        rcases hmn with rfl | ⟨_, hr⟩
        · omega
        · rw [h'.running] at hr; cases hr
      | leaving m' _ _ _ h' =>
        exfalso
        have := h'.base.started; rw [hb.started] at this; have := congrArg List.length this; simp at this
        rcases hmn with rfl | ⟨_, hr⟩
        · omega
        · rw [h'.running] at hr; cases hr
  · refine full ?_
    rcases hmn with rfl | ⟨rfl, hr'⟩
    · omega
    · rw [hr'] at hr; simp at hr; omega

theorem answers_of (c : Cfg) {rs : List (ReqHead × Bytes)} (hrs : ∀ x ∈ rs, Mixed c x) {es : List Ev} (h : Fair c rs {} es)
    (hq : (run c {} es).hb.isSome = true ∨ ((run c {} es).q1.head? = some none ∧ ¬ Expecting (run c {} es)))
    {D : Bytes → Bytes → Resp → Prop} {R : List Bytes → Bytes → Option (List Resp × Bytes)}
    (hR : ∀ l : List (Bytes × Bytes × Resp), (∀ x ∈ l, D x.1 x.2.1 x.2.2) → R (l.map (·.1)) (l.map (·.2.1)).flatten = some (l.map (·.2.2), []))
    {answer : Nat → Resp}
    (hd : ∀ (i : Nat) q b, i < (run c {} es).started.length → rs[i]? = some (q, b) → D q.method (emitted i es) (answer i)) :
    R ((rs.take (run c {} es).started.length).map (·.1.method)) (run c {} es).written.flatten =
      some ((List.range (run c {} es).started.length).map answer, []) ∧
    ((run c {} es).hb.isSome = true → (run c {} es).rx = stream rs → (run c {} es).started.length = rs.length) := by
  obtain ⟨hp, hc, ho⟩ := phase_run (fun x hx => (hrs x hx).sound) es (phase_init c rs) h
  obtain ⟨_, _, hl, hr⟩ := requests c hrs h
  obtain ⟨m, n, hb, hmn⟩ := hp.base
  have st : ∀ (i : Nat) k raw, (run c {} es).started[i]? = some (k, raw) → k = i ∧ i < (run c {} es).started.length ∧ ∃ q b, rs[i]? = some (q, b) ∧ raw = q.wire [] := by
    intro i k raw hi
    obtain ⟨hlt, _⟩ := List.getElem?_eq_some_iff.1 hi
    have hx : rs[i]? = some rs[i] := List.getElem?_eq_getElem (by omega)
    obtain ⟨r, h1, _⟩ := hr i _ _ hlt hx
    rw [h1] at hi; cases hi
    exact ⟨rfl, hlt, _, _, hx, rfl⟩
  refine ⟨pipeline_reads c hc ho (fun i k raw hi => ?_) hq hR (fun i k raw q b hi hx => ?_), fun hb' he => ?_⟩
  · obtain ⟨_, _, q, b, hx, _⟩ := st i k raw hi
    exact ⟨q, b, hx⟩
  · obtain ⟨rfl, hlt, _⟩ := st i k raw hi
    exact hd _ q b hlt hx
  · have hlen : (run c {} es).started.length = n := by rw [hb.started]; simp
    rw [hlen]
    have no : (run c {} es).hb ≠ none := fun h0 => by rw [h0] at hb'; cases hb'
    cases hp with
    | idle m' h' =>
      have hn : n = m' := by have := congrArg List.length (hb.started.symm.trans h'.base.started); simpa using this
      subst hn
      refine Nat.le_antisymm hb.le (Nat.le_of_not_lt fun hlt => ?_)
      have hx : rs[n]? = some rs[n] := List.getElem?_eq_getElem hlt
      obtain ⟨buf, _, e, b3, _⟩ := h'.buf
      have h1 := (b3 _ hx).2
      have h2 := stream_mono (rs := rs) (i := n + 1) (j := rs.length) (by omega)
      rw [stream_succ hx, List.take_length, ← he, e] at h2
      rw [wire_len] at h1
      simp [wire_len] at h1 h2
      omega
    | starting m' q b b1 h' => exact absurd h'.hb no
    | feeding m' q b b1 r f hs h' => exact absurd h'.hb no
    | handling m' q b b1 rq h' => exact absurd h'.hb no
    | leaving m' q b rq h' => exact absurd h'.hb no

theorem live (c : Cfg) {rs : List (ReqHead × Bytes)} (hrs : ∀ x ∈ rs, Mixed c x) {es : List Ev} (h : Fair c rs {} es)
    (hh : ∀ i, headStep c i (run c {} es) = run c {} es) (hr : ∀ i, recvStep c i (run c {} es) = run c {} es) (hs : sendStep c (run c {} es) = run c {} es) :
    (run c {} es).q1 = [] ∧
    (((run c {} es).hb.isSome = true ∧ (run c {} es).reading = true ∧ (run c {} es).running = []) ∨
      ∃ m, (run c {} es).running = [m] ∧ ((run c {} es).q0 = [] → ¬ (Read (run c {} es) m ∧ Drained (bodyAt rs m) (run c {} es) m) → (run c {} es).reading = true)) := by
  obtain ⟨hp, _, _⟩ := phase_run (fun x hx => (hrs x hx).sound) es (phase_init c rs) h
  generalize run c {} es = s at *
  obtain ⟨_, _, hb, _⟩ := hp.base
  have q1 : (∀ l, s.q1 ≠ none :: l) → s.q1 = [] := by
    intro hn
    cases hq : s.q1 with
    | nil => rfl
    | cons x l =>
      exfalso
      cases x with
      | none => exact hn l hq
      | some y =>
        have := congrArg (fun s => s.q1.length) hs
        unfold sendStep at this
        simp only [hb.sendDone, hq, hb.noWrite, Bool.false_eq_true, if_false, List.length_cons] at this
        omega
  cases hp with
  | idle m h =>
    refine ⟨q1 (fun l hl => h.q1 (by rw [hl]; simp)), .inl ⟨?_, h.reading, h.running⟩⟩
    obtain ⟨buf, e, _⟩ := h.buf
    rw [e]; rfl
  | starting m q b b1 h =>
    exfalso
    obtain ⟨hs', e1, e2⟩ := h.heads
    have hx : s.heads[hs'.length]? = some (.new (q.wire b1) q.text.length) := by rw [e1]; simp
    obtain ⟨r, ha⟩ := (hrs _ (List.mem_of_getElem? h.at_)).sound.acc
    dsimp only at ha
    have := hh hs'.length
    unfold headStep startHead at this
    rw [hx] at this
    dsimp only at this
    rw [ha.acc b1] at this
    dsimp only at this
    have key : ∀ (raw : Bytes) (p : St × Option Feed), p.1.reqs.length = m + 1 → fed hs'.length s.reqs.length raw p ≠ s := by
      rintro raw ⟨s', o⟩ hp he
      have hl := congrArg (fun s => s.reqs.length) he
      rw [show s.reqs.length = m from h.reqs] at hl
      cases o <;> simp only [fed, Model.Conn.begin] at hl hp <;> omega
    have acl : ∀ (n : Nat) (s' : St), s'.reqs.length = m + 1 → (account c n s').reqs.length = m + 1 := by
      intro n s' hs'
      have sl : ∀ k f (s : St), (setReq k f s).reqs.length = s.reqs.length := by
        intro k f s; unfold setReq; split <;> simp
      unfold account
      split
      · exact hs'
      · split
        · exact hs'
        · split
          · exact hs'
          · dsimp only
            split
            · simpa [put0] using hs'
            · split
              · simpa using hs'
              · simp only [put1, sl, List.length_set]; exact hs'
    have fl : ∀ (bs : Nat) (f : Feed) (s' : St), s'.reqs.length = m + 1 → (feed c bs f s').1.reqs.length = m + 1 := by
      intro bs f s' hs'
      unfold feed
      dsimp only
      split
      · exact acl _ _ hs'
      · split <;> exact hs'
    have hn : ∀ b : Bool, (if b = true then newReq r s else put0 (some []) (newReq r s)).reqs.length = m + 1 := by
      intro b
      cases b <;> simp [put0, newReq, h.reqs]
    split at this
    · exact key _ _ (fl _ _ _ (hn _)) this
    · exact key _ (_, none) (hn _) this
  | feeding m q b b1 r f hs' h =>
    exfalso
    have hx : s.heads[hs'.length]? = some (.feeding f m (q.wire [])) := by rw [h.heads]; simp
    have := hh hs'.length
    unfold headStep at this
    rw [hx] at this
    dsimp only at this
    unfold feed at this
    dsimp only at this
    split at this
    · have hl := congrArg (fun s => s.running) this
      simp only [fed, Model.Conn.begin] at hl
      rw [show (account c f.size s).running = s.running from by
        rw [account_eq (rq := { req := r }) h.acc h.hasBody h.cur h.req rfl (by rw [h.size]; simpa using h.pre.length_le)]; split <;> rfl, h.running] at hl
      cases hl
    · split at this
      · have hl := congrArg (fun s => s.running) this
        simp only [fed, Model.Conn.begin, abort, put0] at hl
        rw [h.running] at hl; cases hl
      · have hl := congrArg (fun s => s.q0.length) this
        simp [fed, put0] at hl
  | handling m q b b1 rq h =>
    have hq1 : ∀ l, s.q1 ≠ none :: l := by
      intro l hl
      rcases h.q1 with h1 | ⟨hc, _⟩
      · exact h1 (by rw [hl]; simp)
      · have he : sendStep c s = marker c { s with q1 := l, sent := s.sent ++ [none] } := by
          unfold sendStep
          rw [if_neg (by rw [hb.sendDone]; simp), hl]
        rw [hs] at he
        have hm : m < s.reqs.length := by rw [h.len]; omega
        have h2 := congrArg (fun s => (s.reqs[m]?).map (fun r => r.req.httpContinue)) he
        unfold marker handleKeepalive setReq at h2
        simp only [h.cur, h.req, h.acc.keep, h.hb, and_self, if_true, h.base.reg, Bool.not_true, Bool.false_eq_true, if_false, hc] at h2
        rw [List.getElem?_set_self hm] at h2
        simp [hc] at h2
    refine ⟨q1 hq1, .inr ⟨m, h.running, fun hq hnr => ?_⟩⟩
    cases h.sub with
    | bare h1 => exact absurd ⟨fun r hr hb' => (by rw [h.req] at hr; cases hr; rw [h1] at hb'; cases hb'), fun r hr hb' => (by rw [h.req] at hr; cases hr; rw [h1] at hb'; cases hb')⟩ hnr
    | wait _ h2 => exact h2
    | full _ h7 _ _ _ h5 =>
      rcases h5 with ⟨xs, e, _⟩ | ⟨_, e⟩
      · rw [hq] at e; simp at e
      · exact absurd ⟨fun _ _ _ _ => e, fun r hr _ hns => (by rw [h.req] at hr; cases hr; exact absurd h7 hns)⟩ hnr
    | busy h1 h2 ds x h3 h4 h5 h6 h7 h8 =>
      exfalso
      have hx : s.recvs[ds.length]? = some x := by rw [h3]; simp
      have key : ∀ f : Feed, rq.bodySize + f.size ≤ b1.length → recvFed ds.length (feed c c.bufferSize f s) = s → False := by
        intro f hle he
        unfold feed at he
        dsimp only at he
        split at he
        · have hl := congrArg (fun s => s.recvs[ds.length]?) he
          simp only [recvFed] at hl
          rw [show (account c f.size s).recvs = s.recvs from by rw [account_eq h.acc h1 h.cur h.req h.up (Nat.le_trans hle h.pre.length_le)]; split <;> rfl, hx] at hl
          rw [List.getElem?_set_self (by rw [h3]; simp)] at hl
          cases hl
          rcases h6 with ⟨_, _, e, _⟩ | ⟨_, e, _⟩ <;> cases e
        · split at he
          · have hl := congrArg (fun s => s.q0.length) he
            simp [recvFed, put0, abort] at hl
          · have hl := congrArg (fun s => s.q0.length) he
            simp [recvFed, put0] at hl
      have := hr ds.length
      unfold recvStep at this
      rw [hx] at this
      rcases h6 with ⟨d, w, rfl, hw, e3, _⟩ | ⟨f, rfl, e3, _⟩
      · dsimp only at this
        rw [if_pos hw] at this
        exact key _ e3.1 this
      · exact key _ e3.1 this
  | leaving m q b rq h =>
    exfalso
    obtain ⟨l, e, hl⟩ := h.q1
    have hl2 := congrArg (fun s => s.sent.length) hs
    cases l with
    | nil =>
      rw [List.nil_append] at e
      have hl3 := congrArg (fun s => s.hb) hs
      have i := leaving_keep (fun x hx => (hrs x hx).sound) h (s.sent ++ [none])
      have he : sendStep c s = marker c { s with q1 := [], sent := s.sent ++ [none] } := by
        unfold sendStep
        rw [if_neg (by rw [hb.sendDone]; simp), e]
      rw [he] at hl3
      obtain ⟨buf, e', _⟩ := i.buf
      rw [e', h.hb] at hl3
      cases hl3
    | cons x l =>
      cases x with
      | none => simp at hl
      | some y =>
        unfold sendStep at hl2
        simp only [hb.sendDone, e, hb.noWrite, Bool.false_eq_true, if_false, List.cons_append, List.length_append, List.length_singleton] at hl2
        omega

end Serial
open Serial

/-- **C93**: a client sends any number of requests over one connection, none sharing a segment with another; the handlers read their
bodies. Then in every schedule, as long as the queue of body parts stays within its limit, the connection stays open and the `i`-th
handler started is that of the `i`-th request: it has its method and its URL, what it has read is a part of the body, and the whole
body once it is done. -/
theorem C93_requests (c : Cfg) {rs : List (ReqHead × Bytes)} (hrs : ∀ x ∈ rs, Serial.Plain c x) {es : List Ev} (h : Fair c rs {} es) :
    (run c {} es).noWrite = false ∧ (run c {} es).closing = false ∧ (run c {} es).started.length ≤ rs.length ∧
    ∀ i q b, i < (run c {} es).started.length → rs[i]? = some (q, b) → ∃ r, (run c {} es).started[i]? = some (i, q.wire []) ∧ (run c {} es).reqs[i]? = some r ∧
      r.req.method = upper q.method ∧ r.req.url = q.url ∧ bodyOf i (run c {} es).log <+: b ∧ (i ∉ (run c {} es).running → bodyOf i (run c {} es).log = b) :=
  Serial.requests c (fun x hx => (hrs x hx).polite.mixed) h

/-- **C93 (answers)**: if each handler's response is delimited for the method of its request (C89), then whenever the connection waits for
a request, or the send task comes to the end of a response, the client reads from what was written exactly those responses, the `i`-th
one as the answer to its `i`-th request; and when all was received and the connection waits, all are answered. -/
theorem C93_answers (c : Cfg) {rs : List (ReqHead × Bytes)} (hrs : ∀ x ∈ rs, Serial.Plain c x) {es : List Ev} (h : Fair c rs {} es)
    (hq : (run c {} es).hb.isSome = true ∨ (run c {} es).q1.head? = some none) {answer : Nat → Resp}
    (hd : ∀ (i : Nat) q b, i < (run c {} es).started.length → rs[i]? = some (q, b) → Delimited q.method (emitted i es) (answer i)) (closed : Bool) :
    readAll closed ((rs.take (run c {} es).started.length).map (·.1.method)) (run c {} es).written.flatten =
      some ((List.range (run c {} es).started.length).map answer, []) ∧
    ((run c {} es).hb.isSome = true → (run c {} es).rx = stream rs → (run c {} es).started.length = rs.length) := by
  obtain ⟨hp, _, _⟩ := phase_run (fun x hx => (hrs x hx).polite.sound) es (phase_init c rs) h
  refine Serial.answers_of c (fun x hx => (hrs x hx).polite.mixed) h (hq.imp_right (fun h => ⟨h, hp.expecting (fun x hx => (hrs x hx).asks) h⟩)) (D := Delimited) (R := readAll closed) (fun l hl => ?_) hd
  have ra := Spec.Client.readAll_flatten (closed := closed) hl [] []
  simpa only [List.append_nil, readAll, Option.map_some] using ra

/-- **C93 (no deadlock)**: when no task of the server can go on, everything queued is written, and either the connection reads and waits for
a request, or one handler runs, and if it waits for more of its body, then the connection reads. -/
theorem C93_live (c : Cfg) {rs : List (ReqHead × Bytes)} (hrs : ∀ x ∈ rs, Serial.Plain c x) {es : List Ev} (h : Fair c rs {} es)
    (hh : ∀ i, headStep c i (run c {} es) = run c {} es) (hr : ∀ i, recvStep c i (run c {} es) = run c {} es) (hs : sendStep c (run c {} es) = run c {} es) :
    (run c {} es).q1 = [] ∧
    (((run c {} es).hb.isSome = true ∧ (run c {} es).reading = true ∧ (run c {} es).running = []) ∨
      ∃ m, (run c {} es).running = [m] ∧ ((run c {} es).q0 = [] → ¬ Read (run c {} es) m → (run c {} es).reading = true)) := by
  obtain ⟨h1, h2⟩ := Serial.live c (fun x hx => (hrs x hx).polite.mixed) h hh hr hs
  exact ⟨h1, h2.imp_right fun ⟨m, h3, h4⟩ => ⟨m, h3, fun hq hn => h4 hq (fun h => hn h.1)⟩⟩

namespace Serial

def readB (s : St) (k : Nat) : Bool :=
  match s.reqs[k]? with
  | some r => !r.req.hasBody || !decide (Sized r) || s.log.contains (.body k none)
  | none => true

def drainedB (b : Bytes) (s : St) (k : Nat) : Bool :=
  match s.reqs[k]? with
  | some r => !r.req.hasBody || decide (Sized r) || (bodyOf k s.log == b && s.q0 == [] && s.recvs.all (fun x => decide (x = RTask.done)))
  | none => true

def quietB (rs : List (ReqHead × Bytes)) (s : St) (j : Nat) : Bool :=
  match j with
  | 0 => true
  | i + 1 => (rs[i]?).elim true (fun x => valuesOf x.1.pairs b!"transfer-encoding" == []) || s.hb.isSome

def asksB (q : ReqHead) : Bool :=
  match valuesOf q.pairs b!"expect" with
  | [v] => lower v == b!"100-continue"
  | _ => false

def patientB (rs : List (ReqHead × Bytes)) (s : St) (d : Bytes) (j : Nat) : Bool :=
  match rs[j]? with
  | some (q, _) => !asksB q || decide ((s.rx ++ d).length ≤ (stream (rs.take j) ++ q.wire []).length) || (s.reqs[j]?).elim false (fun r => !r.req.httpContinue)
  | none => true

def flagB (s : St) (k : Nat) : Bool := (s.reqs[k]?).elim false (fun r => r.req.httpContinue)

theorem asksB_of {q : ReqHead} (h : Asks q) : asksB q = true := by
  obtain ⟨v, h1, h2⟩ := h
  unfold asksB
  rw [h1]; simpa using h2

theorem patientB_of {rs : List (ReqHead × Bytes)} {s : St} {d : Bytes} {j : Nat} (h : patientB rs s d j = true) : Patient rs s d j := by
  intro q b hq ha hl
  unfold patientB at h
  rw [hq] at h
  simp only [asksB_of ha, Bool.not_true, Bool.false_or, Bool.or_eq_true, decide_eq_true_eq] at h
  rcases h with h | h
  · omega
  · cases hr : s.reqs[j]? with
    | none => rw [hr] at h; cases h
    | some r => rw [hr] at h; exact ⟨r, rfl, by simpa using h⟩

def fairB (rs : List (ReqHead × Bytes)) (s : St) : Ev → Bool
  | .data d => !s.reading || s.closing || (List.range (rs.length + 1)).any (fun j => (stream (rs.take j)).isPrefixOf s.rx && (s.rx ++ d).isPrefixOf (stream (rs.take (j + 1))) && patientB rs s d j && (d == [] || quietB rs s j))
  | .head _ | .recv _ | .send => true
  | .emit k _ | .take k => s.running.contains k
  | .clear k => s.running.contains k && readB s k
  | .leave k keep => !s.running.contains k || (keep && readB s k && drainedB (bodyAt rs k) s k)
  | .mark k keep => s.running.contains k && keep && !s.q1.contains none && flagB s k
  | .eof _ | .upgrade _ | .finish _ | .abort | .kick => false

def FairB (c : Cfg) (rs : List (ReqHead × Bytes)) : St → List Ev → Bool
  | _, [] => true
  | s, e :: es => fairB rs s e && decide ((step c s e).q0.length ≤ c.maxQueue) && FairB c rs (step c s e) es

theorem readB_of {s : St} {k : Nat} (h : readB s k = true) : Read s k := by
  intro r hr hb hs
  unfold readB at h
  rw [hr] at h
  simpa [hb, hs] using h

theorem drainedB_of {b : Bytes} {s : St} {k : Nat} (h : drainedB b s k = true) : Drained b s k := by
  intro r hr hb hs
  unfold drainedB at h
  rw [hr] at h
  simpa [hb, hs, and_assoc] using h

theorem quietB_of {rs : List (ReqHead × Bytes)} {s : St} {j : Nat} (h : quietB rs s j = true) : Quiet rs s j := by
  rintro i q b rfl hq hc hn
  simp only [quietB, hq, Option.elim_some, hn, Option.isSome_none, Bool.or_false, beq_iff_eq] at h
  exact hc h

theorem fair_of {rs : List (ReqHead × Bytes)} {s : St} {e : Ev} (h : fairB rs s e = true) : fair rs s e := by
  cases e with
  | data d =>
    intro h1 h2
    simp only [fairB, h1, h2, Bool.not_true, Bool.false_or, List.any_eq_true, Bool.and_eq_true, List.isPrefixOf_iff_prefix] at h
    obtain ⟨j, _, ⟨⟨h3, h4⟩, h5⟩, h6⟩ := h
    refine ⟨j, h3, h4, patientB_of h5, fun hd => quietB_of ?_⟩
    simpa [hd] using h6
  | emit k b => simpa [fairB, fair] using h
  | take k => simpa [fairB, fair] using h
  | clear k =>
    simp only [fairB, Bool.and_eq_true] at h
    exact ⟨by simpa using h.1, readB_of h.2⟩
  | leave k keep =>
    intro hk
    have hk : s.running.contains k = true := by simpa using hk
    simp only [fairB, hk, Bool.not_true, Bool.false_or, Bool.and_eq_true] at h
    exact ⟨h.1.1, readB_of h.1.2, drainedB_of h.2⟩
  | head _ => trivial
  | recv _ => trivial
  | send => trivial
  | eof _ => cases h
  | mark k keep =>
    simp only [fairB, Bool.and_eq_true] at h
    obtain ⟨⟨⟨h1, h2⟩, h3⟩, h4⟩ := h
    refine ⟨by simpa using h1, h2, by simpa using h3, ?_⟩
    unfold flagB at h4
    cases hr : s.reqs[k]? with
    | none => rw [hr] at h4; cases h4
    | some r => rw [hr] at h4; exact ⟨r, rfl, h4⟩
  | upgrade _ => cases h
  | finish _ => cases h
  | abort => cases h
  | kick => cases h

theorem FairB.fair {c : Cfg} {rs : List (ReqHead × Bytes)} : ∀ {es : List Ev} {s : St}, FairB c rs s es = true → Fair c rs s es
  | [], _, _ => trivial
  | _ :: _, _, h => by
    simp only [FairB, Bool.and_eq_true, decide_eq_true_eq] at h
    exact ⟨fair_of h.1.1, h.1.2, FairB.fair h.2⟩

/-- The three requests of `rs3`: the head of the first in two segments, its body in two more; the send task is late twice. -/
def es4 : List Ev :=
  [.data ((post.wire []).take 20), .data ((post.wire b!"x").drop 20), .head 0, .head 0, .take 0, .emit 0 (out1.take 30), .data b!"yz", .recv 0, .take 0, .recv 0, .send, .take 0, .take 0,
   .clear 0, .emit 0 (out1.drop 30), .leave 0 true, .send, .send, .data (get2.wire []), .head 1, .take 1, .emit 1 out2, .leave 1 true, .send, .send,
   .data ((head3.wire []).take 7), .data ((head3.wire []).drop 7), .head 2, .emit 2 out3, .leave 2 true, .send, .send]

end Serial
open Serial

/-- The hypotheses on a concrete connection, and what the client reads. -/
example : Fair {} rs3 {} es4 ∧ (run {} {} es4).rx = stream rs3 ∧ (run {} {} es4).hb = some [] ∧ (run {} {} es4).started.length = 3 ∧
    (readAll false (rs3.map (·.1.method)) (run {} {} es4).written.flatten).map (fun p => (p.1.map (fun r => (r.status, r.body)), p.2)) =
      some ([(200, b!"hello"), (200, b!"abcd"), (200, [])], []) :=
  ⟨FairB.fair (by decide +kernel), by decide +kernel, by decide +kernel, by decide +kernel, by decide +kernel⟩

/-- The three requests are as `Plain` says. -/
example : ∀ x ∈ rs3, Serial.Plain {} x := by
  intro x hx
  simp only [rs3, List.mem_cons, List.not_mem_nil, or_false] at hx
  rcases hx with rfl | rfl | rfl
  · refine ⟨⟨by decide +kernel, by decide +kernel, by decide +kernel, ?_, fun _ => ⟨_, List.mem_cons_self, by decide +kernel⟩, by decide, by decide +kernel, by decide +kernel⟩, ?_,
      by decide +kernel, rfl, .inl (by decide +kernel), by decide +kernel, by decide +kernel, .inr ⟨b!"3", by decide +kernel, ⟨by decide, by decide, by decide⟩, by decide, by decide⟩⟩
    · intro f hf
      simp only [post, List.mem_cons, List.not_mem_nil, or_false] at hf
      rcases hf with rfl | rfl <;> exact ⟨by decide, by decide +kernel, by decide +kernel, by decide +kernel, by decide +kernel, by decide +kernel⟩
    · intro f hf
      simp only [post, List.mem_cons, List.not_mem_nil, or_false] at hf
      rcases hf with rfl | rfl <;> decide +kernel
  all_goals
    refine ⟨⟨by decide +kernel, by decide +kernel, by decide +kernel, ?_, fun _ => ⟨_, List.mem_cons_self, by decide +kernel⟩, by decide, by decide +kernel, by decide +kernel⟩, ?_,
      by decide +kernel, rfl, .inl (by decide +kernel), by decide +kernel, by decide +kernel, .inl ⟨by decide +kernel, rfl⟩⟩
    · intro f hf
      simp only [get2, head3, List.mem_cons, List.not_mem_nil, or_false] at hf
      subst hf; exact ⟨by decide, by decide +kernel, by decide +kernel, by decide +kernel, by decide +kernel, by decide +kernel⟩
    · intro f hf
      simp only [get2, head3, List.mem_cons, List.not_mem_nil, or_false] at hf
      subst hf; decide +kernel

/-- The condition on segments is needed: when the end of a body and the next request come in one segment, all of it is queued as body (where
http_request.py:251-254 cuts it off), and the next request is never handled, although all was received and the connection waits. -/
theorem C93_refuted_segment : ∃ es : List Ev, (run {} {} es).rx = stream [(post, b!"xyz"), (get2, [])] ∧ (run {} {} es).hb = some [] ∧ (run {} {} es).noWrite = false ∧
    (run {} {} es).started.length = 1 ∧ bodyOf 0 (run {} {} es).log = b!"xyz" ++ get2.wire [] ∧ (run {} {} es).running = [] ∧ (run {} {} es).q0 = [] :=
  ⟨[.data (post.wire (b!"xyz" ++ get2.wire [])), .head 0, .head 0, .take 0, .take 0, .leave 0 true, .send], by decide +kernel⟩

end Verif
