import Verif.Proofs.ResponseSays
import Verif.Spec.Asgi
/-!
# ASGI responses: Date, Server and what `send` does to the table
-/
namespace Verif.Proofs.Asgi
open Verif.Py Verif.Py.Dict Verif.Model.Upload Verif.Model.Response Verif.Spec.Response Verif.Proofs.Response Verif.Model.Asgi Verif.Spec.Asgi

abbrev kServer : Bytes := b!"server"

/-- The table has the server's Date and Server lines. -/
def BothH (c : Cfg) (h : Dict Bytes (List Bytes)) : Prop :=
  Dict.get h kDate = some [line b!"Date" c.date] ∧ Dict.get h kServer = some [line b!"Server" c.server]
def Both (c : Cfg) (s : St) : Prop := ∃ h, s.headers = some h ∧ BothH c h
/-- … or is still empty. -/
def Based (c : Cfg) (s : St) : Prop := Both c s ∨ s.headers = some []

abbrev KB (c : Cfg) {α : Type} (m : M α) : Prop := Tri (Both c) m (fun _ => Both c) (fun _ => True)

theorem both_set {c : Cfg} {h k l} (b : BothH c h) (hk : k ≠ kDate ∧ k ≠ kServer) : BothH c (Dict.set h k l) := by
  unfold BothH
  rw [get_set, if_neg hk.1, get_set, if_neg hk.2]; exact b
theorem both_del {c : Cfg} {h k} (b : BothH c h) (hk : k ≠ kDate ∧ k ≠ kServer) : BothH c (del h k) := by
  unfold BothH
  rw [get_del, if_pos (Ne.symm hk.1), get_del, if_pos (Ne.symm hk.2)]; exact b

theorem kb_put {c : Cfg} {f : Dict Bytes (List Bytes) → Dict Bytes (List Bytes)} (hf : ∀ h, BothH c h → BothH c (f h)) :
    KB c (do let h ← headers; putHeaders (f h)) := by
  refine Tri.headers (fun _ _ => trivial) (fun h s hs => ?_)
  obtain ⟨⟨h', e', b⟩, e⟩ := hs
  rw [e] at e'; cases e'
  exact ⟨_, rfl, hf _ b⟩

theorem kb_putLine {c : Cfg} {l} : KB c (do let h ← headers; putHeaders (Dict.set h kLine l)) := kb_put fun _ b => both_set b ⟨by decide, by decide⟩

theorem kb_setHeader {c : Cfg} {n v : Bytes} (hk : lower n ≠ kDate ∧ lower n ≠ kServer) : KB c (setHeader n v) := by
  unfold setHeader
  exact Tri.ite (Tri.raise _ fun _ _ => trivial) (kb_put fun _ b => both_set b hk)

theorem kb_appendHeader {c : Cfg} {n v : Bytes} (hk : lower n ≠ kDate ∧ lower n ≠ kServer) : KB c (appendHeader n v) := by
  unfold appendHeader
  exact kb_put (f := fun h => Dict.set h (lower n) ((Dict.get h (lower n)).getD [] ++ [line n v])) fun _ b => both_set b hk

theorem kb_modify {c : Cfg} {f : St → St} (h : ∀ s, (f s).headers = s.headers) : KB c (modify f) := by
  rintro s ⟨t, e, b⟩
  exact ⟨t, (h s).trans e, b⟩

theorem kb_getStatus {c : Cfg} : KB c getStatus := by
  refine Tri.headers (fun _ _ => trivial) (fun h s hs => ?_)
  obtain ⟨⟨h', e', b⟩, e⟩ := hs
  rw [e] at e'; cases e'
  rcases hl : Dict.get h kLine with _ | l
  · dsimp only
    split
    · exact ⟨h, e, b⟩
    · exact ⟨h, e, b⟩
  · have b2 := both_del (k := kLine) b ⟨by decide, by decide⟩
    dsimp only
    show Post _ _ ((putHeaders (del h kLine) >>= _) s)
    rw [bind_ok (m := putHeaders _) rfl]
    rcases l with _ | ⟨x, _ | ⟨y, _ | ⟨z, _ | ⟨w, r⟩⟩⟩⟩ <;> try exact trivial
    show Post _ _ ((match intDec y with | some n => (Pure.pure (n, z) : M (Int × Bytes)) | none => raise .other) _)
    cases intDec y with
    | some n => exact ⟨_, rfl, b2⟩
    | none => exact trivial

theorem kb_getContentType {c : Cfg} : KB c getContentType := by
  refine Tri.headers (fun _ _ => trivial) (fun h s hs => ?_)
  obtain ⟨⟨h', e', b⟩, e⟩ := hs
  rw [e] at e'; cases e'
  rcases hl : Dict.get h kCT with _ | l
  · dsimp only
    split
    · exact ⟨h, e, b⟩
    · exact ⟨h, e, b⟩
  · have b2 := both_del (k := kCT) b ⟨by decide, by decide⟩
    dsimp only
    show Post _ _ ((putHeaders (del h kCT) >>= _) s)
    rw [bind_ok (m := putHeaders _) rfl]
    rcases l with _ | ⟨x, r⟩
    · exact trivial
    · exact ⟨_, rfl, b2⟩

theorem base_both {c : Cfg} (hc : CfgOk c) {s : St} (b : Based c s) : (setBaseHeader c s).1 = .ok () ∧ Both c (setBaseHeader c s).2 := by
  rcases b with ⟨h, e, b⟩ | e
  · have : setBaseHeader c s = (.ok (), s) := by
      unfold setBaseHeader
      rw [bind_ok (get_run s), if_pos]; rfl
      right; rw [e]; rintro ⟨⟩; simp [BothH, Dict.get] at b
    rw [this]; exact ⟨rfl, h, e, b⟩
  · have : setBaseHeader c s = (.ok (), { s with headers := some (Dict.set (Dict.set [] (lower b!"Date") [line b!"Date" c.date]) (lower b!"Server") [line b!"Server" c.server]) }) := by
      unfold setBaseHeader
      rw [bind_ok (get_run s), if_neg (by simp [e]), bind_ok (setHeader_ok (by decide) hc.date e), setHeader_ok (by decide) hc.server rfl]
    rw [this]
    refine ⟨rfl, _, rfl, ?_, ?_⟩
    · rw [get_set, if_neg (by decide), get_set, if_pos (by decide)]
    · rw [get_set, if_pos (by decide)]

theorem kb_get {c : Cfg} {β : Type} {f : St → M β} (hf : ∀ s, KB c (f s)) : KB c (Model.Response.get >>= f) :=
  Tri.get (fun s hs s' e => by subst e; exact hf s' s' hs)

theorem kb_headers {c : Cfg} {β : Type} {f : Dict Bytes (List Bytes) → M β} (hf : ∀ h, KB c (f h)) : KB c (headers >>= f) :=
  Tri.headers (fun _ _ => trivial) (fun h s hs => hf h s hs.1)

theorem kb_putLine_bind {c : Cfg} {β : Type} {l : List Bytes} {f : M β} (hf : KB c f) :
    KB c (do let h ← headers; putHeaders (Dict.set h kLine l); f) := by
  refine Tri.headers (fun _ _ => trivial) (fun h s hs => ?_)
  obtain ⟨⟨h', e', b⟩, e⟩ := hs
  rw [e] at e'; cases e'
  rw [bind_ok (m := putHeaders _) rfl]
  exact hf _ ⟨_, rfl, both_set b ⟨by decide, by decide⟩⟩

theorem prepare_both {c : Cfg} (hc : CfgOk c) (d ch o) : Tri (Based c) (prepare c d ch o) (fun _ => Both c) (fun _ => True) := by
  unfold prepare
  refine Tri.bind (Q := fun _ => Both c) (fun s b => ?_) (fun _ => Tri.bind (Q := fun _ => Both c) kb_getStatus (fun st => Tri.bind (Q := fun _ => Both c) (kb_modify fun _ => rfl) (fun _ => ?_)))
  · have := base_both hc b
    generalize setBaseHeader c s = x at this ⊢
    obtain ⟨x, s'⟩ := x
    obtain ⟨h1, h2⟩ := this
    dsimp only at h1 h2; subst h1; exact h2
  · refine kb_putLine_bind ?_
    refine Tri.bind (Q := fun _ => Both c) (Tri.when (Tri.bind (Q := fun _ => Both c) kb_getContentType fun _ => kb_setHeader ⟨by decide, by decide⟩)) (fun _ => ?_)
    refine kb_get (fun s => Tri.bind (Q := fun _ => Both c) (Tri.when (kb_setHeader ⟨by decide, by decide⟩)) (fun _ => kb_headers (fun h => ?_)))
    refine Tri.bind (Q := fun _ => Both c) (kb_modify (fun s => by split <;> (try split) <;> (try split) <;> rfl)) (fun _ => ?_)
    refine Tri.bind (Q := fun _ => Both c) (kb_setHeader ⟨by decide, by decide⟩) (fun _ => ?_)
    refine Tri.ite (Tri.bind (Q := fun _ => Both c) (Tri.when (kb_modify fun _ => rfl)) (fun _ => Tri.pure _ fun _ h => h)) (Tri.ite (Tri.pure _ fun _ h => h) (Tri.raise _ fun _ _ => trivial))

/-- `write_spec`, with the Date and Server lines. -/
theorem write_spec2 {c : Cfg} (hc : CfgOk c) (data : Option Bytes) (ch : Option Bool) (o : SendOpts) {g s0 calls s} (hup : s0.upgraded = false)
    (i : Inv c g s0 false calls s) (b : Based c s) (ho : bodyless c (lastStatus calls).1 = false → o.marks = true) :
    ∃ t rest s1, write c data ch o s = writeBody (if bodyless c (lastStatus calls).1 then none else data) o s1 ∧
      SentLines c (genCalls c { chunked := ch } calls s0.keepalive) (!noBody (lastStatus calls).1) t rest ∧
      named kDate rest = [line b!"Date" c.date] ∧ named kServer rest = [line b!"Server" c.server] ∧
      s1.log = s0.log ++ [.head t [] { throttle := false }] ∧ s1.keepalive = writeKeep c ch calls s0.keepalive ∧ s1.headers = none ∧
      s1.chunked = wantsChunked c { chunked := ch } (lastStatus calls).1 ∧ s1.upgraded = (s0.keepalive && (lastStatus calls).1 == 101) := by
  obtain ⟨up, s1, hu, run, i1, ty⟩ := prepare_spec hc data ch o hup i ho
  have pb := prepare_both hc data ch o s b
  rw [run] at pb
  obtain ⟨h1, e1, b1⟩ : Both c s1 := pb
  obtain ⟨t, rest, rf, sl, nm⟩ := flush_lines i1 (ty := !noBody (lastStatus calls).1) (fun h => ty (by simpa using h))
  obtain ⟨h, e, tb⟩ := i.ex
  have hl := tb.lineOk
  rw [if_neg (by decide)] at hl
  refine ⟨t, rest, { s1 with headers := none, log := s1.log ++ [.head t [] { throttle := false }] }, ?_, sl, ?_, ?_, ?_, i1.same.keepalive, rfl, i1.same.chunked, ?_⟩
  · unfold write
    rw [bind_ok (get_run s)]
    simp only [e]
    rw [if_neg (by simp [mem, hl]), bind_ok run, bind_ok rf]
  · rw [nm h1 _ e1 (by decide), b1.1]; rfl
  · rw [nm h1 _ e1 (by decide), b1.2]; rfl
  · exact congrArg (· ++ _) i1.same.log
  · rw [show _ = s1.upgraded from rfl, i1.same.upgraded]; exact hu

/-! ## The start message -/

theorem kb_setContentType {c : Cfg} (ct : Bytes) : KB c (setContentType ct) := by
  unfold setContentType
  refine Tri.ite (Tri.raise _ fun _ _ => trivial) ?_
  refine Tri.headers (fun _ _ => trivial) (fun h s hs => ?_)
  obtain ⟨⟨h', e', b⟩, e⟩ := hs
  rw [e] at e'; cases e'
  rcases hl : Dict.get h kCT with _ | l
  · exact ⟨h, e, b⟩
  · exact ⟨_, rfl, both_set b ⟨by decide, by decide⟩⟩

/-- The state before the head goes out: `calls` and `hs` are what the messages so far ask for. -/
structure Pre (c : Cfg) (s0 : St) (ch0 : Option Bool) (calls : List Call) (hs : List (Bytes × Bytes)) (a : A) : Prop where
  inv : ∃ g, Inv c g { s0 with keepalive := s0.keepalive && !hs.any closes } false calls a.resp
  based : Based c a.resp
  chunked : a.chunked = if hs.any sized then some false else ch0

/-- The same with a strict table. -/
structure Pre1 (c : Cfg) (s0 : St) (ch0 : Option Bool) (calls : List Call) (hs : List (Bytes × Bytes)) (a : A) : Prop where
  inv : Inv c true { s0 with keepalive := s0.keepalive && !hs.any closes } false calls a.resp
  based : Both c a.resp
  chunked : a.chunked = if hs.any sized then some false else ch0

theorem Pre1.pre {c s0 ch0 calls hs a} (p : Pre1 c s0 ch0 calls hs a) : Pre c s0 ch0 calls hs a := ⟨⟨_, p.inv⟩, .inl p.based, p.chunked⟩

theorem setContentType_ok {ct : Bytes} {s : St} {h} (h1 : (10 : UInt8) ∉ ct) (e : s.headers = some h) : ∃ s', setContentType ct s = (.ok (), s') := by
  unfold setContentType
  rw [if_neg h1, bind_ok (headers_some e)]
  rcases Dict.get h kCT with _ | l
  · exact ⟨_, rfl⟩
  · exact ⟨_, rfl⟩

theorem appendHeader_ok {n v : Bytes} {s : St} {h} (e : s.headers = some h) : ∃ s', appendHeader n v s = (.ok (), s') := by
  unfold appendHeader
  rw [bind_ok (headers_some e)]
  exact ⟨_, rfl⟩

theorem any_snoc_false {α} {f : α → Bool} {l : List α} {x : α} (h : f x = false) : (l ++ [x]).any f = l.any f := by simp [h]

theorem headerLoop_pre {c : Cfg} (hc : CfgOk c) {e : Env} {s0 ch0} (k : A → A) (r2 : List (Bytes × Bytes)) (hk : ∀ a, headerLoop c e r2 a = k a) :
    ∀ (r : List (Bytes × Bytes)), (∀ h ∈ r, bad h = false ∧ plain h = true) →
    ∀ {calls hs a}, Pre1 c s0 ch0 calls hs a → ∃ a', headerLoop c e (r ++ r2) a = k a' ∧ Pre1 c s0 ch0 (calls ++ r.flatMap headerCalls) (hs ++ r) a' := by
  intro r
  induction r with
  | nil => intro _ calls hs a p; exact ⟨a, hk a, by simpa using p⟩
  | cons x r ih =>
    intro ok calls hs a p
    obtain ⟨n, v⟩ := x
    obtain ⟨hb, hp⟩ := ok (n, v) (by simp)
    have ok' : ∀ h ∈ r, bad h = false ∧ plain h = true := fun h hh => ok h (by simp [hh])
    simp only [bad, Bool.or_eq_false_iff, decide_eq_false_iff_not] at hb
    simp only [plain, Bool.and_eq_true, decide_eq_true_eq] at hp
    obtain ⟨hd, ed, bd⟩ := p.based
    simp only [List.cons_append, headerLoop, if_neg (not_or.2 hb)]
    split
    · next hct =>
      obtain ⟨s', e'⟩ := setContentType_ok hb.2 ed
      have nm : Spec.Asgi.managed n = false := by simp [Spec.Asgi.managed, hct]
      have nc : closes (n, v) = false := by simp [closes, hct]
      have ns : sized (n, v) = false := by simp [sized, hct]
      rw [e']
      have i' := inv_call hc (.setContentType v) trivial (.inl rfl) p.inv
      change Inv _ _ _ _ _ (setContentType v a.resp).2 at i'
      have b' := kb_setContentType (c := c) v a.resp p.based
      rw [e'] at i' b'
      have p' : Pre1 c s0 ch0 (calls ++ [.setContentType v]) (hs ++ [(n, v)]) { a with resp := s' } :=
        ⟨by rw [any_snoc_false nc]; exact i', b', by rw [any_snoc_false ns]; exact p.chunked⟩
      obtain ⟨a', h1, h2⟩ := ih ok' p'
      exact ⟨a', h1, by simpa [headerCalls, nm, hct] using h2⟩
    · next hct =>
      split
      · next hm =>
        have nm : Spec.Asgi.managed n = true := by
          simp only [List.mem_cons, List.not_mem_nil, or_false] at hm
          rcases hm with h | h | h <;> simp [Spec.Asgi.managed, h]
        have nc : closes (n, v) = false := by
          simp only [List.mem_cons, List.not_mem_nil, or_false] at hm
          rcases hm with h | h | h <;> simp [closes, h]
        have ns : sized (n, v) = false := by
          simp only [List.mem_cons, List.not_mem_nil, or_false] at hm
          rcases hm with h | h | h <;> simp [sized, h]
        have p' : Pre1 c s0 ch0 calls (hs ++ [(n, v)]) a := ⟨by rw [any_snoc_false nc]; exact p.inv, p.based, by rw [any_snoc_false ns]; exact p.chunked⟩
        obtain ⟨a', h1, h2⟩ := ih ok' p'
        exact ⟨a', h1, by simpa [headerCalls, nm] using h2⟩
      · next hm =>
        split
        · next hn =>
          have nm : Spec.Asgi.managed n = true := by simp [Spec.Asgi.managed, hn]
          have ns : sized (n, v) = false := by simp [sized, hn]
          have p' : Pre1 c s0 ch0 calls (hs ++ [(n, v)]) (if lower v = b!"close" then { a with resp := { a.resp with keepalive := false } } else a) := by
            split
            · next hv =>
              refine ⟨?_, ⟨hd, ed, bd⟩, by rw [any_snoc_false ns]; exact p.chunked⟩
              have nc : closes (n, v) = true := by simp [closes, hn, hv]
              have i := p.inv
              have hf : (s0.keepalive && !(hs ++ [(n, v)]).any closes) = false := by simp [nc]
              rw [hf]
              exact ⟨⟨i.wf.table, i.wf.status, i.wf.ctype, i.wf.log⟩, ⟨i.same.log, rfl, i.same.upgraded, i.same.chunked, i.same.cont, i.same.aborted⟩, i.ex⟩
            · next hv =>
              have nc : closes (n, v) = false := by simp [closes, hv]
              exact ⟨by rw [any_snoc_false nc]; exact p.inv, p.based, by rw [any_snoc_false ns]; exact p.chunked⟩
          obtain ⟨a', h1, h2⟩ := ih ok' p'
          exact ⟨a', h1, by simpa [headerCalls, nm] using h2⟩
        · next hn =>
          simp only [List.mem_cons, List.not_mem_nil, or_false, not_or] at hm
          have nm : Spec.Asgi.managed n = false := by simp [Spec.Asgi.managed, hn, hm.1, hm.2.1, hm.2.2]
          have nc : closes (n, v) = false := by simp [closes, hn]
          obtain ⟨s', e'⟩ := appendHeader_ok (n := n) (v := v) ed
          have i' := inv_call hc (.appendHeader n v) ⟨hp.1, hb.1, hb.2, hp.2, hct⟩ (.inl rfl) p.inv
          change Inv _ _ _ _ _ (appendHeader n v a.resp).2 at i'
          have b' := kb_appendHeader (c := c) (n := n) (v := v) ⟨hm.1, hm.2.1⟩ a.resp p.based
          have er : (if lower n = b!"content-length" then { a with chunked := some false } else a).resp = a.resp := by split <;> rfl
          rw [er, e']
          rw [e'] at i' b'
          have p' : Pre1 c s0 ch0 (calls ++ [.appendHeader n v]) (hs ++ [(n, v)])
              { (if lower n = b!"content-length" then { a with chunked := some false } else a) with resp := s' } := by
            refine ⟨by rw [any_snoc_false nc]; exact i', b', ?_⟩
            by_cases hs' : lower n = b!"content-length"
            · have ns : sized (n, v) = true := by simp [sized, hs']
              simp [hs', ns]
            · have ns : sized (n, v) = false := by simp [sized, hs']
              rw [any_snoc_false ns, if_neg hs']; exact p.chunked
          obtain ⟨a', h1, h2⟩ := ih ok' p'
          exact ⟨a', h1, by simpa [headerCalls, nm, hct] using h2⟩

/-- `set_status` and `set_base_header`. -/
theorem statusOf_pre {c : Cfg} (hc : CfgOk c) {e : Env} (he : PhraseOk e.phrase) {s0 ch0 calls hs a} (p : Pre c s0 ch0 calls hs a) {st : Option Int}
    (hst : ∀ x, st = some x → (e.phrase x).isSome) :
    ∃ s', statusOf c e st a.resp = (.ok (), s') ∧ Pre1 c s0 ch0 (calls ++ msgCalls e.phrase (.start st [])) hs { a with resp := s' } := by
  obtain ⟨⟨g, i⟩, b, ch⟩ := p
  have fin : ∀ {calls s} {m : M Unit}, Inv c g { s0 with keepalive := s0.keepalive && !hs.any closes } false calls s → Based c s →
      m a.resp = (.ok (), s) →
      ∃ s', (m >>= fun _ => setBaseHeader c) a.resp = (.ok (), s') ∧ Pre1 c s0 ch0 calls hs { a with resp := s' } := by
    intro calls s m i b hm
    have h1 := inv_base hc i
    have h2 := base_both hc b
    generalize hx : setBaseHeader c s = x at h1 h2
    obtain ⟨x, s'⟩ := x
    obtain ⟨h1, i1⟩ := h1
    dsimp only at h1 i1; subst h1
    exact ⟨s', by rw [bind_ok hm, hx], i1, h2.2, ch⟩
  cases st with
  | none =>
    obtain ⟨s', h1, h2⟩ := fin (m := Pure.pure ()) i b rfl
    exact ⟨s', h1, by simpa [msgCalls] using h2⟩
  | some x =>
    obtain ⟨ph, hph⟩ := Option.isSome_iff_exists.1 (hst x rfl)
    obtain ⟨h, eh, tb⟩ := i.ex
    have hl := tb.lineOk
    rw [if_neg (by decide)] at hl
    have run : setStatus x ph a.resp = (.ok (), { a.resp with status := (x, ph) :: a.resp.status }) := by
      unfold setStatus
      rw [if_neg (he x ph hph), bind_ok (headers_some eh), hl]; rfl
    have i' := inv_call hc (.setStatus x ph) trivial (.inr trivial) i
    change Inv _ _ _ _ _ (setStatus x ph a.resp).2 at i'
    rw [run] at i'
    have b' : Based c { a.resp with status := (x, ph) :: a.resp.status } := b
    obtain ⟨s', h1, h2⟩ := fin i' b' run
    refine ⟨s', ?_, by simpa [msgCalls, hph] using h2⟩
    have := h1
    simp only [statusOf, hph]; exact this

theorem start_pre {c : Cfg} (hc : CfgOk c) {e : Env} (he : PhraseOk e.phrase) {s0 ch0 calls hs a} (p : Pre c s0 ch0 calls hs a) (st : Option Int)
    (l : List (Bytes × Bytes)) (ok : ∀ h ∈ headersOf e.phrase (.start st l), bad h = false ∧ plain h = true) :
    Pre c s0 ch0 (calls ++ msgCalls e.phrase (.start st l)) (hs ++ headersOf e.phrase (.start st l)) (start c e st l a) := by
  by_cases hst : ∀ x, st = some x → (e.phrase x).isSome
  · obtain ⟨s', h1, p1⟩ := statusOf_pre hc he p hst
    have hh : headersOf e.phrase (.start st l) = l := by
      cases st with
      | none => rfl
      | some x => simp [headersOf, hst x rfl]
    rw [hh] at ok ⊢
    obtain ⟨a', h2, p2⟩ := headerLoop_pre hc (e := e) id [] (fun _ => rfl) l ok p1
    have hs' : start c e st l a = a' := by
      unfold start; rw [h1]; simpa using h2
    rw [hs']
    have hc' : msgCalls e.phrase (.start st []) ++ l.flatMap headerCalls = msgCalls e.phrase (.start st l) := by
      cases st with
      | none => rfl
      | some x =>
        obtain ⟨ph, hph⟩ := Option.isSome_iff_exists.1 (hst x rfl)
        simp [msgCalls, hph]
    rw [List.append_assoc, hc'] at p2
    exact p2.pre
  · have : ∃ x, st = some x ∧ e.phrase x = none := by
      apply Classical.byContradiction
      intro hn
      apply hst
      intro x hx
      cases hp : e.phrase x with
      | none => exact absurd ⟨x, hx, hp⟩ hn
      | some _ => rfl
    obtain ⟨x, rfl, hx⟩ := this
    have hs' : start c e (some x) l a = a := by
      simp only [start, statusOf, hx]; rfl
    rw [hs']
    simpa [msgCalls, headersOf, hx] using p

theorem fresh_pre {c : Cfg} {a : A} (hf : Fresh a.resp) : Pre c a.resp a.chunked [] [] a :=
  ⟨⟨false, by simpa using inv_fresh (c := c) hf⟩, .inr hf.headers, by simp⟩

/-- The messages before the head goes out. -/
theorem early_pre {c : Cfg} (hc : CfgOk c) {e : Env} (he : PhraseOk e.phrase) {s0 ch0} : ∀ (ms : List Msg), (∀ m ∈ ms, early m = true) →
    (∀ m ∈ ms, ∀ h ∈ headersOf e.phrase m, bad h = false ∧ plain h = true) → ∀ {calls hs a}, Pre c s0 ch0 calls hs a →
    Pre c s0 ch0 (calls ++ ms.flatMap (msgCalls e.phrase)) (hs ++ ms.flatMap (headersOf e.phrase)) (ms.foldl (send c e) a) := by
  intro ms
  induction ms with
  | nil => intro _ _ calls hs a p; simpa using p
  | cons m ms ih =>
    intro h1 h2 calls hs a p
    have step : Pre c s0 ch0 (calls ++ msgCalls e.phrase m) (hs ++ headersOf e.phrase m) (send c e a m) := by
      cases m with
      | start st l => exact start_pre hc he p st l (h2 _ (by simp))
      | body d more =>
        have := h1 (.body d more) (by simp)
        simp only [early, Bool.and_eq_true, decide_eq_true_eq] at this
        obtain ⟨rfl, rfl⟩ := this
        have e' : send c e a (.body [] true) = a := rfl
        rw [e']; simpa [msgCalls, headersOf] using p
    have := ih (fun m hm => h1 m (by simp [hm])) (fun m hm => h2 m (by simp [hm])) step
    simpa [List.append_assoc] using this

/-! ## Errors -/

/-- An exception that gives an error response. -/
def Plainly (x : Exc) : Prop := (∀ k, x ≠ .wsServer k) ∧ x ≠ .ws ∧ (10 : UInt8) ∉ (asHttp x).2.1 ∧ (10 : UInt8) ∉ (asHttp x).2.2

theorem handle_spec {c : Cfg} (hc : CfgOk c) {e : Env} {x : Exc} (hx : Plainly x) {s : St} {h} (eh : s.headers = some h) (hu : s.upgraded = false) :
    (handle c e x s).log = s.log ++ [.head (errText c (asHttp x).1 (asHttp x).2.1 (asHttp x).2.2 (e.page x).length)
      (endBody c (asHttp x).1 (e.page x)) { throttle := false }, .mark false] ∧ (handle c e x s).headers = none := by
  obtain ⟨x1, x2, x3, x4⟩ := hx
  have hsent : headersSent s = false := by simp [headersSent, eh]
  have r1 : handleException c { ret := .ok (some (e.page x)) } x s = errorResponse c { ret := .ok (some (e.page x)) } (asHttp x) s := by
    unfold handleException
    rw [bind_ok (get_run s), if_neg (by simp [hsent])]
    cases x with
    | wsServer k => exact absurd rfl (x1 k)
    | ws => exact absurd rfl x2
    | _ => rfl
  let s2 : St := { s with headers := some [], status := ((asHttp x).1, (asHttp x).2.1) :: s.status, ctype := (asHttp x).2.2 :: s.ctype }
  have r2 : errorResponse c { ret := .ok (some (e.page x)) } (asHttp x) s = end_ c (e.page x) false {throttle := false} s2 := by
    unfold errorResponse
    rw [bind_ok (get_run s), if_neg (by simp [hsent]), bind_ok (putHeaders_run _ _)]
    have h1 : setStatus (asHttp x).1 (asHttp x).2.1 { s with headers := some [] } = (.ok (), { s with headers := some [], status := ((asHttp x).1, (asHttp x).2.1) :: s.status }) := by
      unfold setStatus; rw [if_neg x3, bind_ok (headers_some rfl)]; rfl
    have h2 : setContentType (asHttp x).2.2 { s with headers := some [], status := ((asHttp x).1, (asHttp x).2.1) :: s.status } = (.ok (), s2) := by
      unfold setContentType; rw [if_neg x4, bind_ok (headers_some rfl)]; rfl
    rw [bind_ok h1, bind_ok h2]
    rfl
  let h3 : Dict Bytes (List Bytes) := Dict.set (Dict.set [] (lower b!"Date") [line b!"Date" c.date]) (lower b!"Server") [line b!"Server" c.server]
  have r3 : setBaseHeader c s2 = (.ok (), { s2 with headers := some h3 }) := by
    unfold setBaseHeader
    rw [bind_ok (get_run s2), if_neg (by simp [s2]), bind_ok (setHeader_ok (by decide) hc.date rfl), setHeader_ok (by decide) hc.server rfl]
  have r4 : getStatus { s2 with headers := some h3 } = (.ok ((asHttp x).1, (asHttp x).2.1), { s2 with headers := some h3, status := s.status }) := by
    unfold getStatus
    rw [bind_ok (headers_some rfl)]
    have : Dict.get h3 kLine = none := by simp only [h3]; rw [get_set, if_neg (by decide), get_set, if_neg (by decide)]; rfl
    rw [this]
  have r5 : getContentType { s2 with headers := some h3, status := s.status } = (.ok (asHttp x).2.2, { s2 with headers := some h3, status := s.status, ctype := s.ctype }) := by
    unfold getContentType
    rw [bind_ok (headers_some rfl)]
    have : Dict.get h3 kCT = none := by simp only [h3]; rw [get_set, if_neg (by decide), get_set, if_neg (by decide)]; rfl
    rw [this]
  have r6 : endSend c (e.page x) false { throttle := false } s2 =
      (.ok (), { s2 with headers := none, status := s.status, ctype := s.ctype, log := s.log ++
        [.head (endHead c ((asHttp x).1, (asHttp x).2.1) (asHttp x).2.2 (e.page x).length (false && s.keepalive) h3) (endBody c (asHttp x).1 (e.page x)) { throttle := false }] }) := by
    unfold endSend
    rw [bind_ok (get_run s2), if_neg (by simp [headersSent, s2]), bind_ok r3, bind_ok r4, bind_ok r5, bind_ok (headers_some rfl)]
    rfl
  have txt : endHead c ((asHttp x).1, (asHttp x).2.1) (asHttp x).2.2 (e.page x).length (false && s.keepalive) h3 =
      errText c (asHttp x).1 (asHttp x).2.1 (asHttp x).2.2 (e.page x).length := by
    have : h3.filter (fun p => p.1 ∉ [kConn, kCL, kTE]) = [(b!"date", [line b!"Date" c.date]), (b!"server", [line b!"Server" c.server])] := rfl
    unfold endHead errText joinHeaders
    rw [this]
    simp [keepOrClose, line, join, CRLF, CRLF2, List.append_assoc]
  rw [txt] at r6
  have r7 : end_ c (e.page x) false { throttle := false } s2 = (.ok (), { s2 with headers := none, status := s.status, ctype := s.ctype, keepalive := false, log := s.log ++
        [.head (errText c (asHttp x).1 (asHttp x).2.1 (asHttp x).2.2 (e.page x).length) (endBody c (asHttp x).1 (e.page x)) { throttle := false }] ++ [.mark false] }) := by
    unfold end_
    rw [bind_ok r6, close_run]; rfl
  unfold handle
  rw [r1, r2, r7]
  exact ⟨by simp, rfl⟩

/-! ## After the head -/

theorem good_handle (c : Cfg) (e : Env) (x : Exc) (s : St) : R s (handle c e x s) := good_handleException c _ x s

theorem good_headerLoop (c : Cfg) (e : Env) : ∀ (r : List (Bytes × Bytes)) (a : A), R a.resp (headerLoop c e r a).resp := by
  intro r
  induction r with
  | nil => exact fun a => R.refl _
  | cons x r ih =>
    intro a
    obtain ⟨n, v⟩ := x
    unfold headerLoop
    split
    · exact good_handle c e _ _
    · split
      · have := good_setContentType v a.resp
        split
        · next s hs => rw [hs] at this; exact R.trans this (ih { resp := s, chunked := _ })
        · next s hs => rw [hs] at this; exact this
      · split
        · exact ih a
        · split
          · refine R.trans ?_ (ih _)
            split
            · exact R.silent rfl Iff.rfl (fun h => by cases h)
            · exact R.refl _
          · have e1 : (if lower n = b!"content-length" then { a with chunked := some false } else a).resp = a.resp := by split <;> rfl
            have := good_appendHeader n v a.resp
            dsimp only
            rw [e1]
            split
            · next s hs => rw [hs] at this; exact R.trans this (ih { resp := s, chunked := _ })
            · next s hs => rw [hs] at this; exact this

theorem good_statusOf (c : Cfg) (e : Env) (st : Option Int) : Good (statusOf c e st) := by
  unfold statusOf
  cases st with
  | none => exact good_setBaseHeader c
  | some x =>
    dsimp only
    split
    · exact Good.bind (good_setStatus _ _) (fun _ => good_setBaseHeader c)
    · exact Good.bind (Good.raise _) (fun _ => good_setBaseHeader c)

theorem good_body (c : Cfg) (e : Env) (ch d more) : Good (body c e ch d more) := by
  unfold body
  refine Good.bind Good.get' (fun s => Good.bind (good_when (good_write _ _ _ _)) (fun _ => good_when (Good.bind (good_write _ _ _ _) (fun _ => good_close _))))

theorem good_send (c : Cfg) (e : Env) (a : A) (m : Msg) : R a.resp (send c e a m).resp := by
  cases m with
  | body d more => exact good_body c e a.chunked d more a.resp
  | start st l =>
    show R a.resp (start c e st l a).resp
    have := good_statusOf c e st a.resp
    unfold start
    split
    · next s hs => rw [hs] at this; exact R.trans this (good_headerLoop c e l { resp := s, chunked := _ })
    · next s hs => rw [hs] at this; exact this

theorem good_sends (c : Cfg) (e : Env) : ∀ (ms : List Msg) (a : A), R a.resp (ms.foldl (send c e) a).resp := by
  intro ms
  induction ms with
  | nil => exact fun a => R.refl _
  | cons m ms ih => exact fun a => (good_send c e a m).trans (ih _)

theorem good_run (c : Cfg) (e : Env) (ms : List Msg) (x : Option Exc) (a : A) : R a.resp (run c e ms x a).resp := by
  unfold run
  cases x with
  | none => exact good_sends c e ms a
  | some x => exact (good_sends c e ms a).trans (good_handle c e x _)

theorem run_append (c : Cfg) (e : Env) (l r : List Msg) (x : Option Exc) (a : A) : run c e (l ++ r) x a = run c e r x (l.foldl (send c e) a) := by
  unfold run; rw [List.foldl_append]

/-- Once the head is out, nothing but non-heads is added. -/
theorem after_head (c : Cfg) (e : Env) (ms : List Msg) (x : Option Exc) (a : A) (h : a.resp.headers = none) :
    ∃ tail, (run c e ms x a).resp.log = a.resp.log ++ tail ∧ ∀ y ∈ tail, isHead y = false := by
  obtain ⟨⟨l, h1, h2, _⟩, _⟩ := good_run c e ms x a
  refine ⟨l, h1, fun y hy => ?_⟩
  have := (h2 h).2 y hy
  cases y <;> simp_all [NotHead, isHead]

/-! ## Bodies -/

/-- What a body message leaves behind the head. -/
def bodyTail (ch k : Bool) (buf : Nat) (th : Bool) (d : Bytes) (more : Bool) : List Emit :=
  (if d = [] then [] else [.body (framed ch d) { throttle := th, bufferSize := buf }]) ++
  if more then [] else [.body (framed ch []) { throttle := false }, .mark k]

theorem when_true (m : M Unit) : when true m = m := rfl

theorem body_sent {c : Cfg} {e : Env} {ch d more} {s : St} (h : s.headers = none) :
    body c e ch d more s = (.ok (), { s with log := s.log ++ bodyTail (s.chunked && !s.upgraded) s.keepalive e.bufferSize true d more }) := by
  have hs : headersSent s = true := by simp [headersSent, h]
  unfold body
  rw [bind_ok (get_run s), hs]
  by_cases hd : d = []
  · rw [show (when (d ≠ []) _ : M Unit) = pure () by simp [hd, when], bind_ok (pure_run _ _)]
    cases more with
    | true => simp [when, bodyTail, hd] <;> rfl
    | false =>
      rw [Bool.not_false, when_true, bind_ok ((write_sent h _ _ _).trans (writeBody_some _ _ _)), close_run]
      simp [bodyTail, hd]
  · rw [show (when (d ≠ []) (write c (some d) ch { throttle := true, bufferSize := e.bufferSize })) = write c (some d) ch { throttle := true, bufferSize := e.bufferSize } by simp [hd, when],
      bind_ok ((write_sent h _ _ _).trans (writeBody_some _ _ _))]
    cases more with
    | true => simp [when, bodyTail, hd] <;> rfl
    | false =>
      rw [Bool.not_false, when_true, bind_ok ((write_sent (by exact h) _ _ _).trans (writeBody_some _ _ _)), close_run]
      simp [bodyTail, hd]

/-- The first body message that is not early sends the head. -/
theorem body_first {c : Cfg} (hc : CfgOk c) {e : Env} {s0 ch0 calls hs a} (hup : s0.upgraded = false) (p : Pre c s0 ch0 calls hs a) {d more}
    (h : d ≠ [] ∨ more = false) :
    ∃ (t : Bytes) (rest : List Bytes) (s1 : St), SentLines c (genCalls c { chunked := a.chunked } calls (s0.keepalive && !hs.any closes)) (!noBody (lastStatus calls).1) t rest ∧
      named kDate rest = [line b!"Date" c.date] ∧ named kServer rest = [line b!"Server" c.server] ∧
      s1.headers = none ∧ s1.keepalive = writeKeep c a.chunked calls (s0.keepalive && !hs.any closes) ∧
      s1.chunked = wantsChunked c { chunked := a.chunked } (lastStatus calls).1 ∧
      s1.log = s0.log ++ [.head t [] { throttle := false }] ∧
      (bodyless c (lastStatus calls).1 = false → s1.upgraded = false ∧
        body c e a.chunked d more a.resp = (.ok (), { s1 with log := s1.log ++ bodyTail s1.chunked s1.keepalive e.bufferSize false d more })) ∧
      (bodyless c (lastStatus calls).1 = true → ∃ r, body c e a.chunked d more a.resp = (.ok (), { s1 with log := s1.log ++ .mark s1.keepalive :: r })) := by
  obtain ⟨⟨g, i⟩, b, _⟩ := p
  have hn : headersSent a.resp = false := by
    obtain ⟨h, e, _⟩ := i.ex; simp [headersSent, e]
  by_cases hd : d = []
  · have hm : more = false := h.resolve_left (fun x => x hd)
    subst hd hm
    obtain ⟨t, rest, s1, run, sl, h1, h2, h3, h4, h5, h6, h7⟩ := write_spec2 hc (some []) a.chunked { throttle := false } (by exact hup) i b (fun _ => rfl)
    refine ⟨t, rest, s1, sl, h1, h2, h5, h4, h6, h3, fun nb => ?_, fun nb => ?_⟩
    · have hu := h7.trans (up_false (by simp [bodyless] at nb; exact nb.2))
      refine ⟨hu, ?_⟩
      rw [nb, if_neg Bool.false_ne_true, writeBody_some] at run
      unfold body
      rw [bind_ok (get_run _), show (when (([] : Bytes) ≠ []) _ : M Unit) = pure () by simp [when], bind_ok (pure_run _ _),
        Bool.not_false, when_true, bind_ok run, close_run]
      simp [bodyTail, hu]
    · refine ⟨[.mark s1.keepalive], ?_⟩
      rw [nb, if_pos rfl, writeBody_none] at run
      unfold body
      rw [bind_ok (get_run _), show (when (([] : Bytes) ≠ []) _ : M Unit) = pure () by simp [when], bind_ok (pure_run _ _),
        Bool.not_false, when_true, bind_ok run, close_run]
      simp
  · obtain ⟨t, rest, s1, run, sl, h1, h2, h3, h4, h5, h6, h7⟩ := write_spec2 hc (some d) a.chunked { throttle := false, bufferSize := e.bufferSize } (by exact hup) i b (fun _ => rfl)
    refine ⟨t, rest, s1, sl, h1, h2, h5, h4, h6, h3, fun nb => ?_, fun nb => ?_⟩
    · have hu := h7.trans (up_false (by simp [bodyless] at nb; exact nb.2))
      refine ⟨hu, ?_⟩
      rw [nb, if_neg Bool.false_ne_true, writeBody_some] at run
      unfold body
      rw [bind_ok (get_run _), hn, show (when (d ≠ []) (write c (some d) a.chunked { throttle := false, bufferSize := e.bufferSize })) = write c (some d) a.chunked { throttle := false, bufferSize := e.bufferSize } by simp [hd, when],
        bind_ok run]
      cases more with
      | true => simp [when, bodyTail, hd, hu] <;> rfl
      | false =>
        rw [Bool.not_false, when_true, bind_ok ((write_sent (by exact h5) _ _ _).trans (writeBody_some _ _ _)), close_run]
        simp [bodyTail, hd, hu]
    · rw [nb, if_pos rfl, writeBody_none] at run
      unfold body
      rw [bind_ok (get_run _), hn, show (when (d ≠ []) (write c (some d) a.chunked { throttle := false, bufferSize := e.bufferSize })) = write c (some d) a.chunked { throttle := false, bufferSize := e.bufferSize } by simp [hd, when],
        bind_ok run]
      cases more with
      | true => exact ⟨[], rfl⟩
      | false =>
        rw [Bool.not_false, when_true, bind_ok ((write_sent (by exact h5) _ _ _).trans (writeBody_some _ _ _)), close_run]
        exact ⟨_, by simp; rfl⟩

/-- Further body messages, not the last. -/
theorem bodies_sent {c : Cfg} {e : Env} : ∀ (ds : List Bytes) {a : A}, a.resp.headers = none →
    ds.foldl (fun a d => send c e a (.body d true)) a =
      { a with resp := { a.resp with log := a.resp.log ++ ds.flatMap (fun d => bodyTail (a.resp.chunked && !a.resp.upgraded) a.resp.keepalive e.bufferSize true d true) } } := by
  intro ds
  induction ds with
  | nil => intro a _; simp
  | cons d ds ih =>
    intro a h
    have e1 : send c e a (.body d true) = { a with resp := { a.resp with log := a.resp.log ++ bodyTail (a.resp.chunked && !a.resp.upgraded) a.resp.keepalive e.bufferSize true d true } } := by
      show { a with resp := (body c e a.chunked d true a.resp).2 } = _
      rw [body_sent h]
    rw [List.foldl_cons, e1, ih (by exact h)]
    simp

/-! ## LF in a header -/

theorem headerLoop_bad {c : Cfg} (hc : CfgOk c) {e : Env} : ∀ (r : List (Bytes × Bytes)) (a : A), (∃ h ∈ r, bad h = true) → a.resp.headers ≠ none →
    a.resp.upgraded = false →
    (headerLoop c e r a).resp.log = a.resp.log ++ [.head (errText c 500 b!"Internal Server Error" htmlType (e.page ise).length)
      (endBody c 500 (e.page ise)) { throttle := false }, .mark false] ∧ (headerLoop c e r a).resp.headers = none := by
  intro r
  induction r with
  | nil => rintro a ⟨_, h, _⟩; cases h
  | cons x r ih =>
    rintro a ⟨y, hy, hb⟩ hn hu
    obtain ⟨n, v⟩ := x
    obtain ⟨h, eh⟩ : ∃ h, a.resp.headers = some h := by
      cases e : a.resp.headers with
      | none => exact absurd e hn
      | some h => exact ⟨h, rfl⟩
    by_cases hx : (10 : UInt8) ∈ n ∨ (10 : UInt8) ∈ v
    · have := handle_spec hc (e := e) (x := ise) (s := a.resp) (by unfold Plainly; exact ⟨by simp, by simp, by decide, by decide⟩) eh hu
      unfold headerLoop
      rw [if_pos hx]
      exact this
    · have hy' : ∃ h ∈ r, bad h = true := by
        rcases List.mem_cons.1 hy with h | h
        · subst h
          simp only [bad, Bool.or_eq_true, decide_eq_true_eq] at hb
          exact absurd hb hx
        · exact ⟨y, h, hb⟩
      unfold headerLoop
      rw [if_neg hx]
      split
      · unfold setContentType
        rw [if_neg (fun h => hx (.inr h)), bind_ok (headers_some eh)]
        rcases Dict.get h kCT with _ | l
        · exact ih _ hy' (by exact hn) (by exact hu)
        · exact ih _ hy' (by exact (fun h => by cases h)) (by exact hu)
      · split
        · exact ih _ hy' hn hu
        · split
          · have := ih (if lower v = b!"close" then { a with resp := { a.resp with keepalive := false } } else a) hy' (by split <;> exact hn) (by split <;> exact hu)
            have e1 : (if lower v = b!"close" then { a with resp := { a.resp with keepalive := false } } else a).resp.log = a.resp.log := by split <;> rfl
            rw [e1] at this
            exact this
          · have e1 : (if lower n = b!"content-length" then { a with chunked := some false } else a).resp = a.resp := by split <;> rfl
            dsimp only
            rw [e1]
            unfold appendHeader
            rw [bind_ok (headers_some eh)]
            exact ih _ hy' (by exact (fun h => by cases h)) (by exact hu)

theorem start_bad {c : Cfg} (hc : CfgOk c) {e : Env} (he : PhraseOk e.phrase) {a : A} (hf : Fresh a.resp) {st : Option Int}
    (hst : ∀ x, st = some x → (e.phrase x).isSome) {l : List (Bytes × Bytes)} (hb : ∃ h ∈ l, bad h = true) :
    (start c e st l a).resp.log = [.head (errText c 500 b!"Internal Server Error" htmlType (e.page ise).length)
      (endBody c 500 (e.page ise)) { throttle := false }, .mark false] ∧ (start c e st l a).resp.headers = none := by
  obtain ⟨s', h1, p⟩ := statusOf_pre hc he (fresh_pre (c := c) hf) hst
  unfold start
  rw [h1]
  have := headerLoop_bad hc (e := e) l { a with resp := s' } hb (by obtain ⟨h, e, _⟩ := p.based; intro h'; rw [show _ = some h from e] at h'; cases h')
    (by have := p.inv.same.upgraded; exact this.trans hf.upgraded)
  have hl : s'.log = [] := by have := p.inv.same.log; exact this.trans hf.log
  rw [show (A.resp { a with resp := s' }).log = s'.log from rfl, hl] at this
  exact this

end Verif.Proofs.Asgi
