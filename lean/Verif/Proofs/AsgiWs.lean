import Verif.Spec.AsgiWs
import Verif.Props.Asgi
import Verif.Props.WebSocket
/-!
# ASGI WebSocket: the handshake
-/
namespace Verif.Proofs.AsgiWs
open Verif.Py Verif.Py.Dict Verif.Model.Upload Verif.Model.Response Verif.Spec.Response Verif.Proofs.Response Verif.Model.Asgi Verif.Spec.Asgi Verif.Proofs.Asgi
open Verif.Asgi Verif.Model.AsgiWs

theorem acceptLoop_fst (c : Cfg) (e : Env) : ∀ (r : List (Bytes × Bytes)) (a : A), (acceptLoop c e r a).1 = headerLoop c e r a := by
  intro r
  induction r with
  | nil => exact fun _ => rfl
  | cons x r ih =>
    intro a
    obtain ⟨n, v⟩ := x
    unfold acceptLoop headerLoop
    split
    · rfl
    · split
      · cases hx : setContentType v a.resp with
        | mk q s => cases q <;> simp only [ih]
      · split
        · exact ih a
        · split
          · exact ih _
          · dsimp only
            cases hx : appendHeader n v (if lower n = b!"content-length" then { a with chunked := some false } else a).resp with
            | mk q s => cases q <;> simp only [ih]

theorem acceptLoop_snd (c : Cfg) (e : Env) : ∀ (r : List (Bytes × Bytes)) (a : A), (∀ h ∈ r, bad h = false) → a.resp.headers ≠ none →
    (acceptLoop c e r a).2 = true := by
  intro r
  induction r with
  | nil => exact fun _ _ _ => rfl
  | cons x r ih =>
    intro a hb hn
    obtain ⟨n, v⟩ := x
    have h0 := hb (n, v) (by simp)
    simp only [bad, Bool.or_eq_false_iff, decide_eq_false_iff_not] at h0
    have ih := fun a => ih a (fun h hh => hb h (by simp [hh]))
    obtain ⟨h, eh⟩ : ∃ h, a.resp.headers = some h := by
      cases e : a.resp.headers with
      | none => exact absurd e hn
      | some h => exact ⟨h, rfl⟩
    unfold acceptLoop
    rw [if_neg (not_or.2 h0)]
    split
    · unfold setContentType
      rw [if_neg h0.2, bind_ok (headers_some eh)]
      rcases Dict.get h kCT with _ | l
      · exact ih _ (by exact hn)
      · exact ih _ (by exact (fun h => by cases h))
    · split
      · exact ih _ hn
      · split
        · refine ih _ ?_
          split <;> exact hn
        · have e1 : (if lower n = b!"content-length" then { a with chunked := some false } else a).resp = a.resp := by split <;> rfl
          dsimp only
          rw [e1]
          unfold appendHeader
          rw [bind_ok (headers_some eh)]
          exact ih _ (by exact (fun h => by cases h))

/-- `setHeader` keeps the Date and Server lines. -/
theorem set_both {c : Cfg} {n v : Bytes} (hk : lower n ≠ kDate ∧ lower n ≠ kServer) {s s' : St} (b : Both c s) (h : setHeader n v s = (.ok (), s')) : Both c s' := by
  have := kb_setHeader (c := c) (n := n) (v := v) hk s b
  rw [h] at this
  exact this

/-- The calls that the handshake makes after the headers. -/
def subCalls (sub : Bytes) : List Call := if sub = [] then [] else [.setHeader b!"Sec-WebSocket-Protocol" sub]
def handCalls (key : Bytes) : List Call :=
  [.setStatus 101 b!"Switching Protocols", .setHeader b!"Upgrade" b!"websocket", .setHeader b!"Sec-WebSocket-Accept" key]

theorem sub_inv {c : Cfg} (hc : CfgOk c) {s0 calls s} (i : Inv c true s0 false calls s) (b : Both c s) {sub : Bytes} (hs : (10 : UInt8) ∉ sub) :
    ∃ s', (when (sub ≠ []) (setHeader b!"Sec-WebSocket-Protocol" sub)) s = (.ok (), s') ∧ Inv c true s0 false (calls ++ subCalls sub) s' ∧ Both c s' := by
  by_cases h : sub = []
  · subst h
    exact ⟨s, rfl, by simpa [subCalls] using i, b⟩
  · obtain ⟨s', h1, h2, _⟩ := inv_set hc i (n := b!"Sec-WebSocket-Protocol") (v := sub) (by decide) hs (by decide) (by decide)
    refine ⟨s', by simp only [when, h, ne_eq, not_false_eq_true, decide_true, if_true]; exact h1, by simpa [subCalls, h] using h2, ?_⟩
    exact set_both ⟨by decide, by decide⟩ b h1

theorem hand_inv {c : Cfg} (hc : CfgOk c) {s0 calls s} (i : Inv c true s0 false calls s) (b : Both c s) {key : Bytes} (hk : (10 : UInt8) ∉ key) :
    ∃ s', accept c (some key) s = write c none none {} s' ∧ Inv c true s0 false (calls ++ handCalls key) s' ∧ Both c s' := by
  obtain ⟨h, eh, tb⟩ := i.ex
  have hl := tb.lineOk
  rw [if_neg (by decide)] at hl
  have r1 : setStatus 101 b!"Switching Protocols" s = (.ok (), { s with status := (101, b!"Switching Protocols") :: s.status }) := by
    unfold setStatus
    rw [if_neg (by decide), bind_ok (headers_some eh), hl]; rfl
  have i1 := inv_call hc (.setStatus 101 b!"Switching Protocols") trivial (.inr trivial) i
  change Inv _ _ _ _ _ (setStatus 101 b!"Switching Protocols" s).2 at i1
  rw [r1] at i1
  obtain ⟨s2, r2, i2, _⟩ := inv_set hc i1 (n := b!"Upgrade") (v := b!"websocket") (by decide) (by decide) (by decide) (by decide)
  obtain ⟨s3, r3, i3, _⟩ := inv_set hc i2 (n := b!"Sec-WebSocket-Accept") (v := key) (by decide) hk (by decide) (by decide)
  refine ⟨s3, ?_, by simpa [handCalls] using i3, ?_⟩
  · show (setStatus 101 b!"Switching Protocols" >>= _) s = _
    rw [bind_ok r1, bind_ok r2, bind_ok r3]
  · exact set_both ⟨by decide, by decide⟩ (set_both ⟨by decide, by decide⟩ (by exact b) r2) r3

theorem lastStatus_hand (calls : List Call) (key : Bytes) : lastStatus (calls ++ handCalls key) = (101, b!"Switching Protocols") := by
  unfold handCalls lastStatus
  rw [List.foldl_append]; rfl

/-- `websocket.accept` from a fresh response. -/
theorem accept_spec {c : Cfg} (hc : CfgOk c) {e : WEnv} {key : Bytes} (he : e.key = some key) (hk : (10 : UInt8) ∉ key) {sub : Bytes} (hs : (10 : UInt8) ∉ sub)
    {hs' : List (Bytes × Bytes)} (hl : ∀ h ∈ hs', bad h = false ∧ plain h = true) {a : A} (hf : Fresh a.resp) :
    ∃ (t : Bytes) (rest : List Bytes),
      SentLines c (genCalls c {} (hs'.flatMap headerCalls ++ subCalls sub ++ handCalls key) (a.resp.keepalive && !hs'.any closes)) false t rest ∧
      named kDate rest = [line b!"Date" c.date] ∧ named kServer rest = [line b!"Server" c.server] ∧
      (acceptMsg c e true sub hs' a).resp.headers = none ∧
      (acceptMsg c e true sub hs' a).resp.keepalive = (a.resp.keepalive && !hs'.any closes) ∧
      (acceptMsg c e true sub hs' a).resp.upgraded = (a.resp.keepalive && !hs'.any closes) ∧
      (acceptMsg c e true sub hs' a).resp.log = [.head t [] { throttle := false }, .mark (a.resp.keepalive && !hs'.any closes)] := by
  obtain ⟨s1, r1, p1⟩ := statusOf_pre hc (e := { phrase := fun _ => none }) (fun _ _ h => by cases h) (fresh_pre (c := c) hf) (st := none) (fun _ h => by cases h)
  have r1' : statusOf c e.toEnv none a.resp = (.ok (), s1) := r1
  obtain ⟨a2, r2, p2⟩ := headerLoop_pre hc (e := e.toEnv) id [] (fun _ => rfl) hs' hl p1
  simp only [List.append_nil, id, msgCalls, List.flatMap_nil, List.nil_append] at r2 p2
  have r2' : acceptLoop c e.toEnv hs' { a with resp := s1 } = (a2, true) := by
    have h1 := acceptLoop_fst c e.toEnv hs' { a with resp := s1 }
    have h2 := acceptLoop_snd c e.toEnv hs' { a with resp := s1 } (fun h hh => (hl h hh).1) (by
      obtain ⟨h, e, _⟩ := p1.based; intro h'; rw [show _ = some h from e] at h'; cases h')
    rw [r2] at h1
    exact Prod.ext h1 h2
  obtain ⟨s3, r3, i3, b3⟩ := sub_inv hc p2.inv p2.based hs
  obtain ⟨s4, r4, i4, b4⟩ := hand_inv hc i3 b3 hk
  obtain ⟨t, rest, s5, r5, sl, h1, h2, h3, h4, h5, h6, h7⟩ := write_spec2 hc none none {} (by exact hf.upgraded) i4 (.inl b4) (fun _ => rfl)
  simp only [lastStatus_hand] at sl h4 h6 h7 r5
  have hb : bodyless c 101 = true := by simp [bodyless]; right; decide
  have hr : acceptMsg c e true sub hs' a = { a2 with resp := { s5 with log := s5.log ++ [.mark s5.keepalive] } } := by
    unfold acceptMsg
    rw [r1']; dsimp only
    rw [r2']; dsimp only
    unfold acceptEnd
    rw [if_neg (fun h => hs h.2), if_pos rfl, bind_ok r3, he, r4, r5, hb, if_pos rfl, writeBody_none]
  rw [hr]
  have hk5 : s5.keepalive = (a.resp.keepalive && !hs'.any closes) := by
    rw [h4]; unfold writeKeep genKeep
    simp only [lastStatus_hand]
    simp
  refine ⟨t, rest, sl, h1, h2, h5, hk5, ?_, ?_⟩
  · show s5.upgraded = _
    rw [h7]; simp
  · show s5.log ++ _ = _
    rw [h3, hk5]
    show a.resp.log ++ _ ++ _ = _
    rw [hf.log]; rfl

end Verif.Proofs.AsgiWs

/-! ## Messages -/
namespace Verif.Proofs.AsgiWs
open Verif.Py Verif.Model.Response Verif.Model.BodyStream Verif.Model.WebSocket Verif.Spec.WebSocket Verif.Proofs.WebSocket Verif.Model.AsgiWs Verif.Spec.AsgiWs

theorem receive_skip {max : Nat} {r r' : Reader} {res : Res} {sent : List Bytes} (hi : Inv r) (h : recv max r = (res, sent, r')) (he : res.isEmpty = true) :
    Model.WebSocket.receive max r = ((Model.WebSocket.receive max r').1, sent ++ (Model.WebSocket.receive max r').2.1, (Model.WebSocket.receive max r').2.2) := by
  obtain ⟨i, hp⟩ := recv_progress hi h he
  unfold Model.WebSocket.receive
  have e1 : ∀ r : Reader, r.buf.length + r.gen.pieces.flatten.length = r.remaining.length := by
    intro r; unfold Reader.remaining; rw [List.length_append]
  rw [e1, e1, receiveLoop, h]
  simp only [he, if_true]
  rw [receiveLoop_fuel r.remaining.length (r'.remaining.length + 1) r' i (by omega) (by omega)]

theorem receive_stop {max : Nat} {r r' : Reader} {res : Res} {sent : List Bytes} (h : recv max r = (res, sent, r')) (he : res.isEmpty = false) :
    Model.WebSocket.receive max r = (res, sent, r') := by
  unfold Model.WebSocket.receive
  rw [receiveLoop, h]
  simp [he]

theorem opcode_of {f : Frame} {n : UInt8} (h : f.opcode = n.toNat) : f.b0 &&& 0x0f = n := UInt8.toNat_inj.1 (by rw [opcode_eq]; exact h)

theorem decode_encode (s : String) : decodeUtf8 (encodeUtf8 s) = some s := by
  unfold decodeUtf8 encodeUtf8 String.fromUTF8?
  simp only [Array.toArray_toList]
  have hv : (⟨s.toUTF8.data⟩ : ByteArray).IsValidUTF8 := s.isValidUTF8
  rw [dif_pos hv]
  rfl

/-- One data frame. -/
theorem recv_data {max : Nat} {r : Reader} (hi : Inv r) {f : Frame} {m : Meaning} (hf : Carries max f m) {ev : Ev} (he : m.event = some ev) {rest : Bytes}
    (hr : r.remaining = f.encode ++ rest) :
    ∃ res r', Model.WebSocket.receive max r = (res, [], r') ∧ eventOf res = some ev ∧ r'.remaining = rest ∧ Inv r' ∧ r'.gen.out = r.gen.out := by
  obtain ⟨r', h1, h2, h3, h4⟩ := recv_frame hi hf.fits (fun _ => hf.size) hr
  cases m with
  | text s =>
    obtain ⟨o, p⟩ := hf.says
    cases he
    rw [opcode_of (n := 1) o, p] at h1
    have hd : dispatch 1 (encodeUtf8 s).length (encodeUtf8 s) = (.text s, []) := by simp [dispatch, decode_encode]
    rw [hd] at h1
    exact ⟨_, r', receive_stop h1 rfl, rfl, h2, h3, h4⟩
  | binary b =>
    obtain ⟨o, p, hb⟩ := hf.says
    cases he
    rw [opcode_of (n := 2) o, p] at h1
    have hd : dispatch 2 b.length b = (.binary b, []) := by simp [dispatch]
    rw [hd] at h1
    refine ⟨_, r', receive_stop h1 ?_, rfl, h2, h3, h4⟩
    cases b with
    | nil => exact absurd rfl hb
    | cons _ _ => rfl
  | ping b => cases he
  | pong b => cases he

/-- One control frame. -/
theorem recv_ctrl {max : Nat} {r : Reader} (hi : Inv r) {f : Frame} {m : Meaning} (hf : Carries max f m) (he : m.event = none) {rest : Bytes}
    (hr : r.remaining = f.encode ++ rest) :
    ∃ r', Model.WebSocket.receive max r = ((Model.WebSocket.receive max r').1, m.answer.toList.map Frame.encode ++ (Model.WebSocket.receive max r').2.1, (Model.WebSocket.receive max r').2.2) ∧
      r'.remaining = rest ∧ Inv r' ∧ r'.gen.out = r.gen.out := by
  obtain ⟨r', h1, h2, h3, h4⟩ := recv_frame hi hf.fits (fun _ => hf.size) hr
  cases m with
  | text s => cases he
  | binary b => cases he
  | ping b =>
    obtain ⟨o, p, hl⟩ := hf.says
    rw [opcode_of (n := 9) o, p] at h1
    have hd : dispatch 9 b.length b = (.ping b, [(Frame.mk 0x8A .short none b).encode]) := by
      simp [dispatch, hl, createFrame, Frame.encode, Frame.prefix]; decide
    rw [hd] at h1
    exact ⟨r', receive_skip hi h1 rfl, h2, h3, h4⟩
  | pong b =>
    obtain ⟨o, p, hl⟩ := hf.says
    rw [opcode_of (n := 10) o, p] at h1
    have hd : dispatch 10 b.length b = (.pong, []) := by simp [dispatch, hl]
    rw [hd] at h1
    exact ⟨r', receive_skip hi h1 rfl, h2, h3, h4⟩


/-! ## Runs -/

/-- The frames of the client with what they say. -/
abbrev Items := List (Frame × Meaning)
def evs (l : Items) : List Ev := l.filterMap (·.2.event)
def answers (l : Items) : List Frame := l.filterMap (·.2.answer)
def enc (l : Items) : Bytes := (l.map (·.1.encode)).flatten

/-- `w` with more entries in its log. -/
def logged (w : W) (l : List Emit) : W := { w with a := { w.a with resp := { w.a.resp with log := w.a.resp.log ++ l } } }

theorem logged_nil (w : W) : logged w [] = w := by simp [logged]
theorem logged_logged (w : W) (l l') : logged (logged w l) l' = logged w (l ++ l') := by simp [logged]

theorem open_logged {w : W} (h : Open w) (l) : Open (logged w l) := ⟨h.upgraded, h.ws, h.running⟩

def rcv (n : Nat) : List Op := List.replicate n .receive
theorem rcv_succ (n : Nat) : rcv (n + 1) = .receive :: rcv n := List.replicate_succ

theorem step_receive {c : Cfg} {e : WEnv} {w : W} (h : Open w) {res sent r} (hr : Model.WebSocket.receive e.max w.reader = (res, sent, r)) {ev} (he : eventOf res = some ev) :
    step c e w .receive = { logged w (sent.map (fun b => .body b { throttle := false })) with reader := r, got := w.got ++ [ev] } := by
  unfold step Model.AsgiWs.receive
  simp only [h.running, Bool.false_eq_true, if_false, h.upgraded, h.ws, if_true, hr, he]
  rw [if_neg (by simp)]
  simp [logged, pongs, h.ws, h.running]

theorem step_data {c : Cfg} {e : WEnv} {w : W} (h : Open w) (hi : Inv w.reader) {f : Frame} {m : Meaning} (hf : Carries e.max f m) {ev : Ev} (he : m.event = some ev) {rest : Bytes}
    (hr : w.reader.remaining = f.encode ++ rest) :
    ∃ r', step c e w .receive = { w with reader := r', got := w.got ++ [ev] } ∧ r'.remaining = rest ∧ Inv r' ∧ r'.gen.out = w.reader.gen.out := by
  obtain ⟨res, r', h1, h2, h3, h4, h5⟩ := recv_data hi hf he hr
  refine ⟨r', ?_, h3, h4, h5⟩
  rw [step_receive h h1 h2]
  simp [logged]

theorem step_ctrl {c : Cfg} {e : WEnv} {w : W} (h : Open w) (hi : Inv w.reader) {f : Frame} {m : Meaning} (hf : Carries e.max f m) (he : m.event = none) {rest : Bytes}
    (hr : w.reader.remaining = f.encode ++ rest) :
    ∃ r', step c e w .receive = step c e { logged w (m.answer.toList.map queued) with reader := r' } .receive ∧ r'.remaining = rest ∧ Inv r' ∧ r'.gen.out = w.reader.gen.out := by
  obtain ⟨r', h1, h2, h3, h4⟩ := recv_ctrl hi hf he hr
  refine ⟨r', ?_, h2, h3, h4⟩
  generalize hx : Model.WebSocket.receive e.max r' = x at h1
  obtain ⟨res, sent, r2⟩ := x
  unfold step Model.AsgiWs.receive
  simp only [logged, h.running, Bool.false_eq_true, if_false, h.upgraded, h.ws, if_true, h1, hx]
  rw [if_neg (by simp)]
  cases eventOf res <;> simp [pongs, queued, Function.comp_def, h.upgraded]

theorem run_cons (c : Cfg) (e : WEnv) (w : W) (op : Op) (ops : List Op) : Model.AsgiWs.run c e w (op :: ops) = Model.AsgiWs.run c e (step c e w op) ops := rfl
theorem run_append (c : Cfg) (e : WEnv) (w : W) (l r : List Op) : Model.AsgiWs.run c e w (l ++ r) = Model.AsgiWs.run c e (Model.AsgiWs.run c e w l) r := List.foldl_append

/-- Receiving all messages of `items`, and going on. -/
theorem advance {c : Cfg} {e : WEnv} : ∀ (items : Items), (∀ x ∈ items, Carries e.max x.1 x.2) → ∀ {w : W}, Open w → Inv w.reader → ∀ {rest : Bytes},
    w.reader.remaining = enc items ++ rest →
    ∃ r', r'.remaining = rest ∧ Inv r' ∧ r'.gen.out = w.reader.gen.out ∧
      (∀ ops, Model.AsgiWs.run c e w (rcv (evs items).length ++ .receive :: ops) =
        Model.AsgiWs.run c e { logged w ((answers items).map queued) with reader := r', got := w.got ++ evs items } (.receive :: ops)) ∧
      (Model.AsgiWs.run c e w (rcv (evs items).length)).got = w.got ++ evs items ∧ Open (Model.AsgiWs.run c e w (rcv (evs items).length)) := by
  intro items
  induction items with
  | nil =>
    intro _ w ho hi rest hr
    refine ⟨w.reader, by simpa [enc] using hr, hi, rfl, fun ops => ?_, by simp [evs, Model.AsgiWs.run, rcv], ho⟩
    simp [evs, answers, logged_nil, rcv]
  | cons x items ih =>
    intro ok w ho hi rest hr
    obtain ⟨f, m⟩ := x
    have okf := ok (f, m) (by simp)
    have ok' : ∀ x ∈ items, Carries e.max x.1 x.2 := fun x hx => ok x (by simp [hx])
    have hr' : w.reader.remaining = f.encode ++ (enc items ++ rest) := by rw [hr]; simp [enc]
    cases he : m.event with
    | some ev =>
      obtain ⟨r1, h1, h2, h3, h4⟩ := step_data (c := c) ho hi okf he hr'
      have ho1 : Open { w with reader := r1, got := w.got ++ [ev] } := ⟨ho.upgraded, ho.ws, ho.running⟩
      obtain ⟨r2, k1, k2, k3, k4, k5, k6⟩ := ih ok' ho1 h3 h2
      have e1 : evs ((f, m) :: items) = ev :: evs items := by simp [evs, he]
      have e2 : answers ((f, m) :: items) = answers items := by
        cases m <;> first | rfl | cases he
      refine ⟨r2, k1, k2, k3.trans h4, fun ops => ?_, ?_, ?_⟩
      · rw [e1, e2, List.length_cons, rcv_succ, List.cons_append, run_cons, h1, k4]
        simp [logged]
      · rw [e1, List.length_cons, rcv_succ, run_cons, h1, k5]; simp
      · rw [e1, List.length_cons, rcv_succ, run_cons, h1]; exact k6
    | none =>
      obtain ⟨r1, h1, h2, h3, h4⟩ := step_ctrl (c := c) ho hi okf he hr'
      have ho1 : Open { logged w (m.answer.toList.map queued) with reader := r1 } := ⟨ho.upgraded, ho.ws, ho.running⟩
      obtain ⟨r2, k1, k2, k3, k4, k5, k6⟩ := ih ok' ho1 h3 h2
      have e1 : evs ((f, m) :: items) = evs items := by simp [evs, he]
      have e2 : (answers ((f, m) :: items)).map queued = m.answer.toList.map queued ++ (answers items).map queued := by
        cases m <;> simp [answers, Meaning.answer]
      have first : ∀ n ops, Model.AsgiWs.run c e w (rcv n ++ .receive :: ops) = Model.AsgiWs.run c e { logged w (m.answer.toList.map queued) with reader := r1 } (rcv n ++ .receive :: ops) := by
        intro n ops
        cases n with
        | zero => simp only [rcv, List.replicate_zero, List.nil_append, run_cons, h1]
        | succ n => simp only [rcv_succ, List.cons_append, run_cons, h1]
      refine ⟨r2, k1, k2, k3.trans h4, fun ops => ?_, ?_⟩
      · rw [e1, e2, first, k4, run_cons, run_cons]
        congr 2
        simp [logged]
      · rw [e1]
        cases hn : (evs items).length with
        | zero =>
          rw [List.eq_nil_of_length_eq_zero hn]
          exact ⟨by simp [Model.AsgiWs.run, rcv], ho⟩
        | succ n =>
          have := first n []
          rw [show rcv n ++ [Op.receive] = rcv (n + 1) from List.replicate_succ'.symm, ← hn] at this
          rw [← hn, this]
          exact ⟨k5, k6⟩


/-! ## Sending in between -/

theorem create_head (b : Bytes) (op : UInt8) : (createFrame b op).head? = some (128 ||| op) := by
  unfold createFrame; rfl

theorem create_encode {b : Bytes} (h : b.length < 2 ^ 64) (op : UInt8) : createFrame b op = (Frame.mk (128 ||| op) (formOf b) none b).encode :=
  (C30_create b op true none h).1

/-- The frames that `recv` sends are pongs. -/
theorem recv_sent (max : Nat) (r : Reader) : ∀ b ∈ (recv max r).2.1, b.head? = some 0x8A := by
  unfold recv
  split
  · simp
  · split
    · simp
    · simp
    · split
      · simp
      · next d _ _ =>
        intro b hb
        simp only [dispatch] at hb
        split at hb
        · split at hb <;> cases hb
        · split at hb
          · cases hb
          · split at hb
            · simp only [List.mem_singleton] at hb; subst hb; exact create_head _ _
            · split at hb
              · cases hb
              · split at hb <;> cases hb
  · simp

theorem receive_sent (max : Nat) (r : Reader) : ∀ b ∈ (Model.WebSocket.receive max r).2.1, b.head? = some 0x8A := by
  unfold Model.WebSocket.receive
  generalize r.buf.length + r.gen.pieces.flatten.length + 1 = n
  induction n generalizing r with
  | zero => simp [receiveLoop]
  | succ n ih =>
    have h0 := recv_sent max r
    rw [receiveLoop]
    generalize recv max r = x at h0
    obtain ⟨res, sent, r'⟩ := x
    dsimp only at h0 ⊢
    split
    · intro b hb
      rcases List.mem_append.1 hb with h | h
      · exact h0 b h
      · exact ih r' b h
    · exact h0

/-- `w` without the frames of the application in its log. -/
def core (w : W) : W := { w with a := { w.a with resp := { w.a.resp with log := w.a.resp.log.filter isPong } } }

theorem core_receive (c : Cfg) (e : WEnv) (w : W) : core (step c e w .receive) = core (step c e (core w) .receive) := by
  unfold step Model.AsgiWs.receive
  by_cases hw : w.waiting = true
  · simp [core, hw]
  · by_cases hu : w.a.resp.upgraded = true
    · by_cases hs : w.ws = true
      · simp only [core, hw, hu, hs, Bool.false_eq_true, if_false, if_true, reduceCtorEq]
        cases eventOf (Model.WebSocket.receive e.max w.reader).1 <;> simp [pongs, List.filter_append, hu]
      · simp [core, hw, hu, hs]
    · simp [core, hw, hu]

/-- A message of data only adds its frame. -/
theorem step_send {c : Cfg} {e : WEnv} {w : W} {m : Msg} (hm : isData m = true) (ho : w.ws = true) (hw : w.waiting = false) :
    ∃ b op, (op = 1 ∨ op = 2) ∧ step c e w (.send m) = logged w [.body (createFrame b op) { throttle := false }] ∧
      (∀ f, frameFor m = some f → f = Frame.mk (128 ||| op) (formOf b) none b) := by
  cases m with
  | send b t =>
    by_cases hb : b = []
    · subst hb
      have ht : t ≠ "" := by simpa [isData] using hm
      refine ⟨encodeUtf8 t, 1, .inl rfl, ?_, ?_⟩
      · simp only [step, hw, Bool.false_eq_true, if_false, Model.AsgiWs.send, ho, ht, ne_eq, not_true_eq_false, not_false_eq_true, if_true]
        simp [logged, sendFrame, emit, Model.Response.modify, ho, hw]
      · intro f h
        simp only [frameFor, ne_eq, not_true_eq_false, if_false, Option.some.injEq] at h
        exact h.symm
    · refine ⟨b, 2, .inr rfl, ?_, ?_⟩
      · simp only [step, hw, Bool.false_eq_true, if_false, Model.AsgiWs.send, ho, hb, ne_eq, not_false_eq_true, if_true]
        simp [logged, sendFrame, emit, Model.Response.modify, ho, hw]
      · intro f h
        simp only [frameFor, ne_eq, hb, not_false_eq_true, if_true, Option.some.injEq] at h
        exact h.symm
  | _ => cases hm

theorem not_pong {b : Bytes} {op : UInt8} (h : op = 1 ∨ op = 2) (o : SendOpts) : isPong (.body (createFrame b op) o) = false := by
  rcases h with rfl | rfl <;> (simp [isPong, create_head]; decide)

theorem core_send {c : Cfg} {e : WEnv} {w : W} {m : Msg} (hm : isData m = true) : core (step c e w (.send m)) = core w := by
  by_cases hw : w.waiting = true
  · simp [step, hw]
  · by_cases hs : w.ws = true
    · obtain ⟨b, op, h1, h2, _⟩ := step_send (c := c) (e := e) hm hs (by simpa using hw)
      rw [h2]
      simp [core, logged, List.filter_append, not_pong h1]
    · cases m with
      | send b t => simp only [step, hw, Model.AsgiWs.send, hs]; split <;> (try split) <;> (try split) <;> rfl
      | _ => cases hm

theorem core_rcv (c : Cfg) (e : WEnv) : ∀ (n : Nat) (w w' : W), core w = core w' → core (Model.AsgiWs.run c e w (rcv n)) = core (Model.AsgiWs.run c e w' (rcv n)) := by
  intro n
  induction n with
  | zero => intro w w' h; exact h
  | succ n ih =>
    intro w w' h
    rw [rcv_succ, run_cons, run_cons]
    exact ih _ _ (by rw [core_receive, h, ← core_receive])

/-- Only data is sent. -/
def OnlyData (ops : List Op) : Prop := ∀ m ∈ messages ops, isData m = true

theorem core_run (c : Cfg) (e : WEnv) : ∀ (ops : List Op), OnlyData ops → ∀ w, core (Model.AsgiWs.run c e w ops) = core (Model.AsgiWs.run c e w (rcv (receives ops))) := by
  intro ops
  induction ops with
  | nil => intro _ w; rfl
  | cons op ops ih =>
    intro hd w
    cases op with
    | send m =>
      rw [run_cons, ih (fun m hm => hd m (by simp [messages, hm]))]
      have : receives (.send m :: ops) = receives ops := by simp [receives]
      rw [this]
      exact core_rcv c e _ _ _ (core_send (hd m (by simp [messages])))
    | receive =>
      have : receives (.receive :: ops) = receives ops + 1 := by simp [receives]
      rw [run_cons, ih (fun m hm => hd m (by simpa [messages] using hm)), this, rcv_succ, run_cons]

theorem run_waiting (c : Cfg) (e : WEnv) {w : W} (h : w.waiting = true) : ∀ ops, Model.AsgiWs.run c e w ops = w := by
  intro ops
  induction ops with
  | nil => rfl
  | cons op ops ih => rw [run_cons]; simp only [step, h, if_true]; exact ih

/-- `receive` adds pongs only. -/
theorem receive_log (c : Cfg) (e : WEnv) (w : W) : (∃ l, (step c e w .receive).a.resp.log = w.a.resp.log ++ l ∧ ∀ x ∈ l, isPong x = true) ∧
    (step c e w .receive).ws = w.ws ∧ (step c e w .receive).a.resp.upgraded = w.a.resp.upgraded ∧ (step c e w .receive).a.resp.headers = w.a.resp.headers ∧
    (step c e w .receive).a.resp.keepalive = w.a.resp.keepalive := by
  have hs := receive_sent e.max w.reader
  unfold step Model.AsgiWs.receive
  split
  · exact ⟨⟨[], by simp, by simp⟩, rfl, rfl, rfl, rfl⟩
  · dsimp only
    split
    · exact ⟨⟨[], by simp, by simp⟩, rfl, rfl, rfl, rfl⟩
    · split
      · generalize Model.WebSocket.receive e.max w.reader = x at hs
        obtain ⟨res, sent, r⟩ := x
        dsimp only at hs ⊢
        have : ∀ x ∈ sent.map (fun b => Emit.body b { throttle := false }), isPong x = true := by
          intro x hx
          obtain ⟨b, hb, rfl⟩ := List.mem_map.1 hx
          simp [isPong, hs b hb]
        cases eventOf res
        · exact ⟨⟨_, rfl, this⟩, rfl, rfl, rfl, rfl⟩
        · exact ⟨⟨_, rfl, this⟩, rfl, rfl, rfl, rfl⟩
      · exact ⟨⟨[], by simp, by simp⟩, rfl, rfl, rfl, rfl⟩

/-- The payload of every message can be a frame. -/
def Sized (ops : List Op) : Prop := ∀ m ∈ messages ops, ∀ f, frameFor m = some f → f.payload.length < 2 ^ 64

theorem run_log {c : Cfg} {e : WEnv} : ∀ (ops : List Op), OnlyData ops → Sized ops → ∀ {w : W}, w.ws = true → (Model.AsgiWs.run c e w ops).waiting = false →
    ∃ l, (Model.AsgiWs.run c e w ops).a.resp.log = w.a.resp.log ++ l ∧
      l.filter (fun x => !isPong x) = ((messages ops).filterMap frameFor).map queued := by
  intro ops
  induction ops with
  | nil => intro _ _ w _ _; exact ⟨[], by simp [Model.AsgiWs.run], rfl⟩
  | cons op ops ih =>
    intro hd hz w ho hw
    rw [run_cons] at hw ⊢
    have hw0 : w.waiting = false := by
      cases h : w.waiting with
      | false => rfl
      | true =>
        have e1 : step c e w op = w := by simp [step, h]
        rw [e1, run_waiting c e h, h] at hw
        cases hw
    cases op with
    | send m =>
      obtain ⟨b, op, h1, h2, h3⟩ := step_send (c := c) (e := e) (hd m (by simp [messages])) ho hw0
      rw [h2] at hw ⊢
      obtain ⟨l, k1, k2⟩ := ih (fun m hm => hd m (by simp [messages, hm])) (fun m hm => hz m (by simp [messages, hm])) (by exact ho) hw
      refine ⟨.body (createFrame b op) { throttle := false } :: l, by rw [k1]; simp [logged], ?_⟩
      obtain ⟨f, hf⟩ : ∃ f, frameFor m = some f := by
        cases m with
        | send b t => simp only [frameFor]; split <;> exact ⟨_, rfl⟩
        | _ => exact absurd (hd _ (List.mem_cons_self ..)) (by simp [isData])
      have hb := hz m (by simp [messages]) f hf
      have hf' := h3 f hf
      rw [hf'] at hb
      rw [List.filter_cons, not_pong h1]
      simp only [Bool.not_false, if_true, messages, List.filterMap_cons, hf, List.map_cons, k2]
      rw [hf', queued, ← create_encode hb]
    | receive =>
      obtain ⟨⟨l, k1, k2⟩, k3, k4, _⟩ := receive_log c e w
      obtain ⟨l', k5, k6⟩ := ih (fun m hm => hd m (by simpa [messages] using hm)) (fun m hm => hz m (by simpa [messages] using hm)) (k3.trans ho) hw
      refine ⟨l ++ l', by rw [k5, k1]; simp, ?_⟩
      have : l.filter (fun x => !isPong x) = [] := by
        rw [List.filter_eq_nil_iff]
        intro x hx; simp [k2 x hx]
      rw [List.filter_append, this, k6]; rfl

end Verif.Proofs.AsgiWs
