import Verif.Spec.NativeWs
import Verif.Props.AsgiWs
/-!
# WebSocket sessions of native handlers
-/
namespace Verif.Proofs.NativeWs
open Verif.Py Verif.Model.Response Verif.Model.BodyStream Verif.Model.WebSocket Verif.Spec.WebSocket Verif.Proofs.WebSocket Verif.Spec.AsgiWs Verif.Proofs.AsgiWs
open Verif.Model.NativeWs Verif.Spec.NativeWs
open Verif.Model.AsgiWs (Ev eventOf pongs sendFrame closeWith)

/-- `receive` on a message of the client. -/
theorem receive_data {max : Nat} {r : Reader} (hi : Inv r) {f : Frame} {m : Meaning} (hf : Carries max f m) {g : Got} (hg : message m = some g) {rest : Bytes}
    (hr : r.remaining = f.encode ++ rest) :
    ∃ res r', Model.WebSocket.receive max r = (res, [], r') ∧ gives res = g ∧ r'.remaining = rest ∧ Inv r' ∧ r'.gen.out = r.gen.out := by
  obtain ⟨ev, he, hge⟩ : ∃ ev, m.event = some ev ∧ ∀ res : Res, eventOf res = some ev → (∃ s, ev = .text s) ∨ (∃ b, ev = .bytes b) → gives res = g := by
    cases m with
    | text s =>
      cases hg
      refine ⟨_, rfl, fun res h _ => ?_⟩
      cases res <;> first | (cases h; rfl) | (simp [eventOf] at h; done) | skip
      next o => cases o <;> simp [eventOf] at h
    | binary b =>
      cases hg
      refine ⟨_, rfl, fun res h _ => ?_⟩
      cases res <;> first | (cases h; rfl) | (simp [eventOf] at h; done) | skip
      next o => cases o <;> simp [eventOf] at h
    | ping b => cases hg
    | pong b => cases hg
  obtain ⟨res, r', h1, h2, h3, h4, h5⟩ := recv_data hi hf he hr
  refine ⟨res, r', h1, hge res h2 ?_, h3, h4, h5⟩
  cases m with
  | text s => cases he; exact .inl ⟨_, rfl⟩
  | binary b => cases he; exact .inr ⟨_, rfl⟩
  | ping b => cases he
  | pong b => cases he

theorem message_none {m : Meaning} (h : message m = none) : m.event = none := by
  cases m <;> first | rfl | cases h

theorem enc_cons (f : Frame) (m : Meaning) (items : Items) (rest : Bytes) : enc ((f, m) :: items) ++ rest = f.encode ++ (enc items ++ rest) := by simp [enc]

/-- `receive` up to the next message. -/
theorem receive_upTo {max : Nat} : ∀ (items : Items), (∀ x ∈ items, Carries max x.1 x.2) → ∀ {r : Reader}, Inv r → ∀ {rest : Bytes}, r.remaining = enc items ++ rest →
    ∀ {a g items'}, upTo items = some (a, g, items') →
    ∃ res r', Model.WebSocket.receive max r = (res, a.map Frame.encode, r') ∧ gives res = g ∧ r'.remaining = enc items' ++ rest ∧ Inv r' ∧ r'.gen.out = r.gen.out ∧
      (∀ x ∈ items', x ∈ items) := by
  intro items
  induction items with
  | nil => intro _ r _ rest _ a g items' h; cases h
  | cons x items ih =>
    intro ok r hi rest hr a g items' h
    obtain ⟨f, m⟩ := x
    rw [enc_cons] at hr
    have okf := ok (f, m) (by simp)
    unfold upTo at h
    cases hm : message m with
    | some g' =>
      rw [hm] at h
      cases h
      obtain ⟨res, r', h1, h2, h3, h4, h5⟩ := receive_data hi okf hm hr
      exact ⟨res, r', h1, h2, h3, h4, h5, fun x hx => by simp [hx]⟩
    | none =>
      rw [hm] at h
      obtain ⟨⟨a', g', i'⟩, h', heq⟩ := Option.map_eq_some_iff.1 h
      cases heq
      obtain ⟨r1, k1, k2, k3, k4⟩ := recv_ctrl hi okf (message_none hm) hr
      obtain ⟨res, r', h1, h2, h3, h4, h5, h6⟩ := ih (fun x hx => ok x (by simp [hx])) k3 k2 h'
      rw [h1] at k1
      exact ⟨res, r', by rw [k1]; simp, h2, h3, h4, h5.trans k4, fun x hx => by simp [h6 x hx]⟩

/-- `receive` past pings and pongs, when no message follows. -/
theorem receive_ctrls {max : Nat} : ∀ (items : Items), (∀ x ∈ items, Carries max x.1 x.2) → (∀ x ∈ items, message x.2 = none) → ∀ {r : Reader}, Inv r → ∀ {rest : Bytes},
    r.remaining = enc items ++ rest →
    ∃ r', Model.WebSocket.receive max r = ((Model.WebSocket.receive max r').1, (answers items).map Frame.encode ++ (Model.WebSocket.receive max r').2.1, (Model.WebSocket.receive max r').2.2) ∧
      r'.remaining = rest ∧ Inv r' ∧ r'.gen.out = r.gen.out := by
  intro items
  induction items with
  | nil => intro _ _ r hi rest hr; exact ⟨r, by simp [answers], by simpa [enc] using hr, hi, rfl⟩
  | cons x items ih =>
    intro ok hn r hi rest hr
    obtain ⟨f, m⟩ := x
    rw [enc_cons] at hr
    obtain ⟨r1, k1, k2, k3, k4⟩ := recv_ctrl hi (ok (f, m) (by simp)) (message_none (hn (f, m) (by simp))) hr
    obtain ⟨r2, h1, h2, h3, h4⟩ := ih (fun x hx => ok x (by simp [hx])) (fun x hx => hn x (by simp [hx])) k3 k2
    refine ⟨r2, ?_, h2, h3, h4.trans k4⟩
    rw [k1, h1]
    simp only [answers, List.filterMap_cons]
    cases m.answer <;> simp

/-- `w` with more in its log. -/
def more (w : N) (l : List Emit) : N := { w with resp := { w.resp with log := w.resp.log ++ l } }

theorem run_cons (c : Cfg) (e : NEnv) (w : N) (op : Op) (ops : List Op) : Model.NativeWs.run c e w (op :: ops) = Model.NativeWs.run c e (step c e w op) ops := rfl
theorem run_append (c : Cfg) (e : NEnv) (w : N) (l r : List Op) : Model.NativeWs.run c e w (l ++ r) = Model.NativeWs.run c e (Model.NativeWs.run c e w l) r := List.foldl_append

theorem receive_eq {e : NEnv} {w : N} {res : Res} {a : List Frame} {r : Reader} (h : Model.WebSocket.receive e.max w.reader = (res, a.map Frame.encode, r)) :
    Model.NativeWs.receive e w = { more w (a.map queued) with reader := r, got := w.got ++ [gives res] } := by
  unfold Model.NativeWs.receive
  rw [h]
  simp [more, pongs, queued, Function.comp_def]

theorem next_eq {c : Cfg} {e : NEnv} {w : N} (h : w.resp.upgraded = true) : step c e w .next = Model.NativeWs.receive e w := by
  show Model.NativeWs.next c e w = _
  unfold Model.NativeWs.next
  rw [if_pos h]

theorem call_emit (w : N) (b : Bytes) (op : UInt8) : call w (sendFrame b op) = { more w [.body (createFrame b op) { throttle := false }] with got := w.got ++ [.done] } := rfl

theorem step_frame {c : Cfg} {e : NEnv} {w : N} {op : Op} {f : Frame} (h : frameOf op = some f) (hs : f.payload.length < 2 ^ 64) :
    step c e w op = { more w [queued f] with got := w.got ++ [.done] } := by
  cases op <;> cases h
  all_goals (show call w (sendFrame _ _) = _; rw [call_emit, create_encode hs]; rfl)

theorem session_frame (items : Items) {op : Op} {f : Frame} (h : frameOf op = some f) (ops : List Op) :
    session items (op :: ops) = (session items ops).map (fun x => (.done :: x.1, f :: x.2.1, x.2.2)) := by
  cases op <;> simp only [frameOf, Option.some.injEq, reduceCtorEq] at h <;> subst h <;> rfl

theorem session_none (items : Items) {op : Op} (h : frameOf op = none) (h1 : op ≠ .next) (h2 : op ≠ .receive) (ops : List Op) : session items (op :: ops) = none := by
  cases op <;> first | rfl | (cases h; done) | exact absurd rfl h1 | exact absurd rfl h2

/-- The session runs as specified. -/
theorem run_session {c : Cfg} {e : NEnv} : ∀ (ops : List Op) (items : Items), (∀ x ∈ items, Carries e.max x.1 x.2) →
    (∀ op ∈ ops, ∀ f, frameOf op = some f → f.payload.length < 2 ^ 64) → ∀ {w : N}, w.resp.upgraded = true → Inv w.reader → ∀ {rest : Bytes},
    w.reader.remaining = enc items ++ rest → ∀ {gs fs items'}, session items ops = some (gs, fs, items') →
    ∃ r', Model.NativeWs.run c e w ops = { more w (fs.map queued) with reader := r', got := w.got ++ gs } ∧ r'.remaining = enc items' ++ rest ∧ Inv r' ∧
      r'.gen.out = w.reader.gen.out ∧ (∀ x ∈ items', x ∈ items) := by
  intro ops
  induction ops with
  | nil =>
    intro items _ _ w _ hi rest hr gs fs items' h
    cases h
    exact ⟨w.reader, by simp [Model.NativeWs.run, more], hr, hi, rfl, fun _ h => h⟩
  | cons op ops ih =>
    intro items ok hs w hu hi rest hr gs fs items' h
    have hs' : ∀ op ∈ ops, ∀ f, frameOf op = some f → f.payload.length < 2 ^ 64 := fun o ho => hs o (by simp [ho])
    have reads : step c e w op = Model.NativeWs.receive e w → (match upTo items with
        | none => none
        | some (a, g, items) => (session items ops).map (fun x => (g :: x.1, a ++ x.2.1, x.2.2))) = some (gs, fs, items') →
        ∃ r', Model.NativeWs.run c e w (op :: ops) = { more w (fs.map queued) with reader := r', got := w.got ++ gs } ∧ r'.remaining = enc items' ++ rest ∧ Inv r' ∧
          r'.gen.out = w.reader.gen.out ∧ (∀ x ∈ items', x ∈ items) := by
      intro hst h
      cases hu' : upTo items with
      | none => rw [hu'] at h; cases h
      | some x =>
        obtain ⟨a, g, i1⟩ := x
        rw [hu'] at h
        obtain ⟨⟨gs', fs', i'⟩, h', heq⟩ := Option.map_eq_some_iff.1 h
        cases heq
        obtain ⟨res, r1, k1, k2, k3, k4, k5, k6⟩ := receive_upTo items ok hi hr hu'
        have e1 := receive_eq (w := w) k1
        obtain ⟨r2, j1, j2, j3, j4, j5⟩ := ih i1 (fun x hx => ok x (k6 x hx)) hs'
          (w := { more w (a.map queued) with reader := r1, got := w.got ++ [gives res] }) hu k4 k3 h'
        refine ⟨r2, ?_, j2, j3, j4.trans k5, fun x hx => k6 x (j5 x hx)⟩
        rw [run_cons, hst, e1, j1, k2]
        simp [more]
    by_cases h1 : op = .next
    · subst h1; exact reads (next_eq hu) h
    · by_cases h2 : op = .receive
      · subst h2; exact reads rfl h
      · cases hf : frameOf op with
        | none => rw [session_none items hf h1 h2] at h; cases h
        | some f =>
          rw [session_frame items hf] at h
          obtain ⟨⟨gs', fs', i'⟩, h', heq⟩ := Option.map_eq_some_iff.1 h
          cases heq
          have e1 := step_frame (c := c) (e := e) (w := w) hf (hs op (by simp) f hf)
          obtain ⟨r2, j1, j2, j3, j4, j5⟩ := ih items ok hs' (w := { more w [queued f] with got := w.got ++ [.done] }) hu hi hr h'
          refine ⟨r2, ?_, j2, j3, j4, j5⟩
          rw [run_cons, e1, j1]
          simp [more]

/-- What a handler does is a list of calls. -/
theorem play_run (c : Cfg) (e : NEnv) (eh : ErrHandler) (h : Coroutine) : ∀ (n : Nat) (w : N), ∃ ops, ops.length ≤ n ∧
    (play c e eh h n w = (Model.NativeWs.run c e w ops, false) ∨ ∃ x, h (Model.NativeWs.run c e w ops).got = .inr x ∧ play c e eh h n w = (finish c eh (Model.NativeWs.run c e w ops) x, true)) := by
  intro n
  induction n with
  | zero => intro w; exact ⟨[], Nat.le_refl _, .inl rfl⟩
  | succ n ih =>
    intro w
    cases hh : h w.got with
    | inr x =>
      refine ⟨[], Nat.zero_le _, .inr ⟨x, hh, ?_⟩⟩
      unfold play; rw [hh]; rfl
    | inl op =>
      obtain ⟨ops, h1, h2⟩ := ih (step c e w op)
      refine ⟨op :: ops, Nat.succ_le_succ h1, ?_⟩
      have : play c e eh h (n + 1) w = play c e eh h n (step c e w op) := by conv => lhs; unfold play; rw [hh]
      rw [this, run_cons]
      exact h2

/-! ## The end -/

theorem finish_log {c : Cfg} {eh : ErrHandler} {w : N} (hu : w.resp.upgraded = true) (hh : w.resp.headers = none) (x : Exc) :
    (finish c eh w (.raise x)).resp.log = w.resp.log ++ ending w.resp.keepalive x := by
  have h1 : headersSent w.resp = true := by simp [headersSent, hh]
  cases x <;> simp [finish, handleException, Model.Response.get, Bind.bind, Pure.pure, h1, hu, close, emit, Model.Response.modify, errorResponse, Model.Response.when, ending, closing, queuedEnd, closeFrame, Frame.encode, Frame.prefix]
  rw [be_eq]
  exact ⟨rfl, rfl⟩

theorem dispatch_other {op : UInt8} {n : Nat} {d : Bytes} (h1 : op ≠ 1) (h2 : op ≠ 2) (h8 : op ≠ 8) (h9 : ¬ (op = 9 ∧ n < 126)) (h10 : ¬ (op = 10 ∧ n < 126)) :
    dispatch op n d = (.serverClosed 1008, []) := by
  unfold dispatch
  rw [if_neg h1, if_neg h2, if_neg h9, if_neg h10, if_neg h8]

theorem not_opcode {f : Frame} {n : UInt8} (h : f.opcode ≠ n.toNat) : f.b0 &&& 0x0f ≠ n := by
  intro e
  apply h
  rw [← e, opcode_eq]; rfl

theorem decode_none {b : Bytes} (h : ¬ ∃ s, b = encodeUtf8 s) : decodeUtf8 b = none := by
  cases hd : decodeUtf8 b with
  | none => rfl
  | some s =>
    exfalso; apply h
    unfold decodeUtf8 String.fromUTF8? at hd
    split at hd
    · simp only [Option.some.injEq] at hd
      exact ⟨s, by rw [← hd]; simp [encodeUtf8, String.fromUTF8, String.toUTF8]⟩
    · cases hd

/-- The last `recv`. -/
theorem recv_ends {max : Nat} {r : Reader} (hi : Inv r) {x : Exc} (h : Ends max r.gen.out r.remaining x) :
    ∃ res r', Model.WebSocket.receive max r = (res, [], r') ∧ gives res = .raised x := by
  generalize hR : r.remaining = R at h
  generalize ho : r.gen.out = o at h
  cases h with
  | closed f rest hf hm h8 =>
    obtain ⟨r2, q1, -⟩ := Proofs.WebSocket.recv_frame hi hf (fun _ => hm) hR
    have hd : dispatch (f.b0 &&& 0x0f) f.payload.length f.payload = (.clientClosed (if f.payload ≠ [] then fromBE (f.payload.take 2) else 1005), []) := by
      rw [opcode_of (n := 8) h8]; rfl
    rw [hd] at q1
    exact ⟨_, r2, receive_stop q1 rfl, rfl⟩
  | lost =>
    obtain ⟨res, sent, r2, q1, q2, q3, q4⟩ := Proofs.WebSocket.recv_A (max := max) hi
    rw [ho, hR] at q4
    have hres : res = .clientClosed 1005 ∧ sent = [] := by
      rcases q4 with h | ⟨h, _⟩
      · simp [Proofs.WebSocket.recvA, Proofs.WebSocket.readA] at h
        exact ⟨h.1.symm, h.2.1⟩
      · simp [Proofs.WebSocket.recvA, Proofs.WebSocket.readA] at h
    obtain ⟨rfl, rfl⟩ := hres
    exact ⟨_, r2, receive_stop q1 rfl, rfl⟩
  | silent f p q hf hm hq hpq =>
    obtain ⟨sent, r2, q1, q2⟩ := Proofs.WebSocket.recv_incomplete (max := max) hi (by rw [ho]; simp) hf hm hq (by rw [hR]; exact hpq)
    obtain rfl := Proofs.WebSocket.recvA_failed q2
    rw [ho] at q1
    exact ⟨_, r2, receive_stop q1 rfl, rfl⟩
  | unsupported f rest hf hm h1 h2 h8 h9 h10 =>
    obtain ⟨r2, q1, -⟩ := Proofs.WebSocket.recv_frame hi hf (fun _ => hm) hR
    rw [dispatch_other (not_opcode h1) (not_opcode h2) (not_opcode h8)
      (fun h => by
        have h' : f.opcode = 9 := by have := opcode_eq f.b0; rw [h.1] at this; exact this.symm
        have := h9 h'; omega)
      (fun h => by
        have h' : f.opcode = 10 := by have := opcode_eq f.b0; rw [h.1] at this; exact this.symm
        have := h10 h'; omega)] at q1
    exact ⟨_, r2, receive_stop q1 rfl, rfl⟩
  | tooLong f rest hf hl hm =>
    obtain ⟨res, sent, r2, q1, q2, q3, q4⟩ := Proofs.WebSocket.recv_A (max := max) hi
    rw [hR, recvA_refused f hf hl hm] at q4
    rcases q4 with h | ⟨h, _⟩
    · cases h
      exact ⟨_, r2, receive_stop q1 rfl, rfl⟩
    · cases h
  | badText f rest hf hm h1 hb =>
    obtain ⟨r2, q1, -⟩ := Proofs.WebSocket.recv_frame hi hf (fun _ => hm) hR
    have hd : dispatch (f.b0 &&& 0x0f) f.payload.length f.payload = (.badText, []) := by
      rw [opcode_of (n := 1) h1]; unfold dispatch; rw [if_pos rfl, decode_none hb]
    rw [hd] at q1
    exact ⟨_, r2, receive_stop q1 rfl, rfl⟩

/-- The end of a session whose last read raises. -/
theorem run_ends {c : Cfg} {e : NEnv} {eh : ErrHandler} {items : Items} (ok : ∀ x ∈ items, Carries e.max x.1 x.2) (hn : ∀ x ∈ items, message x.2 = none) {w : N}
    (hu : w.resp.upgraded = true) (hh : w.resp.headers = none) (hi : Inv w.reader) {rest : Bytes} (hr : w.reader.remaining = enc items ++ rest) {x : Exc} (he : Ends e.max w.reader.gen.out rest x) :
    (step c e w .next).got = w.got ++ [.raised x] ∧
    (finish c eh (step c e w .next) (.raise x)).resp.log = w.resp.log ++ (answers items).map queued ++ ending w.resp.keepalive x := by
  obtain ⟨r1, h1, h2, h3, h4⟩ := receive_ctrls items ok hn hi hr
  rw [← h2, ← h4] at he
  obtain ⟨res, r2, k1, k2⟩ := recv_ends h3 he
  rw [k1] at h1
  simp only [List.append_nil] at h1
  have := receive_eq h1
  rw [next_eq hu, this, k2]
  refine ⟨rfl, ?_⟩
  exact (finish_log (w := { more w ((answers items).map queued) with reader := r2, got := w.got ++ [.raised x] }) hu hh x).trans rfl

theorem play_succ {c : Cfg} {e : NEnv} {eh : ErrHandler} {h : Coroutine} {n : Nat} {w : N} {op : Op} (hh : h w.got = .inl op) :
    play c e eh h (n + 1) w = play c e eh h n (step c e w op) := by conv => lhs; unfold play; rw [hh]

theorem play_end {c : Cfg} {e : NEnv} {eh : ErrHandler} {h : Coroutine} {n : Nat} {w : N} {x : End} (hh : h w.got = .inr x) :
    play c e eh h (n + 1) w = (finish c eh w x, true) := by unfold play; rw [hh]

theorem size_of {max : Nat} {f : Frame} {m : Meaning} (h : Carries max f m) : f.payload.length < 2 ^ 64 := by
  have := h.fits
  unfold Frame.Fits at this
  split at this <;> omega

/-- The echo handler. -/
theorem echo_run {c : Cfg} {e : NEnv} {eh : ErrHandler} {rest : Bytes} {x : Exc} : ∀ (items : Items), (∀ x ∈ items, Carries e.max x.1 x.2) → ∀ {w : N}, w.resp.upgraded = true → w.resp.headers = none →
    Inv w.reader → echo w.got = .inl .next → w.reader.remaining = enc items ++ rest → Ends e.max w.reader.gen.out rest x →
    ∃ n w', play c e eh echo n w = (w', true) ∧ w'.resp.log = w.resp.log ++ (echoed items).map queued ++ ending w.resp.keepalive x := by
  intro items
  induction items with
  | nil =>
    intro ok w hu hh hi hg hr he
    obtain ⟨h1, h2⟩ := run_ends (c := c) (eh := eh) ok (fun x hx => by cases hx) hu hh hi hr he
    refine ⟨2, _, ?_, h2⟩
    rw [play_succ hg, play_end (x := .raise x)]
    rw [h1]; simp [echo]
  | cons y items ih =>
    intro ok w hu hh hi hg hr he
    obtain ⟨f, m⟩ := y
    rw [enc_cons] at hr
    have okf := ok (f, m) (by simp)
    have ok' : ∀ x ∈ items, Carries e.max x.1 x.2 := fun x hx => ok x (by simp [hx])
    cases hm : message m with
    | none =>
      obtain ⟨r1, k1, k2, k3, k4⟩ := recv_ctrl hi okf (message_none hm) hr
      rw [← k4] at he
      obtain ⟨n, w', j1, j2⟩ := ih ok' (w := { more w (m.answer.toList.map queued) with reader := r1 }) hu hh k3 hg k2 he
      refine ⟨n, w', ?_, ?_⟩
      · cases n with
        | zero => cases j1
        | succ n =>
          rw [play_succ (by exact hg)] at j1
          rw [play_succ hg, ← j1]
          congr 1
          rw [next_eq hu, next_eq (by exact hu)]
          unfold Model.NativeWs.receive
          rw [k1]
          simp [more, pongs, queued, Function.comp_def]
      · rw [j2]
        cases m <;> first | cases hm; done | simp [more, echoed, Meaning.answer]
    | some g =>
      obtain ⟨res, r1, k1, k2, k3, k4, k5⟩ := receive_data hi okf hm hr
      have e1 : step c e w .next = { w with reader := r1, got := w.got ++ [g] } := by
        rw [next_eq hu, receive_eq (a := []) k1, k2]; simp [more]
      obtain ⟨op, fr, h1, h2, h3, h4⟩ : ∃ op fr, echo (w.got ++ [g]) = .inl op ∧ frameOf op = some fr ∧ fr.payload = f.payload ∧ echoed ((f, m) :: items) = fr :: echoed items := by
        cases m with
        | text s => cases hm; exact ⟨.sendText s, _, by simp [echo], rfl, okf.says.2.symm, rfl⟩
        | binary b => cases hm; exact ⟨.send b, _, by simp [echo], rfl, okf.says.2.1.symm, rfl⟩
        | ping b => cases hm
        | pong b => cases hm
      have e2 := step_frame (c := c) (e := e) (w := { w with reader := r1, got := w.got ++ [g] }) h2 (by rw [h3]; exact size_of okf)
      rw [← k5] at he
      obtain ⟨n, w', j1, j2⟩ := ih ok' (w := { more { w with reader := r1, got := w.got ++ [g] } [queued fr] with got := w.got ++ [g] ++ [.done] }) hu hh k4 (by simp [echo]) k3 he
      refine ⟨n + 2, w', ?_, ?_⟩
      · rw [play_succ hg, e1, play_succ h1, e2, j1]
      · rw [j2, h4]; simp [more]

end Verif.Proofs.NativeWs

/-! ## The handshake -/
namespace Verif.Proofs.NativeWs
open Verif.Py Verif.Py.Dict Verif.Model.Upload Verif.Model.Response Verif.Spec.Response Verif.Proofs.Response Verif.Model.Asgi Verif.Spec.Asgi Verif.Proofs.Asgi
open Verif.Asgi Verif.Model.AsgiWs Verif.Proofs.AsgiWs

/-- `accept` does not raise. -/
theorem accept_ok {c : Cfg} (hc : CfgOk c) {key : Bytes} (hk : (10 : UInt8) ∉ key) {s : St} (hf : Fresh s) :
    ∃ s1 s2, setBaseHeader c s = (.ok (), s1) ∧ accept c (some key) s1 = (.ok (), s2) ∧ s1.upgraded = false := by
  obtain ⟨s1, r1, p1⟩ := statusOf_pre hc (e := { phrase := fun _ => none }) (fun _ _ h => by cases h) (fresh_pre (c := c) (a := { resp := s }) hf) (st := none) (fun _ h => by cases h)
  obtain ⟨s4, r4, i4, b4⟩ := hand_inv hc p1.inv p1.based hk
  obtain ⟨t, rest, s5, r5, -⟩ := write_spec2 hc none none {} (by exact hf.upgraded) i4 (.inl b4) (fun _ => rfl)
  have hb : bodyless c 101 = true := by simp [bodyless]; right; decide
  simp only [lastStatus_hand] at r5
  refine ⟨s1, { s5 with log := s5.log ++ [.mark s5.keepalive] }, r1, ?_, p1.inv.same.upgraded.trans hf.upgraded⟩
  refine (show accept c (some key) s1 = _ from r4).trans ?_
  rw [r5, hb, if_pos rfl, writeBody_none]

theorem accept_same {c : Cfg} {e : WEnv} {s s1 s2 : St} (h1 : setBaseHeader c s = (.ok (), s1)) (h2 : accept c e.key s1 = (.ok (), s2)) {w : W} (hw : w.a.resp = s) (ht : w.waiting = false) (hs : w.ws = true) :
    (Model.AsgiWs.run c e w [.send (.accept [] [])]).a.resp = s2 := by
  show (Model.AsgiWs.step c e w (.send (.accept [] []))).a.resp = s2
  unfold Model.AsgiWs.step
  rw [ht, if_neg (by simp)]
  show (acceptMsg c e w.ws [] [] w.a).resp = s2
  have : statusOf c e.toEnv none w.a.resp = (.ok (), s1) := by rw [hw]; exact h1
  unfold acceptMsg
  rw [this]
  show acceptEnd c e w.ws [] s1 = s2
  unfold acceptEnd
  rw [hs, if_neg (by simp)]
  show (accept c e.key s1).2 = s2
  rw [h2]

end Verif.Proofs.NativeWs
