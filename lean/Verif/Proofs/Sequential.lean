import Verif.Props.Pipeline
import Verif.Props.Request
/-!
# A connection whose client sends each request in segments of its own, and whose handlers read their bodies
-/
namespace Verif.Serial
open Verif.Py Verif.Model.Conn Conn Flow Reply Pipe
open Verif.Spec.HttpParser (ReqHead valuesOf)
open Verif.Proofs.Head

/-! ## The client and the handlers -/

/-- The request has a Content-Length field, so the end of its body is known. -/
def Sized (r : Rq) : Prop := Model.HttpParser.hmem r.req.headers b!"content-length" = true

instance (r : Rq) : Decidable (Sized r) := inferInstanceAs (Decidable (_ = true))

/-- The handler of request `k` has read the body to its end, if there is one and its length is given. -/
def Read (s : St) (k : Nat) : Prop := ∀ r, s.reqs[k]? = some r → r.req.hasBody = true → Sized r → Act.body k none ∈ s.log

/-- The handler of request `k` has taken all of its chunked body `b`, and no segment is being queued. -/
def Drained (b : Bytes) (s : St) (k : Nat) : Prop :=
  ∀ r, s.reqs[k]? = some r → r.req.hasBody = true → ¬ Sized r → bodyOf k s.log = b ∧ s.q0 = [] ∧ ∀ x ∈ s.recvs, x = RTask.done

/-- The body of the request is chunked. -/
def Chunked (q : ReqHead) : Prop := valuesOf q.pairs b!"transfer-encoding" ≠ []

/-- After a request with a chunked body, the next one comes only when the server has left the handling of the former. -/
def Quiet (rs : List (ReqHead × Bytes)) (s : St) (j : Nat) : Prop := ∀ i q b, j = i + 1 → rs[i]? = some (q, b) → Chunked q → s.hb ≠ none

/-- The request asks for a response `100 Continue` before its body is sent. -/
def Asks (q : ReqHead) : Prop := ∃ v, valuesOf q.pairs b!"expect" = [v] ∧ lower v = b!"100-continue"

/-- The body of a request that asks for `100 Continue` comes only when the server has seen the end of that response. -/
def Patient (rs : List (ReqHead × Bytes)) (s : St) (d : Bytes) (j : Nat) : Prop :=
  ∀ q b, rs[j]? = some (q, b) → Asks q → (stream (rs.take j) ++ q.wire []).length < (s.rx ++ d).length → ∃ r, s.reqs[j]? = some r ∧ r.req.httpContinue = false

def headAt (rs : List (ReqHead × Bytes)) (i : Nat) : Bytes := (rs[i]?.map (·.1.wire [])).getD []
def bodyAt (rs : List (ReqHead × Bytes)) (i : Nat) : Bytes := (rs[i]?.map (·.2)).getD []

/-- Segments hold bytes of one request only; handlers act while they run, and read their bodies before they end; a response `100 Continue`
is sent once, if the request asks for it. -/
def fair (rs : List (ReqHead × Bytes)) (s : St) : Ev → Prop
  | .data d => s.reading = true → s.closing = false → ∃ j, stream (rs.take j) <+: s.rx ∧ s.rx ++ d <+: stream (rs.take (j + 1)) ∧ Patient rs s d j ∧ (d ≠ [] → Quiet rs s j)
  | .head _ | .recv _ | .send => True
  | .emit k _ | .take k => k ∈ s.running
  | .clear k => k ∈ s.running ∧ Read s k
  | .leave k keep => k ∈ s.running → keep = true ∧ Read s k ∧ Drained (bodyAt rs k) s k
  | .mark k keep => k ∈ s.running ∧ keep = true ∧ none ∉ s.q1 ∧ ∃ r, s.reqs[k]? = some r ∧ r.req.httpContinue = true
  | .eof _ | .upgrade _ | .finish _ | .abort | .kick => False

/-- Each step is fair, and the queue of body parts stays within its limit. -/
def Fair (c : Cfg) (rs : List (ReqHead × Bytes)) : St → List Ev → Prop
  | _, [] => True
  | s, e :: es => fair rs s e ∧ (step c s e).q0.length ≤ c.maxQueue ∧ Fair c rs (step c s e) es

/-- A request with a body `b`, on a connection that is kept. -/
structure Framed (c : Cfg) (q : ReqHead) (b : Bytes) (r : Model.Head.Req) : Prop where
  keep : r.httpKeepalive = true
  bare : r.hasBody = false → b = []
  body : r.hasBody = true → (Model.HttpParser.hmem r.headers b!"content-length" = true ∧ r.contentLength = b.length ∧ b.length ≤ c.maxBody) ∨
    (Model.HttpParser.hmem r.headers b!"content-length" = false ∧ b.length < c.maxBody ∧ b ≠ [] ∧ Chunked q)

/-- What the server makes of the head `q` with a body `b` behind it. -/
structure Accepts (c : Cfg) (q : ReqHead) (b : Bytes) (r : Model.Head.Req) : Prop extends Framed c q b r where
  acc : ∀ rest, Model.Head.acceptData (q.wire rest) q.text.length = .ok r
  cont : r.httpContinue = true → Asks q ∧ r.hasBody = true ∧ b ≠ []

structure Sound (c : Cfg) (x : ReqHead × Bytes) : Prop where
  wf : x.1.Wf 100 8190
  size : x.1.text.length < c.maxHeader
  acc : ∃ r, Accepts c x.1 x.2 r

/-! ## Streams -/

theorem stream_succ {rs : List (ReqHead × Bytes)} {m : Nat} {x : ReqHead × Bytes} (h : rs[m]? = some x) :
    stream (rs.take (m + 1)) = stream (rs.take m) ++ x.1.wire x.2 := by
  unfold stream
  rw [List.take_add_one, h]; simp

theorem stream_ge {rs : List (ReqHead × Bytes)} {m j : Nat} (h : rs[m]? = none) (hj : m ≤ j) : stream (rs.take j) = stream (rs.take m) := by
  have := List.getElem?_eq_none_iff.1 h
  rw [List.take_of_length_le (by omega), List.take_of_length_le (by omega)]

theorem stream_mono {rs : List (ReqHead × Bytes)} {i j : Nat} (h : i ≤ j) : (stream (rs.take i)).length ≤ (stream (rs.take j)).length := by
  have : rs.take j = rs.take i ++ (rs.drop i).take (j - i) := by
    rw [show j = i + (j - i) by omega, List.take_add]; simp
  unfold stream
  rw [this]; simp

theorem segment {rs : List (ReqHead × Bytes)} {m j : Nat} {p d : Bytes} (h1 : ∀ x, rs[m]? = some x → p.length < (x.1.wire x.2).length)
    (hj1 : stream (rs.take j) <+: stream (rs.take m) ++ p)
    (hj2 : stream (rs.take m) ++ p ++ d <+: stream (rs.take (j + 1))) : d = [] ∨ j = m ∧ ∃ q b, rs[m]? = some (q, b) ∧ p ++ d <+: q.wire b := by
  have l1 := hj1.length_le
  have l2 := hj2.length_le
  simp only [List.length_append] at l1 l2
  have dn : d.length = 0 → d = [] := List.eq_nil_of_length_eq_zero
  cases hm : rs[m]? with
  | none =>
    left
    apply dn
    by_cases hjm : m ≤ j + 1
    · rw [stream_ge hm hjm] at l2; omega
    · have := stream_mono (rs := rs) (i := j + 1) (j := m) (by omega); omega
  | some x =>
    have hp := h1 x hm
    have hs := stream_succ hm
    rcases Nat.lt_trichotomy j m with h | h | h
    · left
      have := stream_mono (rs := rs) (i := j + 1) (j := m) (by omega)
      apply dn; omega
    · right
      subst h
      rw [hs, List.append_assoc, List.prefix_append_right_inj] at hj2
      exact ⟨rfl, x.1, x.2, rfl, hj2⟩
    · exfalso
      have := stream_mono (rs := rs) (i := m + 1) (j := j) (by omega)
      rw [hs, List.length_append] at this
      omega

/-! ## Where the head ends -/

theorem wire_len (q : ReqHead) (b : Bytes) : (q.wire b).length = q.text.length + 2 + b.length := by simp [ReqHead.wire, CRLF]; omega

theorem wire_split (q : ReqHead) (b : Bytes) : q.wire b = q.wire [] ++ b := by simp [ReqHead.wire]

theorem wire_blank {q : ReqHead} (h : q.Wf 100 8190) (b : Bytes) : 2 ≤ q.text.length ∧ find CRLF2 (q.wire b) = some (q.text.length - 2) := by
  have hm := wire_minimal h
  obtain ⟨m, hb, hl⟩ := hm
  rw [wire_len] at hl
  simp at hl
  refine ⟨by omega, ?_⟩
  have hs := Spec.Stream.heads_flatten (l := [q.wire []]) (by simpa using wire_minimal h) b
  simp only [List.flatten_cons, List.flatten_nil, List.append_nil] at hs
  rw [← wire_split] at hs
  rw [← firstBlank_iff]
  cases hs with
  | cons hf hr hl' _ =>
    rw [wire_len] at hl'
    simp at hl'
    rename_i m' _
    rwa [show q.text.length - 2 = m' from by omega]

theorem short_blank {q : ReqHead} (h : q.Wf 100 8190) {b p : Bytes} (hp : p <+: q.wire b) (hl : p.length < (q.wire []).length) : find CRLF2 p = none := by
  rw [← noBlank_iff]
  rintro a t rfl
  obtain ⟨z, hz⟩ := hp
  obtain ⟨h2, hf⟩ := wire_blank h b
  rw [← firstBlank_iff] at hf
  have := hf.2 a (t ++ z) (by rw [← hz]; simp)
  rw [wire_len] at hl
  simp [CRLF2] at hl
  omega

theorem long_prefix {q : ReqHead} {b p : Bytes} (hp : p <+: q.wire b) (hl : (q.wire []).length ≤ p.length) : ∃ b1, p = q.wire b1 ∧ b1 <+: b := by
  rw [wire_split] at hp
  have h1 : q.wire [] <+: p := List.prefix_of_prefix_length_le (List.prefix_append _ _) hp hl
  obtain ⟨b1, rfl⟩ := h1
  exact ⟨b1, (wire_split q b1).symm, by simpa [List.prefix_append_right_inj] using hp⟩

/-- What `data_received` does with the next bytes of a head. -/
theorem head_data {c : Cfg} {q : ReqHead} {b buf d : Bytes} (h : Sound c (q, b)) (hd : d ≠ []) (hp : buf ++ d <+: q.wire b) :
    ((buf ++ d).length < (q.wire []).length ∧ Model.Head.dataReceived c.maxHeader (some buf) d = (some (buf ++ d), .wait)) ∨
    ∃ b1, buf ++ d = q.wire b1 ∧ b1 <+: b ∧ Model.Head.dataReceived c.maxHeader (some buf) d = (none, .start (q.wire b1) q.text.length) := by
  have hz := h.size
  dsimp only at hz
  by_cases hl : (buf ++ d).length < (q.wire []).length
  · left
    refine ⟨hl, ?_⟩
    have hn := short_blank h.wf hp hl
    rw [wire_len] at hl
    simp only [List.length_nil] at hl
    unfold Model.Head.dataReceived
    rw [if_neg hd]
    dsimp only
    rw [hn]
    dsimp only
    rw [if_neg (by omega), if_neg (by omega), if_neg (by omega)]
  · right
    obtain ⟨b1, e, hb1⟩ := long_prefix hp (by omega)
    refine ⟨b1, e, hb1, ?_⟩
    obtain ⟨h2, hf⟩ := wire_blank h.wf b1
    dsimp only at h2 hf
    unfold Model.Head.dataReceived
    rw [if_neg hd]
    dsimp only
    rw [e, hf]
    dsimp only
    have e2 : q.text.length - 2 + 2 = q.text.length := by omega
    simp only [e2]
    rw [if_pos ⟨by omega, by omega⟩]

/-! ## The phases of a request -/

def AllDone (s : St) : Prop := ∀ r ∈ s.recvs, r = RTask.done
def AllHandling (l : List HTask) : Prop := ∀ h ∈ l, ∃ k, h = HTask.handling k

/-- `n` handlers have started, and the first `m` have read their bodies. -/
structure Base (rs : List (ReqHead × Bytes)) (m n : Nat) (s : St) : Prop where
  noWrite : s.noWrite = false
  closing : s.closing = false
  tooLarge : s.tooLarge = false
  sendDone : s.sendDone = false
  reg : (s.registered || s.first) = true
  gen : s.first = true ∨ 0 < s.gen
  futs : s.futDone.length = s.gen + 1
  started : s.started = (List.range n).map (fun i => (i, headAt rs i))
  bodies : ∀ i, i < m → bodyOf i s.log = bodyAt rs i
  own : ∀ k x, Act.body k x ∈ s.log → k < n
  le : n ≤ rs.length

structure Idle (rs : List (ReqHead × Bytes)) (m : Nat) (s : St) : Prop where
  base : Base rs m m s
  buf : ∃ buf, s.hb = some buf ∧ s.rx = stream (rs.take m) ++ buf ∧ (∀ x, rs[m]? = some x → buf <+: x.1.wire [] ∧ buf.length < (x.1.wire []).length) ∧
    (rs[m]? = none → buf = [])
  heads : AllHandling s.heads
  recvs : AllDone s
  q0 : s.q0 = []
  running : s.running = []
  q1 : none ∉ s.q1
  reqs : s.reqs.length = m
  reading : s.reading = true
  receive : s.receive = none
  last : (m = 0 ∧ s.cur = none) ∨ ∃ k rq, m = k + 1 ∧ s.cur = some k ∧ s.reqs[k]? = some rq ∧ rq.req.httpKeepalive = true ∧ rq.req.httpContinue = false ∧ rq.upgraded = false

structure Starting (rs : List (ReqHead × Bytes)) (m : Nat) (q : ReqHead) (b b1 : Bytes) (s : St) : Prop where
  base : Base rs m m s
  at_ : rs[m]? = some (q, b)
  pre : b1 <+: b
  hb : s.hb = none
  rx : s.rx = stream (rs.take m) ++ q.wire b1
  asks : Asks q → b1 = []
  heads : ∃ hs, s.heads = hs ++ [.new (q.wire b1) q.text.length] ∧ AllHandling hs
  recvs : AllDone s
  q0 : s.q0 = []
  running : s.running = []
  q1 : none ∉ s.q1
  reqs : s.reqs.length = m
  reading : s.reading = false
  receive : s.receive = none

structure Feeding (c : Cfg) (rs : List (ReqHead × Bytes)) (m : Nat) (q : ReqHead) (b b1 : Bytes) (r : Model.Head.Req) (f : Feed) (hs : List HTask) (x : HTask) (s : St) : Prop where
  base : Base rs m m s
  at_ : rs[m]? = some (q, b)
  acc : Framed c q b r
  cont : r.httpContinue = true → Asks q ∧ b1 = [] ∧ b ≠ []
  pre : b1 <+: b
  hasBody : r.hasBody = true
  hb : s.hb = none
  rx : s.rx = stream (rs.take m) ++ q.wire b1
  heads : s.heads = hs ++ [x]
  old : AllHandling hs
  size : f.size = b1.length
  bytes : q0b s ++ f.rest = b1
  recvs : AllDone s
  q0 : none ∉ s.q0
  running : s.running = []
  q1 : none ∉ s.q1
  cur : s.cur = some m
  len : s.reqs.length = m + 1
  req : s.reqs[m]? = some { req := r }
  reading : s.reading = false
  receive : s.receive = none

/-- Where the body `b` is, of which `b1` was received. -/
inductive Sub (m : Nat) (b b1 : Bytes) (rq : Rq) (s : St) : Prop
  | bare (h : rq.req.hasBody = false) (reading : s.reading = false) (recvs : AllDone s) (q0 : ∀ x ∈ s.q0, x = some []) (log : bodyOf m s.log = []) (eq : b1 = b)
  | wait (h : rq.req.hasBody = true) (reading : s.reading = true) (recvs : AllDone s) (ready : waited s (s.receive.getD (.fut s.gen)) = true)
      (size : rq.bodySize ≤ b1.length ∧ (Sized rq → rq.bodySize = b1.length)) (q0 : none ∉ s.q0) (log : Act.body m none ∉ s.log) (lt : b1.length < b.length ∨ ¬ Sized rq) (bytes : bodyOf m s.log ++ q0b s = b1)
  | busy (h : rq.req.hasBody = true) (reading : s.reading = false) (ds : List RTask) (x : RTask) (recvs : s.recvs = ds ++ [x]) (done : ∀ r ∈ ds, r = RTask.done)
      (receive : s.receive = some (.task ds.length))
      (x_ : (∃ d w, x = .waiting d w ∧ waited s w = true ∧ (rq.bodySize + d.length ≤ b1.length ∧ (Sized rq → rq.bodySize + d.length = b1.length)) ∧ bodyOf m s.log ++ q0b s ++ d = b1) ∨
        ∃ f, x = .feeding f ∧ (rq.bodySize + f.size ≤ b1.length ∧ (Sized rq → rq.bodySize + f.size = b1.length)) ∧ bodyOf m s.log ++ q0b s ++ f.rest = b1)
      (q0 : none ∉ s.q0) (log : Act.body m none ∉ s.log)
  | full (h : rq.req.hasBody = true) (sized : Sized rq) (reading : s.reading = false) (recvs : AllDone s) (eq : b1 = b)
      (q0 : (∃ xs, s.q0 = xs ++ [none] ∧ none ∉ xs ∧ Act.body m none ∉ s.log) ∨ (s.q0 = [] ∧ Act.body m none ∈ s.log)) (bytes : bodyOf m s.log ++ q0b s = b)

structure Handling (c : Cfg) (rs : List (ReqHead × Bytes)) (m : Nat) (q : ReqHead) (b b1 : Bytes) (rq : Rq) (s : St) : Prop where
  base : Base rs m (m + 1) s
  at_ : rs[m]? = some (q, b)
  acc : Framed c q b rq.req
  cont : rq.req.httpContinue = true → Asks q ∧ b1 = [] ∧ s.reading = true
  pre : b1 <+: b
  hb : s.hb = none
  rx : s.rx = stream (rs.take m) ++ q.wire b1
  heads : AllHandling s.heads
  running : s.running = [m]
  q1 : none ∉ s.q1 ∨ (rq.req.httpContinue = true ∧ ∃ l l', s.q1 = l ++ none :: l' ∧ none ∉ l ∧ none ∉ l')
  cur : s.cur = some m
  len : s.reqs.length = m + 1
  req : s.reqs[m]? = some rq
  up : rq.upgraded = false
  sub : Sub m b b1 rq s

structure Leaving (c : Cfg) (rs : List (ReqHead × Bytes)) (m : Nat) (q : ReqHead) (b : Bytes) (rq : Rq) (s : St) : Prop where
  base : Base rs (m + 1) (m + 1) s
  at_ : rs[m]? = some (q, b)
  acc : Framed c q b rq.req
  cont : rq.req.httpContinue = false
  hb : s.hb = none
  rx : s.rx = stream (rs.take m) ++ q.wire b
  heads : AllHandling s.heads
  running : s.running = []
  q1 : ∃ l, s.q1 = l ++ [none] ∧ none ∉ l
  cur : s.cur = some m
  len : s.reqs.length = m + 1
  req : s.reqs[m]? = some rq
  up : rq.upgraded = false
  reading : s.reading = false ∨ Chunked q
  recvs : AllDone s
  q0 : if rq.req.hasBody = true then s.q0 = [] else ∀ x ∈ s.q0, x = some []

inductive Phase (c : Cfg) (rs : List (ReqHead × Bytes)) (s : St) : Prop
  | idle (m : Nat) (h : Idle rs m s)
  | starting (m : Nat) (q : ReqHead) (b b1 : Bytes) (h : Starting rs m q b b1 s)
  | feeding (m : Nat) (q : ReqHead) (b b1 : Bytes) (r : Model.Head.Req) (f : Feed) (hs : List HTask) (h : Feeding c rs m q b b1 r f hs (.feeding f m (q.wire [])) s)
  | handling (m : Nat) (q : ReqHead) (b b1 : Bytes) (rq : Rq) (h : Handling c rs m q b b1 rq s)
  | leaving (m : Nat) (q : ReqHead) (b : Bytes) (rq : Rq) (h : Leaving c rs m q b rq s)

theorem phase_init (c : Cfg) (rs : List (ReqHead × Bytes)) : Phase c rs {} := by
  refine .idle 0 ⟨⟨rfl, rfl, rfl, rfl, rfl, .inl rfl, rfl, rfl, fun i h => absurd h (by omega), fun _ _ h => (by cases h), by omega⟩, ⟨[], rfl, rfl, fun x hx => ⟨by simp, ?_⟩, fun _ => rfl⟩,
    fun _ h => (by cases h), fun _ h => (by cases h), rfl, rfl, fun h => (by cases h), rfl, rfl, rfl, .inl ⟨rfl, rfl⟩⟩
  rw [wire_len]; simp

/-! ## Steps that do nothing -/

theorem head_noop {c : Cfg} {i : Nat} {s : St} (h : ∀ x, s.heads[i]? = some x → ∃ k, x = .handling k) : headStep c i s = s := by
  unfold headStep
  cases hx : s.heads[i]? with
  | none => rfl
  | some x => obtain ⟨k, rfl⟩ := h x hx; rfl

theorem head_all {c : Cfg} {i : Nat} {s : St} (h : AllHandling s.heads) : headStep c i s = s :=
  head_noop (fun x hx => h x (List.mem_of_getElem? hx))

theorem head_last {c : Cfg} {i : Nat} {s : St} {hs : List HTask} {x : HTask} (h : s.heads = hs ++ [x]) (hh : AllHandling hs) (hi : i ≠ hs.length) : headStep c i s = s := by
  refine head_noop (fun y hy => ?_)
  rw [h] at hy
  by_cases hlt : i < hs.length
  · rw [List.getElem?_append_left hlt] at hy; exact hh y (List.mem_of_getElem? hy)
  · rw [List.getElem?_eq_none (by simp; omega)] at hy; cases hy

theorem recv_noop {c : Cfg} {i : Nat} {s : St} (h : ∀ x, s.recvs[i]? = some x → x = .done) : recvStep c i s = s := by
  unfold recvStep
  cases hx : s.recvs[i]? with
  | none => rfl
  | some x => obtain rfl := h x hx; rfl

theorem recv_all {c : Cfg} {i : Nat} {s : St} (h : AllDone s) : recvStep c i s = s :=
  recv_noop (fun x hx => h x (List.mem_of_getElem? hx))

theorem send_some {c : Cfg} {s : St} (h : none ∉ s.q1) : ∃ a b w, sendStep c s = { s with q1 := a, sent := b, written := w } ∧ none ∉ a := by
  unfold sendStep
  split
  · exact ⟨s.q1, s.sent, s.written, rfl, h⟩
  · cases hq : s.q1 with
    | nil => exact ⟨s.q1, s.sent, s.written, rfl, h⟩
    | cons x q =>
      rw [hq] at h
      cases x with
      | none => simp at h
      | some b =>
        dsimp only
        split
        · exact ⟨q, s.sent ++ [some b], s.written, rfl, fun hx => h (by simp [hx])⟩
        · exact ⟨q, s.sent ++ [some b], s.written ++ [b], rfl, fun hx => h (by simp [hx])⟩

/-! ## Changes of the output queue -/

theorem Idle.io {rs : List (ReqHead × Bytes)} {m : Nat} {s : St} (h : Idle rs m s) (a : List Item) (ha : none ∉ a) (b d : List Item) (w : List Bytes) :
    Idle rs m { s with q1 := a, queued := b, sent := d, written := w } :=
  { h with base := { h.base with }, q1 := ha }

theorem Starting.io {rs : List (ReqHead × Bytes)} {m : Nat} {q : ReqHead} {b0 b1 : Bytes} {s : St} (h : Starting rs m q b0 b1 s) (a : List Item) (ha : none ∉ a) (b d : List Item) (w : List Bytes) :
    Starting rs m q b0 b1 { s with q1 := a, queued := b, sent := d, written := w } :=
  { h with base := { h.base with }, q1 := ha }

theorem Feeding.io {c : Cfg} {rs : List (ReqHead × Bytes)} {m : Nat} {q : ReqHead} {b0 b1 : Bytes} {r : Model.Head.Req} {f : Feed} {hs : List HTask} {x : HTask} {s : St} (h : Feeding c rs m q b0 b1 r f hs x s)
    (a : List Item) (ha : none ∉ a) (b d : List Item) (w : List Bytes) :
    Feeding c rs m q b0 b1 r f hs x { s with q1 := a, queued := b, sent := d, written := w } :=
  { h with base := { h.base with }, q1 := ha }

theorem Sub.io {m : Nat} {b0 b1 : Bytes} {rq : Rq} {s : St} (h : Sub m b0 b1 rq s) (a b d : List Item) (w : List Bytes) :
    Sub m b0 b1 rq { s with q1 := a, queued := b, sent := d, written := w } := by
  cases h with
  | bare h1 h2 h3 h4 h5 h6 => exact .bare h1 h2 h3 h4 h5 h6
  | wait h1 h2 h3 h4 h5 h6 h7 h8 h9 => exact .wait h1 h2 h3 h4 h5 h6 h7 h8 h9
  | busy h1 h2 ds x h3 h4 h5 h6 h7 h8 => exact .busy h1 h2 ds x h3 h4 h5 h6 h7 h8
  | full h1 h7 h2 h3 h4 h5 h6 => exact .full h1 h7 h2 h3 h4 h5 h6

theorem Handling.io {c : Cfg} {rs : List (ReqHead × Bytes)} {m : Nat} {q : ReqHead} {b0 b1 : Bytes} {rq : Rq} {s : St} (h : Handling c rs m q b0 b1 rq s)
    (a : List Item) (ha : none ∉ a ∨ (rq.req.httpContinue = true ∧ ∃ l l', a = l ++ none :: l' ∧ none ∉ l ∧ none ∉ l')) (b d : List Item) (w : List Bytes) :
    Handling c rs m q b0 b1 rq { s with q1 := a, queued := b, sent := d, written := w } :=
  { h with base := { h.base with }, q1 := ha, sub := h.sub.io a b d w }

theorem Leaving.io {c : Cfg} {rs : List (ReqHead × Bytes)} {m : Nat} {q : ReqHead} {b0 : Bytes} {rq : Rq} {s : St} (h : Leaving c rs m q b0 rq s)
    (a : List Item) (ha : ∃ l, a = l ++ [none] ∧ none ∉ l) (b d : List Item) (w : List Bytes) :
    Leaving c rs m q b0 rq { s with q1 := a, queued := b, sent := d, written := w } :=
  { h with base := { h.base with }, q1 := ha }

/-! ## The log -/

theorem bodyOf_head (j k : Nat) (raw : Bytes) (l : List Act) : bodyOf j (l ++ [.head k raw]) = bodyOf j l := by
  unfold bodyOf; rw [List.filterMap_append]; simp

theorem bodyOf_body (j k : Nat) (x : Item) (l : List Act) : bodyOf j (l ++ [.body k x]) = bodyOf j l ++ if k = j then x.getD [] else [] := by
  unfold bodyOf; rw [List.filterMap_append]
  by_cases hj : k = j <;> simp [hj]

theorem bodyOf_new {l : List Act} {n : Nat} (h : ∀ k x, Act.body k x ∈ l → k < n) : bodyOf n l = [] := by
  induction l using snocInd with
  | h0 => rfl
  | h1 l a ih =>
    have h' := ih (fun k x hx => h k x (by simp [hx]))
    cases a with
    | head k raw => rw [bodyOf_head, h']
    | body k x =>
      have := h k x (by simp)
      rw [bodyOf_body, h', if_neg (by omega)]; rfl

theorem Base.begin {rs : List (ReqHead × Bytes)} {m : Nat} {q : ReqHead} {b : Bytes} {s : St} (h : Base rs m m s) (hq : rs[m]? = some (q, b)) :
    Base rs m (m + 1) (begin m (q.wire []) s) := by
  refine { h with futs := ?_, started := ?_, bodies := fun i hi => ?_, own := fun k x hx => ?_, le := (List.getElem?_eq_some_iff.1 hq).1 }
  · have := h.futs
    simp only [Model.Conn.begin]
    split <;> simp [this]
  · have := h.started
    simp only [St.started, Model.Conn.begin] at this ⊢
    rw [List.filterMap_append, this, List.range_succ, List.map_append]
    simp [headAt, hq]
  · simp only [Model.Conn.begin]
    rw [bodyOf_head]; exact h.bodies i hi
  · simp only [Model.Conn.begin, List.mem_append, List.mem_singleton] at hx
    rcases hx with hx | hx
    · have := h.own k x hx; omega
    · cases hx

theorem Base.take {rs : List (ReqHead × Bytes)} {m : Nat} {s : St} (h : Base rs m (m + 1) s) (x : Item) (q : List Item) :
    Base rs m (m + 1) { s with q0 := q, log := s.log ++ [.body m x] } := by
  refine { h with started := ?_, bodies := fun i hi => ?_, own := fun k y hy => ?_ }
  · have := h.started
    simp only [St.started] at this ⊢
    rw [List.filterMap_append, this]; simp
  · dsimp only
    rw [bodyOf_body, if_neg (by omega), List.append_nil]; exact h.bodies i hi
  · simp only [List.mem_append, List.mem_singleton] at hy
    rcases hy with hy | hy
    · exact h.own k y hy
    · cases hy; omega

/-! ## Queueing the body -/

theorem account_eq {c : Cfg} {q : ReqHead} {b : Bytes} {rq : Rq} {s : St} {m size : Nat} (acc : Framed c q b rq.req) (hb : rq.req.hasBody = true)
    (cur : s.cur = some m) (req : s.reqs[m]? = some rq) (up : rq.upgraded = false) (hl : rq.bodySize + size ≤ b.length) :
    account c size s = if Sized rq ∧ b.length ≤ rq.bodySize + size then put0 none { s with reqs := s.reqs.set m { rq with bodySize := rq.bodySize + size } }
      else { s with reqs := s.reqs.set m { rq with bodySize := rq.bodySize + size }, reading := true } := by
  unfold account
  rw [cur]; dsimp only
  rw [req]; dsimp only
  rw [up, if_neg (by simp)]
  rcases acc.body hb with ⟨h1, h2, h3⟩ | ⟨h1, h2, _⟩
  · have hs : Sized rq := h1
    by_cases hle : b.length ≤ rq.bodySize + size
    · rw [if_pos ⟨h1, by rw [h2]; omega⟩, if_pos ⟨hs, hle⟩]
    · rw [if_neg (fun h => hle (by have := h.2; rw [h2] at this; omega)), if_pos (by omega), if_neg (fun h => hle h.2)]
  · have hs : ¬ Sized rq := by unfold Sized; rw [h1]; simp
    rw [if_neg (by rw [h1]; simp), if_pos (by omega), if_neg (fun h => hs h.1)]

theorem prefix_full {b1 b : Bytes} (h : b1 <+: b) (hl : b.length ≤ b1.length) : b1 = b := h.eq_of_length (Nat.le_antisymm h.length_le hl)

theorem none_put {l : List Item} {x : Bytes} (h : none ∉ l) : none ∉ l ++ [some x] := by simp [h]

/-- `_handle_request` queues the bytes behind the head. -/
theorem feeding_step {c : Cfg} {rs : List (ReqHead × Bytes)} {m bs : Nat} {q : ReqHead} {b b1 : Bytes} {r : Model.Head.Req} {f : Feed} {hs : List HTask} {x : HTask} {s : St}
    (h : Feeding c rs m q b b1 r f hs x s) (hq : (fed hs.length m (q.wire []) (feed c bs f s)).q0.length ≤ c.maxQueue) :
    Phase c rs (fed hs.length m (q.wire []) (feed c bs f s)) := by
  have hset : ∀ y, s.heads.set hs.length y = hs ++ [y] := by intro y; rw [h.heads]; simp
  have hh : AllHandling (hs ++ [.handling m]) := by
    intro y hy
    rcases List.mem_append.1 hy with hy | hy
    · exact h.old y hy
    · exact ⟨m, by simpa using hy⟩
  have hlog := bodyOf_new h.base.own
  have hnl : Act.body m none ∉ s.log := fun hx => absurd (h.base.own m none hx) (by omega)
  have hgen : (s.first || decide (s.gen > 0)) = true := by
    have := h.base.gen
    simpa using this
  have hm : m < s.reqs.length := by rw [h.len]; omega
  unfold feed at hq ⊢
  by_cases hr : f.rest = []
  · rw [if_pos hr] at hq ⊢
    rw [account_eq (rq := { req := r }) h.acc h.hasBody h.cur h.req rfl (by rw [h.size]; simpa using h.pre.length_le)]
    have hby : q0b s = b1 := by have := h.bytes; rw [hr, List.append_nil] at this; exact this
    dsimp only
    rw [h.size, Nat.zero_add]
    split
    · rename_i hse
      have e := prefix_full h.pre hse.2
      refine .handling m q b b1 { req := r, bodySize := b1.length } ?_
      simp only [fed, put0]
      refine { base := { h.base.begin h.at_ with }, at_ := h.at_, acc := h.acc, cont := ?_, pre := h.pre, hb := h.hb, rx := h.rx, heads := ?_, running := ?_, q1 := .inl h.q1, cur := h.cur,
               len := ?_, req := ?_, up := rfl, sub := ?_ }
      · intro hc
        obtain ⟨_, h2, h3⟩ := h.cont hc
        exact absurd (e.symm.trans h2) h3
      · simp only [Model.Conn.begin]; rw [hset]; exact hh
      · simp only [Model.Conn.begin]; rw [h.running]; rfl
      · simp only [Model.Conn.begin, List.length_set]; exact h.len
      · simp only [Model.Conn.begin]; rw [List.getElem?_set_self hm]
      · refine .full h.hasBody hse.1 h.reading h.recvs e (.inl ⟨s.q0, rfl, h.q0, ?_⟩) ?_
        · simp only [Model.Conn.begin]; simpa using hnl
        · simp only [Model.Conn.begin, q0b]
          rw [bodyOf_head, hlog]
          rw [← e]
          simp only [q0b] at hby
          simpa using hby
    · rename_i hse
      refine .handling m q b b1 { req := r, bodySize := b1.length } ?_
      simp only [fed]
      refine { base := { h.base.begin h.at_ with }, at_ := h.at_, acc := h.acc, cont := ?_, pre := h.pre, hb := h.hb, rx := h.rx, heads := ?_, running := ?_, q1 := .inl h.q1, cur := h.cur,
               len := ?_, req := ?_, up := rfl, sub := ?_ }
      · intro hc
        exact ⟨(h.cont hc).1, (h.cont hc).2.1, rfl⟩
      · simp only [Model.Conn.begin]; rw [hset]; exact hh
      · simp only [Model.Conn.begin]; rw [h.running]; rfl
      · simp only [Model.Conn.begin, List.length_set]; exact h.len
      · simp only [Model.Conn.begin]; rw [List.getElem?_set_self hm]
      · refine .wait h.hasBody rfl h.recvs ?_ ⟨Nat.le_refl _, fun _ => rfl⟩ h.q0 ?_ ?_ ?_
        · simp only [Model.Conn.begin, h.receive, Option.getD_none, waited, hgen, if_pos]
          rw [List.getElem?_set_self (by rw [h.base.futs]; omega)]; rfl
        · simp only [Model.Conn.begin]; simpa using hnl
        · exact (Decidable.em (Sized { req := r })).elim (fun hz => .inl (Nat.lt_of_not_le fun hl => hse ⟨hz, hl⟩)) .inr
        · simp only [Model.Conn.begin, q0b]
          rw [bodyOf_head, hlog]
          exact hby
  · rw [if_neg hr] at hq ⊢
    dsimp only at hq ⊢
    by_cases ho : (put0 (some (f.rest.take bs)) s).q0.length > c.maxQueue
    · rw [if_pos ho] at hq
      exact absurd ho (Nat.not_lt.2 hq)
    · rw [if_neg ho]
      refine .feeding m q b b1 r { f with rest := f.rest.drop bs } hs ?_
      simp only [fed]
      refine { h with base := { h.base with }, heads := ?_, bytes := ?_, q0 := none_put h.q0, size := h.size }
      · simp only [put0]; exact hset _
      · have : q0b s ++ f.rest = b1 := h.bytes
        simp only [put0, q0b, List.map_append, List.flatten_append, List.append_assoc] at this ⊢
        simpa using this

/-- `_receive_data` queues a segment. -/
theorem busy_step {c : Cfg} {rs : List (ReqHead × Bytes)} {m bs : Nat} {q : ReqHead} {b b1 : Bytes} {rq : Rq} {ds : List RTask} {x : RTask} {f : Feed} {s : St}
    (h : Handling c rs m q b b1 rq s) (hb : rq.req.hasBody = true) (reading : s.reading = false) (recvs : s.recvs = ds ++ [x]) (done : ∀ r ∈ ds, r = RTask.done)
    (receive : s.receive = some (.task ds.length)) (size : rq.bodySize + f.size ≤ b1.length ∧ (Sized rq → rq.bodySize + f.size = b1.length)) (bytes : bodyOf m s.log ++ q0b s ++ f.rest = b1)
    (q0 : none ∉ s.q0) (log : Act.body m none ∉ s.log) (hq : (recvFed ds.length (feed c bs f s)).q0.length ≤ c.maxQueue) :
    Phase c rs (recvFed ds.length (feed c bs f s)) := by
  have hset : ∀ y, s.recvs.set ds.length y = ds ++ [y] := by intro y; rw [recvs]; simp
  have hd : ∀ r ∈ ds ++ [RTask.done], r = RTask.done := by
    intro y hy
    rcases List.mem_append.1 hy with hy | hy
    · exact done y hy
    · simpa using hy
  have hm : m < s.reqs.length := by rw [h.len]; omega
  unfold feed at hq ⊢
  by_cases hr : f.rest = []
  · rw [if_pos hr] at hq ⊢
    rw [account_eq h.acc hb h.cur h.req h.up (Nat.le_trans size.1 h.pre.length_le)]
    have hby : bodyOf m s.log ++ q0b s = b1 := by rw [hr, List.append_nil] at bytes; exact bytes
    split
    · rename_i hse
      have e := prefix_full h.pre (by rw [← size.2 hse.1]; exact hse.2)
      refine .handling m q b b1 { rq with bodySize := rq.bodySize + f.size } ?_
      simp only [recvFed, put0]
      refine { h with base := { h.base with }, cont := fun hc => absurd (h.cont hc).2.2 (by rw [reading]; simp), len := by simp only [List.length_set]; exact h.len, req := by simp only; rw [List.getElem?_set_self hm], sub := ?_ }
      refine .full hb hse.1 reading ?_ e (.inl ⟨s.q0, rfl, q0, log⟩) ?_
      · unfold AllDone; simp only; rw [hset]; exact hd
      · simp only [q0b] at hby ⊢
        simpa [← e] using hby
    · rename_i hse
      refine .handling m q b b1 { rq with bodySize := rq.bodySize + f.size } ?_
      simp only [recvFed]
      refine { h with base := { h.base with }, cont := fun hc => absurd (h.cont hc).2.2 (by rw [reading]; simp), len := by simp only [List.length_set]; exact h.len, req := by simp only; rw [List.getElem?_set_self hm], sub := ?_ }
      refine .wait hb rfl ?_ ?_ size q0 log ((Decidable.em (Sized rq)).elim (fun hz => .inl (by have := size.2 hz; exact Nat.lt_of_not_le fun hl => hse ⟨hz, by omega⟩)) .inr) hby
      · unfold AllDone; simp only; rw [hset]; exact hd
      · simp only [receive, Option.getD_some, waited, hset]
        simp
  · rw [if_neg hr] at hq ⊢
    dsimp only at hq ⊢
    by_cases ho : (put0 (some (f.rest.take bs)) s).q0.length > c.maxQueue
    · rw [if_pos ho] at hq
      exact absurd ho (Nat.not_lt.2 hq)
    · rw [if_neg ho]
      refine .handling m q b b1 rq ?_
      simp only [recvFed]
      refine { h with base := { h.base with }, sub := ?_ }
      refine .busy hb reading ds (.feeding { f with rest := f.rest.drop bs }) ?_ done receive (.inr ⟨_, rfl, size, ?_⟩) (none_put q0) log
      · simp only [put0]; exact hset _
      · simp only [put0, q0b, List.map_append, List.flatten_append, List.append_assoc] at bytes ⊢
        simpa using bytes

/-! ## The phases, one by one -/

theorem data_taken {c : Cfg} {s : St} {d : Bytes} (h1 : s.reading = true) (h2 : s.closing = false) : step c s (.data d) = dataReceived c d { s with rx := s.rx ++ d } := by
  simp only [step]
  rw [if_pos (by simp [h1, h2])]

theorem data_nil (c : Cfg) (s : St) : dataReceived c [] s = s := by
  unfold dataReceived Model.Head.dataReceived
  simp

theorem idle_step {c : Cfg} {rs : List (ReqHead × Bytes)} (hrs : ∀ x ∈ rs, Sound c x) {m : Nat} {s : St} {e : Ev} (h : Idle rs m s) (hf : fair rs s e) :
    Phase c rs (step c s e) := by
  cases e with
  | data d =>
    rw [data_taken h.reading h.base.closing]
    obtain ⟨j, j1, j2, j3, _⟩ := hf h.reading h.base.closing
    obtain ⟨buf, b1, b2, b3, b4⟩ := h.buf
    rw [b2] at j1 j2
    by_cases hd : d = []
    · subst hd
      rw [List.append_nil, data_nil]; exact .idle m h
    rcases segment (fun x hx => by have := (b3 x hx).2; rw [wire_len] at this ⊢; simp at this; omega) j1 j2 with h0 | ⟨hjm, q, b, hq, hp⟩
    · exact absurd h0 hd
    · rw [hjm] at j3
      have hs := hrs _ (List.mem_of_getElem? hq)
      rcases head_data hs hd hp with ⟨hl, hw⟩ | ⟨b1', e1, e2, hw⟩
      · unfold dataReceived
        simp only [b1, hw]
        refine .idle m { h with base := { h.base with }, buf := ⟨buf ++ d, rfl, by rw [b2]; simp, fun x hx => ?_, fun hn => ?_⟩ }
        · rw [hq] at hx; cases hx
          refine ⟨?_, hl⟩
          rw [wire_split] at hp
          exact List.prefix_of_prefix_length_le hp (List.prefix_append _ _) (Nat.le_of_lt hl)
        · rw [hq] at hn; cases hn
      · unfold dataReceived
        simp only [b1, hw]
        refine .starting m q b b1' { h with base := { h.base with }, at_ := hq, pre := e2, hb := rfl, rx := ?_, asks := fun ha => ?_, heads := ⟨s.heads, rfl, h.heads⟩, reading := rfl }
        · simp only; rw [b2, List.append_assoc, e1]
        · cases hb1 : b1' with
          | nil => rfl
          | cons y t =>
            obtain ⟨r, hr, _⟩ := j3 q b hq ha (by rw [b2, List.append_assoc, e1, hb1]; simp [wire_len])
            rw [List.getElem?_eq_none (by rw [h.reqs]; exact Nat.le_refl _)] at hr
            cases hr
  | head i => simp only [step]; rw [head_all h.heads]; exact .idle m h
  | recv i => simp only [step]; rw [recv_all h.recvs]; exact .idle m h
  | send =>
    obtain ⟨a, b, w, e, ha⟩ := send_some (c := c) h.q1
    simp only [step]; rw [e]
    exact .idle m (h.io a ha s.queued b w)
  | emit k b => exact absurd hf (by simp [fair, h.running])
  | take k => exact absurd hf (by simp [fair, h.running])
  | clear k => exact absurd hf.1 (by simp [h.running])
  | leave k keep =>
    have : active k s = false := by
      unfold active
      rw [h.running]
      simp only [List.contains_nil, Bool.false_or]
      rw [List.contains_eq_mem, decide_eq_false_iff_not]
      intro hx
      obtain ⟨_, hk⟩ := h.heads _ hx
      cases hk
    simp only [step, this]
    exact .idle m h
  | eof _ => exact absurd hf id
  | mark k _ => exact absurd hf.1 (by simp [h.running])
  | upgrade _ => exact absurd hf id
  | finish _ => exact absurd hf id
  | abort => exact absurd hf id
  | kick => exact absurd hf id

/-- A head that is looked at. -/
theorem start_step {c : Cfg} {rs : List (ReqHead × Bytes)} (hrs : ∀ x ∈ rs, Sound c x) {m i : Nat} {q : ReqHead} {b b1 : Bytes} {s : St} (h : Starting rs m q b b1 s)
    (hq : (headStep c i s).q0.length ≤ c.maxQueue) : Phase c rs (headStep c i s) := by
  obtain ⟨hs, e1, e2⟩ := h.heads
  by_cases hi : i = hs.length
  · subst hi
    have hx : s.heads[hs.length]? = some (.new (q.wire b1) q.text.length) := by rw [e1]; simp
    obtain ⟨r, ha⟩ := (hrs _ (List.mem_of_getElem? h.at_)).acc
    dsimp only at ha
    unfold headStep at hq ⊢
    rw [hx] at hq ⊢
    dsimp only at hq ⊢
    unfold startHead at hq ⊢
    rw [ha.acc b1] at hq ⊢
    have ht : (q.wire b1).take (q.text.length + 2) = q.wire [] := by
      rw [wire_split, List.take_append_of_le_length (by rw [wire_len]; simp), List.take_of_length_le (by rw [wire_len]; simp)]
    have hdr : (q.wire b1).drop (q.text.length + 2) = b1 := by
      rw [wire_split, List.drop_append_of_le_length (by rw [wire_len]; simp), List.drop_of_length_le (by rw [wire_len]; simp), List.nil_append]
    dsimp only at hq ⊢
    rw [ht, hdr, h.reqs] at hq ⊢
    cases hb : r.hasBody with
    | true =>
      simp only [hb, true_or, if_true] at hq ⊢
      refine feeding_step (r := r) (b := b) (b1 := b1) (rs := rs) (x := .new (q.wire b1) q.text.length) ?_ hq
      exact { h with base := { h.base with }, acc := ha.toFramed, cont := fun hc => ⟨(ha.cont hc).1, h.asks (ha.cont hc).1, (ha.cont hc).2.2⟩, hasBody := hb, heads := e1, old := e2, size := rfl, bytes := by simp [newReq, q0b, h.q0], q0 := by simp [newReq, h.q0],
                     cur := by simp [newReq, h.reqs], len := by simp [newReq, h.reqs], req := by simp [newReq, ← h.reqs] }
    | false =>
      have hbn := ha.bare hb
      have hb1 : b1 = [] := by have := h.pre; rw [hbn] at this; simpa using this
      subst hb1
      have hlen : ¬ (false = true ∨ (q.wire []).length > q.text.length + 2) := by rw [wire_len]; simp
      rw [if_neg hlen]
      rw [if_neg (show ¬ (false = true) by simp)]
      refine .handling m q b [] { req := r } ?_
      simp only [fed]
      have hlog := bodyOf_new h.base.own
      have hset : ∀ y, s.heads.set hs.length y = hs ++ [y] := by intro y; rw [e1]; simp
      refine { base := { h.base.begin h.at_ with }, at_ := h.at_, acc := ha.toFramed, cont := fun hc => absurd (ha.cont hc).2.1 (by rw [hb]; simp), pre := h.pre, hb := h.hb, rx := h.rx, heads := ?_, running := ?_, q1 := .inl h.q1, cur := ?_,
               len := ?_, req := ?_, up := rfl, sub := ?_ }
      · simp only [put0, newReq]; rw [hset]
        intro y hy
        rcases List.mem_append.1 hy with hy | hy
        · exact e2 y hy
        · exact ⟨m, by simpa using hy⟩
      · simp [Model.Conn.begin, put0, newReq, h.running]
      · simp [Model.Conn.begin, put0, newReq, h.reqs]
      · simp [Model.Conn.begin, put0, newReq, h.reqs]
      · simp [Model.Conn.begin, put0, newReq, ← h.reqs]
      · refine .bare hb h.reading h.recvs ?_ ?_ hbn.symm
        · simp [Model.Conn.begin, put0, newReq, h.q0]
        · simp only [Model.Conn.begin, put0, newReq]; rw [bodyOf_head, hlog]
  · rw [head_last e1 e2 hi]
    exact .starting m q b b1 h

theorem starting_step {c : Cfg} {rs : List (ReqHead × Bytes)} (hrs : ∀ x ∈ rs, Sound c x) {m : Nat} {q : ReqHead} {b b1 : Bytes} {s : St} {e : Ev} (h : Starting rs m q b b1 s) (hf : fair rs s e)
    (hq : (step c s e).q0.length ≤ c.maxQueue) : Phase c rs (step c s e) := by
  cases e with
  | data d =>
    simp only [step, h.reading, Bool.false_and, Bool.false_eq_true, if_false]
    exact .starting m q b b1 h
  | head i => exact start_step hrs h hq
  | recv i => simp only [step]; rw [recv_all h.recvs]; exact .starting m q b b1 h
  | send =>
    obtain ⟨a, b', w, e, ha⟩ := send_some (c := c) h.q1
    simp only [step]; rw [e]
    exact .starting m q b b1 (h.io a ha s.queued b' w)
  | emit k b => exact absurd hf (by simp [fair, h.running])
  | take k => exact absurd hf (by simp [fair, h.running])
  | clear k => exact absurd hf.1 (by simp [h.running])
  | leave k keep =>
    have : active k s = false := by
      obtain ⟨hs, e1, e2⟩ := h.heads
      unfold active
      rw [h.running, e1]
      simp only [List.contains_nil, Bool.false_or]
      rw [List.contains_eq_mem, decide_eq_false_iff_not]
      intro hx
      rcases List.mem_append.1 hx with hx | hx
      · obtain ⟨_, hk⟩ := e2 _ hx
        cases hk
      · simp at hx
    simp only [step, this]
    exact .starting m q b b1 h
  | eof _ => exact absurd hf id
  | mark k _ => exact absurd hf.1 (by simp [h.running])
  | upgrade _ => exact absurd hf id
  | finish _ => exact absurd hf id
  | abort => exact absurd hf id
  | kick => exact absurd hf id

theorem feed_step {c : Cfg} {rs : List (ReqHead × Bytes)} {m : Nat} {q : ReqHead} {b b1 : Bytes} {r : Model.Head.Req} {f : Feed} {hs : List HTask} {s : St} {e : Ev}
    (h : Feeding c rs m q b b1 r f hs (.feeding f m (q.wire [])) s) (hf : fair rs s e) (hq : (step c s e).q0.length ≤ c.maxQueue) : Phase c rs (step c s e) := by
  cases e with
  | data d =>
    simp only [step, h.reading, Bool.false_and, Bool.false_eq_true, if_false]
    exact .feeding m q b b1 r f hs h
  | head i =>
    simp only [step] at hq ⊢
    by_cases hi : i = hs.length
    · subst hi
      have hx : s.heads[hs.length]? = some (.feeding f m (q.wire [])) := by rw [h.heads]; simp
      unfold headStep at hq ⊢
      rw [hx] at hq ⊢
      exact feeding_step h hq
    · rw [head_last h.heads h.old hi]
      exact .feeding m q b b1 r f hs h
  | recv i => simp only [step]; rw [recv_all h.recvs]; exact .feeding m q b b1 r f hs h
  | send =>
    obtain ⟨a, b', w, e, ha⟩ := send_some (c := c) h.q1
    simp only [step]; rw [e]
    exact .feeding m q b b1 r f hs (h.io a ha s.queued b' w)
  | emit k b => exact absurd hf (by simp [fair, h.running])
  | take k => exact absurd hf (by simp [fair, h.running])
  | clear k => exact absurd hf.1 (by simp [h.running])
  | leave k keep =>
    have : active k s = false := by
      unfold active
      rw [h.running, h.heads]
      simp only [List.contains_nil, Bool.false_or]
      rw [List.contains_eq_mem, decide_eq_false_iff_not]
      intro hx
      rcases List.mem_append.1 hx with hx | hx
      · obtain ⟨_, hk⟩ := h.old _ hx
        cases hk
      · simp at hx
    simp only [step, this]
    exact .feeding m q b b1 r f hs h
  | eof _ => exact absurd hf id
  | mark k _ => exact absurd hf.1 (by simp [h.running])
  | upgrade _ => exact absurd hf id
  | finish _ => exact absurd hf id
  | abort => exact absurd hf id
  | kick => exact absurd hf id

theorem inactive {k : Nat} {s : St} (h1 : k ∉ s.running) (h2 : AllHandling s.heads) : active k s = false := by
  unfold active
  rw [List.contains_eq_mem, decide_eq_false h1, Bool.false_or, List.contains_eq_mem, decide_eq_false_iff_not]
  intro hx
  obtain ⟨_, hk⟩ := h2 _ hx
  cases hk

/-- While a chunked request is handled, no byte of the next one comes. -/
theorem quiet_end {rs : List (ReqHead × Bytes)} {m j : Nat} {q : ReqHead} {b d : Bytes} {s : St} (h : rs[m]? = some (q, b)) (hc : Chunked q) (hb : s.hb = none) (hd : d ≠ [])
    (j1 : stream (rs.take j) <+: stream (rs.take m) ++ q.wire b) (j2 : stream (rs.take m) ++ q.wire b ++ d <+: stream (rs.take (j + 1))) (hq : Quiet rs s j) : False := by
  have e := stream_succ h
  dsimp only at e
  rw [← e] at j1 j2
  rcases segment (m := m + 1) (p := []) (d := d) (fun x _ => by rw [wire_len]; simp; omega) (by simpa using j1) (by simpa using j2) with h0 | ⟨hj, _⟩
  · exact hd h0
  · exact hq m q b hj h hc hb

/-- Bytes of the body arrive. -/
theorem handling_data {c : Cfg} {rs : List (ReqHead × Bytes)} {m : Nat} {q : ReqHead} {b b1 d : Bytes} {rq : Rq} {s : St}
    (h : Handling c rs m q b b1 rq s) (hf : fair rs s (.data d)) : Phase c rs (step c s (.data d)) := by
  have off : s.reading = false → Phase c rs (step c s (.data d)) := by
    intro hr
    simp only [step, hr, Bool.false_and, Bool.false_eq_true, if_false]
    exact .handling m q b b1 rq h
  cases hs : h.sub with
  | bare _ hr => exact off hr
  | busy _ hr => exact off hr
  | full _ _ hr => exact off hr
  | wait hb hr hv hw hz h0 hl hlt hby =>
    rw [data_taken hr h.base.closing]
    obtain ⟨j, j1, j2, j3, j4⟩ := hf hr h.base.closing
    rw [h.rx] at j1 j2
    by_cases hd : d = []
    · subst hd
      rw [List.append_nil, data_nil]; exact .handling m q b b1 rq h
    have hlt : b1.length < b.length := by
      rcases hlt with hlt | hlt
      · exact hlt
      · refine Nat.lt_of_not_le fun hle => ?_
        obtain rfl := prefix_full h.pre hle
        rcases h.acc.body hb with ⟨h1, _⟩ | ⟨_, _, _, h1⟩
        · exact hlt h1
        · exact quiet_end h.at_ h1 h.hb hd j1 j2 (j4 hd)
    rcases segment (fun x hx => by rw [h.at_] at hx; cases hx; rw [wire_len, wire_len]; dsimp only; omega) j1 j2 with h0 | ⟨hjm, q', b', hq, hp⟩
    · exact absurd h0 hd
    · rw [hjm] at j3
      rw [h.at_] at hq
      cases hq
      rw [wire_split q b1, wire_split q b, List.append_assoc, List.prefix_append_right_inj] at hp
      have e : dataReceived c d { s with rx := s.rx ++ d } = { s with rx := s.rx ++ d, hb := none, reading := false, recvs := s.recvs ++ [.waiting d (s.receive.getD (.fut s.gen))],
                                                                      receive := some (.task s.recvs.length) } := by
        unfold dataReceived Model.Head.dataReceived
        simp only [h.hb, if_neg hd]
      rw [e]
      refine .handling m q b (b1 ++ d) rq ?_
      refine { h with base := { h.base with }, cont := fun hc => ?_, pre := hp, hb := rfl, rx := ?_, sub := ?_ }
      · have hdl : 0 < d.length := List.length_pos_iff.2 hd
        obtain ⟨r, hr', hc'⟩ := j3 q b h.at_ (h.cont hc).1 (by rw [h.rx]; simp [wire_len]; omega)
        rw [h.req] at hr'; cases hr'
        rw [hc] at hc'; cases hc'
      · simp only; rw [h.rx, wire_split q b1, wire_split q (b1 ++ d)]; simp
      · refine .busy hb rfl s.recvs _ rfl hv rfl (.inl ⟨d, _, rfl, ?_, ?_, ?_⟩) h0 hl
        · cases hrc : s.receive.getD (.fut s.gen) with
          | fut g => rw [hrc] at hw; exact hw
          | task t =>
            rw [hrc] at hw
            simp only [waited, beq_iff_eq] at hw ⊢
            rw [List.getElem?_append_left (List.getElem?_eq_some_iff.1 hw).1]; exact hw
        · have := hz.1
          refine ⟨by simp; omega, fun hs => ?_⟩
          rw [hz.2 hs]; simp
        · show bodyOf m s.log ++ q0b s ++ d = b1 ++ d
          rw [hby]

theorem q0b_cons {s : St} {x : Item} {q : List Item} (h : s.q0 = x :: q) (l : List Act) : q0b s = x.getD [] ++ q0b { s with q0 := q, log := l } := by
  unfold q0b; rw [h]; rfl

theorem handling_take {c : Cfg} {rs : List (ReqHead × Bytes)} {m : Nat} {q : ReqHead} {b b1 : Bytes} {rq : Rq} {s : St}
    (h : Handling c rs m q b b1 rq s) : Phase c rs (step c s (.take m)) := by
  simp only [step]
  cases hq : s.q0 with
  | nil => exact .handling m q b b1 rq h
  | cons x t =>
    dsimp only
    refine .handling m q b b1 rq { h with base := h.base.take x t, sub := ?_ }
    have hbo : bodyOf m (s.log ++ [.body m x]) = bodyOf m s.log ++ x.getD [] := by rw [bodyOf_body, if_pos rfl]
    have hqb := q0b_cons hq (s.log ++ [.body m x])
    cases h.sub with
    | bare h1 h2 h3 h4 h5 h6 =>
      rw [hq] at h4
      have hx := h4 x (by simp)
      refine .bare h1 h2 h3 (fun y hy => h4 y (by simp [hy])) ?_ h6
      simp only; rw [hbo, h5, hx]; rfl
    | wait h1 h2 h3 h4 h5 h6 h7 h8 h9 =>
      rw [hq] at h6
      refine .wait h1 h2 h3 h4 h5 (fun hn => h6 (by simp [hn])) ?_ h8 ?_
      · intro hn
        rcases List.mem_append.1 hn with hn | hn
        · exact h7 hn
        · simp at hn; subst hn; simp at h6
      · simp only
        rw [hbo, List.append_assoc, ← hqb]; exact h9
    | busy h1 h2 ds y h3 h4 h5 h6 h7 h8 =>
      rw [hq] at h7
      refine .busy h1 h2 ds y h3 h4 h5 ?_ (fun hn => h7 (by simp [hn])) ?_
      · rw [hqb] at h6
        rcases h6 with ⟨d, w, e1, e2, e3, e4⟩ | ⟨f, e1, e3, e4⟩
        · exact .inl ⟨d, w, e1, e2, e3, by simp only; rw [hbo, ← e4]; simp⟩
        · exact .inr ⟨f, e1, e3, by simp only; rw [hbo, ← e4]; simp⟩
      · intro hn
        rcases List.mem_append.1 hn with hn | hn
        · exact h8 hn
        · simp at hn; subst hn; simp at h7
    | full h1 h7 h2 h3 h4 h5 h6 =>
      refine .full h1 h7 h2 h3 h4 ?_ (by simp only; rw [hbo, List.append_assoc, ← hqb]; exact h6)
      rcases h5 with ⟨xs, e1, e2, e3⟩ | ⟨e1, _⟩
      · rw [hq] at e1
        cases xs with
        | nil =>
          simp at e1
          refine .inr ⟨e1.2, ?_⟩
          rw [e1.1]; simp
        | cons y ys =>
          simp at e1
          refine .inl ⟨ys, e1.2, fun hn => e2 (by simp [hn]), fun hn => ?_⟩
          rcases List.mem_append.1 hn with hn | hn
          · exact e3 hn
          · simp at hn; subst hn; exact e2 (by simp [← e1.1])
      · rw [hq] at e1; cases e1

/-- The send task comes to the end of the response `100 Continue`. -/
theorem Handling.continued {c : Cfg} {rs : List (ReqHead × Bytes)} {m : Nat} {q : ReqHead} {b b1 : Bytes} {rq : Rq} {s : St}
    (h : Handling c rs m q b b1 rq s) (hc : rq.req.httpContinue = true) {l : List Item} (hl : none ∉ l) (d : List Item) :
    Handling c rs m q b b1 { rq with req := { rq.req with httpContinue := false } } (marker c { s with q1 := l, sent := d }) := by
  have hm : m < s.reqs.length := by rw [h.len]; omega
  have hr := (h.cont hc).2.2
  have e : marker c { s with q1 := l, sent := d } =
      { s with q1 := l, sent := d, registered := s.registered || s.first, reqs := s.reqs.set m { rq with req := { rq.req with httpContinue := false } }, reading := true } := by
    unfold marker
    simp only [h.cur, h.req]
    rw [if_pos ⟨h.acc.keep, h.hb⟩]
    unfold handleKeepalive setReq
    simp only [h.base.reg, Bool.not_true, Bool.false_eq_true, if_false, hc, if_true, h.req]
  rw [e]
  refine { h with base := { h.base with reg := by simp [h.base.reg] }, acc := ⟨h.acc.keep, h.acc.bare, h.acc.body⟩, cont := (fun hx => by cases hx), q1 := .inl hl, up := h.up,
                  len := by simp only [List.length_set]; exact h.len, req := by simp only; rw [List.getElem?_set_self hm], sub := ?_ }
  cases h.sub with
  | bare _ h2 => rw [hr] at h2; cases h2
  | busy _ h2 => rw [hr] at h2; cases h2
  | full _ _ h2 => rw [hr] at h2; cases h2
  | wait h1 h2 h3 h4 h5 h6 h7 h8 h9 => exact .wait h1 rfl h3 h4 h5 h6 h7 h8 h9

theorem handling_step {c : Cfg} {rs : List (ReqHead × Bytes)} {m : Nat} {q : ReqHead} {b b1 : Bytes} {rq : Rq} {s : St} {e : Ev}
    (h : Handling c rs m q b b1 rq s) (hf : fair rs s e) (hq : (step c s e).q0.length ≤ c.maxQueue) : Phase c rs (step c s e) := by
  have mem : ∀ k, k ∈ s.running → k = m := by intro k hk; rw [h.running] at hk; simpa using hk
  cases e with
  | data d => exact handling_data h hf
  | head i => simp only [step]; rw [head_all h.heads]; exact .handling m q b b1 rq h
  | recv i =>
    simp only [step] at hq ⊢
    cases hs : h.sub with
    | bare _ _ hr => rw [recv_all hr]; exact .handling m q b b1 rq h
    | wait _ _ hr => rw [recv_all hr]; exact .handling m q b b1 rq h
    | full _ _ _ hr => rw [recv_all hr]; exact .handling m q b b1 rq h
    | busy h1 h2 ds x h3 h4 h5 h6 h7 h8 =>
      by_cases hi : i = ds.length
      · subst hi
        have hx : s.recvs[ds.length]? = some x := by rw [h3]; simp
        unfold recvStep at hq ⊢
        rw [hx] at hq ⊢
        rcases h6 with ⟨d, w, rfl, hw, e3, e4⟩ | ⟨f, rfl, e3, e4⟩
        · dsimp only at hq ⊢
          rw [if_pos hw] at hq ⊢
          exact busy_step h h1 h2 h3 h4 h5 e3 e4 h7 h8 hq
        · exact busy_step h h1 h2 h3 h4 h5 e3 e4 h7 h8 hq
      · rw [recv_noop]
        · exact .handling m q b b1 rq h
        · intro y hy
          rw [h3] at hy
          by_cases hlt : i < ds.length
          · rw [List.getElem?_append_left hlt] at hy; exact h4 y (List.mem_of_getElem? hy)
          · rw [List.getElem?_eq_none (by simp; omega)] at hy; cases hy
  | send =>
    rcases h.q1 with h1 | ⟨hc, l, l', e, hl, hl'⟩
    · obtain ⟨a, b', w, e, ha⟩ := send_some (c := c) h1
      simp only [step]; rw [e]
      exact .handling m q b b1 rq (h.io a (.inl ha) s.queued b' w)
    · simp only [step, sendStep]
      rw [if_neg (by rw [h.base.sendDone]; simp), e]
      cases l with
      | nil => exact .handling m q b b1 _ (h.continued hc hl' _)
      | cons x l =>
        cases x with
        | none => simp at hl
        | some y =>
          dsimp only [List.cons_append]
          rw [if_neg (by rw [h.base.noWrite]; simp)]
          exact .handling m q b b1 rq (h.io (l ++ none :: l') (.inr ⟨hc, l, l', rfl, fun hn => hl (by simp [hn]), hl'⟩) s.queued _ _)
  | emit k x =>
    simp only [step, put1]
    refine .handling m q b b1 rq (h.io _ ?_ _ s.sent s.written)
    rcases h.q1 with h1 | ⟨hc, l, l', e, hl, hl'⟩
    · exact .inl (none_put h1)
    · exact .inr ⟨hc, l, l' ++ [some x], by rw [e]; simp, hl, none_put hl'⟩
  | take k => rw [mem k hf]; exact handling_take h
  | clear k =>
    obtain ⟨h1, h2⟩ := hf
    obtain rfl := mem k h1
    simp only [step, setReq, h.req]
    have hm : k < s.reqs.length := by rw [h.len]; omega
    refine .handling k q b b1 { rq with bodySize := 0 } { h with cont := h.cont, q1 := h.q1, base := { h.base with }, len := by simp only [List.length_set]; exact h.len, req := by simp only; rw [List.getElem?_set_self hm], sub := ?_ }
    have rd := h2 rq h.req
    cases h.sub with
    | bare h1 h2 h3 h4 h5 h6 => exact .bare h1 h2 h3 h4 h5 h6
    | wait h1 h2 h3 h4 h5 h6 h7 h8 h9 => exact .wait h1 h2 h3 h4 ⟨Nat.zero_le _, fun hs => absurd (rd h1 hs) h7⟩ h6 h7 h8 h9
    | busy h1 h2 ds x h3 h4 h5 h6 h7 h8 =>
      refine .busy h1 h2 ds x h3 h4 h5 ?_ h7 h8
      rcases h6 with ⟨d, w, e1, e2, e3, e4⟩ | ⟨f, e1, e3, e4⟩
      · exact .inl ⟨d, w, e1, e2, ⟨by have := e3.1; simp only; omega, fun hs => absurd (rd h1 hs) h8⟩, e4⟩
      · exact .inr ⟨f, e1, ⟨by have := e3.1; simp only; omega, fun hs => absurd (rd h1 hs) h8⟩, e4⟩
    | full h1 h7 h2 h3 h4 h5 h6 => exact .full h1 h7 h2 h3 h4 h5 h6
  | leave k keep =>
    by_cases hk : k ∈ s.running
    · obtain ⟨rfl, h2, hdr⟩ := hf hk
      obtain rfl := mem k hk
      have ha : active k s = true := by simp [active, h.running]
      simp only [step, ha, if_true, closeResponse]
      have hh : s.heads.map (fun x => if x = HTask.failing k then HTask.done else x) = s.heads := by
        conv => rhs; rw [← List.map_id s.heads]
        refine List.map_congr_left (fun x hx => ?_)
        obtain ⟨j, rfl⟩ := h.heads x hx
        simp
      have hr : s.running.filter (fun x => decide (x ≠ k)) = [] := by rw [h.running]; simp
      have rd := h2 rq h.req
      simp only [put1, Model.Conn.finish, hh, hr]
      have fin : s.reading = false ∨ Chunked q ∧ b ≠ [] → AllDone s → b1 = b → bodyOf k s.log = b → (if rq.req.hasBody = true then s.q0 = [] else ∀ x ∈ s.q0, x = some []) →
          Leaving c rs k q b rq { s with q1 := s.q1 ++ [none], queued := s.queued ++ [none], running := [], heads := s.heads } := by
        intro f1 f2 f3 f4 f5
        subst f3
        have hc : rq.req.httpContinue = false := by
          cases hc : rq.req.httpContinue with
          | false => rfl
          | true =>
            rcases f1 with f1 | ⟨_, f1⟩
            · exact absurd (h.cont hc).2.2 (by rw [f1]; simp)
            · exact absurd (h.cont hc).2.1 f1
        have hn : none ∉ s.q1 := by
          rcases h.q1 with h1 | ⟨h1, _⟩
          · exact h1
          · rw [hc] at h1; cases h1
        refine { h with base := { h.base with bodies := fun i hi => ?_ }, cont := hc, running := rfl, q1 := ⟨s.q1, rfl, hn⟩, reading := f1.imp_right And.left, recvs := f2, q0 := f5 }
        by_cases hik : i = k
        · subst hik; simp only [bodyAt, h.at_]; exact f4
        · exact h.base.bodies i (by omega)
      cases h.sub with
      | bare h1 h2 h3 h4 h5 h6 => exact .leaving k q b rq (fin (.inl h2) h3 h6 (by rw [h5, h.acc.bare h1]) (by rw [h1]; simpa using h4))
      | wait h1 h2 h3 h4 h5 h6 h7 h8 h9 =>
        have hns : ¬ Sized rq := fun hs => h7 (rd h1 hs)
        obtain ⟨d1, d2, _⟩ := hdr rq h.req h1 hns
        have d1 : bodyOf k s.log = b := by rw [d1]; simp [bodyAt, h.at_]
        rcases h.acc.body h1 with ⟨e, _⟩ | ⟨_, _, e1, e2⟩
        · exact absurd e hns
        · exact .leaving k q b rq (fin (.inr ⟨e2, e1⟩) h3 (by rw [← h9, d1]; simp [q0b, d2]) d1 (by rw [h1]; simpa using d2))
      | busy h1 h2 ds x h3 h4 h5 h6 h7 h8 =>
        obtain ⟨_, _, d3⟩ := hdr rq h.req h1 (fun hs => h8 (rd h1 hs))
        have := d3 x (by rw [h3]; simp)
        rcases h6 with ⟨_, _, e, _⟩ | ⟨_, e, _⟩ <;> (rw [this] at e; cases e)
      | full h1 h7 h2 h3 h4 h5 h6 =>
        rcases h5 with ⟨_, _, _, e3⟩ | ⟨e1, _⟩
        · exact absurd (rd h1 h7) e3
        · exact .leaving k q b rq (fin (.inl h2) h3 h4 (by simpa [q0b, e1] using h6) (by rw [h1]; simpa using e1))
    · simp only [step, inactive hk h.heads]
      exact .handling m q b b1 rq h
  | eof _ => exact absurd hf id
  | mark k keep =>
    obtain ⟨h1, rfl, h3, r, h4, h5⟩ := hf
    obtain rfl := mem k h1
    rw [h.req] at h4; cases h4
    simp only [step, closeResponse, put1, if_true]
    exact .handling k q b b1 rq (h.io _ (.inr ⟨h5, s.q1, [], rfl, h3, by simp⟩) _ s.sent s.written)
  | upgrade _ => exact absurd hf id
  | finish _ => exact absurd hf id
  | abort => exact absurd hf id
  | kick => exact absurd hf id

theorem drain_empty (c : Cfg) : ∀ (l : List Item) (s : St), (∀ x ∈ l, x = some []) → drain c l s = s
  | [], _, _ => rfl
  | x :: l, s, h => by
    rw [h x (by simp)]
    show drain c l (dataReceived c [] s) = s
    rw [data_nil]
    exact drain_empty c l s (fun y hy => h y (by simp [hy]))

theorem leaving_keep {c : Cfg} {rs : List (ReqHead × Bytes)} (hrs : ∀ x ∈ rs, Sound c x) {m : Nat} {q : ReqHead} {b : Bytes} {rq : Rq} {s : St}
    (h : Leaving c rs m q b rq s) (d : List Item) : Idle rs (m + 1) (marker c { s with q1 := [], sent := d }) := by
  have hm : m < s.reqs.length := by rw [h.len]; omega
  have hrx : s.rx = stream (rs.take (m + 1)) ++ [] := by rw [h.rx, stream_succ h.at_, List.append_nil]
  have hbuf : ∀ x, rs[m + 1]? = some x → ([] : Bytes) <+: x.1.wire [] ∧ ([] : Bytes).length < (x.1.wire []).length := by
    intro x _; refine ⟨by simp, ?_⟩; rw [wire_len]; simp
  have e : marker c { s with q1 := [], sent := d } = handleKeepalive c m rq { s with q1 := [], sent := d } := by
    unfold marker
    simp only [h.cur, h.req]
    rw [if_pos ⟨h.acc.keep, h.hb⟩]
  rw [e]
  unfold handleKeepalive
  simp only [h.base.reg, Bool.not_true, Bool.false_eq_true, if_false, h.cont, h.up]
  have hset : setReq m (fun r => { r with bodySize := 0 }) { s with q1 := [], sent := d, registered := true } =
      { s with q1 := [], sent := d, registered := true, reqs := s.reqs.set m { rq with bodySize := 0 } } := by
    unfold setReq; simp only [h.req]
  have key : ∀ Q, Q = [] → Idle rs (m + 1) { s with q0 := Q, q1 := [], sent := d, registered := true, reqs := s.reqs.set m { rq with bodySize := 0 }, hb := some [], gen := s.gen + 1, first := false, receive := none, futDone := s.futDone ++ [false], reading := true } := by
    rintro Q rfl
    exact { h with base := { h.base with reg := rfl, gen := .inr (by simp only; omega), futs := by simp [h.base.futs] }, buf := ⟨[], rfl, hrx, hbuf, fun _ => rfl⟩,
                   q0 := rfl, q1 := by simp, reqs := by simp only [List.length_set]; exact h.len, reading := rfl, receive := rfl,
                   last := .inr ⟨m, { rq with bodySize := 0 }, rfl, h.cur, by simp only; rw [List.getElem?_set_self hm], h.acc.keep, h.cont, h.up⟩ }
  unfold reset
  simp only [hset]
  have hq := h.q0
  split
  · rename_i hb
    rw [if_pos hb] at hq
    exact key _ hq
  · rename_i hb
    rw [if_neg hb] at hq
    rw [drain_empty c _ _ hq]
    exact key _ rfl

theorem leaving_step {c : Cfg} {rs : List (ReqHead × Bytes)} (hrs : ∀ x ∈ rs, Sound c x) {m : Nat} {q : ReqHead} {b : Bytes} {rq : Rq} {s : St} {e : Ev}
    (h : Leaving c rs m q b rq s) (hf : fair rs s e) : Phase c rs (step c s e) := by
  have none_run : ∀ k, k ∉ s.running := by intro k hk; rw [h.running] at hk; cases hk
  cases e with
  | data d =>
    by_cases hr : s.reading = true
    · rw [data_taken hr h.base.closing]
      obtain ⟨j, j1, j2, _, j4⟩ := hf hr h.base.closing
      rw [h.rx] at j1 j2
      by_cases hd : d = []
      · subst hd
        rw [List.append_nil, data_nil]; exact .leaving m q b rq h
      · rcases h.reading with h1 | h1
        · rw [hr] at h1; cases h1
        · exact (quiet_end h.at_ h1 h.hb hd j1 j2 (j4 hd)).elim
    · simp only [step, hr, Bool.false_and, Bool.false_eq_true, if_false]
      exact .leaving m q b rq h
  | head i => simp only [step]; rw [head_all h.heads]; exact .leaving m q b rq h
  | recv i => simp only [step]; rw [recv_all h.recvs]; exact .leaving m q b rq h
  | send =>
    simp only [step, sendStep]
    split
    · exact .leaving m q b rq h
    · obtain ⟨l, e, hl⟩ := h.q1
      rw [e]
      cases l with
      | nil => exact .idle (m + 1) (leaving_keep hrs h _)
      | cons x l =>
        cases x with
        | none => simp at hl
        | some y =>
          dsimp only [List.cons_append]
          rw [if_neg (by rw [h.base.noWrite]; simp)]
          exact .leaving m q b rq (h.io (l ++ [none]) ⟨l, rfl, fun hn => hl (by simp [hn])⟩ s.queued _ _)
  | emit k b => exact absurd hf (none_run k)
  | take k => exact absurd hf (none_run k)
  | clear k => exact absurd hf.1 (none_run k)
  | leave k keep =>
    simp only [step, inactive (none_run k) h.heads]
    exact .leaving m q b rq h
  | eof _ => exact absurd hf id
  | mark k _ => exact absurd hf.1 (by simp [h.running])
  | upgrade _ => exact absurd hf id
  | finish _ => exact absurd hf id
  | abort => exact absurd hf id
  | kick => exact absurd hf id

theorem phase_step {c : Cfg} {rs : List (ReqHead × Bytes)} (hrs : ∀ x ∈ rs, Sound c x) {s : St} {e : Ev} (h : Phase c rs s) (hf : fair rs s e)
    (hq : (step c s e).q0.length ≤ c.maxQueue) : Phase c rs (step c s e) := by
  cases h with
  | idle m h => exact idle_step hrs h hf
  | starting m q b b1 h => exact starting_step hrs h hf hq
  | feeding m q b b1 r f hs h => exact feed_step h hf hq
  | handling m q b b1 rq h => exact handling_step h hf hq
  | leaving m q b rq h => exact leaving_step hrs h hf

theorem Phase.base {c : Cfg} {rs : List (ReqHead × Bytes)} {s : St} (h : Phase c rs s) : ∃ m n, Base rs m n s ∧ (m = n ∨ n = m + 1 ∧ s.running = [m]) := by
  cases h with
  | idle m h => exact ⟨_, _, h.base, .inl rfl⟩
  | starting m q b b1 h => exact ⟨_, _, h.base, .inl rfl⟩
  | feeding m q b b1 r f hs h => exact ⟨_, _, h.base, .inl rfl⟩
  | handling m q b b1 rq h => exact ⟨_, _, h.base, .inr ⟨rfl, h.running⟩⟩
  | leaving m q b rq h => exact ⟨_, _, h.base, .inl rfl⟩

theorem Phase.good {c : Cfg} {rs : List (ReqHead × Bytes)} {s : St} (h : Phase c rs s) : Good s := by
  obtain ⟨_, _, hb, _⟩ := h.base
  refine ⟨hb.tooLarge, hb.noWrite, ?_⟩
  have all : ∀ {l}, AllHandling l → ∀ x ∈ l, Flow.good x := by
    intro l hl x hx
    obtain ⟨k, rfl⟩ := hl x hx
    trivial
  have snoc : ∀ {l x}, AllHandling l → Flow.good x → ∀ y ∈ l ++ [x], Flow.good y := by
    intro l x hl hx y hy
    rcases List.mem_append.1 hy with hy | hy
    · exact all hl y hy
    · simp at hy; subst hy; exact hx
  cases h with
  | idle m h => exact all h.heads
  | starting m q b b1 h => obtain ⟨hs, e1, e2⟩ := h.heads; rw [e1]; exact snoc e2 trivial
  | feeding m q b b1 r f hs h => rw [h.heads]; exact snoc h.old trivial
  | handling m q b b1 rq h => exact all h.heads
  | leaving m q b rq h => exact all h.heads

theorem Phase.current {c : Cfg} {rs : List (ReqHead × Bytes)} {s : St} (h : Phase c rs s) {k : Nat} {r : Rq} (hk : k ∈ s.running) (hr : s.reqs[k]? = some r) :
    s.cur = some k ∧ s.reqs[k]? = some r := by
  cases h with
  | idle m h => rw [h.running] at hk; cases hk
  | starting m q b b1 h => rw [h.running] at hk; cases hk
  | feeding m q b b1 r f hs h => rw [h.running] at hk; cases hk
  | handling m q b b1 rq h => rw [h.running] at hk; obtain rfl := List.mem_singleton.1 hk; exact ⟨h.cur, hr⟩
  | leaving m q b rq h => rw [h.running] at hk; cases hk

theorem Phase.calm {c : Cfg} {rs : List (ReqHead × Bytes)} {s : St} {e : Ev} (h : Phase c rs s) (hf : fair rs s e) : Flow.calm s e ∧ Reply.own s e := by
  cases e with
  | send =>
    refine ⟨fun hq => ?_, trivial⟩
    have none_ : none ∉ s.q1 → False := by
      intro hn
      cases hx : s.q1 with
      | nil => rw [hx] at hq; cases hq
      | cons y l => rw [hx] at hq hn; simp at hq; subst hq; simp at hn
    cases h with
    | idle m h => exact (none_ h.q1).elim
    | starting m q b b1 h => exact (none_ h.q1).elim
    | feeding m q b b1 r f hs h => exact (none_ h.q1).elim
    | handling m q b b1 rq h =>
      rcases h.q1 with h1 | ⟨hc, _⟩
      · exact (none_ h1).elim
      · exact .inl ⟨m, rq, h.cur, h.req, hc⟩
    | leaving m q b rq h =>
      refine .inr ⟨h.recvs, fun k r hk hr hb => ?_⟩
      rw [h.cur] at hk; cases hk
      rw [h.req] at hr; cases hr
      have := h.q0
      rwa [if_pos hb] at this
  | take k => exact ⟨hf, trivial⟩
  | emit k b => exact ⟨trivial, hf⟩
  | mark k keep =>
    obtain ⟨h1, _, h3, r, h4, h5⟩ := hf
    refine ⟨⟨h1, ?_, ?_, h3⟩, trivial⟩
    all_goals
      obtain ⟨hcur, hreq⟩ := h.current h1 h4
    · exact hcur
    · exact ⟨k, r, hcur, h4, h5⟩
  | finish _ => exact absurd hf id
  | _ => exact ⟨trivial, trivial⟩

/-- The marker that the send task comes to ends an answer, unless the request asks for `100 Continue`. -/
theorem Phase.expecting {c : Cfg} {rs : List (ReqHead × Bytes)} {s : St} (h : Phase c rs s) (hrs : ∀ x ∈ rs, ¬ Asks x.1) (hq : s.q1.head? = some none) : ¬ Flow.Expecting s := by
  have none_ : none ∉ s.q1 → False := by
    intro hn
    cases hx : s.q1 with
    | nil => rw [hx] at hq; cases hq
    | cons y l => rw [hx] at hq hn; simp at hq; subst hq; simp at hn
  cases h with
  | idle m h => exact (none_ h.q1).elim
  | starting m q b b1 h => exact (none_ h.q1).elim
  | feeding m q b b1 r f hs h => exact (none_ h.q1).elim
  | handling m q b b1 rq h =>
    rcases h.q1 with h1 | ⟨hc, _⟩
    · exact (none_ h1).elim
    · exact absurd (h.cont hc).1 (hrs _ (List.mem_of_getElem? h.at_))
  | leaving m q b rq h =>
    rintro ⟨k, r, hk, hr, hc⟩
    rw [h.cur] at hk; cases hk
    rw [h.req] at hr; cases hr
    rw [h.cont] at hc; cases hc

theorem phase_run {c : Cfg} {rs : List (ReqHead × Bytes)} (hrs : ∀ x ∈ rs, Sound c x) : ∀ (es : List Ev) {s : St}, Phase c rs s → Fair c rs s es →
    Phase c rs (run c s es) ∧ Calm c s es ∧ Own c s es
  | [], _, h, _ => ⟨h, trivial, trivial⟩
  | e :: es, s, h, hf => by
    have h1 := phase_step hrs h hf.1 hf.2.1
    obtain ⟨a, b, d⟩ := phase_run hrs es (s := step c s e) h1 hf.2.2
    exact ⟨a, ⟨(h.calm hf.1).1, h1.good, b⟩, ⟨(h.calm hf.1).2, d⟩⟩

/-! ## Requests that are accepted -/

open Verif.Model.Head Verif.Model.HttpParser in
theorem vals_wire {q : ReqHead} (hw : q.Wf 100 8190) (rest : Bytes) {k : Bytes} (hk : k ≠ b!"proxy") : vals (q.wire rest) q.text.length k = valuesOf q.pairs k := by
  unfold vals
  rw [Proofs.HttpParser.parse_wf hw, (Proofs.HttpParser.finish_fields _).2.1]
  simp only [valuesOf, List.filter_filter]
  congr 1
  apply List.filter_congr
  intro x _
  by_cases hx : x.1 = k <;> simp [hx, hk]

end Verif.Serial
