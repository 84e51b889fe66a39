import Verif.Props.Body
import Verif.Spec.AsgiReceive
/-!
# C45, C69: what an ASGI application receives
-/
namespace Verif
open Py Model.Upload Model.BodyStream Spec.Body Proofs.BodyStream
open Model.AsgiReceive Spec.AsgiReceive

namespace AsgiReceive

/-- `k` calls of `receive`. -/
abbrev calls (cl : Int) (s : St) (k : Nat) : List Res := run cl s (List.replicate k .call)

/-- The state after a run. -/
def after (cl : Int) (s : St) (es : List Ev) : St := es.foldl (fun s e => (step cl s e).2) s

theorem run_append (cl : Int) (s : St) (a b : List Ev) : run cl s (a ++ b) = run cl s a ++ run cl (after cl s a) b := by
  induction a generalizing s with
  | nil => rfl
  | cons e a ih => simp [run, ih, after]

theorem calls_add (cl : Int) (s : St) (k m : Nat) : ∃ t, calls cl s (k + m) = calls cl s k ++ t := by
  have ht := run_append cl s (List.replicate k .call) (List.replicate m .call)
  exact ⟨_, by unfold calls; rw [← List.replicate_append_replicate]; exact ht⟩

/-- The message made of a piece. -/
def msgOf (cl : Int) (p : Bytes × Nat) : Res :=
  .msg (.request p.1 ((decide (p.1 ≠ []) && decide (cl = -1)) || decide ((p.2 : Int) < cl)))

theorem calls_pieces (cl : Int) : ∀ (ps : List (Bytes × Nat)) (out : Out) (k : Nat), k ≤ ps.length →
    calls cl { src := ⟨ps, out⟩ } k = (ps.take k).map (msgOf cl) := by
  intro ps
  induction ps with
  | nil => intro out k hk; have : k = 0 := by simpa using hk
           subst this; rfl
  | cons p ps ih =>
    intro out k hk
    cases k with
    | zero => rfl
    | succ k =>
      have := ih out k (by simpa using hk)
      unfold calls at this ⊢
      rw [List.replicate_succ]
      simp only [run, step, Model.AsgiReceive.receive, msgOf, List.take_succ_cons, List.map_cons, ← this]
      rfl

/-- What the calls return behind the last piece. -/
theorem calls_end (cl : Int) (out : Out) (k : Nat) :
    calls cl { src := ⟨[], out⟩ } k = if out = .blocked then [] else List.replicate k (.msg .disconnect) := by
  by_cases h : out = .blocked
  · subst h
    have hw : ∀ (k : Nat) (s : St), s.waiting = true → run cl s (List.replicate k .call) = [] := by
      intro k
      induction k with
      | zero => intro s _; rfl
      | succ k ih => intro s hs; rw [List.replicate_succ]; simp [run, step, hs, ih]
    rw [if_pos rfl]
    unfold calls
    cases k with
    | zero => rfl
    | succ k => rw [List.replicate_succ]; simp [run, step, Model.AsgiReceive.receive, hw]
  · rw [if_neg h]
    unfold calls
    induction k generalizing out with
    | zero => rfl
    | succ k ih =>
      rw [List.replicate_succ, List.replicate_succ]
      simp only [run, step, Model.AsgiReceive.receive, if_neg h]
      simp [ih .done (by simp)]

theorem calls_all (cl : Int) (ps : List (Bytes × Nat)) (out : Out) (k : Nat) :
    calls cl { src := ⟨ps, out⟩ } (ps.length + k) =
      ps.map (msgOf cl) ++ if out = .blocked then [] else List.replicate k (.msg .disconnect) := by
  induction ps with
  | nil => simpa using calls_end cl out k
  | cons p ps ih =>
    unfold calls at ih ⊢
    rw [List.length_cons, show ps.length + 1 + k = (ps.length + k) + 1 by omega, List.replicate_succ]
    simp only [run, step, Model.AsgiReceive.receive, List.map_cons, List.cons_append, ← ih]
    rfl

theorem bodies_msgs (cl : Int) (ps : List (Bytes × Nat)) (r : List Res) : bodies (ps.map (msgOf cl) ++ r) = (ps.map (·.1)).flatten ++ bodies r := by
  induction ps with
  | nil => rfl
  | cons p ps ih => simp [msgOf, bodies, ih]

theorem bodies_disconnect (k : Nat) : bodies (List.replicate k (.msg .disconnect)) = [] := by
  induction k with
  | zero => rfl
  | succ k ih => exact ih

theorem counts_length (c : Nat) (ps : List Bytes) : (counts c ps).length = ps.length := by
  induction ps generalizing c with
  | nil => rfl
  | cons d ps ih => simp [counts, ih]

theorem rawLoop_length (cl : Int) (c : Nat) (ps : List Bytes) : (rawLoop cl c ps).length = ps.length := by
  induction ps generalizing c with
  | nil => rfl
  | cons d ps ih => simp [rawLoop, ih]

theorem body_cl {n : Nat} : ∀ (ps : List Bytes) (c : Nat) (r : List Res), c < n → n ≤ c + ps.flatten.length →
    bodyOf (((rawLoop n c ps).zip (counts c ps)).map (msgOf n) ++ r) = some (ps.flatten.take (n - c)) := by
  intro ps
  induction ps with
  | nil => intro c r h1 h2; simp at h2; omega
  | cons d ps ih =>
    intro c r h1 h2
    simp only [rawLoop, counts, List.zip_cons_cons, List.map_cons, msgOf, List.cons_append, List.flatten_cons]
    have hm : decide ((n : Int) = -1) = false := by rw [decide_eq_false_iff_not]; omega
    rw [hm, Bool.and_false, Bool.false_or]
    by_cases h : c + d.length < n
    · have hd : decide (((c + d.length : Nat) : Int) < n) = true := by simp; omega
      rw [hd, if_neg (by omega)]
      simp only [bodyOf]
      rw [ih (c + d.length) r h (by simp only [List.flatten_cons, List.length_append] at h2; omega)]
      simp only [Option.map_some, Option.some.injEq]
      rw [List.take_append, List.take_of_length_le (l := d) (by omega), Nat.sub_sub]
    · have hd : decide (((c + d.length : Nat) : Int) < n) = false := by simp; omega
      rw [hd]
      simp only [bodyOf, Option.some.injEq]
      rw [List.take_append, show n - c - d.length = 0 by omega, List.take_zero, List.append_nil]
      by_cases h3 : n < c + d.length
      · rw [if_pos ⟨by omega, by omega⟩]
        have e : (n : Int) - ((c + d.length : Nat) : Int) = -((c + d.length - n : Nat) : Int) := by omega
        rw [e, sliceTo_neg (by omega)]
        congr 1; omega
      · rw [if_neg (by omega), List.take_of_length_le (by omega)]

theorem more_cl {n : Nat} : ∀ (ps : List Bytes) (c : Nat), c + ps.flatten.length < n →
    ((rawLoop n c ps).zip (counts c ps)).map (msgOf n) = ps.map (fun d => .msg (.request d true)) := by
  intro ps
  induction ps with
  | nil => intro c h; rfl
  | cons d ps ih =>
    intro c h
    simp only [List.flatten_cons, List.length_append] at h
    simp only [rawLoop, counts, List.zip_cons_cons, List.map_cons, msgOf]
    rw [if_neg (by omega), ih (c + d.length) (by omega)]
    have hd : decide (((c + d.length : Nat) : Int) < n) = true := by simp; omega
    rw [hd, Bool.or_true]

theorem calls_take (cl : Int) (ps : List (Bytes × Nat)) (k : Nat) :
    calls cl { src := ⟨ps, .blocked⟩ } k = (ps.take k).map (msgOf cl) := by
  by_cases h : k ≤ ps.length
  · exact calls_pieces cl ps _ k h
  · rw [show k = ps.length + (k - ps.length) by omega, calls_all, if_pos rfl, List.append_nil, List.take_of_length_le (by omega)]

/-- The pieces that an upload has put into the queue. -/
theorem upload_items {n maxBody bs : Nat} (hb : 0 < bs) (hn : n ≤ maxBody) (first : Bytes) (segs : List Bytes) :
    ∃ ps : List Bytes, ps.flatten <+: first ++ segs.flatten ∧
      ((n ≤ ps.flatten.length ∧ (upload ⟨some n, maxBody⟩ bs first segs).items = ps.map some ++ [none]) ∨
       (ps.flatten.length < n ∧ ps.flatten = first ++ segs.flatten ∧ (upload ⟨some n, maxBody⟩ bs first segs).items = ps.map some)) := by
  have h0 := clInv_receive (l := n) (maxBody := maxBody) (bs := 16384) (by omega) hn (u := {}) (R := []) first (ps := [])
    rfl rfl rfl rfl
  obtain ⟨R', k1, ⟨ps, h1, h2, h3, hc⟩, k3⟩ := clInv_all hb hn segs _ _ h0
  simp only [List.nil_append] at k1 k3
  refine ⟨ps, h1 ▸ k1, ?_⟩
  rw [h1]
  rcases hc with ⟨ha, hi, _⟩ | ⟨ha, hi, _⟩
  · exact .inr ⟨ha, k3.elim id (fun k => by omega), hi⟩
  · exact .inl ⟨ha, hi⟩

theorem source_cl {n maxBody bs : Nat} (hn : n ≤ maxBody) (ps : List Bytes) (t : List Item) (ht : t = [] ∨ t = [none]) :
    source bs maxBody n false (ps.map some ++ t) = ⟨(rawLoop n 0 ps).zip (counts 0 ps), if t = [] then .blocked else .done⟩ := by
  unfold source rawStream
  rw [if_neg (by simp), if_neg (by omega), recvPieces_map]
  rcases ht with rfl | rfl <;> simp [recvPieces]

end AsgiReceive
open AsgiReceive

/-! ## C45 -/

/-- **C45**, Content-Length `0 < n ≤ client_max_body_size`: however the body arrives, an application that calls `receive` often
enough gets exactly the body, and nothing else before its end. Missing: chunked bodies and `Content-Length: 0`, for which it
is false. -/
theorem C45_content_length_partial {n maxBody bs : Nat} (hb : 0 < bs) (h0 : 0 < n) (hn : n ≤ maxBody) (first : Bytes) (segs : List Bytes)
    (hlen : n ≤ (first ++ segs.flatten).length) :
    ∃ K, ∀ k, K ≤ k → bodyOf (calls n { src := source bs maxBody n false (upload ⟨some n, maxBody⟩ bs first segs).items } k) =
      some ((first ++ segs.flatten).take n) := by
  obtain ⟨ps, hp, h | h⟩ := upload_items hb hn first segs
  · obtain ⟨hl, hi⟩ := h
    rw [hi, source_cl hn ps [none] (.inr rfl)]
    refine ⟨((rawLoop n 0 ps).zip (counts 0 ps)).length, fun k hk => ?_⟩
    rw [show k = ((rawLoop n 0 ps).zip (counts 0 ps)).length + (k - ((rawLoop n 0 ps).zip (counts 0 ps)).length) by omega, calls_all,
      body_cl ps 0 _ h0 (by omega), Nat.sub_zero]
    obtain ⟨t, ht⟩ := hp
    rw [← ht, List.take_append_of_le_length hl]
  · rw [← h.2.1] at hlen; omega

/-- **C45** while the body has not arrived completely: what `receive` has returned is a beginning of what has arrived, all of
it if it is called often enough; every message says that there is more. -/
theorem C45_content_length_waits {n maxBody bs : Nat} (hb : 0 < bs) (hn : n ≤ maxBody) (first : Bytes) (segs : List Bytes)
    (hlen : (first ++ segs.flatten).length < n) :
    (∀ k, ∀ x ∈ calls n { src := source bs maxBody n false (upload ⟨some n, maxBody⟩ bs first segs).items } k, ∃ d, x = .msg (.request d true)) ∧
    ∃ K, ∀ k, K ≤ k → bodies (calls n { src := source bs maxBody n false (upload ⟨some n, maxBody⟩ bs first segs).items } k) =
      first ++ segs.flatten := by
  obtain ⟨ps, hp, h | h⟩ := upload_items hb hn first segs
  · have := hp.length_le; omega
  · obtain ⟨hl, he, hi⟩ := h
    have hs := source_cl (bs := bs) hn ps [] (.inl rfl)
    rw [List.append_nil] at hs
    rw [hi, hs, if_pos rfl]
    have hm := more_cl ps 0 (n := n) (by omega)
    constructor
    · intro k x hx
      rw [calls_take, List.map_take, hm] at hx
      obtain ⟨d, _, rfl⟩ := List.mem_map.1 (List.mem_of_mem_take hx)
      exact ⟨d, rfl⟩
    · refine ⟨ps.length, fun k hk => ?_⟩
      have hz : ((rawLoop n 0 ps).zip (counts 0 ps)).length = ps.length := by simp [rawLoop_length, counts_length]
      rw [calls_take, List.take_of_length_le (by omega), ← List.append_nil (List.map _ _), bodies_msgs, List.map_fst_zip (by rw [rawLoop_length, counts_length]; exact Nat.le_refl _),
        rawLoop_flatten, List.take_of_length_le (by omega), he]
      simp [bodies]

/-- **C45** for a request without a body: the first message is the whole, empty body, whatever follows on the connection
(http_protocol.py:321-324 puts an empty piece in front of it). -/
theorem C45_none (bs maxBody : Nat) (rest : List Item) (k : Nat) (hk : 1 ≤ k) :
    bodyOf (calls (-1) { src := source bs maxBody (-1) false (some [] :: rest) } k) = some [] := by
  have hs : ∃ ps o, source bs maxBody (-1) false (some [] :: rest) = ⟨([], 0) :: ps, o⟩ := by
    unfold source rawStream
    rw [if_neg (by simp), if_neg (by omega)]
    exact ⟨_, _, rfl⟩
  obtain ⟨ps, o, hs⟩ := hs
  rw [hs]
  obtain ⟨t, ht⟩ := calls_add (-1) { src := ⟨([], 0) :: ps, o⟩ } 1 (k - 1)
  rw [show k = 1 + (k - 1) by omega, ht]
  rfl

namespace AsgiReceive

theorem source_chunked (bs maxBody : Nat) (cl : Int) (items : List Item) :
    source bs maxBody cl true items = ⟨(chunkStream bs items).1.map (·, 0), (chunkStream bs items).2⟩ := by
  unfold source; rw [if_pos rfl]

theorem fst_map (l : List Bytes) : (l.map (fun d => (d, (0 : Nat)))).map (·.1) = l := by
  rw [List.map_map]; exact List.map_id l

theorem msg_chunked (d : Bytes) : msgOf (-1) (d, 0) = .msg (.request d (decide (d ≠ []))) := by
  simp [msgOf]

end AsgiReceive

/-- Chunked bodies, what holds: an application that goes on to the `http.disconnect` message, whatever `more_body` says, has
got exactly the payload then, if no cut falls behind a chunk's data (`C09_exact`). -/
theorem C45_chunked_all {bs maxBody : Nat} {cs : List Chunk} {size ext rest : Bytes} (h0 : SizeLine size ext 0)
    (h0l : size.length + ext.length + 1 ≤ 4 * bs)
    (hcs : ∀ c ∈ cs, c.Wf ∧ c.size.length + c.ext.length + 1 ≤ 4 * bs) (segs : List Bytes)
    (hsegs : segs.flatten = encode cs (lastChunk size ext rest)) (hsafe : SafeCuts cs (lastChunk size ext rest) segs) :
    ∃ K, ∀ k, K < k →
      bodies (calls (-1) { src := source bs maxBody (-1) true (segs.map some) } k) = payload cs ∧
      (calls (-1) { src := source bs maxBody (-1) true (segs.map some) } k).getLast? = some (.msg .disconnect) := by
  obtain ⟨hp, hd⟩ := C09_decode_partial h0 h0l hcs segs hsegs hsafe
  rw [source_chunked, hd]
  refine ⟨(chunkStream bs (segs.map some)).1.length, fun k hk => ?_⟩
  obtain ⟨j, rfl⟩ : ∃ j, k = ((chunkStream bs (segs.map some)).1.map (·, 0)).length + (j + 1) := ⟨k - (chunkStream bs (segs.map some)).1.length - 1, by simp; omega⟩
  rw [calls_all, bodies_msgs, fst_map, hp, if_neg (by simp), bodies_disconnect]
  refine ⟨by simp, ?_⟩
  rw [List.replicate_succ', ← List.append_assoc, List.getLast?_append]; rfl

/-- **C45 fails** for chunked bodies: `more_body` is false exactly in messages with an empty body. So if the stream yields no
empty piece, no message says that the body is complete: `http.disconnect` comes first. -/
theorem C45_refuted_chunked (bs maxBody : Nat) (items : List Item) (hne : ∀ d ∈ (chunkStream bs items).1, d ≠ []) (k : Nat) :
    bodyOf (calls (-1) { src := source bs maxBody (-1) true items } k) = none := by
  rw [source_chunked]
  generalize (chunkStream bs items).2 = o
  generalize (chunkStream bs items).1 = l at *
  have key : ∀ (l : List Bytes) (r : List Res), (∀ d ∈ l, d ≠ []) → bodyOf r = none → bodyOf ((l.map (·, 0)).map (msgOf (-1)) ++ r) = none := by
    intro l r
    induction l with
    | nil => intro _ h; exact h
    | cons d l ih =>
      intro h hr
      have hd : decide (d ≠ []) = true := by simp [h d (by simp)]
      simp only [List.map_cons, msg_chunked, hd, List.cons_append, bodyOf]
      rw [ih (fun x hx => h x (by simp [hx])) hr]; rfl
  by_cases h : k ≤ (l.map (·, 0)).length
  · rw [calls_pieces _ _ _ _ h, ← List.map_take, ← List.append_nil (List.map _ _)]
    exact key _ _ (fun d hd => hne d (List.mem_of_mem_take hd)) rfl
  · rw [show k = (l.map (·, 0)).length + (k - (l.map (·, 0)).length) by omega, calls_all]
    refine key _ _ hne ?_
    split
    · rfl
    · cases (k - (l.map (·, 0)).length) <;> rfl

/-- **C45 fails** for chunked bodies, worse: a cut behind a size line makes the application believe that the body is complete
there. -/
theorem C45_refuted_truncated : payload [⟨b!"5", [], b!"hello"⟩] = b!"hello" ∧
    calls (-1) { src := source 16384 100 (-1) true [some b!"5\r\n", some b!"hello\r\n0\r\n\r\n"] } 3 =
      [.msg (.request [] false), .msg (.request b!"hello" true), .msg .disconnect] := by decide +kernel

/-- In general: it takes for the body what comes before the first empty piece. -/
theorem C45_chunked_taken (bs maxBody : Nat) (items : List Item) (a b : List Bytes) (he : (chunkStream bs items).1 = a ++ [] :: b)
    (ha : ∀ d ∈ a, d ≠ []) (k : Nat) (hk : a.length < k) :
    bodyOf (calls (-1) { src := source bs maxBody (-1) true items } k) = some a.flatten := by
  rw [source_chunked, he]
  obtain ⟨t, ht⟩ := calls_add (-1) { src := ⟨(a ++ [] :: b).map (·, 0), (chunkStream bs items).2⟩ } (a.length + 1) (k - (a.length + 1))
  rw [show k = (a.length + 1) + (k - (a.length + 1)) by omega, ht]
  refine bodyOf_append ?_ t
  rw [calls_pieces _ _ _ _ (by simp), ← List.map_take]
  have e : (a ++ [] :: b).take (a.length + 1) = a ++ [([] : Bytes)] := by
    rw [List.take_append, List.take_of_length_le (by omega), show a.length + 1 - a.length = 1 by omega]; rfl
  rw [e]
  clear ht e he hk
  induction a with
  | nil => rfl
  | cons d a ih =>
    have hd : decide (d ≠ []) = true := by simp [ha d (by simp)]
    simp only [List.cons_append, List.map_cons, msg_chunked, hd, bodyOf, ih (fun x hx => ha x (by simp [hx])), List.flatten_cons]
    rfl

/-- **C45 fails** for `Content-Length: 0`: the first message is `http.disconnect`. -/
theorem C45_refuted_zero (bs maxBody : Nat) (k : Nat) :
    calls 0 { src := source bs maxBody 0 false (upload ⟨some 0, maxBody⟩ bs [] []).items } k = List.replicate k (.msg .disconnect) := by
  have : source bs maxBody 0 false (upload ⟨some 0, maxBody⟩ bs [] []).items = ⟨[], .done⟩ := by
    have hi : (upload ⟨some 0, maxBody⟩ bs [] []).items = [none] := rfl
    rw [hi]; unfold source rawStream; rw [if_neg (by simp), if_neg (by omega)]; rfl
  rw [this, calls_end, if_neg (by simp)]

/-! Cases that meet the hypotheses. -/
example : calls 5 { src := source 2 100 5 false (upload ⟨some 5, 100⟩ 2 b!"ab" [b!"c", b!"defgh"]).items } 9 =
    [.msg (.request b!"ab" true), .msg (.request b!"c" true), .msg (.request b!"de" false), .msg (.request [] false), .msg (.request [] false),
     .msg .disconnect, .msg .disconnect, .msg .disconnect, .msg .disconnect] := by decide +kernel
example : calls 5 { src := source 2 100 5 false (upload ⟨some 5, 100⟩ 2 b!"ab" [b!"c"]).items } 9 =
    [.msg (.request b!"ab" true), .msg (.request b!"c" true)] := by decide +kernel
example : (chunkStream 16 [some b!"5\r\nhel", some b!"lo\r\n0\r\n\r\n"]).1 = [b!"hel", b!"lo"] := by decide +kernel
example : (chunkStream 16 [some b!"1\r\nx\r\n5\r\n", some b!"hello\r\n0\r\n\r\n"]).1 = [b!"x"] ++ [] :: [b!"hello"] := by decide +kernel

/-! ## C69 -/

/-- **C69**, what holds: a call of `receive` that has not returned when the client goes returns `http.disconnect` then. Missing:
later calls. -/
theorem C69_partial (cl : Int) (s : St) (es : List Ev) (h : run cl s (es ++ [.call]) = run cl s es) :
    run cl s (es ++ [.call, .lose]) = run cl s es ++ [.msg .disconnect] := by
  rw [run_append] at h ⊢
  have h := List.append_right_eq_self.1 h
  generalize after cl s es = t at *
  simp only [run, List.append_nil, Option.toList_eq_nil_iff] at h
  have hw : (step cl t .call).2.waiting = true := by
    revert h
    simp only [step]
    split
    · intro _; assumption
    · unfold Model.AsgiReceive.receive
      split
      · simp
      · split
        · simp
        · split
          · simp
          · split <;> simp
  simp only [run, h]
  generalize (step cl t .call).2 = u at *
  simp [step, hw]

/-- **C69 fails**: every call of `receive` after the client has gone raises TypeError. -/
theorem C69_refuted (cl : Int) (s : St) (es : List Ev) (hl : s.lost = true) (hw : s.waiting = false) :
    ∀ x ∈ run cl s es, x = .typeError := by
  induction es generalizing s with
  | nil => intro x hx; cases hx
  | cons e es ih =>
    intro x hx
    simp only [run, List.mem_append] at hx
    cases e with
    | call =>
      have hr : step cl s .call = (some .typeError, s) := by
        simp only [step, hw, Model.AsgiReceive.receive, hl, if_true, Bool.false_eq_true, if_false]
      rw [hr] at hx
      rcases hx with hx | hx
      · simpa using hx
      · exact ih s hl hw x hx
    | last =>
      rcases hx with hx | hx
      · cases hx
      · exact ih { s with read := false } hl hw x hx
    | lose =>
      rcases hx with hx | hx
      · simp [step, hw] at hx
      · exact ih _ rfl rfl x hx

/-- After the last message of the response, while the client is there, `receive` returns `http.disconnect`. -/
theorem C69_after_response (cl : Int) (s : St) (hl : s.lost = false) (hr : s.read = false) (hw : s.waiting = false) (k : Nat) :
    calls cl s k = List.replicate k (.msg .disconnect) := by
  unfold calls
  induction k with
  | zero => rfl
  | succ k ih =>
    have e : step cl s .call = (some (.msg .disconnect), s) := by
      simp only [step, hw, Model.AsgiReceive.receive, hl, hr, Bool.false_eq_true, if_false]; rfl
    rw [List.replicate_succ, List.replicate_succ]
    simp only [run, e, ih]; rfl

/-- A client that goes while the application waits for the rest of the body; the application calls again. -/
example : run 5 { src := source 2 100 5 false (upload ⟨some 5, 100⟩ 2 b!"ab" [b!"c"]).items } [.call, .call, .call, .lose, .call] =
    [.msg (.request b!"ab" true), .msg (.request b!"c" true), .msg .disconnect, .typeError] := by decide +kernel
example : run 2 { src := source 2 100 2 false (upload ⟨some 2, 100⟩ 2 b!"ab" []).items } [.call, .last, .call] =
    [.msg (.request b!"ab" false), .msg .disconnect] := by decide +kernel

end Verif
