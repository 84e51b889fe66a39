import Verif.Props.ConnReply
import Verif.Props.Client
import Verif.Props.Head
/-!
# C90: a client that sends several requests reads the answers in their order
-/
namespace Verif
open Verif.Py Verif.Model.Conn Conn Flow Reply
open Verif.Spec.HttpParser (ReqHead)
open Verif.Proofs.Head
open Verif.Spec.Client (Delimited Final Resp readAll readResponse readAll_flatten Answers readAnswers readAnswers_flatten)

namespace Pipe
open Spec.Stream (Minimal Heads heads_flatten)

/-! ## The head of a request ends with its first blank line -/

theorem lines_blank : ∀ (ls : List Bytes), ls ≠ [] → (∀ l ∈ ls, (10 : UInt8) ∉ l ∧ l ≠ []) → ∀ a b, (ls.map (· ++ CRLF)).flatten ++ CRLF = a ++ CRLF2 ++ b →
    b = []
  | [], h, _, _, _, _ => absurd rfl h
  | l :: ls, _, h, a, b, e => by
    have hl := h l (by simp)
    simp only [List.map_cons, List.flatten_cons, List.append_assoc] at e
    have hge : l.length ≤ a.length := by
      refine Classical.byContradiction (fun hlt => hl.1 ?_)
      rcases List.append_eq_append_iff.1 e with ⟨x, h1, _⟩ | ⟨x, h1, h2⟩
      · rw [h1] at hlt; simp at hlt
      · cases x with
        | nil => rw [List.append_nil] at h1; rw [h1] at hlt; simp at hlt
        | cons y x =>
          cases x with
          | nil => simp [CRLF, CRLF2] at h2
          | cons z x => simp [CRLF2] at h2; rw [h1, ← h2.2.1]; simp
    obtain ⟨a1, ha1⟩ : ∃ a1, a = l ++ a1 := by
      rcases List.append_eq_append_iff.1 e with ⟨x, h1, _⟩ | ⟨x, h1, _⟩
      · exact ⟨x, h1⟩
      · rw [h1, List.length_append] at hge
        have : x = [] := List.eq_nil_of_length_eq_zero (by omega)
        subst this; exact ⟨[], by simpa using h1.symm⟩
    subst ha1
    rw [List.append_assoc] at e
    have e := List.append_cancel_left e
    match a1, e with
    | [], e =>
      cases ls with
      | nil => simpa [CRLF, CRLF2] using e
      | cons l2 ls =>
        exfalso
        have h2 := h l2 (by simp)
        simp only [List.map_cons, List.flatten_cons, List.append_assoc] at e
        match l2, h2 with
        | [], h2 => exact h2.2 rfl
        | [x], _ => simp [CRLF, CRLF2] at e
        | x :: y :: t, h2 => simp [CRLF, CRLF2] at e; exact h2.1 (by simp [e.2.1])
    | [x], e => simp [CRLF, CRLF2] at e
    | x :: y :: t, e =>
      have e' : (ls.map (· ++ CRLF)).flatten ++ CRLF = t ++ CRLF2 ++ b := by
        simp only [CRLF, List.cons_append, List.nil_append, List.cons.injEq] at e
        rw [List.append_assoc]; exact e.2.2
      cases ls with
      | nil =>
        exfalso
        have := congrArg List.length e'
        simp [CRLF, CRLF2] at this
        omega
      | cons l2 ls => exact lines_blank (l2 :: ls) (by simp) (fun l' hl' => h l' (by simp [List.mem_cons.1 hl'])) t b e'

theorem wire_minimal {q : ReqHead} {mx mls : Nat} (h : q.Wf mx mls) : Minimal (q.wire []) := by
  have hls : ∀ l ∈ q.line :: q.fields.map Spec.HttpParser.Field.line, (10 : UInt8) ∉ l ∧ l ≠ [] := by
    intro l hl
    rcases List.mem_cons.1 hl with rfl | hl
    · exact ⟨h.lf, by unfold ReqHead.line; simp⟩
    · obtain ⟨f, hf, rfl⟩ := List.mem_map.1 hl
      have w := h.fields f hf
      refine ⟨?_, by unfold Spec.HttpParser.Field.line; simp⟩
      unfold Spec.HttpParser.Field.line
      have h1 := w.lfName; have h2 := w.lfValue
      split <;> simp [h1, h2]
  have hw : q.wire [] = ((q.line :: q.fields.map Spec.HttpParser.Field.line).map (· ++ CRLF)).flatten ++ CRLF := by
    simp [ReqHead.wire, ReqHead.text, List.map_map, Function.comp_def]
  have hb : ∃ a, q.wire [] = a ++ CRLF2 := by
    rw [hw]
    have hne : q.line :: q.fields.map Spec.HttpParser.Field.line ≠ [] := by simp
    generalize q.line :: q.fields.map Spec.HttpParser.Field.line = ls at hne ⊢
    induction ls using snocInd with
    | h0 => exact absurd rfl hne
    | h1 es e ih => exact ⟨(es.map (· ++ CRLF)).flatten ++ e, by simp [CRLF, CRLF2]⟩
  obtain ⟨a, ha⟩ := hb
  refine ⟨a.length, ⟨⟨a, [], by rw [ha]; simp, rfl⟩, fun a' b' e' => ?_⟩, by rw [ha]; simp [CRLF2]⟩
  rw [hw] at e'
  have := lines_blank _ (by simp) hls a' b' e'
  subst this
  rw [← hw, ha] at e'
  have := congrArg List.length e'
  simp at this; omega

/-! ## The groups of the log -/

/-- The bytes of the body that the handler of request `k` took. -/
def bodyOf (k : Nat) (l : List Act) : Bytes := (l.filterMap (fun | .body j x => if j = k then some (x.getD []) else none | .head _ _ => none)).flatten

def headsOf (l : List Act) : List (Nat × Bytes) := l.filterMap (fun | .head k raw => some (k, raw) | .body _ _ => none)

theorem log_groups {l : List Act} (hn : ((headsOf l).map (·.1)).Nodup) (hg : ∀ pre k b post, l = pre ++ Act.body k b :: post → lastHead pre = some k) :
    (l.map Act.bytes).flatten = ((headsOf l).map (fun x => x.2 ++ bodyOf x.1 l)).flatten ∧ ∀ k, bodyOf k l ≠ [] → k ∈ (headsOf l).map (·.1) := by
  have last : ∀ (l : List Act) k, lastHead l = some k → ∃ l' raw, headsOf l = l' ++ [(k, raw)] := by
    intro l k
    induction l using snocInd with
    | h0 => intro h; cases h
    | h1 l a ih =>
      cases a with
      | head j raw => intro h; rw [lastHead_head] at h; cases h; exact ⟨headsOf l, raw, by unfold headsOf; rw [List.filterMap_append]; rfl⟩
      | body j x =>
        intro h; rw [lastHead_body] at h
        obtain ⟨l', raw, e⟩ := ih h
        refine ⟨l', raw, ?_⟩
        rw [← e]; unfold headsOf; rw [List.filterMap_append]; simp
  induction l using snocInd with
  | h0 => exact ⟨rfl, fun k h => absurd rfl h⟩
  | h1 l a ih =>
    have hg' : ∀ pre k b post, l = pre ++ Act.body k b :: post → lastHead pre = some k := fun pre k b post e => hg pre k b (post ++ [a]) (by rw [e]; simp)
    cases a with
    | head k raw =>
      have hh : headsOf (l ++ [.head k raw]) = headsOf l ++ [(k, raw)] := by unfold headsOf; rw [List.filterMap_append]; rfl
      have hb : ∀ j, bodyOf j (l ++ [.head k raw]) = bodyOf j l := fun j => by unfold bodyOf; rw [List.filterMap_append]; simp
      rw [hh, List.map_append, List.nodup_append] at hn
      obtain ⟨i1, i2⟩ := ih hn.1 hg'
      have hk : bodyOf k l = [] := Classical.byContradiction (fun hne => hn.2.2 k (i2 k hne) k (by simp) rfl)
      refine ⟨?_, fun j hj => ?_⟩
      · rw [hh, List.map_append, List.flatten_append, i1, List.map_append, List.flatten_append]
        simp only [hb]
        simp [hk, Act.bytes]
      · rw [hb] at hj; rw [hh, List.map_append]; exact List.mem_append_left _ (i2 j hj)
    | body k x =>
      have hh : headsOf (l ++ [.body k x]) = headsOf l := by unfold headsOf; rw [List.filterMap_append]; simp
      have hb : ∀ j, bodyOf j (l ++ [.body k x]) = bodyOf j l ++ if k = j then x.getD [] else [] := fun j => by
        unfold bodyOf; rw [List.filterMap_append]
        by_cases hj : k = j <;> simp [hj]
      rw [hh] at hn
      obtain ⟨i1, i2⟩ := ih hn hg'
      obtain ⟨l', raw, e⟩ := last l k (hg l k x [] rfl)
      have hnl : ∀ y ∈ l', y.1 ≠ k := by
        rw [e, List.map_append, List.nodup_append] at hn
        exact fun y hy hx => hn.2.2 y.1 (List.mem_map.2 ⟨y, hy, rfl⟩) k (by simp) hx
      refine ⟨?_, fun j hj => ?_⟩
      · rw [hh, List.map_append, List.flatten_append, i1, e, List.map_append, List.map_append, List.flatten_append, List.flatten_append]
        have : l'.map (fun y => y.2 ++ bodyOf y.1 (l ++ [.body k x])) = l'.map (fun y => y.2 ++ bodyOf y.1 l) :=
          List.map_congr_left (fun y hy => by rw [hb, if_neg (Ne.symm (hnl y hy)), List.append_nil])
        rw [this]
        simp [hb, Act.bytes]
      · rw [hh]
        by_cases hj' : k = j
        · subst hj'; rw [e]; simp
        · rw [hb, if_neg hj', List.append_nil] at hj; exact i2 j hj

/-! ## Alignment -/

theorem align {len : Bytes → Nat} : ∀ {A B : List (Bytes × Bytes)} {rest : Bytes}, (∀ x ∈ A, Minimal x.1) → (∀ x ∈ B, Minimal x.1) →
    (∀ x ∈ A.dropLast, x.2.length = len x.1) → (∀ x ∈ B, x.2.length = len x.1) →
    (A.map (fun x => x.1 ++ x.2)).flatten ++ rest = (B.map (fun x => x.1 ++ x.2)).flatten →
    A.map (·.1) <+: B.map (·.1) ∧ A.dropLast <+: B ∧ ((∀ x ∈ A, x.2.length = len x.1) → A <+: B ∧ (Spec.Head.NoBlank rest → A = B ∧ rest = []))
  | [], [], rest, _, _, _, _, e => by
    simp at e
    exact ⟨by simp, by simp, fun _ => ⟨by simp, fun _ => ⟨rfl, e⟩⟩⟩
  | [], b :: B, rest, _, hB, _, _, e => by
    refine ⟨by simp, by simp, fun _ => ⟨by simp, fun hn => ?_⟩⟩
    exfalso
    obtain ⟨m, ⟨⟨x, y, hx, _⟩, _⟩, _⟩ := hB b (by simp)
    refine hn x (y ++ (b.2 ++ (B.map (fun x => x.1 ++ x.2)).flatten)) ?_
    simp only [List.map_nil, List.flatten_nil, List.nil_append] at e
    rw [e, List.map_cons, List.flatten_cons, hx]
    simp
  | a :: A, [], rest, hA, _, _, _, e => by
    exfalso
    obtain ⟨m, _, hm⟩ := hA a (by simp)
    have := congrArg List.length e
    simp only [List.map_cons, List.flatten_cons, List.length_append, List.map_nil, List.flatten_nil, List.length_nil] at this
    omega
  | a :: A, b :: B, rest, hA, hB, hlA, hlB, e => by
    simp only [List.map_cons, List.flatten_cons, List.append_assoc] at e
    have ha := heads_flatten (l := [a.1]) (by simpa using hA a (by simp)) (a.2 ++ ((A.map (fun x => x.1 ++ x.2)).flatten ++ rest))
    have hb := heads_flatten (l := [b.1]) (by simpa using hB b (by simp)) (b.2 ++ (B.map (fun x => x.1 ++ x.2)).flatten)
    simp only [List.flatten_cons, List.flatten_nil, List.append_nil] at ha hb
    rw [e] at ha
    obtain ⟨e1, e2⟩ := ha.unique hb rfl
    have e1 : a.1 = b.1 := by simpa using e1
    have step : a.2.length = len a.1 → a = b ∧ (A.map (fun x => x.1 ++ x.2)).flatten ++ rest = (B.map (fun x => x.1 ++ x.2)).flatten := by
      intro h
      obtain ⟨e3, e4⟩ := List.append_inj e2 (by rw [h, hlB b (by simp), e1])
      exact ⟨Prod.ext e1 e3, e4⟩
    have ih := fun hd => align (len := len) (A := A) (B := B) (rest := rest) (fun x hx => hA x (by simp [hx])) (fun x hx => hB x (by simp [hx])) hd (fun x hx => hlB x (by simp [hx]))
    have tl : (∀ x ∈ a :: A, x.2.length = len x.1) → ∀ x ∈ A.dropLast, x.2.length = len x.1 := fun h x hx => h x (by simp [List.dropLast_subset A hx])
    refine ⟨?_, ?_, fun h => ?_⟩
    · cases hA2 : A with
      | nil => simp [e1]
      | cons a2 A2 =>
        subst hA2
        obtain ⟨rfl, e4⟩ := step (hlA a (by simp))
        have := (ih (fun x hx => hlA x (by simp [hx])) e4).1
        simpa using this
    · cases hA2 : A with
      | nil => simp
      | cons a2 A2 =>
        subst hA2
        obtain ⟨rfl, e4⟩ := step (hlA a (by simp))
        have := (ih (fun x hx => hlA x (by simp [hx])) e4).2.1
        simpa using this
    · obtain ⟨rfl, e4⟩ := step (h a (by simp))
      obtain ⟨i1, i2⟩ := (ih (tl h) e4).2.2 (fun x hx => h x (by simp [hx]))
      refine ⟨by simpa using i1, fun hn => ?_⟩
      obtain ⟨i3, i4⟩ := i2 hn
      exact ⟨by rw [i3], i4⟩

/-! ## What the request object says -/

theorem wire_method {q : ReqHead} (hw : q.Wf 100 8190) (hn : q.NoReserved) (rest : Bytes) {r : Model.Head.Req}
    (h : Model.Head.acceptData (q.wire rest) q.text.length = .ok r) : r.method = upper q.method ∧ r.url = q.url := by
  obtain ⟨r0, _, hi, _, _, hm, hu, _⟩ := accept_iff h
  have h0 : ∀ k ∈ Spec.HttpParser.reserved, Spec.HttpParser.valuesOf q.pairs k = [] := by
    intro k hk
    rw [Proofs.HttpParser.valuesOf_eq_nil]
    intro x hx e
    obtain ⟨f, hf, rfl⟩ := List.mem_map.1 hx
    exact hn f hf (by rw [show lower f.name = k from e]; exact hk)
  have e1 : Model.HttpParser.getmethod (Model.HttpParser.parse (q.wire rest) q.text.length [b!"proxy"]) = some (.one q.method) := by
    unfold Model.HttpParser.getmethod
    rw [Proofs.HttpParser.parse_wf hw, Proofs.HttpParser.finish_hget _ _ (by decide), Proofs.HttpParser.hget_fold,
      (Proofs.HttpParser.hget_lineDict _ _ _ _).1, h0 _ (by decide)]
    rfl
  have e2 : Model.HttpParser.geturl (Model.HttpParser.parse (q.wire rest) q.text.length [b!"proxy"]) = some (.one q.url) := by
    unfold Model.HttpParser.geturl
    rw [Proofs.HttpParser.parse_wf hw, Proofs.HttpParser.finish_hget _ _ (by decide), Proofs.HttpParser.hget_fold,
      (Proofs.HttpParser.hget_lineDict _ _ _ _).2.1, h0 _ (by decide)]
    rfl
  unfold Model.Head.initReq at hi
  rw [e1, e2] at hi
  dsimp only at hi
  cases hi
  exact ⟨hm, hu⟩

theorem known_wire {s : St} {k : Nat} {q : ReqHead} (hw : q.Wf 100 8190) (hn : q.NoReserved) (h : Known s k (q.wire [])) :
    ∃ r, s.reqs[k]? = some r ∧ r.req.method = upper q.method ∧ r.req.url = q.url := by
  obtain ⟨data, n, r, hf, h2, hr, ha, hi⟩ := h
  have hlen := minimal_len hf
  have hl := congrArg List.length hr
  rw [List.length_take, Nat.min_eq_left (by omega)] at hl
  simp [ReqHead.wire, CRLF] at hl
  have hd : data = q.wire (data.drop (n + 2)) := by
    conv => lhs; rw [← List.take_append_drop (n + 2) data, ← hr]
    simp [ReqHead.wire]
  rw [hd, ← hl] at ha
  obtain ⟨m1, m2⟩ := wire_method hw hn _ ha
  cases hq : s.reqs[k]? with
  | none => rw [hq] at hi; cases hi
  | some rq =>
    rw [hq, Option.map_some, Option.some.injEq] at hi
    have h1 := congrArg Prod.fst hi
    have h2 := congrArg (fun x => x.2.1) hi
    exact ⟨rq, rfl, Eq.trans h1 m1, Eq.trans h2 m2⟩

/-- The bytes of the requests `rs`, each with its body. -/
def stream (rs : List (ReqHead × Bytes)) : Bytes := (rs.map (fun x => x.1.wire x.2)).flatten

end Pipe

open Pipe

/-- **C90 (requests)**: a client sends well-formed requests with their bodies; the handlers that are done have read the bodies
that the heads announce (`len`). Then the `i`-th handler that was started got the `i`-th request, with its method, its URL and
its body; and when the connection waits and nothing is on its way, all were handled. -/
theorem C90_requests (c : Cfg) {es : List Ev} (h : Calm c {} es) (ho : Own c {} es) {rs : List (ReqHead × Bytes)}
    (hw : ∀ x ∈ rs, x.1.Wf 100 8190 ∧ x.1.NoReserved) {len : Bytes → Nat} (hl : ∀ x ∈ rs, x.2.length = len (x.1.wire []))
    (hrx : (run c {} es).rx <+: stream rs)
    (ht : ∀ k raw, (k, raw) ∈ (run c {} es).started → k ∉ (run c {} es).running → (bodyOf k (run c {} es).log).length = len raw) :
    (∀ (i : Nat) k raw, (run c {} es).started[i]? = some (k, raw) → ∃ q b r, rs[i]? = some (q, b) ∧ raw = q.wire [] ∧ (run c {} es).reqs[k]? = some r ∧
      r.req.method = upper q.method ∧ r.req.url = q.url ∧ (k ∉ (run c {} es).running → bodyOf k (run c {} es).log = b)) ∧
    ((run c {} es).hb.isSome = true → (run c {} es).rx = stream rs → (run c {} es).started.length = rs.length) := by
  obtain ⟨⟨rest, hr, hbuf⟩, hm, hgr, _⟩ := C15_partial c h
  have j := j_run es [] (s := {}) j_init Flow.inv_init rfl h ho
  have i := Flow.inv_run es Flow.inv_init rfl h
  have g := good_run (c := c) (es := es) (s := {}) ⟨rfl, rfl, fun _ hx => by cases hx⟩ h
  rw [List.nil_append] at j
  generalize run c {} es = s at *
  obtain ⟨lg, _⟩ := log_groups (l := s.log) j.nodup hgr
  have hA : (((s.started.map (fun x => (x.2, bodyOf x.1 s.log))).map (fun x => x.1 ++ x.2)).flatten) = (s.log.map Act.bytes).flatten := by
    rw [lg, List.map_map]; rfl
  have hB : (((rs.map (fun x => (x.1.wire [], x.2))).map (fun x => x.1 ++ x.2)).flatten) = stream rs := by
    rw [List.map_map]; unfold stream; congr 1
    exact List.map_congr_left (fun x _ => by simp [ReqHead.wire])
  have min : ∀ x ∈ s.started.map (fun x => (x.2, bodyOf x.1 s.log)), Spec.Stream.Minimal x.1 := by
    intro x hx
    obtain ⟨⟨k, raw⟩, hk, rfl⟩ := List.mem_map.1 hx
    obtain ⟨a, ha, hs⟩ := List.mem_filterMap.1 hk
    cases a with
    | head k' raw' => cases hs; exact hm _ _ ha
    | body _ _ => cases hs
  have hrun : ∀ k ∈ s.running, ∃ l raw, s.started = l ++ [(k, raw)] := by
    intro k hk
    obtain ⟨l, e⟩ := lastHead_ks (i.cur k hk)
    unfold ks at e
    obtain ⟨l1, l2, e1, e2, e3⟩ := List.map_eq_append_iff.1 e
    match l2, e3 with
    | [x], e3 => simp at e3; exact ⟨l1, x.2, by rw [e1, ← e3]⟩
  have early : ∀ x ∈ s.started.dropLast, x.1 ∉ s.running := by
    intro x hx hk
    obtain ⟨l, raw, e⟩ := hrun x.1 hk
    have hn : (ks s).Nodup := j.nodup
    unfold ks at hn
    rw [e, List.map_append, List.nodup_append] at hn
    rw [e, List.dropLast_concat] at hx
    exact hn.2.2 x.1 (List.mem_map.2 ⟨x, hx, rfl⟩) x.1 (by simp) rfl
  obtain ⟨fut, hfut⟩ := hrx
  have al := align (len := len) (A := s.started.map (fun x => (x.2, bodyOf x.1 s.log))) (B := rs.map (fun x => (x.1.wire [], x.2))) (rest := rest ++ fut)
    min (fun x hx => by
      obtain ⟨y, hy, rfl⟩ := List.mem_map.1 hx
      exact wire_minimal (hw y hy).1)
    (fun x hx => by
      rw [← List.map_dropLast] at hx
      obtain ⟨y, hy, rfl⟩ := List.mem_map.1 hx
      exact ht y.1 y.2 (List.dropLast_subset _ hy) (early y hy))
    (fun x hx => by
      obtain ⟨y, hy, rfl⟩ := List.mem_map.1 hx
      exact hl y hy)
    (by rw [hA, hB, ← List.append_assoc, ← hr, hfut])
  obtain ⟨a1, a2, a3⟩ := al
  refine ⟨fun n k raw hn => ?_, fun hidle heq => ?_⟩
  · obtain ⟨t1, ht1⟩ := a1
    have hraw : ((rs.map (fun x => (x.1.wire [], x.2))).map (·.1))[n]? = some raw := by
      rw [← ht1, List.getElem?_append_left]
      · rw [List.map_map, List.getElem?_map, hn]; rfl
      · simp; exact (List.getElem?_eq_some_iff.1 hn).1
    rw [List.map_map, List.getElem?_map] at hraw
    cases hq : rs[n]? with
    | none => rw [hq] at hraw; cases hraw
    | some x =>
      rw [hq] at hraw
      simp only [Option.map_some, Option.some.injEq, Function.comp] at hraw
      obtain ⟨q, b⟩ := x
      have hx := hw _ (List.mem_of_getElem? hq)
      dsimp only at hraw
      subst hraw
      obtain ⟨r, r1, r2, r3⟩ := known_wire hx.1 hx.2 (j.known k _ (.inl (List.mem_of_getElem? hn)))
      refine ⟨q, b, r, rfl, rfl, r1, r2, r3, fun hk => ?_⟩
      have body : ∀ A' : List (Bytes × Bytes), A' <+: rs.map (fun x => (x.1.wire [], x.2)) → A'[n]? = some (q.wire [], bodyOf k s.log) → bodyOf k s.log = b := by
        rintro A' ⟨t, e⟩ hA'
        have : (rs.map (fun x => (x.1.wire [], x.2)))[n]? = some (q.wire [], bodyOf k s.log) := by
          rw [← e, List.getElem?_append_left (List.getElem?_eq_some_iff.1 hA').1]; exact hA'
        rw [List.getElem?_map, hq] at this
        simp at this
        exact this.symm
      by_cases hlast : s.running = []
      · refine body _ (a3 (fun x hx => ?_)).1 (by rw [List.getElem?_map, hn]; rfl)
        obtain ⟨y, hy, rfl⟩ := List.mem_map.1 hx
        exact ht y.1 y.2 hy (by rw [hlast]; simp)
      · obtain ⟨k', hk'⟩ := List.exists_mem_of_ne_nil _ hlast
        obtain ⟨l, raw', e⟩ := hrun k' hk'
        refine body _ a2 ?_
        rw [← List.map_dropLast, e, List.dropLast_concat, List.getElem?_map]
        rw [e] at hn
        by_cases hlt : n < l.length
        · rw [List.getElem?_append_left hlt] at hn
          rw [hn]; rfl
        · exfalso
          rw [List.getElem?_append_right (by omega)] at hn
          have : n - l.length = 0 := by
            have := (List.getElem?_eq_some_iff.1 hn).1
            simp at this; omega
          rw [this] at hn
          simp at hn
          exact hk (hn.1 ▸ hk')
  · obtain ⟨buf, hb⟩ := Option.isSome_iff_exists.1 hidle
    have hnr : s.running = [] := by
      have := i.one.wish hidle
      unfold load at this
      rw [hb] at this
      simp only [wish] at this
      exact List.eq_nil_of_length_eq_zero (by omega)
    have hf0 : fut = [] := by
      have := congrArg List.length hfut
      rw [heq] at this
      simp at this; exact this
    have := ((a3 (fun x hx => by
      obtain ⟨y, hy, rfl⟩ := List.mem_map.1 hx
      exact ht y.1 y.2 hy (by rw [hnr]; simp))).2 (by rw [hf0, List.append_nil, hbuf buf hb]; exact i.blank g.2.1 buf hb)).1
    have := congrArg List.length this
    simpa using this

namespace Pipe

/-- Both ways of reading, `D` what a response has to be and `R` the client, if the handlers started are those of the requests `rs`. -/
theorem pipeline_reads (c : Cfg) {es : List Ev} (h : Calm c {} es) (ho : Own c {} es) {rs : List (ReqHead × Bytes)}
    (r1 : ∀ (i : Nat) k raw, (run c {} es).started[i]? = some (k, raw) → ∃ q b, rs[i]? = some (q, b))
    (hq : (run c {} es).hb.isSome = true ∨ ((run c {} es).q1.head? = some none ∧ ¬ Expecting (run c {} es)))
    {D : Bytes → Bytes → Resp → Prop} {R : List Bytes → Bytes → Option (List Resp × Bytes)}
    (hR : ∀ l : List (Bytes × Bytes × Resp), (∀ x ∈ l, D x.1 x.2.1 x.2.2) → R (l.map (·.1)) (l.map (·.2.1)).flatten = some (l.map (·.2.2), []))
    {answer : Nat → Resp}
    (hd : ∀ (i : Nat) k raw q b, (run c {} es).started[i]? = some (k, raw) → rs[i]? = some (q, b) → D q.method (emitted k es) (answer i)) :
    R ((rs.take (run c {} es).started.length).map (·.1.method)) (run c {} es).written.flatten =
      some ((List.range (run c {} es).started.length).map answer, []) := by
  obtain ⟨_, _, _, o⟩ := C90_order c h ho
  rw [o hq]
  generalize hn : (run c {} es).started.length = n
  have key : ∀ i, i < n → ∃ k raw q b, (run c {} es).started[i]? = some (k, raw) ∧ rs[i]? = some (q, b) := by
    intro i hi
    obtain ⟨x, hx⟩ : ∃ x, (run c {} es).started[i]? = some x := ⟨_, List.getElem?_eq_getElem (by omega)⟩
    obtain ⟨q, b, hr⟩ := r1 i x.1 x.2 hx
    exact ⟨x.1, x.2, q, b, hx, hr⟩
  have hlen : n ≤ rs.length := by
    cases n with
    | zero => omega
    | succ m =>
      obtain ⟨_, _, _, _, _, hr⟩ := key m (by omega)
      exact (List.getElem?_eq_some_iff.1 hr).1
  let l : List (Bytes × Bytes × Resp) := (List.range n).map (fun i => ((rs[i]?.map (·.1.method)).getD [], ((run c {} es).started[i]?.map (fun x => emitted x.1 es)).getD [], answer i))
  have hl' : ∀ x ∈ l, D x.1 x.2.1 x.2.2 := by
    intro x hx
    obtain ⟨i, hi, rfl⟩ := List.mem_map.1 hx
    obtain ⟨k, raw, q, b, h1, h2⟩ := key i (by simpa using hi)
    simp only [h1, h2, Option.map_some, Option.getD_some]
    exact hd i k raw q b h1 h2
  have ra := hR l hl'
  have e1 : l.map (·.1) = (rs.take n).map (·.1.method) := by
    apply List.ext_getElem?
    intro i
    by_cases hi : i < n
    · obtain ⟨k, raw, q, b, h1, h2⟩ := key i hi
      simp [l, h2, hi, List.getElem?_take]
    · simp [l, hi, List.getElem?_take]
  have e2 : l.map (·.2.1) = (ks (run c {} es)).map (emitted · es) := by
    apply List.ext_getElem?
    intro i
    by_cases hi : i < n
    · obtain ⟨k, raw, q, b, h1, h2⟩ := key i hi
      simp [l, ks, h1, hi]
    · have : (run c {} es).started[i]? = none := List.getElem?_eq_none (by omega)
      simp [l, ks, hi, this]
  have e3 : l.map (·.2.2) = (List.range n).map answer := by simp [l]
  rw [e1, e2, e3] at ra
  exact ra

/-- Both ways of reading, `D` what a response has to be and `R` the client. -/
theorem pipeline_of (c : Cfg) {es : List Ev} (h : Calm c {} es) (ho : Own c {} es) {rs : List (ReqHead × Bytes)}
    (hw : ∀ x ∈ rs, x.1.Wf 100 8190 ∧ x.1.NoReserved) {len : Bytes → Nat} (hl : ∀ x ∈ rs, x.2.length = len (x.1.wire []))
    (hrx : (run c {} es).rx <+: stream rs)
    (ht : ∀ k raw, (k, raw) ∈ (run c {} es).started → k ∉ (run c {} es).running → (bodyOf k (run c {} es).log).length = len raw)
    (hq : (run c {} es).hb.isSome = true ∨ ((run c {} es).q1.head? = some none ∧ ¬ Expecting (run c {} es)))
    {D : Bytes → Bytes → Resp → Prop} {R : List Bytes → Bytes → Option (List Resp × Bytes)}
    (hR : ∀ l : List (Bytes × Bytes × Resp), (∀ x ∈ l, D x.1 x.2.1 x.2.2) → R (l.map (·.1)) (l.map (·.2.1)).flatten = some (l.map (·.2.2), []))
    {answer : Nat → Resp}
    (hd : ∀ (i : Nat) k raw q b, (run c {} es).started[i]? = some (k, raw) → rs[i]? = some (q, b) → D q.method (emitted k es) (answer i)) :
    R ((rs.take (run c {} es).started.length).map (·.1.method)) (run c {} es).written.flatten =
      some ((List.range (run c {} es).started.length).map answer, []) ∧
    ((run c {} es).hb.isSome = true → (run c {} es).rx = stream rs → (run c {} es).started.length = rs.length) := by
  obtain ⟨r1, r2⟩ := C90_requests c h ho hw hl hrx ht
  refine ⟨pipeline_reads c h ho (fun i k raw hi => ?_) hq hR hd, r2⟩
  obtain ⟨q, b, _, hr, _⟩ := r1 i k raw hi
  exact ⟨q, b, hr⟩

/-- Of a handler that sends `100 Continue` first, the client reads the answer that comes behind it. -/
theorem after_continue {v m bs : Bytes} {r : Resp} (hv : v = b!"1.1" ∨ v = b!"1.0") (h : Delimited m bs r) (hs : 200 ≤ r.status) :
    Answers m (b!"HTTP/" ++ v ++ b!" 100 Continue\r\n\r\n" ++ bs) r := by
  refine Answers.interim (i := ⟨100, [], []⟩) (fun closed tail => ?_) (by decide) (h.answers hs)
  rcases hv with rfl | rfl
  · show Option.map _ (Spec.Client.readBody closed m 100 [] tail) = _
    unfold Spec.Client.readBody
    rw [if_pos (.inr (.inl (by decide)))]; rfl
  · show Option.map _ (Spec.Client.readBody closed m 100 [] tail) = _
    unfold Spec.Client.readBody
    rw [if_pos (.inr (.inl (by decide)))]; rfl

end Pipe

/-- **C90**: if the response of each handler is delimited for the method of its request (C89), then whenever the connection waits,
or the send task comes to the end of a response, the client reads from what was written exactly those responses, the `i`-th one as the
answer to its `i`-th request. -/
theorem C90_pipeline (c : Cfg) {es : List Ev} (h : Calm c {} es) (ho : Own c {} es) {rs : List (ReqHead × Bytes)}
    (hw : ∀ x ∈ rs, x.1.Wf 100 8190 ∧ x.1.NoReserved) {len : Bytes → Nat} (hl : ∀ x ∈ rs, x.2.length = len (x.1.wire []))
    (hrx : (run c {} es).rx <+: stream rs)
    (ht : ∀ k raw, (k, raw) ∈ (run c {} es).started → k ∉ (run c {} es).running → (bodyOf k (run c {} es).log).length = len raw)
    (hq : (run c {} es).hb.isSome = true ∨ ((run c {} es).q1.head? = some none ∧ ¬ Expecting (run c {} es)))
    {answer : Nat → Resp}
    (hd : ∀ (i : Nat) k raw q b, (run c {} es).started[i]? = some (k, raw) → rs[i]? = some (q, b) → Delimited q.method (emitted k es) (answer i)) (closed : Bool) :
    readAll closed ((rs.take (run c {} es).started.length).map (·.1.method)) (run c {} es).written.flatten =
      some ((List.range (run c {} es).started.length).map answer, []) ∧
    ((run c {} es).hb.isSome = true → (run c {} es).rx = stream rs → (run c {} es).started.length = rs.length) := by
  refine pipeline_of c h ho hw hl hrx ht hq (D := Delimited) (R := readAll closed) (fun l hl' => ?_) hd
  have ra := readAll_flatten (closed := closed) hl' [] []
  simpa only [List.append_nil, readAll, Option.map_some] using ra

/-- **C90 (100 Continue)**: the same for requests that ask for `100 Continue` (`Expect`), which a handler sends when it first
reads the body (C18): a client that skips interim responses (RFC 9110, 15.2) reads the answers, the `i`-th one as the answer to
its `i`-th request, if each handler's output is an answer for such a client (`Pipe.after_continue`). The handler sends it once, before the body comes
(`Calm`). -/
theorem C90_continue (c : Cfg) {es : List Ev} (h : Calm c {} es) (ho : Own c {} es) {rs : List (ReqHead × Bytes)}
    (hw : ∀ x ∈ rs, x.1.Wf 100 8190 ∧ x.1.NoReserved) {len : Bytes → Nat} (hl : ∀ x ∈ rs, x.2.length = len (x.1.wire []))
    (hrx : (run c {} es).rx <+: stream rs)
    (ht : ∀ k raw, (k, raw) ∈ (run c {} es).started → k ∉ (run c {} es).running → (bodyOf k (run c {} es).log).length = len raw)
    (hq : (run c {} es).hb.isSome = true ∨ ((run c {} es).q1.head? = some none ∧ ¬ Expecting (run c {} es)))
    {answer : Nat → Resp}
    (hd : ∀ (i : Nat) k raw q b, (run c {} es).started[i]? = some (k, raw) → rs[i]? = some (q, b) → Answers q.method (emitted k es) (answer i)) (closed : Bool) :
    readAnswers closed ((rs.take (run c {} es).started.length).map (·.1.method)) (run c {} es).written.flatten =
      some ((List.range (run c {} es).started.length).map answer, []) ∧
    ((run c {} es).hb.isSome = true → (run c {} es).rx = stream rs → (run c {} es).started.length = rs.length) := by
  refine pipeline_of c h ho hw hl hrx ht hq (D := Answers) (R := readAnswers closed) (fun l hl' => ?_) hd
  have ra := readAnswers_flatten (closed := closed) hl' [] []
  simpa only [List.append_nil, readAnswers, Option.map_some] using ra

namespace Pipe

def ownB (s : St) : Ev → Bool
  | .emit k _ => s.running.contains k
  | .finish _ => false
  | _ => true

def OwnB (c : Cfg) : St → List Ev → Bool
  | _, [] => true
  | s, e :: es => ownB s e && OwnB c (step c s e) es

theorem OwnB.own {c : Cfg} : ∀ {es : List Ev} {s : St}, OwnB c s es = true → Own c s es
  | [], _, _ => trivial
  | e :: _, s, h => by
    simp only [OwnB, Bool.and_eq_true] at h
    refine ⟨?_, OwnB.own h.2⟩
    have := h.1
    cases e <;> first | trivial | (simpa [ownB, Reply.own] using this)

/-- What the response model sends for these three: data returned, a generator, and data for HEAD. -/
def out1 : Bytes := wireBytes (Model.Response.handleRequest {} { handler := .coro [] (.data b!"hello") } { keepalive := true }).log
def out2 : Bytes := wireBytes (Model.Response.handleRequest {} { handler := .gen [([], b!"ab"), ([], b!"cd")] [] none } { keepalive := true }).log
def out3 : Bytes := wireBytes (Model.Response.handleRequest { method := b!"HEAD" } { opt := { chunked := some false }, handler := .coro [] (.data b!"hello") } { keepalive := true }).log

def post : ReqHead := ⟨b!"POST", b!"/p", b!"1.1", [⟨b!"Host", true, b!"a"⟩, ⟨b!"Content-Length", true, b!"3"⟩]⟩
def get2 : ReqHead := ⟨b!"GET", b!"/g?x", b!"1.1", [⟨b!"Host", true, b!"a"⟩]⟩
def head3 : ReqHead := ⟨b!"HEAD", b!"/h", b!"1.1", [⟨b!"Host", false, b!"a"⟩]⟩
def rs3 : List (ReqHead × Bytes) := [(post, b!"xyz"), (get2, []), (head3, [])]

/-- The body comes in two parts, the other two requests in one segment while the first handler runs. -/
def es3 : List Ev :=
  [.data (post.wire b!"x"), .head 0, .head 0, .take 0, .data b!"yz", .recv 0, .recv 0, .take 0, .take 0, .emit 0 (out1.take 30), .send, .emit 0 (out1.drop 30), .leave 0 true, .send, .send,
   .data (get2.wire (head3.wire [])), .head 1, .head 1, .emit 1 out2, .leave 1 true, .send, .send, .head 2, .emit 2 out3, .leave 2 true, .send, .send]

end Pipe
open Pipe

/-- The hypotheses on a concrete connection, and what the client reads. -/
example : Calm {} {} es3 ∧ Own {} {} es3 ∧ (run {} {} es3).rx = stream rs3 ∧ (run {} {} es3).hb = some [] ∧
    (∀ x ∈ rs3, x.2.length = (fun raw => if raw = post.wire [] then 3 else 0) (x.1.wire [])) ∧
    (∀ x ∈ (run {} {} es3).started, (bodyOf x.1 (run {} {} es3).log).length = (fun raw => if raw = post.wire [] then 3 else 0) x.2) ∧
    (readAll false (rs3.map (·.1.method)) (run {} {} es3).written.flatten).map (fun p => (p.1.map (fun r => (r.status, r.body)), p.2)) =
      some ([(200, b!"hello"), (200, b!"abcd"), (200, [])], []) :=
  ⟨CalmB.calm (by decide +kernel), OwnB.own (by decide +kernel), by decide +kernel, by decide +kernel, by decide +kernel, by decide +kernel, by decide +kernel⟩

/-- Two requests on one connection; the first asks for `100 Continue`, its handler sends it, then the body comes. -/
def Pipe.expect : ReqHead := ⟨b!"POST", b!"/p", b!"1.1", [⟨b!"Host", true, b!"a"⟩, ⟨b!"Content-Length", true, b!"3"⟩, ⟨b!"Expect", true, b!"100-continue"⟩]⟩
def Pipe.esE : List Ev :=
  [.data (expect.wire []), .head 0, .emit 0 b!"HTTP/1.1 100 Continue\r\n\r\n", .mark 0 true, .send, .send, .data b!"xyz", .recv 0, .recv 0, .take 0, .take 0, .emit 0 out1, .leave 0 true, .send, .send,
   .data (get2.wire []), .head 1, .head 1, .emit 1 out2, .leave 1 true, .send, .send]
example : Calm {} {} esE ∧ Own {} {} esE ∧ (run {} {} esE).rx = stream [(expect, b!"xyz"), (get2, [])] ∧ (run {} {} esE).hb = some [] ∧
    (∀ x ∈ (run {} {} esE).started, (bodyOf x.1 (run {} {} esE).log).length = (fun raw => if raw = expect.wire [] then 3 else 0) x.2) ∧
    (readAnswers false [b!"POST", b!"GET"] (run {} {} esE).written.flatten).map (fun p => (p.1.map (fun r => (r.status, r.body)), p.2)) =
      some ([(200, b!"hello"), (200, b!"abcd")], []) :=
  ⟨CalmB.calm (by decide +kernel), OwnB.own (by decide +kernel), by decide +kernel, by decide +kernel, by decide +kernel, by decide +kernel⟩

example : ∀ x ∈ rs3, x.1.Wf 100 8190 ∧ x.1.NoReserved := by
  intro x hx
  simp only [rs3, List.mem_cons, List.not_mem_nil, or_false] at hx
  rcases hx with rfl | rfl | rfl <;>
    exact ⟨⟨by decide +kernel, by decide +kernel, by decide +kernel, by
      intro f hf
      simp only [post, get2, head3, List.mem_cons, List.not_mem_nil, or_false] at hf
      rcases hf with rfl | rfl <;> exact ⟨by decide, by decide +kernel, by decide +kernel, by decide +kernel, by decide +kernel, by decide +kernel⟩,
      fun _ => ⟨_, List.mem_cons_self, by decide +kernel⟩, by decide, by decide +kernel, by decide +kernel⟩, by
      intro f hf
      simp only [post, get2, head3, List.mem_cons, List.not_mem_nil, or_false] at hf
      rcases hf with rfl | rfl <;> decide +kernel⟩

/-- **C90 fails** when a handler ends while a segment is still being queued (C16_refuted): the third answer of the connection
is to a request that the client did not send. -/
theorem C90_refuted : ∃ (es : List Ev) (rs : List ReqHead), (run { bufferSize := 20 } {} es).rx = stream (rs.map (·, [])) ∧
    rs[2]?.map (fun q => (q.method, q.url)) = some (b!"GET", b!"/3") ∧
    (run { bufferSize := 20 } {} es).started[2]?.map (fun x => ((run { bufferSize := 20 } {} es).reqs[x.1]?.map (fun r => (r.req.method, r.req.url)))) =
      some (some (b!"ET", b!"/4")) :=
  ⟨fiveRequests, [⟨b!"GET", b!"/1", b!"1.1", []⟩, ⟨b!"GET", b!"/2", b!"1.1", []⟩, ⟨b!"GET", b!"/3", b!"1.1", []⟩, ⟨b!"GET", b!"/4", b!"1.1", []⟩, ⟨b!"GET", b!"/5", b!"1.1", []⟩],
    by decide +kernel⟩

/-- **C90 fails** when a handler begins to read the body twice before the send task took the end of `100 Continue`: it is sent
twice (http_request.py:175-176), and the second marker is taken for the end of the response. The rest of the body is then handled as a request,
while the handler still runs. -/
theorem C90_refuted_continue : ∃ (q : ReqHead) (b : Bytes) (es : List Ev), q.Wf 100 8190 ∧ q.NoReserved ∧ Own {} {} es ∧
    q.fields.map (·.name) = [b!"Host", b!"Content-Length", b!"Expect"] ∧ (run {} {} es).rx = stream [(q, b)] ∧
    (run {} {} es).started = [(0, q.wire []), (1, b!"GET /b HTTP/1.1\r\n\r\n")] ∧ (run {} {} es).running = [0, 1] := by
  refine ⟨⟨b!"POST", b!"/p", b!"1.1", [⟨b!"Host", true, b!"a"⟩, ⟨b!"Content-Length", true, b!"21"⟩, ⟨b!"Expect", true, b!"100-continue"⟩]⟩, b!"abGET /b HTTP/1.1\r\n\r\n",
    [.data b!"POST /p HTTP/1.1\r\nHost: a\r\nContent-Length: 21\r\nExpect: 100-continue\r\n\r\nab", .head 0, .head 0,
      .emit 0 b!"HTTP/1.1 100 Continue\r\n\r\n", .mark 0 true, .take 0, .emit 0 b!"HTTP/1.1 100 Continue\r\n\r\n", .mark 0 true, .send, .send, .send, .send,
      .data b!"GET /b HTTP/1.1\r\n\r\n", .head 1, .head 1], ?_, ?_, OwnB.own (by decide +kernel), by decide +kernel, by decide +kernel, by decide +kernel, by decide +kernel⟩
  · exact ⟨by decide +kernel, by decide +kernel, by decide +kernel, by
      intro f hf
      simp only [List.mem_cons, List.not_mem_nil, or_false] at hf
      rcases hf with rfl | rfl | rfl <;> exact ⟨by decide, by decide +kernel, by decide +kernel, by decide +kernel, by decide +kernel, by decide +kernel⟩,
      fun _ => ⟨_, List.mem_cons_self, by decide +kernel⟩, by decide, by decide +kernel, by decide +kernel⟩
  · intro f hf
    simp only [List.mem_cons, List.not_mem_nil, or_false] at hf
    rcases hf with rfl | rfl | rfl <;> decide +kernel

/-- **C90 fails** for a method in lower case: the server takes `head` for HEAD and leaves the body out, a client that sends
`head` (methods are case-sensitive, RFC 9110, 9.1) waits for it. -/
theorem C90_refuted_case : ∃ (q : ReqHead) (es : List Ev), (run {} {} es).rx = q.wire [] ∧
    ((run {} {} es).reqs.map (·.req.method)) = [b!"HEAD"] ∧ (run {} {} es).written.flatten = out3 ∧ readResponse false q.method out3 = none :=
  ⟨⟨b!"head", b!"/", b!"1.1", [⟨b!"Host", true, b!"a"⟩]⟩, [.data b!"head / HTTP/1.1\r\nHost: a\r\n\r\n", .head 0, .emit 0 out3, .leave 0 true, .send, .send], by decide +kernel⟩

end Verif
