import Verif.Model.Form
import Verif.Props.Body
/-!
# C54: form parsing and its limit
-/
namespace Verif
open Py Model.Upload Model.BodyStream Spec.Body Proofs.BodyStream

namespace Form
open Model.Form

/-- The pieces of the segment that is being put. -/
def curBytes (s : St) : Bytes := match s.cur with | some (r, _) => r.flatten | none => []

/-- A body with Content-Length `n`; `T`: all bytes that the client sends; `P`: those that have been put into the queue. `m`:
the end marker has been put. -/
structure Inv (c : Cfg) (n : Nat) (T P : Bytes) (m : Bool) (taken rest : List Bytes) (s : St) : Prop where
  put : taken.flatten ++ rest.flatten = P
  total : P ++ curBytes s ++ s.segs.flatten = T
  queue : s.queue = rest.map some ++ (if m then [none] else [])
  consumed : s.consumed = taken.flatten.length
  body : s.body = taken.flatten.take n
  size : match s.cur with | some (r, k) => P.length + r.flatten.length = s.bodySize + k | none => P.length = s.bodySize
  yes : m = true → s.stopped = true ∧ s.cur = none ∧ n ≤ s.bodySize
  no : m = false → s.stopped = false ∧ s.bodySize < n
  post : s.res = none → s.post = .empty
  res : match s.res with
    | none => True
    | some (.parsed b) => m = true ∧ 2 < s.bodySize ∧ s.bodySize ≤ c.limit ∧ b = P.take n ∧ s.post = .parsed b
    | some .empty => m = true ∧ ¬ (2 < s.bodySize ∧ s.bodySize ≤ c.limit) ∧ s.post = .empty
    | some .valueError => c.limit < s.bodySize ∧ s.post = .empty
    | _ => False

theorem count_fields (c : Cfg) (k : Nat) (s : St) :
    (count c k s).cur = none ∧ (count c k s).segs = s.segs ∧ (count c k s).res = s.res ∧ (count c k s).post = s.post := by
  unfold count
  rcases c.cl with _ | l
  · exact ⟨rfl, rfl, rfl, rfl⟩
  · dsimp only; by_cases h : decide (s.bodySize + k ≥ l) = true
    · rw [if_pos h]; exact ⟨rfl, rfl, rfl, rfl⟩
    · rw [if_neg h]; exact ⟨rfl, rfl, rfl, rfl⟩

theorem yielded_queue (c : Cfg) (y : List Bytes) (s : St) : (yielded c y s).queue = s.queue := by
  unfold yielded; dsimp only; split <;> rfl

theorem inv_count {c : Cfg} {n : Nat} {T P : Bytes} {taken rest : List Bytes} {s : St} {k : Nat}
    (hc : c.cl = some n) (hn : n ≤ c.maxBody) (h1 : taken.flatten ++ rest.flatten = P)
    (h2 : P ++ s.segs.flatten = T) (h3 : s.queue = rest.map some) (h4 : s.consumed = taken.flatten.length)
    (h5 : s.body = taken.flatten.take n) (h6 : P.length = s.bodySize + k) (h7 : s.stopped = false)
    (h8 : s.res = none → s.post = .empty) (h9 : ∀ r, s.res = some r → r = .valueError ∧ c.limit < s.bodySize ∧ s.post = .empty) :
    ∃ m, Inv c n T P m taken rest (count c k s) := by
  have hr : ∀ (t : St), t.res = s.res → t.post = s.post → s.bodySize ≤ t.bodySize → ∀ m : Bool,
      match t.res with
      | none => True
      | some (.parsed b) => m = true ∧ 2 < t.bodySize ∧ t.bodySize ≤ c.limit ∧ b = P.take n ∧ t.post = .parsed b
      | some .empty => m = true ∧ ¬ (2 < t.bodySize ∧ t.bodySize ≤ c.limit) ∧ t.post = .empty
      | some .valueError => c.limit < t.bodySize ∧ t.post = .empty
      | _ => False := by
    intro t e1 e2 e3 m
    rw [e1]
    cases hres : s.res with
    | none => trivial
    | some r =>
      obtain ⟨rfl, h, h'⟩ := h9 r hres
      exact ⟨by omega, by rw [e2]; exact h'⟩
  unfold count
  rw [hc]
  dsimp only
  by_cases hd : s.bodySize + k ≥ n
  · rw [if_pos (by simpa using hd)]
    exact ⟨true, h1, by simpa [curBytes] using h2, by simp [h3], h4, h5, by dsimp only; omega, fun _ => ⟨rfl, rfl, hd⟩, fun h => (by cases h), h8,
      by apply hr <;> first | rfl | exact Nat.le_add_right _ _⟩
  · rw [if_neg (by simpa using hd)]
    exact ⟨false, h1, by simpa [curBytes] using h2, by simp [h3], h4, h5, by dsimp only; omega, fun h => (by cases h),
      fun _ => ⟨by simp [h7]; omega, by dsimp only; omega⟩, h8, by apply hr <;> first | rfl | exact Nat.le_add_right _ _⟩

theorem inv_put {c : Cfg} {n : Nat} {T P : Bytes} {m : Bool} {taken rest : List Bytes} {s : St}
    (hc : c.cl = some n) (hn : n ≤ c.maxBody) (hb : 0 < c.bs) (i : Inv c n T P m taken rest s) :
    ∃ P' m' rest', Inv c n T P' m' taken rest' (Model.Form.put c s) := by
  obtain ⟨h1, h2, h3, h4, h5, h6, h7, h8, h9, h10⟩ := i
  cases m with
  | true =>
    obtain ⟨a, b, d⟩ := h7 rfl
    have hs : Model.Form.put c s = s := by
      unfold Model.Form.put
      rw [b]
      dsimp only
      split
      · rfl
      · rw [if_pos a]
    rw [hs]
    exact ⟨P, true, rest, h1, h2, h3, h4, h5, h6, h7, h8, h9, h10⟩
  | false =>
    obtain ⟨a, b⟩ := h8 rfl
    have hval : ∀ r, s.res = some r → r = .valueError ∧ c.limit < s.bodySize ∧ s.post = .empty := by
      intro r hr
      rw [hr] at h10
      cases r with
      | parsed b => exact absurd h10.1 (by simp)
      | empty => exact absurd h10.1 (by simp)
      | valueError => exact ⟨rfl, h10⟩
      | badRequest => exact h10.elim
      | tooLarge => exact h10.elim
    unfold Model.Form.put
    split
    · next d r k hcur =>
      rw [hcur] at h6
      refine ⟨P ++ d, false, rest ++ [d], by simp [← h1], ?_, by simp [h3], h4, h5, ?_, fun h => (by cases h), fun _ => ⟨a, b⟩, h9, ?_⟩
      · rw [← h2]; simp [curBytes, hcur]
      · simp only [List.flatten_cons, List.length_append] at h6 ⊢; omega
      · cases hr : s.res with
        | none => simp
        | some r => obtain ⟨rfl, x⟩ := hval r hr; simpa using x
    · next k hcur =>
      rw [hcur] at h6
      obtain ⟨m', i'⟩ := inv_count (T := T) (s := s) (k := k) hc hn h1 (by rw [← h2]; simp [curBytes, hcur]) (by simpa using h3) h4 h5
        (by simpa using h6) a h9 hval
      exact ⟨P, m', rest, i'⟩
    · next hcur =>
      rw [hcur] at h6
      split
      · exact ⟨P, false, rest, h1, h2, h3, h4, h5, by rw [hcur]; exact h6, h7, h8, h9, h10⟩
      · next seg r hsegs =>
        rw [if_neg (by simp [a])]
        refine ⟨P, false, rest, h1, ?_, h3, h4, h5, ?_, fun h => (by cases h), fun _ => ⟨a, b⟩, h9, h10⟩
        · rw [← h2]; simp [curBytes, hcur, hsegs, pieces_flatten hb]
        · dsimp only; rw [pieces_flatten hb]; dsimp only at h6; omega

theorem inv_read {c : Cfg} {n : Nat} {T P : Bytes} {m : Bool} {taken rest : List Bytes} {s : St}
    (hc : c.cl = some n) (hk : c.chunked = false) (i : Inv c n T P m taken rest s) :
    ∃ taken' rest', Inv c n T P m taken' rest' (Model.Form.read c s) := by
  have i0 := i
  obtain ⟨h1, h2, h3, h4, h5, h6, h7, h8, h9, h10⟩ := i
  unfold Model.Form.read
  cases hres : s.res with
  | some r => simp only [Option.isSome_some, if_true]; exact ⟨taken, rest, i0⟩
  | none =>
    rw [hres] at h9
    simp only [Option.isSome_none, Bool.false_eq_true, if_false, hk]
    cases rest with
    | nil =>
      cases m with
      | false => rw [h3]; exact ⟨taken, [], i0⟩
      | true =>
        have hq : s.queue = [none] := by rw [h3]; rfl
        rw [hq]
        dsimp only [finish]
        refine ⟨taken, [], h1, h2, h3, h4, h5, h6, h7, h8, fun h => (by cases h), ?_⟩
        have hp : taken.flatten = P := by simpa using h1
        dsimp only
        by_cases hl : 2 < s.bodySize ∧ s.bodySize ≤ c.limit
        · rw [if_pos hl]
          exact ⟨rfl, hl.1, hl.2, by rw [h5, hp], rfl⟩
        · rw [if_neg hl, h9 rfl]
          exact ⟨rfl, hl, rfl⟩
    | cons d rest =>
      have hq : s.queue = some d :: (rest.map some ++ (if m then [none] else [])) := by rw [h3]; rfl
      rw [hq]
      simp only [hc]
      have hdata : (if n < s.consumed + d.length then sliceTo d ((n : Int) - ((s.consumed + d.length : Nat) : Int)) else d) = d.take (n - s.consumed) := by
        have := rawLoop_flatten n [d] s.consumed
        simp only [rawLoop, List.flatten_cons, List.flatten_nil, List.append_nil] at this
        rw [← this]
        by_cases hl : n < s.consumed + d.length
        · rw [if_pos hl, if_pos ⟨by omega, by omega⟩]
        · rw [if_neg hl, if_neg (by omega)]
      rw [hdata]
      have hb : s.body ++ d.take (n - s.consumed) = (taken ++ [d]).flatten.take n := by
        rw [h5, h4]; simp [List.take_append]
      have base : ∀ r : Option Res, (r = none ∨ (r = some .valueError ∧ c.limit < s.bodySize)) →
          Inv c n T P m (taken ++ [d]) rest
            { s with queue := rest.map some ++ (if m then [none] else []), consumed := s.consumed + d.length,
                     body := s.body ++ d.take (n - s.consumed), res := r } := by
        intro r hr
        refine ⟨by simpa using h1, h2, rfl, by simp [h4], hb, h6, h7, h8, fun _ => h9 rfl, ?_⟩
        rcases hr with rfl | ⟨rfl, hr⟩
        · trivial
        · exact ⟨hr, h9 rfl⟩
      refine ⟨taken ++ [d], rest, ?_⟩
      unfold yielded
      simp only [List.flatten_cons, List.flatten_nil, List.append_nil, ne_eq, List.cons_ne_self, not_false_eq_true, true_and]
      split
      · next hl => exact base (some .valueError) (.inr ⟨rfl, hl⟩)
      · have := base none (.inl rfl)
        exact this

theorem inv_init {c : Cfg} {n : Nat} (hc : c.cl = some n) (hn : n ≤ c.maxBody) (first : Bytes) (segs : List Bytes) :
    ∃ m rest, Inv c n (first ++ segs.flatten) first m [] rest (init c first segs) := by
  have hi : init c first segs = count c first.length { segs, queue := (pieces 16384 first).map some } := by
    unfold init; rw [hc]; dsimp only; rw [if_neg (by omega)]
  rw [hi]
  have hp : (pieces 16384 first).flatten = first := pieces_flatten (by omega) first
  obtain ⟨m, i⟩ := inv_count (T := first ++ segs.flatten) (P := first) (taken := []) (rest := pieces 16384 first)
    (s := { segs, queue := (pieces 16384 first).map some }) (k := first.length) hc hn
    (by simpa using hp) rfl rfl rfl (by simp) (by simp) rfl (fun _ => rfl) (fun r h => (by cases h))
  exact ⟨m, _, i⟩

theorem inv_run {c : Cfg} {n : Nat} (hc : c.cl = some n) (hk : c.chunked = false) (hn : n ≤ c.maxBody) (hb : 0 < c.bs)
    {T : Bytes} (es : List Ev) : ∀ (s : St), (∃ P m taken rest, Inv c n T P m taken rest s) →
      ∃ P m taken rest, Inv c n T P m taken rest (run c s es) := by
  induction es with
  | nil => exact fun s h => h
  | cons e es ih =>
    rintro s ⟨P, m, taken, rest, i⟩
    refine ih _ ?_
    cases e with
    | put => obtain ⟨P', m', rest', i'⟩ := inv_put hc hn hb i; exact ⟨P', m', taken, rest', i'⟩
    | read => obtain ⟨t, r, i'⟩ := inv_read hc hk i; exact ⟨P, m, t, r, i'⟩

theorem inv_all {c : Cfg} {n : Nat} (hc : c.cl = some n) (hk : c.chunked = false) (hn : n ≤ c.maxBody) (hb : 0 < c.bs)
    (first : Bytes) (segs : List Bytes) (es : List Ev) :
    ∃ P m taken rest, Inv c n (first ++ segs.flatten) P m taken rest (run c (init c first segs) es) := by
  obtain ⟨m, rest, i⟩ := inv_init hc hn first segs
  exact inv_run hc hk hn hb es _ ⟨first, m, [], rest, i⟩

theorem Inv.size_le {c : Cfg} {n : Nat} {T P : Bytes} {m : Bool} {taken rest : List Bytes} {s : St} (i : Inv c n T P m taken rest s)
    (hm : m = true) : P.length = s.bodySize ∧ P <+: T := by
  have := (i.yes hm).2.1
  have h6 := i.size
  rw [this] at h6
  exact ⟨h6, ⟨curBytes s ++ s.segs.flatten, by rw [← i.total, List.append_assoc]⟩⟩

/-- What remains to be done before the end marker is there. -/
def todo (c : Cfg) (s : St) : Nat :=
  (match s.cur with | some (r, _) => r.length + 1 | none => 0) + (s.segs.map (fun d => (pieces c.bs d).length + 2)).sum

theorem puts_end {c : Cfg} {n : Nat} {T : Bytes} (hc : c.cl = some n) (hn : n ≤ c.maxBody) (hb : 0 < c.bs) (hT : n ≤ T.length) (k : Nat) :
    ∀ (s : St) (P : Bytes) (m : Bool) (taken rest : List Bytes), Inv c n T P m taken rest s → todo c s ≤ k →
      ∃ P' rest', Inv c n T P' true taken rest' (run c s (List.replicate k .put)) := by
  induction k with
  | zero =>
    intro s P m taken rest i h
    cases m with
    | true => exact ⟨P, rest, i⟩
    | false =>
      exfalso
      have h1 := i.no rfl
      have h2 := i.size
      have h3 := i.total
      unfold todo at h
      cases hcur : s.cur with
      | some x => rw [hcur] at h; dsimp only at h; omega
      | none =>
        rw [hcur] at h h2
        cases hs : s.segs with
        | cons d r => rw [hs] at h; simp at h
        | nil =>
          rw [hs] at h3
          simp only [curBytes, hcur, List.append_nil, List.flatten_nil] at h3
          dsimp only at h2
          rw [h3] at h2; omega
  | succ k ih =>
    intro s P m taken rest i h
    cases m with
    | true =>
      obtain ⟨P', m', rest', i'⟩ := inv_put hc hn hb i
      have : Model.Form.put c s = s := by
        obtain ⟨a, b, _⟩ := i.yes rfl
        unfold Model.Form.put
        rw [b]
        dsimp only
        split
        · rfl
        · rw [if_pos a]
      have all : ∀ j, run c s (List.replicate j .put) = s := by
        intro j
        induction j with
        | zero => rfl
        | succ j ihj => rw [List.replicate_succ]; show run c (Model.Form.put c s) _ = s; rw [this, ihj]
      rw [all]; exact ⟨P, rest, i⟩
    | false =>
      obtain ⟨P', m', rest', i'⟩ := inv_put hc hn hb i
      have hlt : todo c (Model.Form.put c s) ≤ k := by
        have hst := (i.no rfl).1
        unfold Model.Form.put
        split
        · next d r j hcur => unfold todo at h ⊢; rw [hcur] at h; simp only [List.length_cons] at h ⊢; omega
        · next j hcur =>
          have e1 := count_fields c j s
          unfold todo at h ⊢; rw [hcur] at h; rw [e1.1, e1.2.1]; simp only [List.length_nil] at h ⊢; omega
        · next hcur =>
          split
          · next hs => unfold todo at h ⊢; rw [hcur, hs]; simp
          · next d r hs =>
            rw [if_neg (by simp [hst])]
            unfold todo at h ⊢; rw [hcur, hs] at h; simp only [List.map_cons, List.sum_cons] at h ⊢; omega
      exact ih _ P' m' taken rest' i' hlt

theorem reads_end {c : Cfg} {n : Nat} {T : Bytes} (hc : c.cl = some n) (hk : c.chunked = false) (k : Nat) :
    ∀ (s : St) (P : Bytes) (taken rest : List Bytes), Inv c n T P true taken rest s → rest.length < k →
      (run c s (List.replicate k .read)).res.isSome = true := by
  have keep : ∀ (j : Nat) (s : St), s.res.isSome = true → (run c s (List.replicate j .read)).res.isSome = true := by
    intro j
    induction j with
    | zero => exact fun s h => h
    | succ j ih =>
      intro s h
      rw [List.replicate_succ]
      refine ih (Model.Form.read c s) ?_
      unfold Model.Form.read; rw [if_pos h]; exact h
  induction k with
  | zero => intro s P t r _ h; omega
  | succ k ih =>
    intro s P taken rest i h
    rw [List.replicate_succ]
    show (run c (Model.Form.read c s) _).res.isSome = true
    by_cases hr : (Model.Form.read c s).res.isSome = true
    · exact keep k _ hr
    · cases rest with
      | nil =>
        exfalso
        apply hr
        unfold Model.Form.read
        by_cases hs : s.res.isSome = true
        · rw [if_pos hs]; exact hs
        · rw [if_neg hs, hk, i.queue]; rfl
      | cons d rest =>
        obtain ⟨t', r', i'⟩ := inv_read hc hk i
        have hq : (Model.Form.read c s).queue = rest.map some ++ [none] := by
          have hs : ¬ s.res.isSome = true := by
            intro hs; apply hr; unfold Model.Form.read; rw [if_pos hs]; exact hs
          unfold Model.Form.read
          have hq : s.queue = some d :: (rest.map some ++ [none]) := by rw [i.queue]; rfl
          rw [if_neg hs, hk, hq]
          simp only [Bool.false_eq_true, if_false, yielded_queue]
        have hl : r'.length = rest.length := by
          have := i'.queue
          rw [hq] at this
          have := congrArg List.length this
          simp only [List.length_append, List.length_map, List.length_cons, List.length_nil, if_true] at this
          omega
        exact ih _ P t' r' i' (by simp only [List.length_cons] at h; omega)

end Form
open Form Model.Form

/-! ## C54, Content-Length -/

/-- **C54**, bodies with Content-Length `n`, every segmentation and schedule: if `form()` ends, then a body within the limit
has been parsed unchanged (bodies of up to two bytes give an empty form); a longer one has not been parsed. Missing: chunked
bodies, and that a body over the limit leads to an exception, both of which are false. -/
theorem C54_partial {c : Cfg} {n : Nat} (hc : c.cl = some n) (hk : c.chunked = false) (hn : n ≤ c.maxBody) (hb : 0 < c.bs)
    (first : Bytes) (segs : List Bytes) (hlen : (first ++ segs.flatten).length = n) (es : List Ev) {r : Res}
    (h : (run c (init c first segs) es).res = some r) :
    (n ≤ c.limit → r = if 2 < n then .parsed (first ++ segs.flatten) else .empty) ∧ (c.limit < n → r = .valueError ∨ r = .empty) := by
  obtain ⟨P, m, taken, rest, i⟩ := inv_all hc hk hn hb first segs es
  have hr := i.res
  have hle : (run c (init c first segs) es).bodySize ≤ n := by
    have h1 := i.size
    have h2 := congrArg List.length i.total
    rw [hlen] at h2
    simp only [List.length_append] at h2
    split at h1
    · next x k hx =>
      have hcb : curBytes (run c (init c first segs) es) = x.flatten := by unfold curBytes; rw [hx]
      by_cases hm : m = true
      · rw [(i.yes hm).2.1] at hx; cases hx
      · have := (i.no (by simpa using hm)).2; omega
    · omega
  have hfull : m = true → (run c (init c first segs) es).bodySize = n ∧ P = first ++ segs.flatten := by
    intro hm
    have h1 := i.size_le hm
    have h2 := (i.yes hm).2.2
    exact ⟨by omega, List.IsPrefix.eq_of_length h1.2 (by omega)⟩
  rw [h] at hr
  cases r with
  | parsed b =>
    obtain ⟨hm, h1, h2, h3, h4⟩ := hr
    obtain ⟨e1, e2⟩ := hfull hm
    refine ⟨fun _ => ?_, fun hl => by omega⟩
    rw [if_pos (by omega), h3, e2, List.take_of_length_le (by omega)]
  | empty =>
    obtain ⟨hm, h1, h2⟩ := hr
    obtain ⟨e1, e2⟩ := hfull hm
    refine ⟨fun hl => ?_, fun _ => .inr rfl⟩
    rw [if_neg (by omega)]
  | valueError => exact ⟨fun hl => by have := hr.1; omega, fun _ => .inl rfl⟩
  | badRequest => exact hr.elim
  | tooLarge => exact hr.elim

/-- Whatever the client sends, also behind the body: what is parsed is the first `n` bytes, and they are within the limit. -/
theorem C54_never_larger {c : Cfg} {n : Nat} (hc : c.cl = some n) (hk : c.chunked = false) (hn : n ≤ c.maxBody) (hb : 0 < c.bs)
    (first : Bytes) (segs : List Bytes) (es : List Ev) {b : Bytes}
    (h : (run c (init c first segs) es).res = some (.parsed b)) :
    b = (first ++ segs.flatten).take n ∧ b.length = n ∧ n ≤ c.limit := by
  obtain ⟨P, m, taken, rest, i⟩ := inv_all hc hk hn hb first segs es
  have hr := i.res
  rw [h] at hr
  obtain ⟨hm, h1, h2, h3, h4⟩ := hr
  obtain ⟨e1, t, e2⟩ := i.size_le hm
  have h5 := (i.yes hm).2.2
  refine ⟨by rw [h3, ← e2, List.take_append_of_le_length (by omega)], by rw [h3, List.length_take]; omega, by omega⟩

/-- A body that came with the head and is over the limit: ValueError. -/
theorem C54_raises {c : Cfg} {n : Nat} (hc : c.cl = some n) (hk : c.chunked = false) (hn : n ≤ c.maxBody)
    (first : Bytes) (segs : List Bytes) (hlen : n ≤ first.length) (hl : c.limit < n) (es : List Ev) {r : Res}
    (h : (run c (init c first segs) es).res = some r) : r = .valueError := by
  obtain ⟨m, rest, i⟩ := inv_init hc hn first segs
  have hne : first ≠ [] := by intro e; rw [e] at hlen; simp at hlen; omega
  have key : ∀ (es : List Ev) (s : St), (s.res = some .valueError ∨ (s.res = none ∧ s.stopped = true ∧ s.cur = none ∧ c.limit < s.bodySize ∧
      ∃ d q, s.queue = some d :: q)) → (run c s es).res = none ∨ (run c s es).res = some .valueError := by
    intro es
    induction es with
    | nil => intro s hs; rcases hs with hs | hs; exact .inr hs; exact .inl hs.1
    | cons e es ih =>
      intro s hs
      refine ih _ ?_
      cases e with
      | put =>
        rcases hs with hs | ⟨h1, h2, h3, h4, h5⟩
        · left
          show (Model.Form.put c s).res = _
          unfold Model.Form.put
          split
          · exact hs
          · rw [(count_fields c _ s).2.2.1]; exact hs
          · split
            · exact hs
            · split <;> exact hs
        · right
          have : Model.Form.put c s = s := by
            unfold Model.Form.put
            rw [h3]
            dsimp only
            split
            · rfl
            · rw [if_pos h2]
          show (Model.Form.put c s).res = none ∧ _
          simp only [step, this]
          exact ⟨h1, h2, h3, h4, h5⟩
      | read =>
        left
        show (Model.Form.read c s).res = _
        unfold Model.Form.read
        rcases hs with hs | ⟨h1, h2, h3, h4, d, q, h5⟩
        · rw [hs]; exact hs
        · rw [h1, h5, hk]
          simp only [Option.isSome_none, Bool.false_eq_true, if_false, yielded]
          rw [if_pos ⟨by simp, h4⟩]
  have hm : m = true := by
    cases m with
    | true => rfl
    | false =>
      have h1 := (i.no rfl).2
      have h2 := i.size
      split at h2
      · next x k hx =>
        exfalso
        have : (init c first segs).cur = none := by
          unfold init; rw [hc]; dsimp only; rw [if_neg (by omega)]
          exact (count_fields c _ _).1
        rw [this] at hx; cases hx
      · omega
  obtain ⟨a, b, d⟩ := i.yes hm
  have hsz := (i.size_le hm).1
  have hres : (init c first segs).res = none := by
    unfold init; rw [hc]; dsimp only; rw [if_neg (by omega)]
    exact (count_fields c _ _).2.2.1
  have hq : ∃ d q, (init c first segs).queue = some d :: q := by
    rw [i.queue]
    cases rest with
    | nil => have := i.put; simp at this; exact absurd this hne
    | cons x y => exact ⟨_, _, rfl⟩
  rcases key es _ (.inr ⟨hres, a, b, by omega, hq⟩) with h' | h'
  · rw [h'] at h; cases h
  · rw [h'] at h; exact (Option.some.inj h).symm

/-- `form()` ends: once the body has been put completely and the stream is read often enough, whatever happened before. -/
theorem C54_ends {c : Cfg} {n : Nat} (hc : c.cl = some n) (hk : c.chunked = false) (hn : n ≤ c.maxBody) (hb : 0 < c.bs)
    (first : Bytes) (segs : List Bytes) (hlen : n ≤ (first ++ segs.flatten).length) (es : List Ev) :
    ∃ a b, (run c (init c first segs) (es ++ List.replicate a .put ++ List.replicate b .read)).res.isSome = true := by
  obtain ⟨P, m, taken, rest, i⟩ := inv_all hc hk hn hb first segs es
  obtain ⟨P', rest', i'⟩ := puts_end hc hn hb hlen _ _ P m taken rest i (Nat.le_refl _)
  refine ⟨todo c (run c (init c first segs) es), rest'.length + 1, ?_⟩
  have := reads_end hc hk (rest'.length + 1) _ P' taken rest' i' (by omega)
  unfold run at this ⊢
  rw [List.foldl_append, List.foldl_append]
  exact this

/-- A later call returns what the first one returned, unless that raised. -/
theorem C54_again {c : Cfg} {n : Nat} (hc : c.cl = some n) (hk : c.chunked = false) (hn : n ≤ c.maxBody) (hb : 0 < c.bs)
    (first : Bytes) (segs : List Bytes) (es : List Ev) {r : Res} (h : (run c (init c first segs) es).res = some r) :
    again (run c (init c first segs) es) = some (if r = .valueError then .empty else r) := by
  obtain ⟨P, m, taken, rest, i⟩ := inv_all hc hk hn hb first segs es
  have hr := i.res
  rw [h] at hr
  unfold again
  rw [h]
  cases r with
  | parsed b => simp [hr.2.2.2.2]
  | empty => simp [hr.2.2]
  | valueError => simp [hr.2]
  | badRequest => exact hr.elim
  | tooLarge => exact hr.elim

/-! ## C54, chunked bodies -/

namespace Form

theorem chunkLoop_mono {bs : Nat} {e : Bool} : ∀ (fuel k : Nat) (s : ChunkSt) (p : List Bytes), (chunkLoop bs e fuel s p).2 ≠ .fuel →
    chunkLoop bs e (fuel + k) s p = chunkLoop bs e fuel s p := by
  intro fuel
  induction fuel with
  | zero => intro k s p h; exact absurd rfl h
  | succ fuel ih =>
    intro k s p h
    rw [show fuel + 1 + k = (fuel + k) + 1 by omega]
    unfold chunkLoop at h ⊢
    cases hf : fetch e s p with
    | error o => rfl
    | ok x =>
      obtain ⟨s1, rest⟩ := x
      rw [hf] at h
      dsimp only at h ⊢
      rcases hb : chunkBody bs s1 with ⟨y, _ | _ | _⟩
      · rw [hb] at h
        dsimp only at h ⊢
        rw [ih k _ _ h]
      · rfl
      · rfl

theorem chunkStream_of {bs F : Nat} {l : List Bytes} {r : List Bytes × Out} (h : chunkLoop bs false F {} l = r) (hr : r.2 ≠ .fuel) :
    chunkStream bs (l.map some) = r := by
  have e : chunkStream bs (l.map some) = chunkLoop bs false (chunkFuel {} l) {} l := by
    have := recvPieces_map l []
    rw [List.append_nil] at this
    unfold chunkStream; rw [this]; simp [recvPieces]
  have ht := (chunkLoop_terminates (bs := bs) (ended := false) (chunkFuel {} l) {} l (by simp) (by unfold Proofs.BodyStream.measure chunkFuel; omega)).1
  rw [e, ← chunkLoop_mono _ F _ _ ht, Nat.add_comm, chunkLoop_mono _ _ _ _ (by rw [h]; exact hr), h]

/-- What the stream has done so far on the pieces `taken`, with whatever is still to come. -/
def Rel (bs : Nat) (taken : List Bytes) (ch : ChunkSt) (body : Bytes) : Prop :=
  ∃ (F : Nat) (ys : List Bytes), ys.flatten = body ∧ ∀ (fut : List Bytes) (fuel : Nat),
    chunkLoop bs false (F + fuel) {} (taken ++ fut) = (ys ++ (chunkLoop bs false fuel ch fut).1, (chunkLoop bs false fuel ch fut).2)

theorem Rel.cont {bs : Nat} {taken : List Bytes} {ch ch1 ch' : ChunkSt} {body : Bytes} {y new : List Bytes}
    (h : Rel bs taken ch body) (hf : ∀ fut, fetch false ch (new ++ fut) = .ok (ch1, fut)) (hb : chunkBody bs ch1 = (y, .cont ch')) :
    Rel bs (taken ++ new) ch' (body ++ y.flatten) := by
  obtain ⟨F, ys, e, h⟩ := h
  refine ⟨F + 1, ys ++ y, by simp [e], fun fut fuel => ?_⟩
  rw [List.append_assoc, show F + 1 + fuel = F + (fuel + 1) by omega, h]
  rw [chunkLoop, hf]
  dsimp only
  rw [hb]
  simp

theorem Rel.break_ {bs : Nat} {taken : List Bytes} {ch ch1 : ChunkSt} {body : Bytes} {y new : List Bytes}
    (h : Rel bs taken ch body) (hf : ∀ fut, fetch false ch (new ++ fut) = .ok (ch1, fut)) (hb : chunkBody bs ch1 = (y, .break_)) :
    ∃ ys, ys.flatten = body ++ y.flatten ∧ ∀ fut, chunkStream bs ((taken ++ new ++ fut).map some) = (ys, .done) := by
  obtain ⟨F, ys, e, h⟩ := h
  refine ⟨ys ++ y, by simp [e], fun fut => chunkStream_of (F := F + 1) ?_ (by simp)⟩
  rw [List.append_assoc, h, chunkLoop, hf]
  dsimp only
  rw [hb]

/-- A chunked body; `T`: all bytes that the client sends. -/
structure Inv2 (c : Cfg) (T : Bytes) (taken rest : List Bytes) (s : St) : Prop where
  total : (taken ++ rest).flatten ++ curBytes s ++ s.segs.flatten = T
  queue : s.queue = rest.map some
  post : s.res = none → s.post = .empty
  rel : s.res = none → Rel c.bs taken s.ch s.body
  res : ∀ b, s.res = some (.parsed b) → ∃ (t r : List Bytes) (ys : List Bytes), (t ++ r).flatten = T ∧ ys.flatten = b ∧
    ∀ fut, chunkStream c.bs ((t ++ fut).map some) = (ys, .done)

theorem put_chunked {c : Cfg} (hc : c.cl = none) (hb : 0 < c.bs) {T : Bytes} {taken rest : List Bytes} {s : St}
    (i : Inv2 c T taken rest s) : ∃ rest', Inv2 c T taken rest' (Model.Form.put c s) := by
  obtain ⟨h1, h2, h3, h4, h5⟩ := i
  unfold Model.Form.put
  split
  · next d r k hcur =>
    refine ⟨rest ++ [d], ?_, by simp [h2], h3, h4, h5⟩
    rw [← h1]; simp [curBytes, hcur]
  · next k hcur =>
    refine ⟨rest, ?_, ?_, ?_, ?_, ?_⟩
    · rw [← h1]; simp [curBytes, hcur, count_fields]
    · unfold count; rw [hc]; exact h2
    · unfold count; rw [hc]; exact h3
    · unfold count; rw [hc]; exact h4
    · unfold count; rw [hc]; exact h5
  · next hcur =>
    split
    · exact ⟨rest, h1, h2, h3, h4, h5⟩
    · next seg r hsegs =>
      split
      · exact ⟨rest, h1, h2, h3, h4, h5⟩
      · refine ⟨rest, ?_, h2, h3, h4, h5⟩
        rw [← h1]; simp [curBytes, hcur, hsegs, pieces_flatten hb]

/-- One pass after a read of `new`. -/
theorem pass_chunked {c : Cfg} {T : Bytes} {taken rest new : List Bytes} {s : St} {ch : ChunkSt}
    (h1 : (taken ++ new ++ rest).flatten ++ curBytes s ++ s.segs.flatten = T) (h2 : s.queue = rest.map some)
    (h3 : s.post = .empty) (hr : s.res = none) (h4 : Rel c.bs taken ch s.body)
    (hf : ∀ fut, fetch false ch (new ++ fut) = .ok (s.ch, fut)) : Inv2 c T (taken ++ new) rest (pass c s) := by
  have ft : ∀ t : St, t.cur = s.cur → t.segs = s.segs → (taken ++ new ++ rest).flatten ++ curBytes t ++ t.segs.flatten = T := by
    intro t e1 e2; unfold curBytes; rw [e1, e2]; exact h1
  rcases hb : chunkBody c.bs s.ch with ⟨y, ctl⟩
  have hy : yielded c y s = { s with body := s.body ++ y.flatten } ∨ (yielded c y s).res = some .valueError ∧
      (yielded c y s).cur = s.cur ∧ (yielded c y s).segs = s.segs ∧ (yielded c y s).queue = s.queue := by
    unfold yielded; dsimp only; split
    · exact .inr ⟨rfl, rfl, rfl, rfl⟩
    · exact .inl rfl
  unfold pass
  rw [hb]
  dsimp only
  rcases hy with e | ⟨e1, e2, e3, e4⟩
  · rw [e, if_neg (by simp [hr])]
    cases ctl with
    | cont ch' =>
      exact ⟨ft _ rfl rfl, h2, fun _ => h3, fun _ => h4.cont hf hb, fun b hx => (by dsimp only at hx; rw [hr] at hx; cases hx)⟩
    | break_ =>
      dsimp only [finish]
      refine ⟨ft _ rfl rfl, h2, fun h => (by cases h), fun h => (by cases h), fun b hx => ?_⟩
      dsimp only at hx
      split at hx
      · simp only [Option.some.injEq, Res.parsed.injEq] at hx
        obtain ⟨ys, hys, hall⟩ := h4.break_ hf hb
        refine ⟨taken ++ new, rest ++ [curBytes s] ++ s.segs, ys, ?_, by rw [hys]; exact hx, hall⟩
        rw [← h1]; simp
      · rw [h3] at hx; cases hx
    | bad =>
      exact ⟨ft _ rfl rfl, h2, fun h => (by cases h), fun h => (by cases h), fun b hx => (by cases hx)⟩
  · rw [if_pos (by rw [e1]; rfl)]
    exact ⟨ft _ e2 e3, by rw [e4]; exact h2, fun h => (by rw [e1] at h; cases h), fun h => (by rw [e1] at h; cases h),
      fun b hx => (by rw [e1] at hx; cases hx)⟩

theorem read_chunked {c : Cfg} (hk : c.chunked = true) {T : Bytes} {taken rest : List Bytes} {s : St} (i : Inv2 c T taken rest s) :
    ∃ taken' rest', Inv2 c T taken' rest' (Model.Form.read c s) := by
  have i0 := i
  obtain ⟨h1, h2, h3, h4, h5⟩ := i
  unfold Model.Form.read
  cases hres : s.res with
  | some r => simp only [Option.isSome_some, if_true]; exact ⟨taken, rest, i0⟩
  | none =>
    simp only [Option.isSome_none, Bool.false_eq_true, if_false, hk, if_true]
    by_cases hp : s.ch.paused = true
    · rw [if_pos hp]
      have := pass_chunked (new := []) (s := s) (ch := s.ch) (T := T) (by simpa using h1) h2 (h3 hres) hres (h4 hres)
        (fun fut => by unfold fetch; rw [if_pos hp]; rfl)
      exact ⟨_, _, this⟩
    · rw [if_neg hp, h2]
      cases rest with
      | nil => exact ⟨taken, [], i0⟩
      | cons d rest =>
        simp only [List.map_cons]
        have := pass_chunked (c := c) (T := T) (taken := taken) (rest := rest) (new := [d]) (ch := s.ch)
          (s := { s with queue := rest.map some, ch := { s.ch with buf := s.ch.buf ++ d } })
          (by rw [← h1]; simp [curBytes]) rfl (h3 hres) hres (h4 hres)
          (fun fut => by unfold fetch; rw [if_neg hp]; rfl)
        rw [hres] at this
        exact ⟨_, _, this⟩

theorem init_chunked {c : Cfg} (hc : c.cl = none) (first : Bytes) (segs : List Bytes) :
    Inv2 c (first ++ segs.flatten) [] (pieces 16384 first) (init c first segs) := by
  unfold init count
  rw [hc]
  refine ⟨by simp [curBytes, pieces_flatten], rfl, fun _ => rfl, fun _ => ⟨0, [], rfl, fun fut fuel => ?_⟩, fun b h => (by cases h)⟩
  simp

theorem run_chunked {c : Cfg} (hc : c.cl = none) (hk : c.chunked = true) (hb : 0 < c.bs) {T : Bytes} (es : List Ev) :
    ∀ (s : St), (∃ taken rest, Inv2 c T taken rest s) → ∃ taken rest, Inv2 c T taken rest (run c s es) := by
  induction es with
  | nil => exact fun s h => h
  | cons e es ih =>
    rintro s ⟨taken, rest, i⟩
    refine ih _ ?_
    cases e with
    | put => obtain ⟨r, i'⟩ := put_chunked hc hb i; exact ⟨taken, r, i'⟩
    | read => exact read_chunked hk i

/-- Reads alone, the body being there: the chunked stream is run to its end. -/
theorem reads_chunked {c : Cfg} (hk : c.chunked = true) : ∀ (fuel : Nat) (s : St) (ps : List Bytes), s.res = none → s.queue = ps.map some →
    s.post = .empty → ∀ (ys : List Bytes) (o : Out), chunkLoop c.bs false fuel s.ch ps = (ys, o) → o ≠ .fuel → o ≠ .blocked →
    (run c s (List.replicate fuel .read)).res = some (
      if c.limit < s.bodySize ∧ ys ≠ [] then .valueError
      else if o = .done then (if 2 < s.bodySize ∧ s.bodySize ≤ c.limit then .parsed (s.body ++ ys.flatten) else .empty) else .badRequest) := by
  have keep : ∀ (j : Nat) (s : St), s.res.isSome = true → run c s (List.replicate j .read) = s := by
    intro j
    induction j with
    | zero => exact fun s h => rfl
    | succ j ih =>
      intro s h
      rw [List.replicate_succ]
      show run c (Model.Form.read c s) _ = s
      have : Model.Form.read c s = s := by unfold Model.Form.read; rw [if_pos h]
      rw [this]; exact ih s h
  intro fuel
  induction fuel with
  | zero => intro s ps _ _ _ ys o h ho; rw [chunkLoop] at h; cases h; exact absurd rfl ho
  | succ fuel ih =>
    intro s ps hr hq hp ys o h ho hbk
    rw [List.replicate_succ]
    show (run c (Model.Form.read c s) _).res = _
    rw [chunkLoop] at h
    cases hf : fetch false s.ch ps with
    | error x =>
      rw [hf] at h
      dsimp only at h
      obtain ⟨_, _, h1, h2⟩ := fetch_error hf
      cases h
      simp at h2
      exact absurd h2 hbk
    | ok x =>
      obtain ⟨ch1, ps1⟩ := x
      rw [hf] at h
      dsimp only at h
      have hread : Model.Form.read c s = pass c { s with queue := ps1.map some, ch := ch1 } := by
        unfold Model.Form.read
        rw [hr]
        simp only [Option.isSome_none, Bool.false_eq_true, if_false, hk, if_true]
        unfold fetch at hf
        by_cases hpz : s.ch.paused = true
        · rw [if_pos hpz] at hf ⊢
          cases hf
          rw [← hq, ← hr]
        · rw [if_neg hpz] at hf ⊢
          rw [hq]
          cases ps with
          | nil => simp at hf
          | cons d ps => cases hf; rfl
      rw [hread]
      have hres2 : ({ s with queue := ps1.map some, ch := ch1 } : St).res = none := hr
      rcases hb : chunkBody c.bs ch1 with ⟨y, ctl⟩
      rw [hb] at h
      unfold pass
      dsimp only
      rw [hb]
      unfold yielded
      dsimp only
      by_cases hy : y ≠ [] ∧ s.bodySize > c.limit
      · rw [if_pos hy]
        simp only [Option.isSome_some, if_true]
        rw [keep _ _ rfl]
        have : ys ≠ [] := by
          cases ctl <;> (dsimp only at h; injection h with h _; rw [← h]; simp [hy.1])
        rw [if_pos ⟨hy.2, this⟩]
      · rw [if_neg hy]
        simp only [hr, Option.isSome_none, Bool.false_eq_true, if_false]
        cases ctl with
        | cont ch' =>
          dsimp only at h ⊢
          injection h with h h'
          have := ih { s with queue := ps1.map some, ch := ch', body := s.body ++ y.flatten } ps1 hr rfl hp
            (chunkLoop c.bs false fuel ch' ps1).1 (chunkLoop c.bs false fuel ch' ps1).2 rfl (by rw [h']; exact ho) (by rw [h']; exact hbk)
          dsimp only at this
          rw [hr] at this
          rw [this, h', ← h]
          by_cases hl : c.limit < s.bodySize
          · have y0 : y = [] := by
              apply Classical.byContradiction; intro hne; exact hy ⟨hne, hl⟩
            subst y0; simp
          · simp [hl]
        | break_ =>
          dsimp only [finish] at h ⊢
          injection h with h h'
          rw [keep _ _ rfl]
          subst h h'
          show some _ = some _
          rw [if_neg (c := c.limit < s.bodySize ∧ y ≠ []) (fun hx => hy ⟨hx.2, hx.1⟩), if_pos (c := Out.done = Out.done) rfl, hp]
        | bad =>
          dsimp only at h ⊢
          injection h with h h'
          rw [keep _ _ rfl]
          subst h h'
          rw [if_neg (fun hx => hy ⟨hx.2, hx.1⟩), if_neg (by simp)]

end Form

/-- Chunked bodies, every segmentation and schedule: what is parsed is the payload of complete chunks at the beginning of what
the client sent. (That it is within the limit is false: `C54_refuted_larger`.) -/
theorem C54_chunked_sound {c : Cfg} (hc : c.cl = none) (hk : c.chunked = true) (hb : 0 < c.bs) (first : Bytes) (segs : List Bytes) (es : List Ev)
    {b : Bytes} (h : (run c (init c first segs) es).res = some (.parsed b)) : Complete (first ++ segs.flatten) b := by
  obtain ⟨taken, rest, i⟩ := run_chunked hc hk hb es _ ⟨_, _, init_chunked hc first segs⟩
  obtain ⟨t, r, ys, h1, h2, h3⟩ := i.res b h
  have := C10_done_complete (h3 r)
  have e := recvPieces_map (t ++ r) []
  rw [List.append_nil] at e
  rw [e] at this
  simp only [recvPieces, List.append_nil] at this
  rw [h1, h2] at this
  exact this

/-- A chunked body that came with the head, none of whose internal cuts is behind a chunk's data: parsed if it is within the
limit (with its framing), and else ValueError, if there is any payload. -/
theorem C54_chunked_first {c : Cfg} (hc : c.cl = none) (hk : c.chunked = true) {cs : List Chunk} {size ext rest : Bytes}
    (h0 : SizeLine size ext 0) (h0l : size.length + ext.length + 1 ≤ 4 * c.bs)
    (hcs : ∀ x ∈ cs, x.Wf ∧ x.size.length + x.ext.length + 1 ≤ 4 * c.bs)
    (hsafe : SafeCuts cs (lastChunk size ext rest) (pieces 16384 (encode cs (lastChunk size ext rest)))) :
    ∃ K r, (run c (init c (encode cs (lastChunk size ext rest)) []) (List.replicate K .read)).res = some r ∧
      ((encode cs (lastChunk size ext rest)).length ≤ c.limit → r = .parsed (payload cs)) ∧
      (c.limit < (encode cs (lastChunk size ext rest)).length → payload cs ≠ [] → r = .valueError) := by
  generalize hT : encode cs (lastChunk size ext rest) = T at *
  have hfl : (pieces 16384 T).flatten = T := pieces_flatten (by omega) T
  obtain ⟨hp, hd⟩ := C09_decode_partial (bs := c.bs) h0 h0l hcs (pieces 16384 T) (by rw [hfl, hT]) hsafe
  have hch : chunkStream c.bs ((pieces 16384 T).map some) = chunkLoop c.bs false (chunkFuel {} (pieces 16384 T)) {} (pieces 16384 T) := by
    have := recvPieces_map (pieces 16384 T) []
    rw [List.append_nil] at this
    unfold chunkStream; rw [this]; simp [recvPieces]
  have hlen : 2 < T.length := by
    have hle : (lastChunk size ext rest).length ≤ T.length := by
      rw [← hT]
      clear hcs hsafe hT hfl hp hd hch
      induction cs with
      | nil => exact Nat.le_refl _
      | cons x xs ih => simp only [encode, List.length_append]; omega
    have : 3 ≤ (lastChunk size ext rest).length := by
      have := h0.ne
      have hs : 0 < size.length := List.length_pos_iff.2 this
      unfold lastChunk CRLF; simp only [List.length_append, List.length_cons, List.length_nil]; omega
    omega
  have hi : init c T [] = { bodySize := 0 + T.length, queue := (pieces 16384 T).map some, stopped := false || decide (¬ 0 + T.length < c.maxBody) } := by
    unfold init count; rw [hc]; rfl
  have := reads_chunked hk (chunkFuel {} (pieces 16384 T)) (init c T []) (pieces 16384 T) (by rw [hi]) (by rw [hi]) (by rw [hi]) _ _
    (by rw [hi]) (by rw [← hch, hd]; simp) (by rw [← hch, hd]; simp)
  refine ⟨_, _, this, ?_⟩
  rw [hi]
  dsimp only
  rw [← hch, hd, Nat.zero_add, List.nil_append, hp]
  refine ⟨fun hl => ?_, fun hl hpay => ?_⟩
  · rw [if_neg (by omega), if_pos rfl, if_pos ⟨hlen, hl⟩]
  · have hne : (chunkStream c.bs ((pieces 16384 T).map some)).1 ≠ [] := by
      intro hy
      rw [hy] at hp
      exact hpay hp.symm
    rw [if_pos ⟨hl, hne⟩]

/-! ## Cases that meet the hypotheses -/

section
open Model.Form

/-- A form with Content-Length, half with the head and half later. -/
example : (run { cl := some 7 } (init { cl := some 7 } b!"a=1" [b!"&b=2"]) [.read, .put, .put, .read, .read]).res = none ∧
    (run { cl := some 7 } (init { cl := some 7 } b!"a=1" [b!"&b=2"]) [.read, .put, .put, .read, .read, .put, .read]).res = some (.parsed b!"a=1&b=2") ∧
    (run { cl := some 7, limit := 6 } (init { cl := some 7, limit := 6 } b!"a=1&b=2" []) [.read]).res = some .valueError := by decide +kernel

/-- A chunked form that came with the head, in and over the limit. -/
example : (run { chunked := true } (init { chunked := true } b!"3\r\na=1\r\n0\r\n\r\n" []) (List.replicate 9 .read)).res = some (.parsed b!"a=1") ∧
    (run { chunked := true, limit := 12 } (init { chunked := true, limit := 12 } b!"3\r\na=1\r\n0\r\n\r\n" []) (List.replicate 9 .read)).res = some .valueError ∧
    SafeCuts [⟨b!"3", [], b!"a=1"⟩] (lastChunk b!"0" [] CRLF) (pieces 16384 b!"3\r\na=1\r\n0\r\n\r\n") := by
  refine ⟨by decide +kernel, by decide +kernel, ?_⟩
  have e : pieces 16384 b!"3\r\na=1\r\n0\r\n\r\n" = [b!"3\r\na=1\r\n0\r\n\r\n"] := by decide +kernel
  rw [e]
  intro a b hab pre x post hx
  have hpost : post = [] := by
    cases pre with
    | nil => simp at hx; exact hx.2
    | cons p pre => simp at hx
  subst hpost
  match a, hab with
  | [], hab => subst hab; decide
  | [_], hab => simp at hab; rw [hab.2]; decide
  | _ :: _ :: _, hab => simp at hab

/-! ## What does not hold -/

/-- **False as stated.** A body over the limit that comes after the head, in one segment, may be read before it is counted:
neither ValueError nor a form, but `{}`. -/
theorem C54_refuted_silent :
    (run { cl := some 7, limit := 6 } (init { cl := some 7, limit := 6 } [] [b!"a=1&b=2"]) [.put, .put, .read, .put, .read]).res = some .empty ∧
    (run { cl := some 7, limit := 6 } (init { cl := some 7, limit := 6 } [] [b!"a=1&b=2"]) [.put, .put, .put, .read]).res = some .valueError := by
  decide +kernel

/-- A chunked form within the limit that comes after the head is lost, if the handler reads it before it is counted. -/
theorem C54_refuted_lost :
    (run { chunked := true } (init { chunked := true } [] [b!"3\r\na=1\r\n0\r\n\r\n"]) ([.put, .put] ++ List.replicate 4 .read)).res = some .empty ∧
    (run { chunked := true } (init { chunked := true } [] [b!"3\r\na=1\r\n0\r\n\r\n"]) ([.put, .put, .put] ++ List.replicate 4 .read)).res =
      some (.parsed b!"a=1") := by decide +kernel

/-- More than the limit is parsed, if the last segment is read before it is counted. -/
theorem C54_refuted_larger :
    (run { chunked := true, limit := 4 } (init { chunked := true, limit := 4 } b!"5\r\n" [b!"a=1&b\r\n0\r\n\r\n"])
      ([.read, .put, .put] ++ List.replicate 4 .read)).res = some (.parsed b!"a=1&b") := by decide +kernel

/-- After ValueError a second call returns `{}`. -/
theorem C54_refuted_again :
    (run { cl := some 7, limit := 6 } (init { cl := some 7, limit := 6 } b!"a=1&b=2" []) [.read]).res = some .valueError ∧
    again (run { cl := some 7, limit := 6 } (init { cl := some 7, limit := 6 } b!"a=1&b=2" []) [.read]) = some .empty := by
  decide +kernel

/-- What is sent behind the body is counted with it: a form within the limit is refused because of the next request. -/
theorem C54_refuted_pipelined :
    (run { cl := some 7, limit := 20 } (init { cl := some 7, limit := 20 } b!"a=1&b=2GET / HTTP/1.1\r\n\r\n" []) [.read]).res = some .valueError := by
  decide +kernel
end

end Verif
