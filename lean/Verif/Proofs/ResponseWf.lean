import Verif.Proofs.Response
import Verif.Proofs.Numeral
import Verif.Spec.Response
/-!
# Well-formed header tables and heads
-/
namespace Verif.Proofs.Response
open Verif.Py Verif.Py.Dict Verif.Model.Upload Verif.Model.Response Verif.Spec.Response

/-! ## Joining -/

theorem join_cons (sep a : Bytes) {l : List Bytes} (h : l ≠ []) : join sep (a :: l) = a ++ sep ++ join sep l := by
  cases l with
  | nil => exact absurd rfl h
  | cons b r => rfl

theorem join_append (sep : Bytes) : ∀ {a b : List Bytes}, a ≠ [] → b ≠ [] → join sep (a ++ b) = join sep a ++ sep ++ join sep b
  | [], _, h, _ => absurd rfl h
  | [x], b, _, hb => join_cons sep x hb
  | x :: y :: r, b, _, hb => by
    have ih := join_append sep (a := y :: r) (b := b) (by simp) hb
    rw [List.cons_append, join_cons sep x (by simp), ih, join_cons sep x (by simp)]
    simp

theorem join_join (sep : Bytes) : ∀ {h : Dict Bytes (List Bytes)}, (∀ p ∈ h, p.2 ≠ []) →
    join sep (h.map (fun p => join sep p.2)) = join sep (h.flatMap (·.2))
  | [], _ => rfl
  | [p], hp => by simp [join]
  | p :: q :: r, hp => by
    have ih := join_join sep (h := q :: r) (fun x hx => hp x (List.mem_cons_of_mem _ hx))
    have hq : (q :: r).flatMap (·.2) ≠ [] := by
      have := hp q (by simp)
      simp [this]
    rw [List.map_cons, join_cons sep _ (by simp), ih, List.flatMap_cons (x := p), join_append sep (hp p (by simp)) hq]

/-! ## Tables -/

abbrev kDate : Bytes := b!"date"

/-- A header list under key `k`: fields with that name. -/
def Entry (k x : Bytes) : Prop := ∃ n v, Field n v x ∧ lower n = k

structure Table (strict : Bool) (h : Dict Bytes (List Bytes)) : Prop where
  field : ∀ k l, (k, l) ∈ h → k ≠ kLine → l ≠ [] ∧ ∀ x ∈ l, Entry k x
  lines : ∀ l, (kLine, l) ∈ h → ∀ x ∈ l, (10 : UInt8) ∉ x
  date : (strict = false ∧ h = []) ∨ mem h kDate = true

theorem mem_set (h : Dict Bytes (List Bytes)) (k v k') : mem (Dict.set h k v) k' = (decide (k = k') || mem h k') := by
  simp only [mem, get_set]
  by_cases e : k = k' <;> simp [e]

theorem mem_set_of {h : Dict Bytes (List Bytes)} {k l k' l'} (hm : (k', l') ∈ Dict.set h k l) : (k' = k ∧ l' = l) ∨ (k', l') ∈ h := by
  induction h with
  | nil => simp [Dict.set] at hm; exact .inl hm
  | cons p t ih =>
    obtain ⟨k0, v0⟩ := p
    unfold Dict.set at hm
    by_cases e : k0 = k
    · rw [if_pos e] at hm
      rcases List.mem_cons.1 hm with hm | hm
      · cases hm; exact .inl ⟨e, rfl⟩
      · exact .inr (List.mem_cons_of_mem _ hm)
    · rw [if_neg e] at hm
      rcases List.mem_cons.1 hm with hm | hm
      · cases hm; exact .inr (by simp)
      · rcases ih hm with h1 | h1
        · exact .inl h1
        · exact .inr (List.mem_cons_of_mem _ h1)

theorem get_del (h : Dict Bytes (List Bytes)) (k k') : Dict.get (del h k) k' = if k' ≠ k then Dict.get h k' else none := by
  unfold del
  have := get_filter h (fun x => decide (x ≠ k)) k'
  simp only [this]
  by_cases e : k' = k <;> simp [e]

theorem mem_del (h : Dict Bytes (List Bytes)) (k k') : mem (del h k) k' = (decide (k' ≠ k) && mem h k') := by
  simp only [mem, get_del]
  by_cases e : k' = k <;> simp [e]

theorem Table.set {b : Bool} {h k l} (t : Table b h) (hk : k ≠ kLine) (hl : l ≠ []) (hx : ∀ x ∈ l, Entry k x)
    (hd : mem h kDate = true ∨ k = kDate) : Table true (Dict.set h k l) := by
  refine ⟨fun k' l' hm hk' => ?_, fun l' hm => ?_, .inr ?_⟩
  · rcases mem_set_of hm with ⟨rfl, rfl⟩ | hm
    · exact ⟨hl, hx⟩
    · exact t.field k' l' hm hk'
  · rcases mem_set_of hm with ⟨rfl, rfl⟩ | hm
    · exact absurd rfl hk
    · exact t.lines l' hm
  · rw [mem_set]
    rcases hd with hd | hd <;> simp [hd]

theorem Table.setLine {b : Bool} {h l} (t : Table b h) (hl : ∀ x ∈ l, (10 : UInt8) ∉ x) (hd : mem h kDate = true) :
    Table true (Dict.set h kLine l) := by
  refine ⟨fun k' l' hm hk' => ?_, fun l' hm => ?_, .inr ?_⟩
  · rcases mem_set_of hm with ⟨rfl, rfl⟩ | hm
    · exact absurd rfl hk'
    · exact t.field k' l' hm hk'
  · rcases mem_set_of hm with ⟨_, rfl⟩ | hm
    · exact hl
    · exact t.lines l' hm
  · rw [mem_set, hd]; simp

theorem Table.del {b : Bool} {h k} (t : Table b h) (hk : k ≠ kDate) : Table b (del h k) := by
  have sub : ∀ p ∈ Model.Response.del h k, p ∈ h := fun p hp => (List.mem_filter.1 hp).1
  refine ⟨fun k' l' hm => t.field k' l' (sub _ hm), fun l' hm => t.lines l' (sub _ hm), ?_⟩
  rcases t.date with ⟨e1, e2⟩ | hd
  · subst e2; exact .inl ⟨e1, rfl⟩
  · right
    rw [mem_del, hd]
    simp [Ne.symm hk]

theorem Table.weaken {b : Bool} {h} (t : Table true h) : Table b h :=
  ⟨t.field, t.lines, .inr (t.date.resolve_left (fun h => by cases h.1))⟩

theorem Table.loose {b : Bool} {h} (t : Table b h) : Table false h := by
  cases b
  · exact t
  · exact t.weaken

theorem Table.strict {h} (t : Table true h) : mem h kDate = true := t.date.resolve_left (fun h => by cases h.1)

theorem Table.ofMem {b : Bool} {h k} (t : Table b h) (hm : mem h k = true) : Table true h := by
  refine ⟨t.field, t.lines, .inr ?_⟩
  rcases t.date with ⟨_, e⟩ | hd
  · subst e; simp [mem, Dict.get] at hm
  · exact hd

/-- An emitted head is well formed. -/
def HeadOk (t : Bytes) : Prop := ∃ first rest, HeadIs t first rest

structure Wf (b : Bool) (s : St) : Prop where
  table : ∀ h, s.headers = some h → Table b h
  status : ∀ p ∈ s.status, (10 : UInt8) ∉ p.2
  ctype : ∀ x ∈ s.ctype, (10 : UInt8) ∉ x
  log : ∀ t d o, Emit.head t d o ∈ s.log → HeadOk t

theorem Wf.loose {b : Bool} {s} (w : Wf b s) : Wf false s := ⟨fun h e => (w.table h e).loose, w.status, w.ctype, w.log⟩
theorem Wf.weaken {b : Bool} {s} (w : Wf true s) : Wf b s := ⟨fun h e => (w.table h e).weaken, w.status, w.ctype, w.log⟩
theorem Wf.put {b b' : Bool} {s h} (w : Wf b s) (t : Table b' h) : Wf b' { s with headers := some h } :=
  ⟨fun h' e => by cases e; exact t, w.status, w.ctype, w.log⟩
/-- With the head gone there is no table. -/
theorem Wf.sent {b b' : Bool} {s} (w : Wf b s) (hs : s.headers = none) : Wf b' s :=
  ⟨fun h e => (by rw [hs] at e; cases e), w.status, w.ctype, w.log⟩
theorem Wf.emit {b : Bool} {s e} (w : Wf b s) (he : ∀ t d o, e = Emit.head t d o → HeadOk t) :
    Wf b { s with log := s.log ++ [e] } :=
  ⟨w.table, w.status, w.ctype, fun t d o hm => by
    rcases List.mem_append.1 hm with hm | hm
    · exact w.log t d o hm
    · exact he t d o (List.mem_singleton.1 hm).symm⟩

/-! ## Triples -/

/-- The outcome of a method. -/
def Post {α : Type} (Q : α → St → Prop) (E : St → Prop) : Except Exc α × St → Prop
  | (.ok a, s) => Q a s
  | (.error _, s) => E s

/-- From a state satisfying `P`, `m` returns with `Q` or raises with `E`. -/
def Tri {α : Type} (P : St → Prop) (m : M α) (Q : α → St → Prop) (E : St → Prop) : Prop :=
  ∀ s, P s → Post Q E (m s)

theorem Tri.bind {α β : Type} {P : St → Prop} {m : M α} {Q : α → St → Prop} {E : St → Prop} {f : α → M β} {Q'}
    (h : Tri P m Q E) (hf : ∀ a, Tri (Q a) (f a) Q' E) : Tri P (m >>= f) Q' E := by
  intro s hs
  have h1 := h s hs
  rw [bind_run]
  generalize m s = x at h1 ⊢
  obtain ⟨x, s'⟩ := x
  cases x with
  | ok a => exact hf a s' h1
  | error e => exact h1

theorem Tri.pre {α : Type} {P P' : St → Prop} {m : M α} {Q E} (h : Tri P m Q E) (hp : ∀ s, P' s → P s) : Tri P' m Q E :=
  fun s hs => h s (hp s hs)
theorem Tri.post {α : Type} {P : St → Prop} {m : M α} {Q Q' : α → St → Prop} {E E' : St → Prop} (h : Tri P m Q E)
    (hq : ∀ a s, Q a s → Q' a s) (he : ∀ s, E s → E' s) : Tri P m Q' E' := by
  intro s hs
  have h1 := h s hs
  generalize m s = x at h1 ⊢
  obtain ⟨x, s'⟩ := x
  cases x with
  | ok a => exact hq _ _ h1
  | error e => exact he _ h1
theorem Tri.ite {α : Type} {p : Prop} [Decidable p] {P : St → Prop} {a b : M α} {Q E} (ha : Tri P a Q E) (hb : Tri P b Q E) :
    Tri P (if p then a else b) Q E := by split <;> assumption
theorem Tri.when {b : Bool} {P : St → Prop} {m : M Unit} {E : St → Prop} (h : Tri P m (fun _ => P) E) : Tri P (when b m) (fun _ => P) E :=
  Tri.ite h (fun _ hs => hs)
theorem Tri.raise {α : Type} {P E : St → Prop} {Q : α → St → Prop} (e : Exc) (h : ∀ s, P s → E s) : Tri P (raise e : M α) Q E := fun s hs => h s hs
theorem Tri.pure {α : Type} {P E : St → Prop} {Q : α → St → Prop} (a : α) (h : ∀ s, P s → Q a s) : Tri P (pure a : M α) Q E := fun s hs => h s hs
/-- `headers` gives the table. -/
theorem Tri.headers {β : Type} {P E : St → Prop} {f : Dict Bytes (List Bytes) → M β} {Q} (he : ∀ s, P s → E s)
    (hf : ∀ h, Tri (fun s => P s ∧ s.headers = some h) (f h) Q E) : Tri P (Model.Response.headers >>= f) Q E := by
  intro s hs
  cases e : s.headers with
  | none => rw [bind_err (headers_none e)]; exact he s hs
  | some h => rw [bind_ok (headers_some e)]; exact hf h s ⟨hs, e⟩
theorem Tri.get {β : Type} {P E : St → Prop} {f : St → M β} {Q} (hf : ∀ s, P s → Tri (fun s' => s' = s) (f s) Q E) :
    Tri P (Model.Response.get >>= f) Q E := fun s hs => hf s hs s rfl

/-- The property all methods keep, with the same strictness on both outcomes. -/
abbrev Keep (b : Bool) {α : Type} (m : M α) (R : α → Prop) : Prop := Tri (Wf b) m (fun a s => Wf b s ∧ R a) (Wf b)

theorem Keep.bind {b : Bool} {α β : Type} {m : M α} {f : α → M β} {R : α → Prop} {R' : β → Prop} (h : Keep b m R)
    (hf : ∀ a, R a → Keep b (f a) R') : Keep b (m >>= f) R' :=
  Tri.bind h (fun a s hs => hf a hs.2 s hs.1)
theorem Keep.ite {b : Bool} {α : Type} {p : Prop} [Decidable p] {x y : M α} {R : α → Prop} (hx : Keep b x R) (hy : Keep b y R) :
    Keep b (if p then x else y) R := Tri.ite hx hy
theorem Keep.pure {b : Bool} {α : Type} {R : α → Prop} (a : α) (h : R a) : Keep b (pure a : M α) R := fun _ hs => ⟨hs, h⟩
theorem Keep.raise {b : Bool} {α : Type} {R : α → Prop} (e : Exc) : Keep b (raise e : M α) R := fun _ hs => hs
theorem Keep.true {b : Bool} {α : Type} {m : M α} {R : α → Prop} (h : Keep b m R) : Keep b m (fun _ => True) :=
  Tri.post h (fun _ _ h => ⟨h.1, trivial⟩) (fun _ h => h)
theorem Keep.when {b x : Bool} {m : M Unit} (h : Keep b m (fun _ => True)) : Keep b (when x m) (fun _ => True) :=
  Keep.ite h (Keep.pure _ trivial)

theorem field_entry {n v : Bytes} (h1 : (58 : UInt8) ∉ n) (h2 : (10 : UInt8) ∉ n) (h3 : (10 : UInt8) ∉ v) : Entry (lower n) (line n v) :=
  ⟨n, v, ⟨rfl, h1, h2, h3⟩, rfl⟩

theorem setHeader_ok {n v : Bytes} {s : St} {h} (h1 : (10 : UInt8) ∉ n) (h2 : (10 : UInt8) ∉ v) (e : s.headers = some h) :
    setHeader n v s = (.ok (), { s with headers := some (Dict.set h (lower n) [line n v]) }) := by
  unfold setHeader
  rw [if_neg (by simp [h1, h2]), bind_ok (headers_some e)]; rfl

theorem keep_setHeader {n v : Bytes} (hc : (58 : UInt8) ∉ n) (hl : lower n ≠ kLine) : Keep true (setHeader n v) (fun _ => True) := by
  intro s hs
  by_cases h : (10 : UInt8) ∈ n ∨ (10 : UInt8) ∈ v
  · unfold setHeader
    rw [if_pos h]; exact hs
  · have h1 : (10 : UInt8) ∉ n := fun x => h (.inl x)
    have h2 : (10 : UInt8) ∉ v := fun x => h (.inr x)
    cases e : s.headers with
    | none => unfold setHeader; rw [if_neg h, bind_err (headers_none e)]; exact hs
    | some t =>
      rw [setHeader_ok h1 h2 e]
      exact ⟨hs.put ((hs.table t e).set hl (by simp) (by simpa using field_entry hc h1 h2) (.inl (hs.table t e).strict)), trivial⟩

theorem keep_appendHeader {n v : Bytes} (hc : (58 : UInt8) ∉ n) (hl : lower n ≠ kLine) (h1 : (10 : UInt8) ∉ n) (h2 : (10 : UInt8) ∉ v) :
    Keep true (appendHeader n v) (fun _ => True) := by
  refine Tri.headers (fun _ h => h) (fun h s hs => ⟨hs.1.put ?_, trivial⟩)
  have t := hs.1.table h hs.2
  refine t.set hl (by simp) (fun x hx => ?_) (.inl t.strict)
  rcases List.mem_append.1 hx with hx | hx
  · cases e : Dict.get h (lower n) with
    | none => rw [e] at hx; simp at hx
    | some l => rw [e] at hx; exact (t.field _ l (get_mem e) hl).2 x hx
  · simp at hx; subst hx; exact field_entry hc h1 h2

theorem keep_setCookie (k : Bytes) : Keep true (setCookie k) (fun _ => True) := by
  unfold setCookie
  split
  · exact Keep.raise _
  · next h => exact keep_appendHeader (by decide) (by decide) (by decide) h

/-- `set_base_header` makes the table strict. -/
theorem tri_setBaseHeader {b : Bool} {c : Cfg} (hc : CfgOk c) : Tri (Wf b) (setBaseHeader c) (fun _ => Wf true) (Wf b) := by
  refine Tri.get (fun s hs s' e => ?_)
  subst e
  split
  · next h =>
    refine ⟨fun t e => ?_, hs.status, hs.ctype, hs.log⟩
    have hne : t ≠ [] := by
      rintro rfl
      rcases h with h | h
      · rw [e] at h; cases h
      · exact h e
    obtain ⟨p, r, rfl⟩ := List.exists_cons_of_ne_nil hne
    exact (hs.table _ e).ofMem (k := p.1) (by simp [mem, Dict.get])
  · next h =>
    have e : s'.headers = some [] := Classical.not_not.1 fun e => h (.inr e)
    rw [bind_ok (setHeader_ok (by decide) hc.date e), setHeader_ok (by decide) hc.server rfl]
    have t0 : Table false ([] : Dict Bytes (List Bytes)) := ⟨by simp, by simp, .inl ⟨rfl, rfl⟩⟩
    have t1 := t0.set (k := lower b!"Date") (l := [line b!"Date" c.date]) (by decide) (by simp)
      (by simpa using field_entry (n := b!"Date") (by decide) (by decide) hc.date) (.inr (by decide))
    have t2 := t1.set (k := lower b!"Server") (l := [line b!"Server" c.server]) (by decide) (by simp)
      (by simpa using field_entry (n := b!"Server") (by decide) (by decide) hc.server) (.inl t1.strict)
    exact hs.put t2

theorem fmtNat_noLF (n : Nat) : (10 : UInt8) ∉ fmtNat n := fun h => by
  have := fmtNat_digits n 10 h
  exact absurd this (by decide)
theorem fmtInt_noLF (n : Int) : (10 : UInt8) ∉ fmtInt n := by
  unfold fmtInt
  split
  · simp [fmtNat_noLF]
  · exact fmtNat_noLF _

theorem keep_setStatus {b : Bool} (st : Int) (m : Bytes) : Keep b (setStatus st m) (fun _ => True) := by
  unfold setStatus
  split
  · exact Keep.raise _
  · next hm =>
    refine Tri.headers (fun _ h => h) (fun h s hs => ?_)
    obtain ⟨hs, e⟩ := hs
    have t := hs.table h e
    have strong : ∀ {l l'}, Dict.get h kLine = some l → (∀ x ∈ l', x ∈ l ∨ (10 : UInt8) ∉ x) → Table b (Dict.set h kLine l') := by
      intro l l' hl hx
      refine ((t.ofMem (k := kLine) (by simp [mem, hl])).setLine (fun x hx' => ?_) (t.ofMem (k := kLine) (by simp [mem, hl])).strict).weaken
      rcases hx x hx' with h1 | h1
      · exact t.lines l (get_mem hl) x h1
      · exact h1
    rcases hl : Dict.get h kLine with _ | (_ | ⟨v, _ | ⟨w, _ | ⟨y, rest⟩⟩⟩)
    · refine ⟨⟨hs.table, ?_, hs.ctype, hs.log⟩, trivial⟩
      intro p hp
      rcases List.mem_cons.1 hp with hp | hp
      · subst hp; exact hm
      · exact hs.status p hp
    · exact hs
    · exact hs
    · refine hs.put (strong hl ?_)
      intro x hx; simp at hx; rcases hx with rfl | rfl
      · left; simp
      · right; exact fmtInt_noLF st
    · refine ⟨hs.put (strong hl ?_), trivial⟩
      intro x hx; simp at hx; rcases hx with rfl | rfl | rfl | hx
      · left; simp
      · right; exact fmtInt_noLF st
      · right; exact hm
      · left; simp [hx]

theorem keep_getStatus {b : Bool} : Keep b getStatus (fun st => (10 : UInt8) ∉ st.2) := by
  refine Tri.headers (fun _ h => h) (fun h s hs => ?_)
  obtain ⟨hs, e⟩ := hs
  have t := hs.table h e
  rcases hl : Dict.get h kLine with _ | l
  · show Post _ _ (match s.status with
      | top :: rest => (Except.ok top, { s with status := rest })
      | [] => (.ok (200, b!"OK"), s) : Except Exc (Int × Bytes) × St)
    have hst := hs.status
    rcases e2 : s.status with _ | ⟨top, rest⟩
    · exact ⟨hs, by show (10 : UInt8) ∉ b!"OK"; decide⟩
    · rw [e2] at hst
      exact ⟨⟨hs.table, fun p hp => hst p (by simp [hp]), hs.ctype, hs.log⟩, hst top (by simp)⟩
  · have w : Wf b { s with headers := some (del h kLine) } := hs.put (t.del (by decide))
    have hlf := t.lines l (get_mem hl)
    rcases l with _ | ⟨v, _ | ⟨st, _ | ⟨y, _ | ⟨z, rest⟩⟩⟩⟩
    iterate 3 exact w
    · show Post _ _ ((match intDec st with
        | some n => pure (n, y)
        | none => raise .other : M (Int × Bytes)) { s with headers := some (del h kLine) })
      rcases intDec st with _ | n
      · exact w
      · exact ⟨w, hlf y (by simp)⟩
    · exact w

theorem keep_setContentType {b : Bool} (ct : Bytes) : Keep b (setContentType ct) (fun _ => True) := by
  unfold setContentType
  split
  · exact Keep.raise _
  · next hm =>
    refine Tri.headers (fun _ h => h) (fun h s hs => ?_)
    obtain ⟨hs, e⟩ := hs
    have t := hs.table h e
    rcases hl : Dict.get h kCT with _ | l
    · refine ⟨⟨hs.table, hs.status, ?_, hs.log⟩, trivial⟩
      intro p hp
      rcases List.mem_cons.1 hp with hp | hp
      · subst hp; exact hm
      · exact hs.ctype p hp
    · refine ⟨hs.put ?_, trivial⟩
      refine ((t.ofMem (k := kCT) (by simp [mem, hl])).set (by decide) (by simp) ?_
        (.inl (t.ofMem (k := kCT) (by simp [mem, hl])).strict)).weaken
      intro x hx; simp at hx; subst hx
      exact field_entry (n := b!"Content-Type") (by decide) (by decide) hm

theorem mem_lstrip {x : UInt8} {v : Bytes} (h : x ∈ lstrip v) : x ∈ v := (List.dropWhile_suffix isSpace).subset h

theorem keep_getContentType {b : Bool} : Keep b getContentType (fun ct => (10 : UInt8) ∉ ct) := by
  refine Tri.headers (fun _ h => h) (fun h s hs => ?_)
  obtain ⟨hs, e⟩ := hs
  have t := hs.table h e
  rcases hl : Dict.get h kCT with _ | l
  · show Post _ _ (match s.ctype with
      | top :: rest => (Except.ok top, { s with ctype := rest })
      | [] => (.ok htmlType, s) : Except Exc Bytes × St)
    have hst := hs.ctype
    rcases e2 : s.ctype with _ | ⟨top, rest⟩
    · exact ⟨hs, by show (10 : UInt8) ∉ htmlType; decide⟩
    · rw [e2] at hst
      exact ⟨⟨hs.table, hs.status, fun p hp => hst p (by simp [hp]), hs.log⟩, hst top (by simp)⟩
  · have w : Wf b { s with headers := some (del h kCT) } := hs.put (t.del (by decide))
    rcases l with _ | ⟨v, rest⟩
    · exact w
    · refine ⟨w, fun hx => ?_⟩
      obtain ⟨n, u, ⟨e1, _, h1, h2⟩, _⟩ := (t.field _ _ (get_mem hl) (by decide)).2 v (by simp)
      have := List.mem_of_mem_drop (mem_lstrip hx)
      rw [e1] at this
      simp [h1, h2] at this

theorem keep_close {b : Bool} (k : Bool) : Keep b (close k) (fun _ => True) := by
  intro s hs
  rw [close_run]
  exact ⟨⟨hs.table, hs.status, hs.ctype, (hs.emit (e := .mark (k && s.keepalive)) (by intros _ _ _ h; cases h)).log⟩, trivial⟩

theorem keep_emit {b : Bool} {e : Emit} (he : ∀ t d o, e = Emit.head t d o → HeadOk t) : Keep b (emit e) (fun _ => True) :=
  fun _ hs => ⟨hs.emit he, trivial⟩

theorem keep_modify {b : Bool} {f : St → St} (h : ∀ s, (f s).headers = s.headers ∧ (f s).status = s.status ∧ (f s).ctype = s.ctype ∧
    (f s).log = s.log) : Keep b (modify f) (fun _ => True) := by
  intro s hs
  obtain ⟨h1, h2, h3, h4⟩ := h s
  refine ⟨⟨?_, ?_, ?_, ?_⟩, trivial⟩
  · rw [h1]; exact hs.table
  · rw [h2]; exact hs.status
  · rw [h3]; exact hs.ctype
  · rw [h4]; exact hs.log

theorem keep_sendContinue {b : Bool} (c : Cfg) : Keep b (sendContinue c) (fun _ => True) := by
  refine Tri.get (fun s hs s' e => ?_)
  subst e
  refine (Keep.ite (Keep.ite (Keep.raise _) (Keep.bind (keep_emit ?_) (fun _ _ => keep_close true))) (Keep.pure _ trivial)) s' hs
  intros _ _ _ h; cases h

theorem keep_writeBody {b : Bool} (d o) : Keep b (writeBody d o) (fun _ => True) := by
  refine Tri.get (fun s hs s' e => ?_)
  subst e
  cases d with
  | none => exact ⟨hs.emit (by intros _ _ _ h; cases h), trivial⟩
  | some d =>
    refine Keep.ite (keep_emit ?_) (keep_emit ?_) s' hs <;> (intros _ _ _ h; cases h)

theorem join_noLF {sep : Bytes} (hs : (10 : UInt8) ∉ sep) : ∀ {l : List Bytes}, (∀ x ∈ l, (10 : UInt8) ∉ x) → (10 : UInt8) ∉ join sep l
  | [], _ => by simp [join]
  | [a], h => h a (by simp)
  | a :: b :: r, h => by
    rw [join_cons sep a (by simp)]
    have := join_noLF hs (l := b :: r) (fun x hx => h x (List.mem_cons_of_mem _ hx))
    simp [h a (by simp), hs, this]

theorem Table.flat {b : Bool} {h} (t : Table b h) (hl : mem h kLine = false) {q : Bytes × List Bytes → Bool} :
    (∀ p ∈ h.filter q, p.2 ≠ []) ∧ ∀ x ∈ (h.filter q).flatMap (·.2), ∃ n v, Field n v x := by
  have nl : ∀ k l, (k, l) ∈ h → k ≠ kLine := by
    rintro k l hm rfl
    have : mem h kLine = true := (mem_iff h kLine).2 ⟨l, hm⟩
    rw [hl] at this; cases this
  refine ⟨fun p hp => (t.field p.1 p.2 (List.mem_filter.1 hp).1 (nl _ _ (List.mem_filter.1 hp).1)).1, fun x hx => ?_⟩
  obtain ⟨p, hp, hx⟩ := List.mem_flatMap.1 hx
  obtain ⟨n, v, f, _⟩ := (t.field p.1 p.2 (List.mem_filter.1 hp).1 (nl _ _ (List.mem_filter.1 hp).1)).2 x hx
  exact ⟨n, v, f⟩

/-- The header lines of a table, in order. -/
def flat (h : Dict Bytes (List Bytes)) : List Bytes := h.flatMap (·.2)

theorem flat_ne {h : Dict Bytes (List Bytes)} {k} (hm : mem h k = true) (hp : ∀ p ∈ h, p.2 ≠ []) : flat h ≠ [] := by
  obtain ⟨v, hv⟩ := (mem_iff h k).1 hm
  intro e
  have := List.flatMap_eq_nil_iff.1 e _ hv
  exact hp _ hv this

theorem writeHead_is {l : List Bytes} {h} (t : Table true h) (hn : mem h kLine = false) (hl : ∀ x ∈ l, (10 : UInt8) ∉ x) :
    HeadIs (writeHead l h) (join b!" " l) (flat h) := by
  have ht := t.flat hn (q := fun _ => true)
  have hf : h.filter (fun _ => true) = h := List.filter_eq_self.2 (by simp)
  rw [hf] at ht
  refine ⟨?_, join_noLF (by decide) hl, ht.2⟩
  unfold writeHead joinHeaders
  rw [join_join CRLF ht.1, join_cons CRLF _ (flat_ne t.strict ht.1)]
  rfl

abbrev excluded : List Bytes := [kConn, kCL, kTE]

theorem endHead_is {c : Cfg} {st : Int × Bytes} {ct : Bytes} {n : Nat} {k : Bool} {h} (hc : CfgOk c) (t : Table true h) (hn : mem h kLine = false)
    (h1 : (10 : UInt8) ∉ st.2) (h2 : (10 : UInt8) ∉ ct) :
    HeadIs (endHead c st ct n k h) (b!"HTTP/" ++ c.version ++ b!" " ++ fmtInt st.1 ++ b!" " ++ st.2)
      ([line b!"Content-Type" ct, line b!"Content-Length" (fmtNat n), line b!"Connection" (keepOrClose k)] ++
        flat (h.filter (fun p => p.1 ∉ excluded))) := by
  have ht := t.flat hn (q := fun p => p.1 ∉ excluded)
  have hm : mem (h.filter (fun p => p.1 ∉ excluded)) kDate = true := by
    simp only [mem]
    rw [get_filter h (fun k => decide (k ∉ excluded))]
    rw [if_pos (by decide)]
    exact t.strict
  refine ⟨?_, ?_, ?_⟩
  · unfold endHead joinHeaders
    rw [join_join CRLF ht.1, join_cons CRLF _ (by simp),
      show ∀ (x y z : Bytes) l, [x, y, z] ++ l = x :: y :: z :: l from fun _ _ _ _ => rfl, join_cons CRLF _ (by simp),
      join_cons CRLF _ (by simp), join_cons CRLF _ (flat_ne hm ht.1)]
    simp [line, flat]
  · have := fmtInt_noLF st.1
    simp [hc.version, h1, this]
  · intro x hx
    rcases List.mem_append.1 hx with hx | hx
    · simp at hx
      rcases hx with rfl | rfl | rfl
      · exact ⟨b!"Content-Type", ct, rfl, by decide, by decide, h2⟩
      · exact ⟨b!"Content-Length", fmtNat n, rfl, by decide, by decide, fmtNat_noLF n⟩
      · exact ⟨b!"Connection", keepOrClose k, rfl, by decide, by decide, by cases k <;> decide⟩
    · exact ht.2 x hx

theorem keep_typeHeader : Keep true typeHeader (fun _ => True) :=
  Keep.bind keep_getContentType (fun _ _ => keep_setHeader (by decide) (by decide))

theorem keep_decideKeep {b : Bool} (st : Int) (h) : Keep b (decideKeep st h) (fun _ => True) := by
  apply keep_modify
  intro s
  (repeat' split) <;> simp

/-- Putting the status line into the table. -/
theorem keep_putLine {l : List Bytes} (hl : ∀ x ∈ l, (10 : UInt8) ∉ x) : Keep true (do let h ← headers; putHeaders (Dict.set h kLine l)) (fun _ => True) := by
  refine Tri.headers (fun _ h => h) (fun h s hs => ⟨hs.1.put ?_, trivial⟩)
  exact (hs.1.table h hs.2).setLine hl (hs.1.table h hs.2).strict

theorem keep_putLine_bind {β : Type} {l : List Bytes} (hl : ∀ x ∈ l, (10 : UInt8) ∉ x) {f : M β} {R : β → Prop} (hf : Keep true f R) :
    Keep true (headers >>= fun h => putHeaders (Dict.set h kLine l) >>= fun _ => f) R := by
  refine Tri.headers (fun _ h => h) (fun h s hs => ?_)
  rw [bind_ok (putHeaders_run _ _)]
  exact hf _ (hs.1.put ((hs.1.table h hs.2).setLine hl (hs.1.table h hs.2).strict))

theorem keep_headers {b : Bool} {β : Type} {f : Dict Bytes (List Bytes) → M β} {R : β → Prop} (hf : ∀ h, Keep b (f h) R) :
    Keep b (headers >>= f) R := Tri.headers (fun _ h => h) (fun h s hs => hf h s hs.1)
theorem keep_get {b : Bool} {β : Type} {f : St → M β} {R : β → Prop} (hf : ∀ s, Keep b (f s) R) :
    Keep b (Model.Response.get >>= f) R := Tri.get (fun s hs s' e => by subst e; exact hf s' s' hs)

theorem line_noLF {c : Cfg} (hc : CfgOk c) {st : Int × Bytes} (h : (10 : UInt8) ∉ st.2) :
    ∀ x ∈ [b!"HTTP/" ++ c.version, fmtInt st.1, st.2], (10 : UInt8) ∉ x := by
  have := hc.version
  simp [fmtInt_noLF, h, this]

theorem tri_prepare {b : Bool} {c : Cfg} (hc : CfgOk c) (d ch o) : Tri (Wf b) (prepare c d ch o) (fun _ s => Wf true s) (Wf b) := by
  refine Tri.bind (tri_setBaseHeader hc) (fun _ => ?_)
  refine Tri.post (E := Wf true) (Q := fun _ s => Wf true s ∧ True) ?_ (fun _ _ h => h.1) (fun _ h => h.weaken)
  refine Keep.bind keep_getStatus (fun st hst => Keep.bind (keep_modify (fun _ => by simp)) (fun _ _ => keep_putLine_bind (line_noLF hc hst) ?_))
  refine Keep.bind (Keep.when keep_typeHeader) (fun _ _ => keep_get (fun s => ?_))
  refine Keep.bind (Keep.when (keep_setHeader (by decide) (by decide))) (fun _ _ => keep_headers (fun h => ?_))
  refine Keep.bind (keep_decideKeep _ _) (fun _ _ => Keep.bind (keep_setHeader (by decide) (by decide)) (fun _ _ => ?_))
  exact Keep.ite (Keep.bind (Keep.when (keep_modify (fun _ => by simp))) (fun _ _ => Keep.pure _ trivial)) (Keep.ite (Keep.pure _ trivial) (Keep.raise _))

theorem keep_flushHead : Keep true flushHead (fun _ => True) := by
  refine Tri.headers (fun _ h => h) (fun h s hs => ?_)
  obtain ⟨w, e⟩ := hs
  have t := w.table h e
  refine ⟨⟨fun h' e' => ?_, w.status, w.ctype, (w.emit (e := .head (writeHead ((Dict.get h kLine).getD []) (del h kLine)) [] _) ?_).log⟩, trivial⟩
  · cases e'
  · intro t' d o he
    cases he
    refine ⟨_, _, writeHead_is (t.del (by decide)) (by rw [mem_del]; simp) ?_⟩
    intro x hx
    cases hl : Dict.get h kLine with
    | none => rw [hl] at hx; simp at hx
    | some l => rw [hl] at hx; exact t.lines l (get_mem hl) x hx

theorem keep_write {b : Bool} {c : Cfg} (hc : CfgOk c) (d ch o) : Keep b (write c d ch o) (fun _ => True) := by
  have post : ∀ d', Tri (Wf true) (do flushHead; writeBody d' o) (fun _ s => Wf b s ∧ True) (Wf b) := fun d' =>
    Tri.post (Keep.bind keep_flushHead (fun _ _ => keep_writeBody d' o)) (fun _ _ h => ⟨h.1.weaken, trivial⟩) (fun _ h => h.weaken)
  refine Tri.get (fun s hs s' e => ?_)
  subst e
  cases hh : s'.headers with
  | none => exact keep_writeBody d o s' hs
  | some h =>
    dsimp only
    by_cases hm : mem h kLine = true
    · rw [if_pos hm]
      refine post d s' ⟨fun h' e' => ?_, hs.status, hs.ctype, hs.log⟩
      rw [hh] at e'; cases e'
      exact (hs.table h hh).ofMem hm
    · rw [if_neg hm]
      exact Tri.bind (tri_prepare hc d ch o) (fun d' => post d') s' hs

/-- What `get_status` leaves: no `_line`. -/
theorem getStatus_noLine {s s' : St} {st} (h : getStatus s = (.ok st, s')) : ∀ t, s'.headers = some t → mem t kLine = false := by
  intro t ht
  unfold getStatus at h
  cases e : s.headers with
  | none => rw [bind_err (headers_none e)] at h; cases h
  | some h0 =>
    rw [bind_ok (headers_some e)] at h
    rcases hl : Dict.get h0 kLine with _ | l
    · simp only [hl] at h
      rcases e2 : s.status with _ | ⟨top, rest⟩
      · simp only [e2] at h; cases h; rw [e] at ht; cases ht; simp [mem, hl]
      · simp only [e2] at h; cases h; rw [show s.headers = some t from ht] at e; cases e; simp [mem, hl]
    · simp only [hl, bind_ok (putHeaders_run _ _)] at h
      rcases l with _ | ⟨v, _ | ⟨x, _ | ⟨y, _ | ⟨z, rest⟩⟩⟩⟩
      iterate 3 cases h
      · simp only at h
        rcases hd : intDec x with _ | n
        · simp only [hd] at h; cases h
        · simp only [hd, pure_run] at h; cases h; cases ht; rw [mem_del]; simp
      · cases h

theorem getContentType_noLine {s s' : St} {ct} (h : getContentType s = (.ok ct, s')) (hs : ∀ t, s.headers = some t → mem t kLine = false) :
    ∀ t, s'.headers = some t → mem t kLine = false := by
  intro t ht
  unfold getContentType at h
  cases e : s.headers with
  | none => rw [bind_err (headers_none e)] at h; cases h
  | some h0 =>
    have h1 := hs h0 e
    rw [bind_ok (headers_some e)] at h
    rcases hl : Dict.get h0 kCT with _ | l
    · simp only [hl] at h
      rcases e2 : s.ctype with _ | ⟨top, rest⟩
      · simp only [e2] at h; cases h; rw [e] at ht; cases ht; exact h1
      · simp only [e2] at h; cases h; rw [show s.headers = some t from ht] at e; cases e; exact h1
    · simp only [hl, bind_ok (putHeaders_run _ _)] at h
      rcases l with _ | ⟨v, rest⟩
      · cases h
      · cases h; cases ht; rw [mem_del, h1]; simp

theorem tri_result {α : Type} {P : St → Prop} {m : M α} {Q : α → St → Prop} {E : St → Prop} (h : Tri P m Q E) :
    Tri P m (fun a s' => Q a s' ∧ ∃ s, m s = (.ok a, s')) E := by
  intro s hs
  have := h s hs
  generalize hr : m s = x at this ⊢
  obtain ⟨x, s'⟩ := x
  cases x with
  | ok a => exact ⟨this, s, hr⟩
  | error e => exact this

theorem keep_endSend {b : Bool} {c : Cfg} (hc : CfgOk c) (d k o) : Keep b (endSend c d k o) (fun _ => True) := by
  refine Tri.get (fun s0 hs0 s0' e0 => ?_)
  subst e0
  refine Tri.ite (P := Wf b) (Q := fun _ s => Wf b s ∧ True) (keep_write hc _ _ _) ?_ s0' hs0
  refine Tri.bind (tri_setBaseHeader hc) (fun _ => ?_)
  refine Tri.post (E := Wf true) (Q := fun _ s => Wf true s ∧ True) ?_ (fun _ _ h => ⟨h.1.weaken, trivial⟩) (fun _ h => h.weaken)
  refine Tri.bind (tri_result keep_getStatus) (fun st => ?_)
  intro s hs
  obtain ⟨⟨w, hst⟩, s1, hr⟩ := hs
  have hn := getStatus_noLine hr
  cases hg : getContentType s with
  | mk r s2 =>
    have kc := keep_getContentType s w
    rw [hg] at kc
    cases r with
    | error e => rw [bind_err hg]; exact kc
    | ok ct =>
      have hn2 := getContentType_noLine hg hn
      rw [bind_ok hg]
      obtain ⟨w2, hct⟩ := kc
      cases e2 : s2.headers with
      | none => rw [bind_err (headers_none e2)]; exact w2
      | some h2 =>
        rw [bind_ok (headers_some e2)]
        refine ⟨⟨fun h' e' => (by cases e'), w2.status, w2.ctype,
          (w2.emit (e := .head (endHead c st ct d.length (k && s2.keepalive) h2) (endBody c st.1 d) o) ?_).log⟩, trivial⟩
        intro t d' o' he
        cases he
        exact ⟨_, _, endHead_is hc (w2.table h2 e2) (hn2 h2 e2) hst hct⟩

theorem keep_end {b : Bool} {c : Cfg} (hc : CfgOk c) (d k o) : Keep b (end_ c d k o) (fun _ => True) :=
  Keep.bind (keep_endSend hc d k o) (fun _ _ => keep_close k)

/-- Calls on a strict state. -/
theorem keep_call {c : Cfg} (hc : CfgOk c) (call : Call) (h : Call.Clean call) : Keep true (call.run c) (fun _ => True) := by
  cases call with
  | appendHeader n v => exact keep_appendHeader h.1 h.2.1 h.2.2.1 h.2.2.2
  | setBaseHeader => exact Tri.post (tri_setBaseHeader hc) (fun _ _ h => ⟨h, trivial⟩) (fun _ h => h)
  | setCookie k => exact keep_setCookie k
  | setHeader n v => exact keep_setHeader h.1 h.2
  | setStatus st m => exact keep_setStatus st m
  | getStatus => exact Keep.bind keep_getStatus (fun _ _ => Keep.pure _ trivial)
  | setContentType ct => exact keep_setContentType ct
  | getContentType => exact Keep.bind keep_getContentType (fun _ _ => Keep.pure _ trivial)
  | write d ch o => exact keep_write hc d ch o
  | end_ d k o => exact keep_end hc d k o
  | close k => exact keep_close k
  | stream => exact keep_sendContinue c

/-- Calls that set no header, on any state. -/
theorem keep_call' {c : Cfg} (hc : CfgOk c) (call : Call) (h : Call.NoHeader call) : Keep false (call.run c) (fun _ => True) := by
  cases call with
  | appendHeader n v => cases h
  | setBaseHeader => exact Tri.post (tri_setBaseHeader hc) (fun _ _ h => ⟨h.loose, trivial⟩) (fun _ h => h)
  | setCookie k => cases h
  | setHeader n v => cases h
  | setStatus st m => exact keep_setStatus st m
  | getStatus => exact Keep.bind keep_getStatus (fun _ _ => Keep.pure _ trivial)
  | setContentType ct => exact keep_setContentType ct
  | getContentType => exact Keep.bind keep_getContentType (fun _ _ => Keep.pure _ trivial)
  | write d ch o => exact keep_write hc d ch o
  | end_ d k o => exact keep_end hc d k o
  | close k => exact keep_close k
  | stream => exact keep_sendContinue c

theorem keep_runScript {b : Bool} {c : Cfg} : ∀ (sc : Script), (∀ p ∈ sc, Keep b (p.1.run c) (fun _ => True)) → Keep b (runScript c sc) (fun _ => True)
  | [], _ => Keep.pure _ trivial
  | (call, g) :: rest, h => by
    intro s hs
    unfold runScript
    have h1 := h (call, g) (by simp) s hs
    have ih := keep_runScript rest (fun p hp => h p (by simp [hp]))
    dsimp only at h1
    generalize call.run c s = x at h1 ⊢
    obtain ⟨x, s'⟩ := x
    cases x with
    | ok a => exact ih s' h1.1
    | error e =>
      dsimp only
      cases g with
      | true => exact ih s' h1
      | false => exact h1

theorem keep_script {c : Cfg} (hc : CfgOk c) {sc : Script} (h : Script.Clean sc) : Keep true (runScript c sc) (fun _ => True) :=
  keep_runScript sc (fun p hp => keep_call hc p.1 (h p hp))

theorem keep_applyOpts {b : Bool} (st ct) : Keep b (applyOpts st ct) (fun _ => True) := by
  refine Keep.bind (R := fun _ => True) ?_ (fun _ _ => ?_)
  · rcases st with _ | ⟨st, m⟩
    · exact Keep.pure _ trivial
    · exact keep_setStatus _ _
  · rcases ct with _ | ct
    · exact Keep.pure _ trivial
    · exact keep_setContentType _

/-- Outcome: well-formed, and strict when the method returned. -/
abbrev Up {α : Type} (m : M α) : Prop := Tri (Wf false) m (fun _ s => Wf true s) (Wf false)

theorem Up.ofKeep {α : Type} {m : M α} (h : Keep true m (fun _ => True)) : Tri (Wf true) m (fun _ s => Wf true s) (Wf false) :=
  Tri.post h (fun _ _ h => h.1) (fun _ h => h.weaken)

theorem up_middleware {c : Cfg} (hc : CfgOk c) {m : Mw} (h : Script.Clean m.script) : Up (handleMiddleware c m) := by
  refine Tri.bind (tri_setBaseHeader hc) (fun _ => Up.ofKeep ?_)
  refine Keep.bind (keep_script hc h) (fun _ _ => ?_)
  cases m.ret with
  | none => exact Keep.pure _ trivial
  | odd => exact Keep.pure _ trivial
  | raise e => exact Keep.raise _
  | data d => exact Keep.bind (keep_applyOpts _ _) (fun _ _ => Keep.bind (keep_end hc _ _ _) (fun _ _ => Keep.pure _ trivial))

theorem keep_middleware {c : Cfg} (hc : CfgOk c) {m : Mw} (h : Script.Clean m.script) : Keep true (handleMiddleware c m) (fun _ => True) := by
  refine Keep.bind (R := fun _ => True) (Tri.post (tri_setBaseHeader hc) (fun _ _ h => ⟨h, trivial⟩) (fun _ h => h)) (fun _ _ => ?_)
  refine Keep.bind (keep_script hc h) (fun _ _ => ?_)
  cases m.ret with
  | none => exact Keep.pure _ trivial
  | odd => exact Keep.pure _ trivial
  | raise e => exact Keep.raise _
  | data d => exact Keep.bind (keep_applyOpts _ _) (fun _ _ => Keep.bind (keep_end hc _ _ _) (fun _ _ => Keep.pure _ trivial))

theorem keep_responseLoop {c : Cfg} (hc : CfgOk c) : ∀ {ms : List Mw}, (∀ m ∈ ms, Script.Clean m.script) → Keep true (responseLoop c ms) (fun _ => True)
  | [], _ => Keep.pure _ trivial
  | m :: ms, h => Keep.bind (keep_middleware hc (h m (by simp))) (fun _ _ =>
      Keep.ite (keep_responseLoop hc (fun m hm => h m (by simp [hm]))) (Keep.pure _ trivial))

theorem tri_requestLoop {c : Cfg} (hc : CfgOk c) : ∀ {ms : List Mw}, (∀ m ∈ ms, Script.Clean m.script) → Keep false (requestLoop c ms) (fun _ => True)
  | [], _ => Keep.pure _ trivial
  | m :: ms, h => Tri.bind (up_middleware hc (h m (by simp))) (fun _ =>
      Tri.ite (Tri.pre (tri_requestLoop hc (fun m hm => h m (by simp [hm]))) (fun _ h => h.weaken)) (Tri.pure _ (fun _ h => ⟨h.weaken, trivial⟩)))

theorem keep_startHead {c : Cfg} (hc : CfgOk c) (o : Opt) : Keep true (startHead c o) (fun _ => True) := by
  refine Keep.bind keep_getStatus (fun st hst => Keep.bind (keep_modify (fun _ => by simp)) (fun _ _ => keep_putLine_bind (line_noLF hc hst) ?_))
  refine Keep.bind (Keep.when keep_typeHeader) (fun _ _ => keep_get (fun s => ?_))
  exact Keep.bind (Keep.when (keep_setHeader (by decide) (by decide))) (fun _ _ => Keep.pure _ trivial)

theorem keep_genLoop {c : Cfg} (hc : CfgOk c) {o fin e} (hf : Script.Clean fin) : ∀ {ys : List (Script × Bytes)}, (∀ y ∈ ys, Script.Clean y.1) →
    Keep true (genLoop c o fin e ys) (fun _ => True)
  | [], _ => by
    refine Keep.bind (keep_script hc hf) (fun _ _ => ?_)
    rcases e with _ | e
    · exact keep_write hc _ _ _
    · exact Keep.raise _
  | (sc, d) :: rest, h =>
    Keep.bind (keep_script hc (h (sc, d) (by simp))) (fun _ _ => Keep.bind (Keep.when (keep_write hc _ _ _)) (fun _ _ =>
      keep_genLoop hc hf (fun y hy => h y (by simp [hy]))))

theorem up_handleResponse {c : Cfg} (hc : CfgOk c) (o : Opt) {rms : List Mw} (hr : ∀ m ∈ rms, Script.Clean m.script) {h : Handler} (hh : Handler.Clean h) :
    Up (handleResponse c o rms h) := by
  cases h with
  | coro sc r =>
    refine Tri.bind (keep_applyOpts _ _) (fun _ => Tri.bind (Tri.pre (tri_setBaseHeader hc) (fun _ h => h.1)) (fun _ => Up.ofKeep ?_))
    refine Keep.bind (keep_script hc hh) (fun _ _ => ?_)
    cases r with
    | none => exact keep_close _
    | odd => exact Keep.pure _ trivial
    | raise e => exact Keep.raise _
    | data d =>
      refine Keep.bind (keep_startHead hc o) (fun st _ => keep_get (fun s => ?_))
      refine Keep.bind (Keep.when (keep_setHeader (by decide) (by decide))) (fun _ _ => Keep.bind (keep_setHeader (by decide) (by decide)) (fun _ _ => ?_))
      refine Keep.bind (keep_responseLoop hc hr) (fun go _ => Keep.ite (Keep.ite (keep_write hc _ _ _) ?_) (Keep.pure _ trivial))
      exact Keep.bind (Keep.when (keep_write hc _ _ _)) (fun _ _ => Keep.bind (keep_write hc _ _ _) (fun _ _ => keep_close _))
  | gen ys fin e =>
    refine Tri.bind (keep_applyOpts _ _) (fun _ => Tri.bind (Tri.pre (tri_setBaseHeader hc) (fun _ h => h.1)) (fun _ => Up.ofKeep ?_))
    rcases ys with _ | ⟨⟨sc, d⟩, rest⟩
    · exact Keep.bind (keep_script hc hh.2) (fun _ _ => Keep.raise _)
    · refine Keep.bind (keep_script hc (hh.1 (sc, d) (by simp))) (fun _ _ => Keep.bind (keep_startHead hc o) (fun st _ => keep_get (fun s => keep_headers (fun h => ?_))))
      refine Keep.bind (keep_decideKeep _ _) (fun _ _ => Keep.bind (keep_setHeader (by decide) (by decide)) (fun _ _ => ?_))
      refine Keep.bind (keep_responseLoop hc hr) (fun go _ => Keep.ite (Keep.ite (keep_write hc _ _ _) ?_) (Keep.pure _ trivial))
      exact Keep.bind (Keep.when (keep_write hc _ _ _)) (fun _ _ => Keep.bind
        (keep_genLoop hc hh.2 (fun y hy => hh.1 y (by simp [hy]))) (fun _ _ => keep_close _))

theorem keep_finally {b : Bool} {α : Type} {m : M α} {f : Option α → M Unit} (hm : Keep b m (fun _ => True)) (hf : ∀ a, Keep b (f a) (fun _ => True)) :
    Keep b (finally_ m f) (fun _ => True) := by
  intro s hs
  unfold finally_
  have h := hm s hs
  generalize m s = x at h ⊢
  obtain ⟨x, s'⟩ := x
  cases x with
  | ok a => exact hf _ s' h.1
  | error e =>
    have h2 := hf none s' h
    dsimp only
    generalize f none s' = y at h2 ⊢
    obtain ⟨y, s''⟩ := y
    cases y with
    | ok a => exact h2.1
    | error e => exact h2

theorem keep_errorResponse {c : Cfg} (hc : CfgOk c) {eh : ErrHandler} (he : ∀ p ∈ eh.script, Call.NoHeader p.1) (e) :
    Keep false (errorResponse c eh e) (fun _ => True) := by
  refine keep_get (fun s => Keep.ite (keep_close _) ?_)
  intro s1 hs1
  rw [bind_ok (putHeaders_run _ _)]
  refine Keep.bind (keep_setStatus _ _) (fun _ _ => Keep.bind (keep_setContentType _) (fun _ _ => keep_finally ?_ (fun _ => keep_end hc _ _ _))) _
    (hs1.put ⟨by simp, by simp, .inl ⟨rfl, rfl⟩⟩)
  refine Keep.bind (keep_runScript _ (fun p hp => keep_call' hc p.1 (he p hp))) (fun _ _ => ?_)
  rcases eh.ret with e | (_ | d)
  · exact Keep.raise _
  · exact Keep.pure _ trivial
  · exact Keep.pure _ trivial

theorem keep_handleException {c : Cfg} (hc : CfgOk c) {eh : ErrHandler} (he : ∀ p ∈ eh.script, Call.NoHeader p.1) (e : Exc) :
    Keep false (handleException c eh e) (fun _ => True) := by
  refine keep_get (fun s => Keep.ite (keep_modify (fun _ => by simp)) ?_)
  cases e with
  | wsServer code => exact Keep.bind (keep_emit (by intros _ _ _ h; cases h)) (fun _ _ => keep_close true)
  | ws => exact keep_close true
  | http code m ct => exact keep_errorResponse hc he _
  | timeout => exact keep_errorResponse hc he _
  | other => exact keep_errorResponse hc he _

theorem handleRequest_wf {c : Cfg} (hc : CfgOk c) {a : App} (ha : App.Clean a) {s : St} (hs : Wf false s) : Wf false (handleRequest c a s) := by
  have h : Tri (Wf false) (serve c a) (fun _ s => Wf false s) (Wf false) :=
    Tri.bind (tri_requestLoop hc ha.qms) (fun _ => Tri.pre (Tri.ite
      (Tri.post (up_handleResponse hc _ ha.rms ha.handler) (fun _ _ h => h.weaken) (fun _ h => h)) (Tri.pure _ (fun _ h => h))) (fun _ h => h.1))
  have h1 := h s hs
  unfold handleRequest
  generalize serve c a s = x at h1 ⊢
  obtain ⟨x, s'⟩ := x
  cases x with
  | ok _ => exact h1
  | error e =>
    have h2 := keep_handleException hc ha.err e s' h1
    dsimp only
    generalize handleException c a.err e s' = y at h2 ⊢
    obtain ⟨y, s''⟩ := y
    cases y with
    | ok _ => exact h2.1
    | error _ => exact h2

end Verif.Proofs.Response
