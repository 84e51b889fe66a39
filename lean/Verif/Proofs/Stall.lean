import Verif.Spec.Stall
import Verif.Py.Util
/-!
# Waiting for body data: proofs
-/
namespace Verif.Proofs.Stall
open Verif.Py Verif.Model.Stall Verif.Spec.Stall
open Verif.Model

abbrev Q := Queue.St Item

/-- The getters between reads. -/
def Rest (q : Q) : Prop := q.getters = [] ∨ ∃ f o, q.getters = [f] ∧ q.futs[f]? = some (o, .cancelled)

/-- Where the call of the current read is. -/
inductive Ph
  | waiting
  | ready (x : Item)
  | cancelled
  | done (r : Queue.Res Item)

/-- Call `k` is the last one and in that phase. -/
def In (q : Q) (k : Nat) : Ph → Prop
  | .waiting => k + 1 = q.calls.length ∧ k ∉ q.must ∧ q.queue = [] ∧ ∃ f, q.calls[k]? = some (.own f) ∧ q.futs[f]? = some (k, .pending) ∧ q.getters = [f]
  | .ready x => k + 1 = q.calls.length ∧ q.getters = [] ∧ ∃ f, q.calls[k]? = some (.own f) ∧ q.futs[f]? = some (k, .result x)
  | .cancelled => k + 1 = q.calls.length ∧ ∃ f, q.calls[k]? = some (.own f) ∧ q.futs[f]? = some (k, .cancelled) ∧ (q.getters = [] ∨ q.getters = [f])
  | .done r => k + 1 = q.calls.length ∧ q.calls[k]? = some (.done r) ∧ Rest q ∧ ∀ x, r = .got x → q.getters = []

theorem set_get {α : Type} {l : List α} {i : Nat} {x y : α} (h : l[i]? = some y) : (l.set i x)[i]? = some x := by
  have := (List.getElem?_eq_some_iff.1 h).1
  simp [this]

/-- What does not change, or how. -/
structure Same (q q' : Q) : Prop where
  queue : q'.queue = q.queue
  handed : q'.handed = q.handed
  put : q'.put = q.put

theorem put_rest {q : Q} (x : Item) (h : Rest q) : (Queue.put x q).getters = [] ∧ (Queue.put x q).queue = q.queue ++ [x] ∧
    (Queue.put x q).handed = q.handed ∧ (Queue.put x q).put = q.put ++ [x] ∧ (Queue.put x q).calls = q.calls ∧ (Queue.put x q).futs = q.futs ∧ (Queue.put x q).must = q.must := by
  unfold Queue.put
  rcases h with h | ⟨f, o, h, h2⟩
  · rw [h]; simp [Queue.putLoop]
  · rw [h]; simp [Queue.putLoop, h2]

theorem put_waiting {q : Q} {k : Nat} (x : Item) (h : In q k .waiting) : In (Queue.put x q) k (.ready x) ∧ (Queue.put x q).queue = q.queue ∧
    (Queue.put x q).handed.map (·.2) = q.handed.map (·.2) ++ [x] ∧ (Queue.put x q).put = q.put ++ [x] ∧ (Queue.put x q).must = q.must := by
  obtain ⟨h1, h2, h3, f, h4, h5, h6⟩ := h
  have e : Queue.put x q = { Queue.setFut q f (k, .result x) with getters := [], handed := q.handed ++ [(.call k, x)], put := q.put ++ [x] } := by
    unfold Queue.put; rw [h6]; simp [Queue.putLoop, h5]
  rw [e]
  exact ⟨⟨h1, rfl, f, h4, set_get h5⟩, rfl, by simp, rfl, rfl⟩

theorem put_other {q : Q} {k : Nat} (x : Item) {ph : Ph} (h : In q k ph) (hw : ∀ (_ : ph = .waiting), False) : In (Queue.put x q) k ph ∧ (Queue.put x q).queue = q.queue ++ [x] ∧
    (Queue.put x q).handed = q.handed ∧ (Queue.put x q).put = q.put ++ [x] ∧ (Queue.put x q).must = q.must ∧ (Queue.put x q).getters = [] := by
  cases ph with
  | waiting => exact (hw rfl).elim
  | ready y =>
    obtain ⟨h1, h2, f, h4, h5⟩ := h
    obtain ⟨a1, a2, a3, a4, a5, a6, a7⟩ := put_rest x (.inl h2)
    exact ⟨⟨by rw [a5]; exact h1, a1, f, by rw [a5]; exact h4, by rw [a6]; exact h5⟩, a2, a3, a4, a7, a1⟩
  | cancelled =>
    obtain ⟨h1, f, h4, h5, h6⟩ := h
    obtain ⟨a1, a2, a3, a4, a5, a6, a7⟩ := put_rest (q := q) x (h6.imp id (fun h => ⟨f, k, h, h5⟩))
    exact ⟨⟨by rw [a5]; exact h1, f, by rw [a5]; exact h4, by rw [a6]; exact h5, .inl a1⟩, a2, a3, a4, a7, a1⟩
  | done r =>
    obtain ⟨h1, h2, h3, h4⟩ := h
    obtain ⟨a1, a2, a3, a4, a5, a6, a7⟩ := put_rest x h3
    exact ⟨⟨by rw [a5]; exact h1, by rw [a5]; exact h2, .inl a1, fun _ _ => a1⟩, a2, a3, a4, a7, a1⟩

/-- A new call between reads. -/
theorem start_rest {q : Q} (h : Rest q) (hm : ∀ t ∈ q.must, t < q.calls.length) :
    ((q.getters = [] ∧ ∃ x r, q.queue = x :: r ∧ In (Queue.start q) q.calls.length (.done (.got x)) ∧ (Queue.start q).queue = r ∧
        (Queue.start q).handed.map (·.2) = q.handed.map (·.2) ++ [x]) ∨
      (q.getters = [] ∧ q.queue = [] ∧ In (Queue.start q) q.calls.length .waiting ∧ (Queue.start q).queue = [] ∧ (Queue.start q).handed = q.handed) ∨
      (q.getters ≠ [] ∧ In (Queue.start q) q.calls.length (.done .cancelledError) ∧ (Queue.start q).queue = q.queue ∧ (Queue.start q).handed = q.handed ∧
        (Queue.start q).getters = q.getters)) ∧
    (Queue.start q).put = q.put ∧ (Queue.start q).must = q.must ∧ (Queue.start q).calls.length = q.calls.length + 1 := by
  rcases h with h | ⟨f, o, h, h2⟩
  · have e : Queue.start q = Queue.tail q.calls.length { q with calls := q.calls ++ [Queue.Call.done .cancelledError] } := by
      unfold Queue.start; rw [h]; rfl
    cases hq : q.queue with
    | nil =>
      have e2 : Queue.start q = { q with calls := (q.calls ++ [Queue.Call.done .cancelledError]).set q.calls.length (.own q.futs.length), futs := q.futs ++ [(q.calls.length, .pending)], getters := [q.futs.length] } := by
        rw [e]; unfold Queue.tail; simp [hq, Queue.setCall, h]
      rw [e2]
      refine ⟨.inr (.inl ⟨h, rfl, ⟨by simp, fun hmem => Nat.lt_irrefl _ (hm _ hmem), hq, q.futs.length, ?_, by simp, rfl⟩, hq, rfl⟩), rfl, rfl, by simp⟩
      exact set_get (y := Queue.Call.done .cancelledError) (by simp)
    | cons x r =>
      have e2 : Queue.start q = { q with calls := (q.calls ++ [Queue.Call.done .cancelledError]).set q.calls.length (.done (.got x)), queue := r, handed := q.handed ++ [(.call q.calls.length, x)] } := by
        rw [e]; unfold Queue.tail; simp [hq, Queue.setCall]
      rw [e2]
      refine ⟨.inl ⟨h, x, r, rfl, ⟨by simp, ?_, .inl h, fun _ _ => h⟩, rfl, by simp⟩, rfl, rfl, by simp⟩
      exact set_get (y := Queue.Call.done .cancelledError) (by simp)
  · have e : Queue.start q = { q with calls := q.calls ++ [Queue.Call.done .cancelledError] } := by
      unfold Queue.start; rw [h]; simp [h2]
    rw [e]
    exact ⟨.inr (.inr ⟨by simp [h], ⟨by simp, by simp, .inr ⟨f, o, h, h2⟩, fun x hx => by cases hx⟩, rfl, rfl, rfl⟩), rfl, rfl, by simp⟩

theorem resume_in {q : Q} {k : Nat} {ph : Ph} (h : In q k ph) :
    (match ph with
      | .waiting => In (Queue.resume k q) k .waiting
      | .ready x => In (Queue.resume k q) k (.done (if k ∈ q.must then .cancelledError else .got x))
      | .cancelled => In (Queue.resume k q) k (.done .cancelledError)
      | .done r => In (Queue.resume k q) k (.done r)) ∧
    Same q (Queue.resume k q) ∧ (Queue.resume k q).must = q.must ∧ (Queue.resume k q).getters = q.getters := by
  cases ph with
  | waiting =>
    obtain ⟨h1, h2, h3, f, h4, h5, h6⟩ := h
    have e : Queue.resume k q = q := by unfold Queue.resume; simp [h4, h5]
    rw [e]; exact ⟨⟨h1, h2, h3, f, h4, h5, h6⟩, ⟨rfl, rfl, rfl⟩, rfl, rfl⟩
  | ready x =>
    obtain ⟨h1, h2, f, h4, h5⟩ := h
    have e : Queue.resume k q = { q with calls := q.calls.set k (.done (if k ∈ q.must then .cancelledError else .got x)) } := by
      unfold Queue.resume; simp only [h4, h5]; split <;> rfl
    rw [e]; exact ⟨⟨by simpa using h1, set_get h4, .inl h2, fun _ _ => h2⟩, ⟨rfl, rfl, rfl⟩, rfl, rfl⟩
  | cancelled =>
    obtain ⟨h1, f, h4, h5, h6⟩ := h
    have e : Queue.resume k q = { q with calls := q.calls.set k (.done .cancelledError) } := by
      unfold Queue.resume; simp only [h4, h5]; rfl
    rw [e]; exact ⟨⟨by simpa using h1, set_get h4, h6.imp id (fun h => ⟨f, k, h, h5⟩), fun x hx => by cases hx⟩, ⟨rfl, rfl, rfl⟩, rfl, rfl⟩
  | done r =>
    obtain ⟨h1, h2, h3, h4⟩ := h
    have e : Queue.resume k q = q := by unfold Queue.resume; simp [h2]
    rw [e]; exact ⟨⟨h1, h2, h3, h4⟩, ⟨rfl, rfl, rfl⟩, rfl, rfl⟩

theorem cancel_in {q : Q} {k : Nat} {ph : Ph} (h : In q k ph) (hm : ∀ t ∈ q.must, t < q.calls.length) :
    (match ph with
      | .waiting => In (Queue.cancel k q) k .cancelled
      | .ready x => In (Queue.cancel k q) k (.ready x)
      | .cancelled => In (Queue.cancel k q) k .cancelled
      | .done r => In (Queue.cancel k q) k (.done r)) ∧
    Same q (Queue.cancel k q) ∧ (∀ t ∈ (Queue.cancel k q).must, t < (Queue.cancel k q).calls.length) ∧ (Queue.cancel k q).getters = q.getters ∧
    ((∃ x, ph = .ready x) → k ∈ (Queue.cancel k q).must) := by
  cases ph with
  | waiting =>
    obtain ⟨h1, h2, h3, f, h4, h5, h6⟩ := h
    have e : Queue.cancel k q = { q with futs := q.futs.set f (k, .cancelled) } := by
      unfold Queue.cancel; simp only [h4, h5]; rfl
    rw [e]
    exact ⟨⟨h1, f, h4, set_get h5, .inr h6⟩, ⟨rfl, rfl, rfl⟩, hm, rfl, fun ⟨x, hx⟩ => by cases hx⟩
  | ready x =>
    obtain ⟨h1, h2, f, h4, h5⟩ := h
    have e : Queue.cancel k q = { q with must := k :: q.must } := by unfold Queue.cancel; simp only [h4, h5]
    rw [e]
    refine ⟨⟨h1, h2, f, h4, h5⟩, ⟨rfl, rfl, rfl⟩, fun t ht => ?_, rfl, fun _ => by simp⟩
    rcases List.mem_cons.1 ht with rfl | ht
    · show t < q.calls.length; omega
    · exact hm t ht
  | cancelled =>
    obtain ⟨h1, f, h4, h5, h6⟩ := h
    have e : Queue.cancel k q = { q with must := k :: q.must } := by unfold Queue.cancel; simp only [h4, h5]
    rw [e]
    refine ⟨⟨h1, f, h4, h5, h6⟩, ⟨rfl, rfl, rfl⟩, fun t ht => ?_, rfl, fun ⟨x, hx⟩ => by cases hx⟩
    rcases List.mem_cons.1 ht with rfl | ht
    · show t < q.calls.length; omega
    · exact hm t ht
  | done r =>
    obtain ⟨h1, h2, h3, h4⟩ := h
    have e : Queue.cancel k q = q := by unfold Queue.cancel; simp [h2]
    rw [e]
    exact ⟨⟨h1, h2, h3, h4⟩, ⟨rfl, rfl, rfl⟩, hm, rfl, fun ⟨x, hx⟩ => by cases hx⟩

/-! ### The invariant -/

/-- The last read timed out, when so many items had been put. -/
def Last (s : St) (n : Nat) : Prop := ∃ pre r, s.outs = pre ++ [r] ∧ r.got = .timeout ∧ r.p1 = n

def Late (K : Nat) (s : St) (t : Nat) : Prop := t + K ≤ s.now ∨ s.cancelled = true

/-- The call of the read in that phase: what it took, and why it fails. -/
def Why (K : Nat) (s : St) (t p k : Nat) : Ph → List Item → Prop
  | .waiting, h => h = [] ∧ s.gone = false ∧ s.must = false
  | .ready x, h => h = [x] ∧ (k ∈ s.q.must → Late K s t) ∧ s.must = false
  | .cancelled, h => h = [] ∧ Late K s t ∧ s.must = false
  | .done (.got x), h => h = [x]
  | .done .cancelledError, h => (h = [] ∨ ∃ x, h = [x]) ∧ (Late K s t ∨ Last s p)

inductive Cur (K : Nat) (s : St) : List Item → Prop
  | idle : s.rd = .idle → s.must = false → s.cancelled = false → Rest s.q → (s.q.getters ≠ [] → Last s s.puts.length) → Cur K s []
  | fresh {t p : Nat} {c d : Bool} : s.rd = .fresh t p c d → Rest s.q → (s.q.getters ≠ [] → Last s s.puts.length ∧ p = s.puts.length) →
      (c = true → Late K s t) → (d = true → c = true) → (s.gone = true → c = true) → (s.must = true → d = true) → Cur K s []
  | inner {t p k : Nat} {ph : Ph} {h : List Item} : s.rd = .inner t p k → In s.q k ph → Why K s t p k ph h → Cur K s h

/-- Why a read that has ended with TimeoutError did. -/
def Cause (K : Nat) (pre : List Read) (r : Read) : Prop :=
  r.t0 + K ≤ r.t1 ∨ r.cancelled = true ∨ ∃ pre' r0, pre = pre' ++ [r0] ∧ r0.got = .timeout ∧ r0.p1 = r.p0

structure Inv (K : Nat) (s : St) (L : List Item) : Prop where
  cur : ∃ h, Cur K s h ∧ (s.gone = false → ∃ hs, All2 (fun r h => Gives r.got h) s.outs hs ∧ s.q.handed.map (·.2) = hs.flatten ++ h)
  fifo : s.gone = false → s.q.handed.map (·.2) ++ s.q.queue = s.q.put
  put : s.gone = false → s.q.put = L
  gone : s.gone = true → s.q.getters = []
  must : ∀ t ∈ s.q.must, t < s.q.calls.length
  hmust : s.must = true → s.cancelled = true
  outs : ∀ pre r post, s.outs = pre ++ r :: post → r.got = .timeout → Cause K pre r

theorem All2.append {α β : Type} {R : α → β → Prop} : ∀ {l : List α} {m : List β}, All2 R l m → ∀ {l' m'}, All2 R l' m' → All2 R (l ++ l') (m ++ m')
  | _, _, .nil, _, _, h => h
  | _, _, .cons a b, _, _, h => .cons a (All2.append b h)

theorem snoc_split {α : Type} {l : List α} {a : α} {pre : List α} {r : α} {post : List α} (h : l ++ [a] = pre ++ r :: post) :
    (pre = l ∧ r = a ∧ post = []) ∨ ∃ p, post = p ++ [a] ∧ l = pre ++ r :: p := by
  rcases List.eq_nil_or_concat post with rfl | ⟨p, x, rfl⟩
  · have h1 := List.append_inj_left' h rfl
    have h2 := List.append_inj_right' h rfl
    simp only [List.cons.injEq, and_true] at h2
    exact .inl ⟨h1.symm, h2.symm, rfl⟩
  · rw [List.concat_eq_append] at h ⊢
    have h' : l ++ [a] = (pre ++ r :: p) ++ [x] := by rw [h]; simp
    have h1 := List.append_inj_left' h' rfl
    have h2 := List.append_inj_right' h' rfl
    simp only [List.cons.injEq, and_true] at h2
    exact .inr ⟨p, by rw [h2], h1⟩

theorem outs_snoc {K : Nat} {l : List Read} {a : Read} (h : ∀ pre r post, l = pre ++ r :: post → r.got = .timeout → Cause K pre r)
    (ha : a.got = .timeout → Cause K l a) : ∀ pre r post, l ++ [a] = pre ++ r :: post → r.got = .timeout → Cause K pre r := by
  intro pre r post he hr
  rcases snoc_split he with ⟨rfl, rfl, rfl⟩ | ⟨p, rfl, h1⟩
  · exact ha hr
  · exact h _ _ _ h1 hr

/-- A read ends. -/
theorem finish_inv {K : Nat} {s : St} {L h : List Item} {t p : Nat} {g : Got} (i : Inv K s L)
    (hh : s.gone = false → ∃ hs, All2 (fun r h => Gives r.got h) s.outs hs ∧ s.q.handed.map (·.2) = hs.flatten ++ h)
    (hr : Rest s.q) (hg : Gives (if s.must then .timeout else g) h) (hs : s.q.getters ≠ [] → g = .timeout)
    (hc : g = .timeout → Late K s t ∨ Last s p) : Inv K (finish s t p g) L := by
  have hto : s.q.getters ≠ [] → (if s.must then Got.timeout else g) = .timeout := by
    intro h; split
    · rfl
    · exact hs h
  refine ⟨⟨[], .idle rfl rfl rfl hr (fun hne => ⟨_, _, rfl, hto hne, rfl⟩), fun hgone => ?_⟩, i.fifo, i.put, i.gone, i.must, (fun h => by cases h), outs_snoc i.outs (fun ht => ?_)⟩
  · obtain ⟨hs, a1, a2⟩ := hh hgone
    refine ⟨hs ++ [h], All2.append a1 (.cons hg .nil), ?_⟩
    show s.q.handed.map (·.2) = _
    rw [a2]; simp
  · dsimp only at ht
    cases hm : s.must with
    | true => exact .inr (.inl (i.hmust hm))
    | false =>
      rw [hm] at ht
      rcases hc (by simpa using ht) with (h | h) | ⟨pre, r, h1, h2, h3⟩
      · exact .inl h
      · exact .inr (.inl h)
      · exact .inr (.inr ⟨pre, r, h1, h2, h3⟩)

theorem cancelTask_inv {K : Nat} {s : St} {L : List Item} (i : Inv K s L) (hl : ∀ t, (∃ p c d, s.rd = .fresh t p c d) ∨ (∃ p k, s.rd = .inner t p k) → Late K s t) :
    Inv K (cancelTask s) L ∧ (cancelTask s).cancelled = s.cancelled ∧ (cancelTask s).now = s.now ∧ (cancelTask s).gone = s.gone ∧ (cancelTask s).outs = s.outs := by
  obtain ⟨h, hc, hh⟩ := i.cur
  cases hc with
  | idle a =>
    have e : cancelTask s = s := by unfold cancelTask; rw [a]
    rw [e]; exact ⟨i, rfl, rfl, rfl, rfl⟩
  | @fresh t p c d a b b2 b3 b4 b5 b6 =>
    have e : cancelTask s = { s with rd := .fresh t p (c || !d) d } := by unfold cancelTask; rw [a]
    have hl' := hl t (.inl ⟨_, _, _, a⟩)
    rw [e]
    refine ⟨⟨⟨[], .fresh rfl b b2 (fun _ => hl') (fun hd => ?_) (fun hg => ?_) b6, hh⟩, i.fifo, i.put, i.gone, i.must, i.hmust, i.outs⟩, rfl, rfl, rfl, rfl⟩
    · simp [b4 hd]
    · simp [b5 hg]
  | @inner t p k ph h a b b2 =>
    have e : cancelTask s = { s with q := Queue.cancel k s.q } := by unfold cancelTask; rw [a]
    have hl' := hl t (.inr ⟨_, _, a⟩)
    obtain ⟨c1, c2, c3, c4, c5⟩ := cancel_in b i.must
    rw [e]
    refine ⟨⟨⟨h, ?_, fun hg => ?_⟩, fun hg => ?_, fun hg => ?_, fun hg => ?_, c3, i.hmust, i.outs⟩, rfl, rfl, rfl, rfl⟩
    · cases ph with
      | waiting => exact .inner (s := { s with q := Queue.cancel k s.q }) a c1 ⟨b2.1, hl', b2.2.2⟩
      | ready x => exact .inner (s := { s with q := Queue.cancel k s.q }) a c1 ⟨b2.1, fun _ => hl', b2.2.2⟩
      | cancelled => exact .inner (s := { s with q := Queue.cancel k s.q }) a c1 b2
      | done r => cases r with
        | got x => exact .inner (s := { s with q := Queue.cancel k s.q }) a c1 b2
        | cancelledError => exact .inner (s := { s with q := Queue.cancel k s.q }) a c1 b2
    · show ∃ hs, _ ∧ (Queue.cancel k s.q).handed.map (·.2) = _
      rw [c2.handed]; exact hh hg
    · show (Queue.cancel k s.q).handed.map (·.2) ++ (Queue.cancel k s.q).queue = (Queue.cancel k s.q).put
      rw [c2.handed, c2.queue, c2.put]; exact i.fifo hg
    · show (Queue.cancel k s.q).put = L
      rw [c2.put]; exact i.put hg
    · show (Queue.cancel k s.q).getters = []
      rw [c4]; exact i.gone hg

theorem late_mono {K : Nat} {s s' : St} {t : Nat} (hn : s.now ≤ s'.now) (hc : s.cancelled = true → s'.cancelled = true) (h : Late K s t) : Late K s' t := by
  rcases h with h | h
  · exact .inl (Nat.le_trans h hn)
  · exact .inr (hc h)

theorem why_mono {K : Nat} {s s' : St} {t p k : Nat} {ph : Ph} {h : List Item} (hn : s.now ≤ s'.now) (hc : s.cancelled = true → s'.cancelled = true)
    (ho : s'.outs = s.outs) (hg : s'.gone = s.gone) (hq : s'.q.must = s.q.must) (hm : s'.must = s.must) (hw : Why K s t p k ph h) : Why K s' t p k ph h := by
  cases ph with
  | waiting => exact ⟨hw.1, hg.trans hw.2.1, hm.trans hw.2.2⟩
  | ready x => exact ⟨hw.1, fun hk => late_mono hn hc (hw.2.1 (hq ▸ hk)), hm.trans hw.2.2⟩
  | cancelled => exact ⟨hw.1, late_mono hn hc hw.2.1, hm.trans hw.2.2⟩
  | done r => cases r with
    | got x => exact hw
    | cancelledError =>
      refine ⟨hw.1, hw.2.imp (late_mono hn hc) (fun ⟨pre, r, h1, h2⟩ => ⟨pre, r, by rw [ho]; exact h1, h2⟩)⟩

/-- Only the clock, or the mark of a cancellation, moves. -/
theorem later_inv {K : Nat} {s : St} {L : List Item} (i : Inv K s L) (n : Nat) (b : Bool) (hidle : s.rd = .idle → b = false) :
    Inv K { s with now := s.now + n, cancelled := s.cancelled || b } L := by
  obtain ⟨h, hc, hh⟩ := i.cur
  have hcc : s.cancelled = true → (s.cancelled || b) = true := fun h => by rw [h]; rfl
  refine ⟨⟨h, ?_, hh⟩, i.fifo, i.put, i.gone, i.must, fun h => hcc (i.hmust h), i.outs⟩
  cases hc with
  | idle a1 a2 a3 a4 a5 => exact .idle a1 a2 (by show (s.cancelled || b) = false; rw [a3, hidle a1]; rfl) a4 a5
  | fresh a1 a2 a3 a4 a5 a6 a7 => exact .fresh a1 a2 a3 (fun hc => late_mono (Nat.le_add_right _ _) hcc (a4 hc)) a5 a6 a7
  | inner a1 a2 a3 => exact .inner a1 a2 (why_mono (Nat.le_add_right _ _) hcc rfl rfl rfl rfl a3)

theorem mustSet_inv {K : Nat} {s : St} {L : List Item} (i : Inv K s L) (hd : taskDone s = true) : Inv K { s with must := true, cancelled := true } L := by
  obtain ⟨h, hc, hh⟩ := i.cur
  refine ⟨⟨h, ?_, hh⟩, i.fifo, i.put, i.gone, i.must, fun _ => rfl, i.outs⟩
  cases hc with
  | idle a1 => unfold taskDone at hd; rw [a1] at hd; cases hd
  | fresh a1 a2 a3 a4 a5 a6 a7 => exact .fresh a1 a2 a3 (fun _ => .inr rfl) a5 a6 (fun _ => by unfold taskDone at hd; rw [a1] at hd; exact hd)
  | @inner t p k ph h a1 a2 a3 =>
    unfold taskDone at hd
    rw [a1] at hd
    cases ph with
    | waiting => obtain ⟨-, -, -, f, a4, -⟩ := a2; simp [a4] at hd
    | ready x => obtain ⟨-, -, f, a4, -⟩ := a2; simp [a4] at hd
    | cancelled => obtain ⟨-, f, a4, -⟩ := a2; simp [a4] at hd
    | done r => cases r with
      | got x => exact .inner (s := { s with must := true, cancelled := true }) a1 a2 a3
      | cancelledError => exact .inner (s := { s with must := true, cancelled := true }) a1 a2 ⟨a3.1, .inl (.inr rfl)⟩

theorem cancelHandler_inv {K : Nat} {s : St} {L : List Item} (i : Inv K s L) : Inv K (cancelHandler s) L ∧ (cancelHandler s).gone = s.gone ∧
    (s.rd ≠ .idle → (cancelHandler s).cancelled = true) := by
  cases hr : s.rd with
  | idle =>
    have e : cancelHandler s = s := by unfold cancelHandler; rw [hr]
    rw [e]; exact ⟨i, rfl, fun h => absurd rfl h⟩
  | _ =>
    have e : cancelHandler s = if taskDone s then { s with must := true, cancelled := true } else { cancelTask s with cancelled := true } := by
      unfold cancelHandler; rw [hr]
    rw [e]
    split
    · next hd => exact ⟨mustSet_inv i hd, rfl, fun _ => rfl⟩
    · have j := later_inv i 0 true (by rw [hr]; intro h; cases h)
      obtain ⟨j1, j2, j3, j4, j5⟩ := cancelTask_inv j (fun t _ => .inr (by simp))
      have e2 : ({ cancelTask s with cancelled := true } : St) = cancelTask { s with now := s.now + 0, cancelled := s.cancelled || true } := by
        unfold cancelTask; rw [hr]; simp
      rw [e2]
      exact ⟨j1, j4, fun _ => j2.trans (by simp)⟩

theorem clear_in {q : Q} {k : Nat} {ph : Ph} (h : In q k ph) (hw : ph = .waiting → False) : In (Queue.clear q) k ph := by
  cases ph with
  | waiting => exact (hw rfl).elim
  | ready x => exact ⟨h.1, rfl, h.2.2⟩
  | cancelled => obtain ⟨h1, f, h2, h3, -⟩ := h; exact ⟨h1, f, h2, h3, .inl rfl⟩
  | done r => exact ⟨h.1, h.2.1, .inl rfl, fun _ _ => rfl⟩

/-- A handler that was cancelled in a read does not wait any more. -/
theorem cancelHandler_ph {K : Nat} {s : St} {L : List Item} (i : Inv K s L) :
    (∀ t p c d, (cancelHandler s).rd = .fresh t p c d → c = true) ∧
    (∀ t p k, (cancelHandler s).rd = .inner t p k → ¬ In (cancelHandler s).q k .waiting) := by
  obtain ⟨h, hc, hh⟩ := i.cur
  cases hc with
  | idle a =>
    have e : cancelHandler s = s := by unfold cancelHandler; rw [a]
    rw [e, a]
    exact ⟨fun _ _ _ _ h => (by cases h), fun _ _ _ h => (by cases h)⟩
  | @fresh t p c d a b b2 b3 b4 b5 b6 =>
    have e : (cancelHandler s).rd = .fresh t p (c || !d) d := by
      unfold cancelHandler; rw [a]; simp only
      split
      · next hd => unfold taskDone at hd; rw [a] at hd; simp only at hd; subst hd; simp [b4 rfl]
      · unfold cancelTask; rw [a]
    rw [e]
    refine ⟨fun t' p' c' d' h => ?_, fun _ _ _ h => (by cases h)⟩
    simp only [Rd.fresh.injEq] at h
    obtain ⟨-, -, rfl, rfl⟩ := h
    cases d with
    | true => simp [b4 rfl]
    | false => simp
  | @inner t p k ph h a b b2 =>
    have hrd : (cancelHandler s).rd = .inner t p k := by
      unfold cancelHandler; rw [a]; simp only
      split
      · rfl
      · unfold cancelTask; rw [a]
    rw [hrd]
    refine ⟨fun _ _ _ _ h => (by cases h), fun t' p' k' h => ?_⟩
    simp only [Rd.inner.injEq] at h
    obtain ⟨-, -, rfl⟩ := h
    rintro ⟨w1, w2, w3, f, w4, w5, w6⟩
    unfold cancelHandler at w4 w5
    rw [a] at w4 w5
    simp only at w4 w5
    cases hd : taskDone s with
    | true =>
      rw [hd] at w4
      simp only [if_true] at w4
      unfold taskDone at hd
      rw [a] at hd
      simp [w4] at hd
    | false =>
      rw [hd] at w4 w5
      simp only [Bool.false_eq_true, if_false] at w4 w5
      unfold cancelTask at w4 w5
      rw [a] at w4 w5
      simp only at w4 w5
      have := (cancel_in b i.must).1
      cases ph with
      | waiting => obtain ⟨-, g, g1, g2, -⟩ := this; rw [g1] at w4; cases w4; rw [g2] at w5; cases w5
      | ready x => obtain ⟨-, -, g, g1, g2⟩ := this; rw [g1] at w4; cases w4; rw [g2] at w5; cases w5
      | cancelled => obtain ⟨-, g, g1, g2, -⟩ := this; rw [g1] at w4; cases w4; rw [g2] at w5; cases w5
      | done r => obtain ⟨-, g1, -⟩ := this; rw [g1] at w4; cases w4

theorem lose_inv {K : Nat} {s : St} {L : List Item} (i : Inv K s L) : Inv K { cancelHandler s with gone := true, q := Queue.clear (cancelHandler s).q } L := by
  obtain ⟨j, -, -⟩ := cancelHandler_inv i
  obtain ⟨p1, p2⟩ := cancelHandler_ph i
  generalize cancelHandler s = s at *
  obtain ⟨h, hc, -⟩ := j.cur
  refine ⟨⟨h, ?_, fun h => by cases h⟩, (fun h => by cases h), (fun h => by cases h), fun _ => rfl, j.must, j.hmust, j.outs⟩
  cases hc with
  | idle a1 a2 a3 a4 a5 => exact .idle a1 a2 a3 (.inl rfl) (fun h => absurd rfl h)
  | fresh a1 a2 a3 a4 a5 a6 a7 => exact .fresh a1 (.inl rfl) (fun h => absurd rfl h) a4 a5 (fun _ => p1 _ _ _ _ a1) a7
  | @inner t p k ph h a1 a2 a3 =>
    have hw : ph = .waiting → False := by rintro rfl; exact p2 t p k a1 a2
    refine .inner (s := { s with gone := true, q := Queue.clear s.q }) a1 (clear_in a2 hw) ?_
    cases ph with
    | waiting => exact (hw rfl).elim
    | ready x => exact a3
    | cancelled => exact a3
    | done r => cases r with
      | got x => exact a3
      | cancelledError => exact a3

theorem put_inv {K : Nat} {s : St} {L : List Item} (i : Inv K s L) (x : Item) (hg : s.gone = false) :
    Inv K { s with q := Queue.put x s.q, puts := s.puts ++ [s.now] } (L ++ [x]) := by
  obtain ⟨h, hc, hh⟩ := i.cur
  obtain ⟨hs, hh1, hh2⟩ := hh hg
  have hf := i.fifo hg
  have hp := i.put hg
  cases hc with
  | idle a1 a2 a3 a4 a5 =>
    obtain ⟨b1, b2, b3, b4, b5, b6, b7⟩ := put_rest x a4
    refine ⟨⟨[], .idle a1 a2 a3 (.inl b1) (fun h => absurd b1 h), fun _ => ⟨hs, hh1, ?_⟩⟩, fun _ => ?_, fun _ => ?_, fun h => (by rw [hg] at h; cases h), ?_, i.hmust, i.outs⟩
    · rw [b3]; exact hh2
    · rw [b3, b2, b4, ← List.append_assoc, hf]
    · rw [b4, hp]
    · rw [b7, b5]; exact i.must
  | fresh a1 a2 a3 a4 a5 a6 a7 =>
    obtain ⟨b1, b2, b3, b4, b5, b6, b7⟩ := put_rest x a2
    refine ⟨⟨[], .fresh a1 (.inl b1) (fun h => absurd b1 h) a4 a5 a6 a7, fun _ => ⟨hs, hh1, ?_⟩⟩, fun _ => ?_, fun _ => ?_, fun h => (by rw [hg] at h; cases h), ?_, i.hmust, i.outs⟩
    · rw [b3]; exact hh2
    · rw [b3, b2, b4, ← List.append_assoc, hf]
    · rw [b4, hp]
    · rw [b7, b5]; exact i.must
  | @inner t p k ph h a1 a2 a3 =>
    by_cases hw : ph = .waiting
    · subst hw
      obtain ⟨b1, b2, b3, b4, b5⟩ := put_waiting x a2
      obtain ⟨c1, c2, c3⟩ := a3
      subst c1
      have hkm : k ∉ s.q.must := a2.2.1
      have hcalls := b1.1
      refine ⟨⟨[x], .inner (s := { s with q := Queue.put x s.q, puts := s.puts ++ [s.now] }) a1 b1 ⟨rfl, fun hk => absurd (b5 ▸ hk) hkm, c3⟩, fun _ => ⟨hs, hh1, ?_⟩⟩,
        fun _ => ?_, fun _ => ?_, fun h => (by rw [hg] at h; cases h), ?_, i.hmust, i.outs⟩
      · rw [b3, hh2]; simp
      · rw [b3, b2, b4, ← hf, a2.2.2.1]; simp
      · rw [b4, hp]
      · intro t ht
        show t < (Queue.put x s.q).calls.length
        rw [← hcalls, a2.1]
        rw [b5] at ht
        exact i.must t ht
    · obtain ⟨b1, b2, b3, b4, b5, b6⟩ := put_other x a2 hw
      have hcalls : k + 1 = (Queue.put x s.q).calls.length ∧ k + 1 = s.q.calls.length := by
        cases ph <;> exact ⟨b1.1, a2.1⟩
      refine ⟨⟨h, .inner (s := { s with q := Queue.put x s.q, puts := s.puts ++ [s.now] }) a1 b1 (why_mono (s := s) (Nat.le_refl _) id rfl rfl b5 rfl a3), fun _ => ⟨hs, hh1, ?_⟩⟩,
        fun _ => ?_, fun _ => ?_, fun h => (by rw [hg] at h; cases h), ?_, i.hmust, i.outs⟩
      · rw [b3]; exact hh2
      · rw [b3, b2, b4, ← List.append_assoc, hf]
      · rw [b4, hp]
      · intro t ht
        show t < (Queue.put x s.q).calls.length
        rw [← hcalls.1, hcalls.2]
        rw [b5] at ht
        exact i.must t ht

theorem gives_eof {K : Nat} {s : St} {L : List Item} (i : Inv K s L) (hi : s.rd = .idle) (hg : s.gone = true) (n : Nat) :
    Inv K { s with outs := s.outs ++ [⟨s.now, s.now, n, n, false, .eof⟩] } L := by
  obtain ⟨h, hc, hh⟩ := i.cur
  refine ⟨⟨[], ?_, fun h => (by rw [hg] at h; cases h)⟩, i.fifo, i.put, i.gone, i.must, i.hmust, outs_snoc i.outs (fun h => by cases h)⟩
  have hget := i.gone hg
  cases hc with
  | idle a1 a2 a3 a4 a5 => exact .idle a1 a2 a3 a4 (fun h => absurd hget h)
  | fresh a1 => rw [hi] at a1; cases a1
  | inner a1 => rw [hi] at a1; cases a1

theorem wake_inv {K : Nat} {s : St} {L : List Item} (i : Inv K s L) : Inv K (step K s .wake) L := by
  obtain ⟨h, hc, hh⟩ := i.cur
  cases hc with
  | idle a1 =>
    have e : step K s .wake = s := by simp only [step]; rw [a1]
    rw [e]; exact i
  | @fresh t p c d a1 a2 a3 a4 a5 a6 a7 =>
    have e : step K s .wake = if d then s else if c then { s with rd := .fresh t p c true } else { s with rd := .inner t p s.q.calls.length, q := Queue.start s.q } := by
      simp only [step]; rw [a1]
    rw [e]
    split
    · exact i
    · split
      · next hc => exact ⟨⟨[], .fresh rfl a2 a3 a4 (fun _ => hc) a6 (fun _ => rfl), hh⟩, i.fifo, i.put, i.gone, i.must, i.hmust, i.outs⟩
      · next hc hd =>
        have hg : s.gone = false := by
          cases hg : s.gone with
          | false => rfl
          | true => exact absurd (a6 hg) hd
        obtain ⟨b, b1, b2, b3⟩ := start_rest a2 i.must
        obtain ⟨hs, hh1, hh2⟩ := hh hg
        have hf := i.fifo hg
        have hm : ∀ t ∈ (Queue.start s.q).must, t < (Queue.start s.q).calls.length := fun t ht => by
          rw [b2] at ht; rw [b3]; exact Nat.lt_succ_of_lt (i.must t ht)
        have hp : (Queue.start s.q).put = L := b1.trans (i.put hg)
        rcases b with ⟨c1, x, r, c2, c3, c4, c5⟩ | ⟨c1, c2, c3, c4, c5⟩ | ⟨c1, c3, c4, c5, c6⟩
        · refine ⟨⟨[x], .inner (t := t) (p := p) rfl c3 rfl, fun _ => ⟨hs, hh1, ?_⟩⟩, fun _ => ?_, fun _ => hp, fun h => (by rw [hg] at h; cases h), hm, i.hmust, i.outs⟩
          · show (Queue.start s.q).handed.map _ = _
            rw [c5, hh2]; simp
          · show (Queue.start s.q).handed.map _ ++ (Queue.start s.q).queue = (Queue.start s.q).put
            rw [c5, c4, b1, ← hf, c2]; simp
        · have hmust : s.must = false := by
            cases hm : s.must with
            | false => rfl
            | true => exact absurd (a7 hm) hc
          refine ⟨⟨[], .inner (t := t) (p := p) rfl c3 ⟨rfl, hg, hmust⟩, fun _ => ⟨hs, hh1, ?_⟩⟩, fun _ => ?_, fun _ => hp, fun h => (by rw [hg] at h; cases h), hm, i.hmust, i.outs⟩
          · show (Queue.start s.q).handed.map _ = _
            rw [c5, hh2]
          · show (Queue.start s.q).handed.map _ ++ (Queue.start s.q).queue = (Queue.start s.q).put
            rw [c5, c4, b1, ← hf, c2]
        · obtain ⟨⟨pre, r, l1, l2, l3⟩, l4⟩ := a3 c1
          refine ⟨⟨[], .inner (t := t) (p := p) rfl c3 ⟨.inl rfl, .inr ⟨pre, r, l1, l2, l3.trans l4.symm⟩⟩, fun _ => ⟨hs, hh1, ?_⟩⟩, fun _ => ?_, fun _ => hp, fun h => (by rw [hg] at h; cases h), hm, i.hmust, i.outs⟩
          · show (Queue.start s.q).handed.map _ = _
            rw [c5, hh2]
          · show (Queue.start s.q).handed.map _ ++ (Queue.start s.q).queue = (Queue.start s.q).put
            rw [c5, c4, b1, ← hf]
  | @inner t p k ph h a1 a2 a3 =>
    have e : step K s .wake = { s with q := Queue.resume k s.q } := by simp only [step]; rw [a1]
    obtain ⟨b1, b2, b3, b4⟩ := resume_in a2
    have hlen : (Queue.resume k s.q).calls.length = s.q.calls.length := by
      unfold Queue.resume
      cases ph with
      | waiting => obtain ⟨-, -, -, f, g1, g2, -⟩ := a2; simp [g1, g2]
      | ready x => obtain ⟨-, -, f, g1, g2⟩ := a2; simp only [g1, g2]; split <;> simp [Queue.setCall]
      | cancelled => obtain ⟨-, f, g1, g2, -⟩ := a2; simp [g1, g2, Queue.setCall]
      | done r => obtain ⟨-, g1, -⟩ := a2; simp [g1]
    rw [e]
    refine ⟨⟨h, ?_, fun hg => ?_⟩, fun hg => ?_, fun hg => ?_, fun hg => ?_, fun t ht => ?_, i.hmust, i.outs⟩
    · cases ph with
      | waiting => exact .inner (s := { s with q := Queue.resume k s.q }) a1 b1 a3
      | ready x =>
        refine .inner (s := { s with q := Queue.resume k s.q }) a1 b1 ?_
        split
        · next hk => exact ⟨.inr ⟨x, a3.1⟩, .inl (a3.2.1 hk)⟩
        · exact a3.1
      | cancelled => exact .inner (s := { s with q := Queue.resume k s.q }) a1 b1 ⟨.inl a3.1, .inl a3.2.1⟩
      | done r => cases r with
        | got x => exact .inner (s := { s with q := Queue.resume k s.q }) a1 b1 a3
        | cancelledError => exact .inner (s := { s with q := Queue.resume k s.q }) a1 b1 a3
    · show ∃ hs, _ ∧ (Queue.resume k s.q).handed.map (·.2) = _
      rw [b2.handed]; exact hh hg
    · show (Queue.resume k s.q).handed.map (·.2) ++ (Queue.resume k s.q).queue = (Queue.resume k s.q).put
      rw [b2.handed, b2.queue, b2.put]; exact i.fifo hg
    · show (Queue.resume k s.q).put = L
      rw [b2.put]; exact i.put hg
    · show (Queue.resume k s.q).getters = []
      rw [b4]; exact i.gone hg
    · show t < (Queue.resume k s.q).calls.length
      rw [hlen]; exact i.must t (b3 ▸ ht)

/-- The items put so far, after one more event. -/
def more (L : List Item) : Ev → List Item
  | .put x => L ++ [x]
  | _ => L

theorem step_inv {K : Nat} {s : St} {L : List Item} (i : Inv K s L) (e : Ev) (hx : s.gone = true → ∀ x, e ≠ .put x) : Inv K (step K s e) (more L e) := by
  cases e with
  | tick => have := later_inv i 1 false (fun _ => rfl); simpa [step, more] using this
  | put x =>
    cases hg : s.gone with
    | true => exact absurd rfl (hx hg x)
    | false => simp only [step, more]; rw [if_neg (by simp [hg])]; exact put_inv i x hg
  | read =>
    simp only [step, more]
    split
    · next hr =>
      split
      · next hg => exact gives_eof i hr hg _
      · next hg =>
        obtain ⟨h, hc, hh⟩ := i.cur
        cases hc with
        | idle a1 a2 a3 a4 a5 => exact ⟨⟨[], .fresh rfl a4 (fun h => ⟨a5 h, rfl⟩) (fun h => by cases h) (fun h => by cases h) (fun h => absurd h hg) (fun h => (by rw [a2] at h; cases h)), hh⟩, i.fifo, i.put, i.gone, i.must, i.hmust, i.outs⟩
        | fresh a1 => rw [hr] at a1; cases a1
        | inner a1 => rw [hr] at a1; cases a1
    · exact i
  | wake => exact wake_inv i
  | fire =>
    have key : (∀ t, (∃ p c d, s.rd = .fresh t p c d) ∨ (∃ p k, s.rd = .inner t p k) → t + K ≤ s.now) → Inv K (cancelTask s) L :=
      fun h => (cancelTask_inv i (fun t ht => .inl (h t ht))).1
    simp only [step, more]
    split
    · exact i
    · next hr =>
      split
      · next hle => exact key (by rw [hr]; rintro t (⟨p, c, d, h⟩ | ⟨p, k, h⟩) <;> cases h; exact hle)
      · exact i
    · next hr =>
      split
      · next hle => exact key (by rw [hr]; rintro t (⟨p, c, d, h⟩ | ⟨p, k, h⟩) <;> cases h; exact hle)
      · exact i
  | cancel => exact (cancelHandler_inv i).1
  | lose =>
    simp only [step, more]
    split
    · exact i
    · exact lose_inv i
  | run =>
    obtain ⟨h, hc, hh⟩ := i.cur
    simp only [step, more]
    cases hc with
    | idle a1 => rw [a1]; exact i
    | @fresh t p c d a1 a2 a3 a4 a5 a6 a7 =>
      rw [a1]
      simp only
      split
      · next hd => exact finish_inv i hh a2 (by simp only [ite_self]; exact .timeout) (fun _ => rfl) (fun _ => .inl (a4 (a5 hd)))
      · exact i
    | @inner t p k ph h a1 a2 a3 =>
      rw [a1]
      simp only
      split
      · next r hr =>
        cases ph with
        | waiting => obtain ⟨-, -, -, f, g, -⟩ := a2; rw [g] at hr; cases hr
        | ready x => obtain ⟨-, -, f, g, -⟩ := a2; rw [g] at hr; cases hr
        | cancelled => obtain ⟨-, f, g, -⟩ := a2; rw [g] at hr; cases hr
        | done r' =>
          obtain ⟨g1, g2, g3, g4⟩ := a2
          rw [g2] at hr
          cases hr
          cases r with
          | got x =>
            have e : h = [x] := a3
            subst e
            refine finish_inv i hh g3 ?_ (fun hne => absurd (g4 x rfl) hne) (fun hto => ?_)
            · split
              · exact .lost x
              · cases x with
                | none => exact .eof
                | some d => exact .piece d
            · cases x <;> cases hto
          | cancelledError =>
            refine finish_inv i hh g3 ?_ (fun _ => rfl) (fun _ => a3.2)
            simp only [gotOf, ite_self]
            rcases a3.1 with rfl | ⟨x, rfl⟩
            · exact .timeout
            · exact .lost x
      · exact i

end Verif.Proofs.Stall
