import Verif.Model.WorkerLife
/-!
# C92: a worker starts up and shuts down in order
-/
namespace Verif
open Verif.Model.WorkerLife

namespace WorkerLife

/-- The hooks after this one are called, too. -/
def Goes (asgi : Bool) (r : Hook) : Prop := r = .falsy ∨ (asgi = true ∧ ∃ p, r = .raises p)

/-- Calls of some of these hooks, in this order from the first on; all but the last of them went on to the next. -/
def Asked (asgi : Bool) (ids : List Nat) (l : List (Nat × Hook)) : Prop := l.map (·.1) <+: ids ∧ ∀ x ∈ l.dropLast, Goes asgi x.2

/-- All of these hooks were called, or the last one that was called returned something true. -/
def Complete (asgi : Bool) (ids : List Nat) (l : List (Nat × Hook)) : Prop :=
  Asked asgi ids l ∧ ((l.map (·.1) = ids ∧ ∀ x ∈ l, Goes asgi x.2) ∨ ∃ l' i, l = l' ++ [(i, .truthy)])

def startActs (l : List (Nat × Hook)) : List Act := l.map (fun x => .start x.1 x.2)
def stopActs (l : List (Nat × Hook)) : List Act := l.map (fun x => .stop x.1 x.2)

/-- The order of the start hooks and of the stop hooks. -/
def first (c : Cfg) : List Nat := List.range c.starts
def last (c : Cfg) : List Nat := (List.range c.stops).reverse

/-- What happens up to the (last) closing of the server. `again`: the stop hooks were called before, and one raised an exception like that of a broken pipe. -/
def Closed (c : Cfg) (again : Bool) (l : List Act) : Prop :=
  ∃ S, Complete false (first c) S ∧
    ((again = false ∧ l = startActs S ++ [.listen, .close]) ∨
     (again = true ∧ c.asgi = false ∧ ∃ T i, Asked c.asgi (last c) (T ++ [(i, .raises true)]) ∧ l = startActs S ++ [.listen, .close] ++ stopActs (T ++ [(i, .raises true)]) ++ [.close]))

/-- What has happened at any time. -/
def Shape (c : Cfg) (again : Bool) (l : List Act) : Prop :=
  (∃ S, Asked false (first c) S ∧ l = startActs S) ∨ (∃ S, Complete false (first c) S ∧ l = startActs S ++ [.listen]) ∨
  ∃ P T, Closed c again P ∧ Asked c.asgi (last c) T ∧ l = P ++ stopActs T

theorem Asked.of_all {a : Bool} {ids : List Nat} {l : List (Nat × Hook)} (h : l.map (·.1) <+: ids) (hg : ∀ x ∈ l, Goes a x.2) : Asked a ids l :=
  ⟨h, fun x hx => hg x (List.dropLast_subset _ hx)⟩

theorem Asked.snoc {a : Bool} {ids : List Nat} {l : List (Nat × Hook)} {i : Nat} {r : Hook} (h : l.map (·.1) ++ [i] <+: ids) (hg : ∀ x ∈ l, Goes a x.2) :
    Asked a ids (l ++ [(i, r)]) := ⟨by simpa using h, fun x hx => hg x (by simpa using hx)⟩

theorem last_step {n k : Nat} (h0 : 0 < k) (hk : k ≤ n) : (List.range n).reverse.take (n - k) ++ [k - 1] = (List.range n).reverse.take (n - (k - 1)) := by
  rw [show n - (k - 1) = (n - k) + 1 by omega, List.take_add_one]
  congr 1
  rw [List.getElem?_reverse (by simp; omega), List.getElem?_range (by simp; omega)]
  simp
  omega

theorem range_step {n i : Nat} (h : i < n) : List.range i ++ [i] <+: List.range n := by
  rw [← List.range_succ]
  rw [show n = (i + 1) + (n - (i + 1)) by omega, List.range_add]
  exact List.prefix_append _ _

theorem range_prefix {n i : Nat} (h : i ≤ n) : List.range i <+: List.range n := by
  rw [show n = i + (n - i) by omega, List.range_add]
  exact List.prefix_append _ _

/-- Where the task is, and what has happened. -/
def J (c : Cfg) (again : Bool) (pc : Pc) (l : List Act) : Prop :=
  match pc with
  | .start i => ∃ S, l = startActs S ∧ again = false ∧
      ((S.map (·.1) = List.range i ∧ i ≤ c.starts ∧ ∀ x ∈ S, Goes false x.2) ∨ (i = c.starts ∧ Complete false (first c) S))
  | .serving => ∃ S, Complete false (first c) S ∧ l = startActs S ++ [.listen] ∧ again = false
  | .closing o g => Closed c again l ∧ (g = true → again = false) ∧ (o = .ret ∨ o = .exit)
  | .stopping k o g => ∃ P T, Closed c again P ∧ (g = true → again = false) ∧ l = P ++ stopActs T ∧ 0 < k ∧ k ≤ c.stops ∧
      T.map (·.1) = (last c).take (c.stops - k) ∧ (∀ x ∈ T, Goes c.asgi x.2) ∧ (o = .ret ∨ o = .exit)
  | .done o => Shape c again l ∧ (o = .ret ∨ o = .exit → ∃ P T, Closed c again P ∧ Complete c.asgi (last c) T ∧ l = P ++ stopActs T)

theorem complete_full {c : Cfg} {i : Nat} {S : List (Nat × Hook)} (h : (S.map (·.1) = List.range i ∧ i ≤ c.starts ∧ ∀ x ∈ S, Goes false x.2) ∨ (i = c.starts ∧ Complete false (first c) S))
    (hi : ¬ i < c.starts) : Complete false (first c) S := by
  rcases h with ⟨h1, h2, h3⟩ | ⟨_, h⟩
  · have : i = c.starts := by omega
    subst this
    exact ⟨Asked.of_all (by rw [h1]; exact List.prefix_refl _) h3, .inl ⟨h1, h3⟩⟩
  · exact h

theorem J.shape {c : Cfg} {again : Bool} {pc : Pc} {l : List Act} (h : J c again pc l) : Shape c again l := by
  cases pc with
  | start i =>
    obtain ⟨S, e, _, hs⟩ := h
    refine .inl ⟨S, ?_, e⟩
    rcases hs with ⟨h1, h2, h3⟩ | ⟨_, h⟩
    · exact Asked.of_all (by rw [h1]; exact range_prefix h2) h3
    · exact h.1
  | serving =>
    obtain ⟨S, hS, e, _⟩ := h
    exact .inr (.inl ⟨S, hS, e⟩)
  | closing o g =>
    exact .inr (.inr ⟨l, [], h.1, ⟨List.nil_prefix, fun x hx => by cases hx⟩, by simp [stopActs]⟩)
  | stopping k o g =>
    obtain ⟨P, T, hP, _, e, _, _, hT, hg, _⟩ := h
    exact .inr (.inr ⟨P, T, hP, Asked.of_all (by rw [hT]; exact List.take_prefix _ _) hg, e⟩)
  | done o => exact h.1

theorem j_stopFrom {c : Cfg} {again : Bool} {P : List Act} {T : List (Nat × Hook)} {k : Nat} {o : Out} {g : Bool} {s : St} (hP : Closed c again P) (hg : g = true → again = false)
    (e : s.log = P ++ stopActs T) (hk : k ≤ c.stops) (hT : T.map (·.1) = (last c).take (c.stops - k)) (ha : ∀ x ∈ T, Goes c.asgi x.2) (ho : o = .ret ∨ o = .exit) :
    J c again (stopFrom k o g s).pc (stopFrom k o g s).log := by
  unfold stopFrom
  split
  · next h0 =>
    subst h0
    have hfull : T.map (·.1) = last c := by rw [hT]; apply List.take_of_length_le; simp [last]
    have hA : Asked c.asgi (last c) T := Asked.of_all (by rw [hfull]; exact List.prefix_refl _) ha
    exact ⟨.inr (.inr ⟨P, T, hP, hA, e⟩), fun _ => ⟨P, T, hP, ⟨hA, .inl ⟨hfull, ha⟩⟩, e⟩⟩
  · next h0 => exact ⟨P, T, hP, hg, e, by omega, hk, hT, ha, ho⟩

theorem startActs_snoc (S : List (Nat × Hook)) (i : Nat) (r : Hook) : startActs S ++ [.start i r] = startActs (S ++ [(i, r)]) := by simp [startActs]
theorem stopActs_snoc (S : List (Nat × Hook)) (i : Nat) (r : Hook) : stopActs S ++ [.stop i r] = stopActs (S ++ [(i, r)]) := by simp [stopActs]

/-- One event. The stop hooks are called a second time only after one raised an exception like that of a broken pipe, while the worker was on its way out because of
changed code or of memory. -/
theorem j_step {c : Cfg} {again : Bool} {s : St} (h : J c again s.pc s.log) (e : Ev) :
    ∃ again', (again' = again ∨ (e = .hook (.raises true) ∧ ∃ k o, s.pc = .stopping k o true)) ∧ J c again' (step c s e).pc (step c s e).log := by
  unfold step
  split
  · exact ⟨again, .inl rfl, h⟩
  · next hp =>
    split
    · next r =>
      unfold hook
      split
      · next i hpc =>
        rw [hpc] at h
        obtain ⟨S, e, hna, hs⟩ := h
        split
        · next hi =>
          have hs' : S.map (·.1) = List.range i ∧ ∀ x ∈ S, Goes false x.2 := by
            rcases hs with ⟨h1, _, h3⟩ | ⟨h1, _⟩
            · exact ⟨h1, h3⟩
            · omega
          have hA : ∀ r, Asked false (first c) (S ++ [(i, r)]) := fun r => Asked.snoc (by rw [hs'.1]; exact range_step hi) hs'.2
          refine ⟨again, .inl rfl, ?_⟩
          cases r with
          | truthy => exact ⟨S ++ [(i, .truthy)], by simp only [e]; rw [startActs_snoc], hna, .inr ⟨rfl, hA _, .inr ⟨S, i, rfl⟩⟩⟩
          | falsy =>
            refine ⟨S ++ [(i, .falsy)], by simp only [e]; rw [startActs_snoc], hna, .inl ⟨by simp [hs'.1, List.range_succ], by omega, fun x hx => ?_⟩⟩
            rcases List.mem_append.1 hx with hx | hx
            · exact hs'.2 x hx
            · simp at hx; subst hx; exact .inl rfl
          | raises p => exact ⟨.inl ⟨S ++ [(i, .raises p)], hA _, by simp only [finish, e]; rw [startActs_snoc]⟩, fun h => by rcases h with h | h <;> cases h⟩
        · rw [hpc]; exact ⟨again, .inl rfl, S, e, hna, hs⟩
      · next k o g hpc =>
        rw [hpc] at h
        obtain ⟨P, T, hP, hg, e, h0, hk, hT, ha, ho⟩ := h
        have hids : T.map (·.1) ++ [k - 1] = (last c).take (c.stops - (k - 1)) := by rw [hT]; exact last_step h0 hk
        have hA : ∀ r, Asked c.asgi (last c) (T ++ [(k - 1, r)]) := fun r => Asked.snoc (by rw [hids]; exact List.take_prefix _ _) ha
        have hlog : ∀ r, s.log ++ [.stop (k - 1) r] = P ++ stopActs (T ++ [(k - 1, r)]) := fun r => by rw [e, List.append_assoc, stopActs_snoc]
        have hgo : ∀ r, Goes c.asgi r → ∀ x ∈ T ++ [(k - 1, r)], Goes c.asgi x.2 := fun r hr x hx => by
          rcases List.mem_append.1 hx with hx | hx
          · exact ha x hx
          · simp at hx; subst hx; exact hr
        cases r with
        | truthy =>
          exact ⟨again, .inl rfl, .inr (.inr ⟨P, _, hP, hA _, hlog _⟩), fun _ => ⟨P, _, hP, ⟨hA _, .inr ⟨T, k - 1, rfl⟩⟩, hlog _⟩⟩
        | falsy =>
          exact ⟨again, .inl rfl, j_stopFrom hP hg (hlog .falsy) (by omega) (by simpa using hids) (hgo _ (.inl rfl)) ho⟩
        | raises p =>
          dsimp only
          split
          · next hasgi =>
            exact ⟨again, .inl rfl, j_stopFrom hP hg (hlog (.raises p)) (by omega) (by simpa using hids) (hgo _ (.inr ⟨hasgi, p, rfl⟩)) ho⟩
          · next hasgi =>
            have hasgi : c.asgi = false := by simpa using hasgi
            split
            · next hgp =>
              rw [Bool.and_eq_true] at hgp
              obtain ⟨rfl, rfl⟩ := hgp
              refine ⟨true, .inr ⟨rfl, k, o, hpc⟩, ?_, fun h => (by cases h), .inl rfl⟩
              obtain ⟨S, hS, hc⟩ := hP
              rcases hc with ⟨_, hc⟩ | ⟨hc, _⟩
              · refine ⟨S, hS, .inr ⟨rfl, hasgi, T, k - 1, hA _, ?_⟩⟩
                dsimp only
                rw [hlog, hc]
              · rw [hg rfl] at hc; cases hc
            · exact ⟨again, .inl rfl, .inr (.inr ⟨P, _, hP, hA _, hlog _⟩), fun h => by rcases h with h | h <;> cases h⟩
      · exact ⟨again, .inl rfl, h⟩
    · next i hpc =>
      split
      · exact ⟨again, .inl rfl, h⟩
      · next hi =>
        rw [hpc] at h
        obtain ⟨S, e, hna, hs⟩ := h
        exact ⟨again, .inl rfl, S, complete_full hs hi, by simp only [e], hna⟩
    · exact ⟨again, .inl rfl, h.shape, fun h => by rcases h with h | h <;> cases h⟩
    · exact ⟨again, .inl rfl, h.shape, fun h => by rcases h with h | h <;> cases h⟩
    · next hpc =>
      rw [hpc] at h
      obtain ⟨S, hS, e, hna⟩ := h
      exact ⟨again, .inl rfl, ⟨S, hS, .inl ⟨hna, by simp [e]⟩⟩, fun _ => hna, .inl rfl⟩
    · next hpc =>
      rw [hpc] at h
      obtain ⟨S, hS, e, hna⟩ := h
      exact ⟨again, .inl rfl, ⟨S, hS, .inl ⟨hna, by simp [e]⟩⟩, fun _ => hna, .inl rfl⟩
    · next hpc =>
      rw [hpc] at h
      obtain ⟨S, hS, e, hna⟩ := h
      exact ⟨again, .inl rfl, ⟨S, hS, .inl ⟨hna, by simp [e]⟩⟩, fun _ => hna, .inr rfl⟩
    · next o g hpc =>
      rw [hpc] at h
      exact ⟨again, .inl rfl, j_stopFrom (T := []) h.1 h.2.1 (by simp [stopActs]) (Nat.le_refl _) (by simp) (fun x hx => by cases hx) h.2.2⟩
    · next inside =>
      refine ⟨again, .inl rfl, ?_⟩
      have hk : ∀ s' : St, J c again s'.pc s'.log → J c again (if s'.intr then { s' with proc := some 1 } else { s' with intr := true } : St).pc (if s'.intr then { s' with proc := some 1 } else { s' with intr := true } : St).log := by
        intro s' h'; split <;> exact h'
      unfold ctrlC
      dsimp only
      apply hk
      split
      · exact h
      · split
        · exact ⟨h.shape, fun h => by rcases h with h | h <;> cases h⟩
        · exact h
    · refine ⟨again, .inl rfl, ?_⟩
      unfold wake
      split
      · exact h
      · split <;> exact h
      · exact h
      · exact h
    · exact ⟨again, .inl rfl, h⟩

theorem run_snoc (c : Cfg) (es : List Ev) (e : Ev) : run c (es ++ [e]) = step c (run c es) e := by simp [run]

/-- On its way out inside the `try`. -/
def guarded : Pc → Bool
  | .closing _ g => g
  | .stopping _ _ g => g
  | _ => false

/-- On its way to returning. -/
def returning : Pc → Bool
  | .closing o _ => o = .ret
  | .stopping _ o _ => o = .ret
  | .done o => o = .ret
  | _ => false

theorem stopFrom_pc (k : Nat) (o : Out) (g : Bool) (s : St) : (stopFrom k o g s).pc = .done o ∨ (stopFrom k o g s).pc = .stopping k o g := by
  unfold stopFrom; split
  · exact .inl rfl
  · exact .inr rfl

theorem step_flags (c : Cfg) (s : St) (e : Ev) :
    (guarded (step c s e).pc = true → guarded s.pc = true ∨ e = .reload ∨ e = .memory) ∧
    (returning (step c s e).pc = true → returning s.pc = true ∨ e = .leave ∨ e = .reload ∨ (guarded s.pc = true ∧ e = .hook (.raises true))) := by
  unfold step
  split
  · exact ⟨.inl, .inl⟩
  · split
    · next r =>
      unfold hook
      split
      · next i hpc =>
        split
        · cases r <;> exact ⟨fun h => (by cases h), fun h => (by cases h)⟩
        · exact ⟨.inl, .inl⟩
      · next k o g hpc =>
        cases r with
        | truthy => exact ⟨fun h => (by cases h), fun h => .inl (by rw [hpc]; exact h)⟩
        | falsy =>
          dsimp only
          rcases stopFrom_pc (k - 1) o g { s with log := s.log ++ [.stop (k - 1) .falsy] } with h' | h' <;> rw [h', hpc]
          · exact ⟨fun h => (by cases h), .inl⟩
          · exact ⟨.inl, .inl⟩
        | raises p =>
          dsimp only
          split
          · rcases stopFrom_pc (k - 1) o g { s with log := s.log ++ [.stop (k - 1) (.raises p)] } with h' | h' <;> rw [h', hpc]
            · exact ⟨fun h => (by cases h), .inl⟩
            · exact ⟨.inl, .inl⟩
          · split
            · next hgp =>
              rw [Bool.and_eq_true] at hgp
              obtain ⟨rfl, rfl⟩ := hgp
              exact ⟨fun h => (by cases h), fun _ => .inr (.inr (.inr ⟨by rw [hpc]; rfl, rfl⟩))⟩
            · exact ⟨fun h => (by cases h), fun h => (by cases h)⟩
      · exact ⟨.inl, .inl⟩
    · split
      · exact ⟨.inl, .inl⟩
      · exact ⟨fun h => (by cases h), fun h => (by cases h)⟩
    · exact ⟨fun h => (by cases h), fun h => (by cases h)⟩
    · exact ⟨fun h => (by cases h), fun h => (by cases h)⟩
    · exact ⟨fun h => (by cases h), fun _ => .inr (.inl rfl)⟩
    · exact ⟨fun _ => .inr (.inl rfl), fun _ => .inr (.inr (.inl rfl))⟩
    · exact ⟨fun _ => .inr (.inr rfl), fun h => (by cases h)⟩
    · next o g hpc =>
      rcases stopFrom_pc c.stops o g s with h' | h' <;> rw [h', hpc]
      · exact ⟨fun h => (by cases h), .inl⟩
      · exact ⟨.inl, .inl⟩
    · next inside =>
      have hk : ∀ s' : St, (s'.pc = s.pc ∨ s'.pc = .done .kbd) → (guarded (if s'.intr then { s' with proc := some 1 } else { s' with intr := true } : St).pc = true → guarded s.pc = true) ∧
          (returning (if s'.intr then { s' with proc := some 1 } else { s' with intr := true } : St).pc = true → returning s.pc = true) := by
        intro s' h'
        have e : (if s'.intr then { s' with proc := some 1 } else { s' with intr := true } : St).pc = s'.pc := by split <;> rfl
        rw [e]
        rcases h' with h' | h' <;> rw [h']
        · exact ⟨id, id⟩
        · exact ⟨fun h => (by cases h), fun h => (by cases h)⟩
      unfold ctrlC
      dsimp only
      have := hk (match s.pc with
        | .done _ => s
        | _ => if inside then { s with pc := .done .kbd } else s) (by
          split
          · exact .inl rfl
          · split
            · exact .inr rfl
            · exact .inl rfl)
      exact ⟨fun h => .inl (this.1 h), fun h => .inl (this.2 h)⟩
    · have : (wake s).pc = s.pc := by
        unfold wake
        split
        · rfl
        · split <;> rfl
        · rfl
        · rfl
      rw [this]
      exact ⟨.inl, .inl⟩
    · exact ⟨.inl, .inl⟩

theorem guarded_run (c : Cfg) (es : List Ev) (h : guarded (run c es).pc = true) : .reload ∈ es ∨ .memory ∈ es := by
  induction es using snocInd with
  | h0 => cases h
  | h1 es e ih =>
    rw [run_snoc] at h
    rcases (step_flags c _ e).1 h with h | h | h
    · rcases ih h with h | h <;> simp [h]
    · simp [h]
    · simp [h]

theorem j_run (c : Cfg) (es : List Ev) : ∃ again, (again = true → .hook (.raises true) ∈ es ∧ (.reload ∈ es ∨ .memory ∈ es)) ∧ J c again (run c es).pc (run c es).log := by
  induction es using snocInd with
  | h0 => exact ⟨false, fun h => (by cases h), [], rfl, rfl, .inl ⟨rfl, Nat.zero_le _, fun x hx => by cases hx⟩⟩
  | h1 es e ih =>
    obtain ⟨again, h1, h2⟩ := ih
    rw [run_snoc]
    obtain ⟨again', h3, h4⟩ := j_step h2 e
    refine ⟨again', fun h => ?_, h4⟩
    rcases h3 with h3 | ⟨h3, k, o, h5⟩
    · rw [h3] at h
      obtain ⟨a, b⟩ := h1 h
      exact ⟨by simp [a], by rcases b with b | b <;> simp [b]⟩
    · have := guarded_run c es (by rw [h5]; rfl)
      exact ⟨by simp [h3], by rcases this with b | b <;> simp [b]⟩

/-- The exit code 0 is that of a task that returned. -/
theorem proc_step {c : Cfg} {s : St} (h : s.proc = some 0 → s.pc = .done .ret) (e : Ev) : (step c s e).proc = some 0 → (step c s e).pc = .done .ret := by
  unfold step
  split
  · exact h
  · next hp =>
    have hp : s.proc = none := Classical.not_not.1 hp
    have fin : ∀ (o : Out) (s : St), s.proc = none → (finish o s).proc ≠ some 0 := by
      intro o s h
      unfold finish
      dsimp only
      split
      · simp
      · rw [h]; simp
    have stp : ∀ (k : Nat) (o : Out) (g : Bool) (s : St), s.proc = none → (stopFrom k o g s).proc ≠ some 0 := by
      intro k o g s h
      unfold stopFrom
      split
      · exact fin o s h
      · dsimp only; rw [h]; simp
    split
    · next r =>
      unfold hook
      intro h0
      exfalso
      revert h0
      split
      · split
        · cases r
          · dsimp only; rw [hp]; simp
          · dsimp only; rw [hp]; simp
          · exact fin _ _ hp
        · rw [hp]; simp
      · cases r
        · exact fin _ _ hp
        · exact stp _ _ _ _ hp
        · dsimp only
          split
          · exact stp _ _ _ _ hp
          · split
            · dsimp only; rw [hp]; simp
            · exact fin _ _ hp
      · rw [hp]; simp
    · split
      · exact h
      · intro h0; dsimp only at h0; rw [hp] at h0; cases h0
    · exact fun h0 => absurd h0 (fin _ _ hp)
    · exact fun h0 => absurd h0 (fin _ _ hp)
    · intro h0; dsimp only at h0; rw [hp] at h0; cases h0
    · intro h0; dsimp only at h0; rw [hp] at h0; cases h0
    · intro h0; dsimp only at h0; rw [hp] at h0; cases h0
    · exact fun h0 => absurd h0 (stp _ _ _ _ hp)
    · next inside =>
      intro h0
      exfalso
      have hk : ∀ s' : St, s'.proc = none → (if s'.intr then { s' with proc := some 1 } else { s' with intr := true } : St).proc ≠ some 0 := by
        intro s' h'
        split
        · simp
        · dsimp only; rw [h']; simp
      unfold ctrlC at h0
      dsimp only at h0
      refine hk _ ?_ h0
      split
      · exact hp
      · split <;> exact hp
    · unfold wake
      split
      · next e => exact fun _ => e
      · next e =>
        split
        · exact h
        · intro h0; cases h0
      · intro h0; cases h0
      · exact h
    · exact h

theorem proc_run (c : Cfg) (es : List Ev) : (run c es).proc = some 0 → (run c es).pc = .done .ret := by
  induction es using snocInd with
  | h0 => intro h; cases h
  | h1 es e ih => rw [run_snoc]; exact proc_step ih e

/-- Which hook an action is a call of. -/
def called : Act → Option (Bool × Nat)
  | .start i _ => some (false, i)
  | .stop i _ => some (true, i)
  | _ => none

theorem called_start (S : List (Nat × Hook)) : (startActs S).filterMap called = (S.map (·.1)).map (fun i => (false, i)) := by
  induction S with
  | nil => rfl
  | cons x t ih => simpa [startActs, called] using ih

theorem called_stop (S : List (Nat × Hook)) : (stopActs S).filterMap called = (S.map (·.1)).map (fun i => (true, i)) := by
  induction S with
  | nil => rfl
  | cons x t ih => simpa [stopActs, called] using ih

theorem nodup_ids {ids l : List Nat} (h : l <+: ids) (hn : ids.Nodup) (b : Bool) : (l.map (fun i => (b, i))).Nodup := by
  have : l.Nodup := hn.sublist h.sublist
  unfold List.Nodup at *
  rw [List.pairwise_map]
  exact this.imp (fun h e => h (by simpa using e))

end WorkerLife
open WorkerLife

/-- **C92 (order)**: at any time, what has happened is this: start hooks were called in their order, up to the first that returned something true or raised; then,
if none raised, the server was created; then it was closed; then stop hooks were called in the reverse of their order, up to the first that returned something true or raised.
`again`: this last part came twice. That takes a stop hook that raises an exception like that of a broken pipe, in a worker that ends because of changed code or of memory. -/
theorem C92_order (c : Cfg) (es : List Ev) : ∃ again, (again = true → .hook (.raises true) ∈ es ∧ (.reload ∈ es ∨ .memory ∈ es)) ∧ Shape c again (run c es).log := by
  obtain ⟨again, h1, h2⟩ := j_run c es
  exact ⟨again, h1, h2.shape⟩

/-- **C92 (orderly end)**: a worker that ends with the exit code 0 created the server, closed it, and called the stop hooks, all or up to one that returned something true. -/
theorem C92_clean {c : Cfg} {es : List Ev} (h : (run c es).proc = some 0) :
    ∃ again P T, Closed c again P ∧ Complete c.asgi (last c) T ∧ (run c es).log = P ++ stopActs T := by
  obtain ⟨again, _, h2⟩ := j_run c es
  rw [proc_run c es h] at h2
  obtain ⟨P, T, h3, h4, h5⟩ := h2.2 (.inl rfl)
  exact ⟨again, P, T, h3, h4, h5⟩

/-- **C92 (exit code)**: the exit code 0, with which the parent process loads the code anew, comes only from changed code, from a word of the parent process or its end. -/
theorem C92_zero_partial {c : Cfg} {es : List Ev} (h : (run c es).proc = some 0) : .leave ∈ es ∨ .reload ∈ es ∨ (.memory ∈ es ∧ .hook (.raises true) ∈ es) := by
  have key : ∀ es, returning (run c es).pc = true → .leave ∈ es ∨ .reload ∈ es ∨ (.memory ∈ es ∧ .hook (.raises true) ∈ es) := by
    clear h
    intro es
    induction es using snocInd with
    | h0 => intro h; cases h
    | h1 es e ih =>
      intro h
      rw [run_snoc] at h
      rcases (step_flags c _ e).2 h with h | h | h | ⟨h, h'⟩
      · rcases ih h with h | h | ⟨h, h'⟩
        · simp [h]
        · simp [h]
        · simp [h, h']
      · simp [h]
      · simp [h]
      · rcases guarded_run c es h with h | h <;> simp [h, h']
  exact key es (by rw [proc_run c es h]; rfl)

/-- **C92 (once)**: no hook is called twice, unless a stop hook raises such an exception in such a worker. -/
theorem C92_once_partial {c : Cfg} {es : List Ev} (h : .hook (.raises true) ∉ es ∨ (.reload ∉ es ∧ .memory ∉ es)) : ((run c es).log.filterMap called).Nodup := by
  obtain ⟨again, h1, h2⟩ := C92_order c es
  have ha : again = false := by
    cases again with
    | false => rfl
    | true =>
      obtain ⟨a, b⟩ := h1 rfl
      rcases h with h | ⟨h, h'⟩
      · exact absurd a h
      · rcases b with b | b
        · exact absurd b h
        · exact absurd b h'
  subst ha
  have n1 : (first c).Nodup := List.nodup_range
  have n2 : (last c).Nodup := by
    unfold last List.Nodup
    rw [List.pairwise_reverse]
    exact (List.nodup_range (n := c.stops)).imp (fun h => Ne.symm h)
  rcases h2 with ⟨S, hS, e⟩ | ⟨S, hS, e⟩ | ⟨P, T, ⟨S, hS, hP⟩, hT, e⟩
  · rw [e, called_start]; exact nodup_ids hS.1 n1 _
  · rw [e, List.filterMap_append, called_start]
    rw [show ([.listen] : List Act).filterMap called = [] from rfl, List.append_nil]
    exact nodup_ids hS.1.1 n1 false
  · rcases hP with ⟨_, hP⟩ | ⟨hP, _⟩
    · rw [e, hP, List.filterMap_append, List.filterMap_append, called_start, called_stop]
      rw [show ([.listen, .close] : List Act).filterMap called = [] from rfl, List.append_nil, List.nodup_append]
      refine ⟨nodup_ids hS.1.1 n1 _, nodup_ids hT.1 n2 _, fun a ha b hb hab => ?_⟩
      obtain ⟨i, _, rfl⟩ := List.mem_map.1 ha
      obtain ⟨j, _, rfl⟩ := List.mem_map.1 hb
      cases hab
    · cases hP

/-- **C92 (end)**: once the task has ended, the process ends, in all cases but one: Ctrl-C came before, and the task ended with an exception. -/
theorem C92_ends_partial {c : Cfg} {es : List Ev} {o : Out} (h : (run c es).pc = .done o) :
    (run c (es ++ [.wake])).proc = none ↔ (run c es).proc = none ∧ (run c es).intr = true ∧ o = .exc := by
  rw [run_snoc]
  unfold step
  split
  · next hp => exact ⟨fun h => absurd h hp, fun h => absurd h.1 hp⟩
  · next hp =>
    have hp : (run c es).proc = none := Classical.not_not.1 hp
    dsimp only
    unfold wake
    rw [h]
    cases o with
    | exc =>
      dsimp only
      cases hi : (run c es).intr <;> simp [hp]
    | _ => simp

/-- **C92 (hang)**: in that case it never ends, whatever happens, until the next Ctrl-C. -/
theorem C92_hang {c : Cfg} {es es' : List Ev} (h : (run c es).pc = .done .exc) (hi : (run c es).intr = true) (hp : (run c es).proc = none) (he : ∀ e ∈ es', ∀ b, e ≠ .ctrlC b) :
    (run c (es ++ es')).proc = none := by
  have key : run c (es ++ es') = run c es := by
    induction es' using snocInd with
    | h0 => rw [List.append_nil]
    | h1 es' e ih =>
      rw [← List.append_assoc, run_snoc, ih (fun x hx => he x (by simp [hx]))]
      unfold step
      rw [if_neg (by simp [hp])]
      cases e with
      | ctrlC b => exact absurd rfl (he (.ctrlC b) (by simp) b)
      | hook r => dsimp only; unfold hook; rw [h]
      | wake => dsimp only; unfold wake; rw [h]; dsimp only; rw [hi]; rfl
      | _ => rw [h]
  rw [key]; exact hp

/-- **C92 (second Ctrl-C)**: it ends the process, wherever the task is. -/
theorem C92_second {c : Cfg} {es : List Ev} (b : Bool) (hi : (run c es).intr = true) (hp : (run c es).proc = none) : (run c (es ++ [.ctrlC b])).proc = some 1 := by
  rw [run_snoc]
  unfold step
  rw [if_neg (by simp [hp])]
  dsimp only
  unfold ctrlC
  dsimp only
  rw [if_pos]
  split
  · exact hi
  · split <;> exact hi

namespace WorkerLife
/-- On its way to returning, or not on its way out. -/
def fine : Pc → Prop
  | .closing o _ => o = .ret
  | .stopping _ o _ => o = .ret
  | .done o => o = .ret
  | _ => True

/-- Nothing goes wrong in this event: no exception, no memory limit, no Ctrl-C inside the task. -/
def smooth : Ev → Bool
  | .hook (.raises _) => false
  | .fail => false
  | .memory => false
  | .ctrlC true => false
  | _ => true

theorem fine_stopFrom {k : Nat} {g : Bool} {s : St} : fine (stopFrom k .ret g s).pc := by
  rcases stopFrom_pc k .ret g s with h | h <;> rw [h] <;> rfl

theorem fine_step {c : Cfg} {s : St} (h : fine s.pc) {e : Ev} (he : smooth e = true) : fine (step c s e).pc := by
  unfold step
  split
  · exact h
  · split
    · next r =>
      unfold hook
      split
      · next i hpc =>
        split
        · cases r with
          | raises p => cases he
          | _ => trivial
        · exact h
      · next k o g hpc =>
        rw [hpc] at h
        have : o = .ret := h
        subst this
        cases r with
        | raises p => cases he
        | truthy => exact rfl
        | falsy => exact fine_stopFrom
      · exact h
    · split
      · exact h
      · trivial
    · cases he
    · cases he
    · exact rfl
    · exact rfl
    · cases he
    · next o g hpc =>
      rw [hpc] at h
      have : o = .ret := h
      subst this
      exact fine_stopFrom
    · next inside =>
      have hin : inside = false := by cases inside with
        | true => cases he
        | false => rfl
      subst hin
      have hk : ∀ s' : St, fine s'.pc → fine (if s'.intr then { s' with proc := some 1 } else { s' with intr := true } : St).pc := by
        intro s' h'; split <;> exact h'
      unfold ctrlC
      dsimp only
      apply hk
      split
      · exact h
      · exact h
    · have : (wake s).pc = s.pc := by
        unfold wake
        split
        · rfl
        · split <;> rfl
        · rfl
        · rfl
      rw [this]; exact h
    · exact h
end WorkerLife

/-- **C92 (smooth end)**: when nothing goes wrong, the end of the task is followed by the end of the process with the exit code 0, also after Ctrl-C. -/
theorem C92_smooth {c : Cfg} {es : List Ev} {o : Out} (he : ∀ e ∈ es, smooth e = true) (h : (run c es).pc = .done o) (hp : (run c es).proc = none) :
    (run c (es ++ [.wake])).proc = some 0 := by
  have key : ∀ es : List Ev, (∀ e ∈ es, smooth e = true) → fine (run c es).pc := by
    intro es
    induction es using snocInd with
    | h0 => exact fun _ => trivial
    | h1 es e ih =>
      intro he
      rw [run_snoc]
      exact fine_step (ih (fun x hx => he x (by simp [hx]))) (he e (by simp))
  have ho : o = .ret := by have := key es he; rw [h] at this; exact this
  subst ho
  rw [run_snoc]
  unfold step
  rw [if_neg (by simp [hp])]
  dsimp only
  unfold wake
  rw [h]

/-- Two start hooks and three stop hooks; the first start hook returns something true, and so does the second stop hook that is called. -/
example : run { starts := 2, stops := 3 } [.hook .truthy, .created, .ctrlC false, .leave, .closed, .hook .falsy, .hook .truthy, .wake] =
    { pc := .done .ret, intr := true, proc := some 0, log := [.start 0 .truthy, .listen, .close, .stop 2 .falsy, .stop 1 .truthy] } := by decide

/-- An ASGI application that fails to shut down. -/
example : run { starts := 1, stops := 1, asgi := true } [.hook .falsy, .created, .reload, .closed, .hook (.raises false), .wake] =
    { pc := .done .ret, proc := some 0, log := [.start 0 .falsy, .listen, .close, .stop 0 (.raises false)] } := by decide

/-- C92 is false as it stands: after Ctrl-C, a stop hook that raises leaves the worker running for ever, and the parent process waiting for it; -/
theorem C92_refuted_hang (es' : List Ev) (he : ∀ e ∈ es', ∀ b, e ≠ .ctrlC b) :
    (run { starts := 0, stops := 1 } ([.created, .ctrlC false, .leave, .closed, .hook (.raises false)] ++ es')).proc = none :=
  C92_hang (by decide) (by decide) (by decide) he

/-- a stop hook that raises ConnectionResetError when the code has changed is called a second time, as are those called before it; -/
theorem C92_refuted_twice : (run { starts := 0, stops := 2 } [.created, .reload, .closed, .hook .falsy, .hook (.raises true), .closed, .hook .falsy, .hook .falsy, .wake]).log =
    [.listen, .close, .stop 1 .falsy, .stop 0 (.raises true), .close, .stop 1 .falsy, .stop 0 .falsy] := by decide

/-- and it makes the end of a worker with too much memory look like one of changed code. -/
theorem C92_refuted_memory : (run { starts := 0, stops := 1 } [.created, .memory, .closed, .hook (.raises true), .closed, .hook .falsy, .wake]).proc = some 0 ∧
    (run { starts := 0, stops := 1 } [.created, .memory, .closed, .hook .falsy]).proc = some 1 := by decide

end Verif
