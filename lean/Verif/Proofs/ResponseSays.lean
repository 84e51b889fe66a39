import Verif.Proofs.ResponseError
/-!
# From the calls behind a head to what it says
-/
namespace Verif.Proofs.Response
open Verif.Py Verif.Py.Dict Verif.Model.Upload Verif.Model.Response Verif.Spec.Response

theorem lastStatus_mid {a x : List Call} (b : List Call) (h : lastStatus (a ++ x) = lastStatus a) : lastStatus (a ++ x ++ b) = lastStatus (a ++ b) := by
  unfold lastStatus at h ⊢
  rw [List.foldl_append, h, ← List.foldl_append]
theorem lastType_mid {a x : List Call} (b : List Call) (h : lastType (a ++ x) = lastType a) : lastType (a ++ x ++ b) = lastType (a ++ b) := by
  unfold lastType at h ⊢
  rw [List.foldl_append, h, ← List.foldl_append]
theorem linesFor_mid {k : Bytes} {a x : List Call} (b : List Call) (h : linesFor k (a ++ x) = linesFor k a) : linesFor k (a ++ x ++ b) = linesFor k (a ++ b) := by
  unfold linesFor at h ⊢
  rw [List.foldl_append, h, ← List.foldl_append]

/-- Calls that set one of the server's own framing headers. -/
def Own : Call → Prop
  | .setHeader n _ => lower n = kConn ∨ lower n = kCL ∨ lower n = kTE
  | _ => False

theorem own_neutral {x : List Call} (hx : ∀ y ∈ x, Own y) (a : List Call) : lastStatus (a ++ x) = lastStatus a ∧ lastType (a ++ x) = lastType a ∧
    ∀ n, n ∉ ownNames → linesFor n (a ++ x) = linesFor n a := by
  induction x using snocInd with
  | h0 => simp
  | h1 l y ih =>
    have ⟨i1, i2, i3⟩ := ih (fun z hz => hx z (by simp [hz]))
    have hy := hx y (by simp)
    cases y <;> try exact hy.elim
    rename_i n v
    change lower n = kConn ∨ lower n = kCL ∨ lower n = kTE at hy
    rw [← List.append_assoc]
    refine ⟨?_, ?_, fun k hk => ?_⟩
    · rw [lastStatus_snoc]; exact i1
    · rw [lastType_snoc]
      have : lower n ≠ b!"content-type" := by rcases hy with h | h | h <;> rw [h] <;> decide
      simp only [this, and_false, if_false]; exact i2
    · rw [linesFor_snoc]
      have : lower n ≠ k := by
        rintro rfl
        rcases hy with h | h | h <;> rw [h] at hk <;> exact hk (by decide)
      simp only [this, and_false, if_false]; exact i3 k hk

theorem own_mid {x : List Call} (hx : ∀ y ∈ x, Own y) (a b : List Call) : lastStatus (a ++ x ++ b) = lastStatus (a ++ b) ∧ lastType (a ++ x ++ b) = lastType (a ++ b) ∧
    ∀ n, n ∉ ownNames → linesFor n (a ++ x ++ b) = linesFor n (a ++ b) := by
  have ⟨h1, h2, h3⟩ := own_neutral hx a
  exact ⟨lastStatus_mid b h1, lastType_mid b h2, fun n hn => linesFor_mid b (h3 n hn)⟩

theorem untouched_snoc {k : Bytes} {x : List Call} (hx : ∀ y ∈ x, touches k y = false) (a : List Call) : linesFor k (a ++ x) = linesFor k a := by
  induction x using snocInd with
  | h0 => simp
  | h1 l y ih =>
    rw [← List.append_assoc, linesFor_snoc]
    have hy := hx y (by simp)
    have ih := ih (fun z hz => hx z (by simp [hz]))
    cases y <;> simp_all [touches]

theorem setsStatus_snoc {x : List Call} (hx : ∀ y ∈ x, setsStatus y = false) (a : List Call) : lastStatus (a ++ x) = lastStatus a := by
  induction x using snocInd with
  | h0 => simp
  | h1 l y ih =>
    rw [← List.append_assoc, lastStatus_snoc]
    have hy := hx y (by simp)
    have ih := ih (fun z hz => hx z (by simp [hz]))
    cases y <;> simp_all [setsStatus]

theorem linesFor_set {k n v : Bytes} (h1 : (10 : UInt8) ∉ n) (h2 : (10 : UInt8) ∉ v) (h3 : lower n = k) (a : List Call) :
    linesFor k (a ++ [.setHeader n v]) = [line n v] := by
  rw [linesFor_snoc]; simp only [h1, h2, h3, not_false_eq_true, and_self, if_true]; rfl

theorem mem_managed {n : Bytes} (h : n ∉ ownNames) : n ∉ managed := by
  intro hm; apply h
  simp only [managed, reserved, excluded, List.mem_append, List.mem_cons, List.not_mem_nil, or_false, ownNames] at hm ⊢
  rcases hm with (h | h | h | h) | (h | h | h) <;> simp [h]
theorem mem_reserved {n : Bytes} (h : n ∉ ownNames) : n ∉ reserved := fun hm => mem_managed h (by simp only [managed, List.mem_append]; exact .inl hm)

theorem EndLines.says {c calls len k t rest} (e : EndLines c calls len k t rest) {calls' : List Call} (h1 : lastStatus calls = lastStatus calls')
    (h2 : lastType calls = lastType calls') (h3 : ∀ n, n ∉ ownNames → linesFor n calls = linesFor n calls') : Says c calls' true t rest := by
  refine ⟨h1 ▸ e.is, fun _ => ?_, fun n hn => (e.lines n (mem_managed hn)).trans (h3 n hn)⟩
  obtain ⟨ct, f, v⟩ := e.ctype
  exact ⟨_, f, by rw [← h2, ← v]; exact valueOf_line (by decide)⟩

theorem SentLines.says {c calls ty t rest} (e : SentLines c calls ty t rest) {calls' : List Call} (h1 : lastStatus calls = lastStatus calls')
    (h2 : lastType calls = lastType calls') (h3 : ∀ n, n ∉ ownNames → linesFor n calls = linesFor n calls') : Says c calls' ty t rest := by
  refine ⟨h1 ▸ e.is, fun h => ?_, fun n hn => (e.lines n (mem_reserved hn)).trans (h3 n hn)⟩
  obtain ⟨x, f, v⟩ := e.ctype h
  exact ⟨_, f, by rw [← h2, ← v]⟩

theorem dataOwn (c : Cfg) (o : Opt) (calls : List Call) (d : Bytes) (ka : Bool) : ∃ x, dataCalls c o calls d ka = calls ++ x ∧ ∀ y ∈ x, Own y := by
  refine ⟨_, by unfold dataCalls; rw [List.append_assoc, List.append_assoc], ?_⟩
  intro y hy
  simp only [List.mem_append, List.mem_singleton] at hy
  rcases hy with h | h | h
  · unfold teCalls at h; split at h
    · simp only [List.mem_singleton] at h; subst h; exact .inr (.inr (by decide))
    · cases h
  · split at h
    · cases h
    · simp only [List.mem_singleton] at h; subst h; exact .inr (.inl (by decide))
  · subst h; exact .inl (by decide)

theorem genOwn (c : Cfg) (o : Opt) (calls : List Call) (ka : Bool) : ∃ x, genCalls c o calls ka = calls ++ x ∧ ∀ y ∈ x, Own y := by
  refine ⟨_, by unfold genCalls; rw [List.append_assoc], ?_⟩
  intro y hy
  simp only [List.mem_append, List.mem_singleton] at hy
  rcases hy with h | h
  · unfold teCalls at h; split at h
    · simp only [List.mem_singleton] at h; subst h; exact .inr (.inr (by decide))
    · cases h
  · subst h; exact .inl (by decide)

theorem keepOrClose_noLF (k : Bool) : (10 : UInt8) ∉ keepOrClose k := by cases k <;> decide
theorem connValue_noLF (k : Bool) (st : Int) : (10 : UInt8) ∉ connValue k st := by
  unfold connValue keepOrUpgrade; split <;> (try split) <;> decide

/-- The Connection line of a returned body, and its Content-Length and Transfer-Encoding lines. -/
theorem data_conn (c : Cfg) (o : Opt) (calls : List Call) (d : Bytes) (ka : Bool) : linesFor kConn (dataCalls c o calls d ka) = [line b!"Connection" (keepOrClose ka)] :=
  linesFor_set (by decide) (keepOrClose_noLF ka) (by decide) _
theorem data_cl (c : Cfg) (o : Opt) (calls : List Call) (d : Bytes) (ka : Bool) (h : noBody (lastStatus calls).1 = false)
    (hw : wantsChunked c o (lastStatus calls).1 = false) : linesFor kCL (dataCalls c o calls d ka) = [line b!"Content-Length" (fmtNat d.length)] := by
  unfold dataCalls
  rw [untouched_snoc (by simp [touches]; decide), if_neg (by simp [h, hw])]
  exact linesFor_set (by decide) (fmtNat_noLF _) (by decide) _
theorem data_te (c : Cfg) (o : Opt) (calls : List Call) (d : Bytes) (ka : Bool)
    (hw : wantsChunked c o (lastStatus calls).1 = true) : linesFor kTE (dataCalls c o calls d ka) = [line b!"Transfer-Encoding" b!"chunked"] := by
  unfold dataCalls
  rw [untouched_snoc (by simp [touches]; decide), if_pos (by simp [hw]), List.append_nil, hw]
  exact linesFor_set (by decide) (by decide) (by decide) _
theorem gen_conn (c : Cfg) (o : Opt) (calls : List Call) (ka : Bool) : linesFor kConn (genCalls c o calls ka) = [line b!"Connection" (connValue ka (lastStatus calls).1)] :=
  linesFor_set (by decide) (connValue_noLF _ _) (by decide) _
theorem gen_te (c : Cfg) (o : Opt) (calls : List Call) (ka : Bool)
    (hw : wantsChunked c o (lastStatus calls).1 = true) : linesFor kTE (genCalls c o calls ka) = [line b!"Transfer-Encoding" b!"chunked"] := by
  unfold genCalls
  rw [untouched_snoc (by simp [touches]; decide), hw]
  exact linesFor_set (by decide) (by decide) (by decide) _

/-- The calls a script makes on a fresh response. -/
theorem script_inv {c : Cfg} (hc : CfgOk c) {s s1 : St} (hs : Fresh s) {sc : Script} (hf : Script.Fine sc)
    (hr : runScript c ((.setBaseHeader, false) :: sc) s = (.ok (), s1)) : Inv c true s false (callsOf sc) s1 := by
  have ⟨ok, i⟩ := inv_base (s := s) hc (inv_fresh (c := c) hs)
  have e : runScript c ((.setBaseHeader, false) :: sc) s = runScript c sc (setBaseHeader c s).2 := by
    show (match setBaseHeader c s with
      | (.ok _, s') => runScript c sc s'
      | (.error e, s') => if false = true then runScript c sc s' else (.error e, s')) = _
    rcases hx : setBaseHeader c s with ⟨x, y⟩
    rw [hx] at ok
    dsimp only at ok ⊢
    subst ok
    rfl
  rw [e] at hr
  have h := inv_script hc sc hf _ i
  rw [hr] at h
  have h' : Inv c true s false ([] ++ callsOf sc) s1 := h
  simpa using h'

end Verif.Proofs.Response
