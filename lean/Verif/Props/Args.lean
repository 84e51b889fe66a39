import Verif.Model.Args
import Verif.Spec.Args
import Verif.Py.Lemmas
import Verif.Py.Util
/-!
# C58: command line
-/
namespace Verif
open Py Model.App Model.Args Spec.Args

/-- What an item sets: a key of the options … -/
def itemOpt (int? : Bytes → Option Int) : Item → Option (Bytes × OVal)
  | .flag o => (tableGet flagTable o).map (fun p => (p.1, .bool p.2))
  | .text o v => (tableGet textTable o).map (fun k => (k, .str v))
  | .number o v => match tableGet numberTable o, int? v with
    | some k, some n => some (k, .int n)
    | _, _ => none
  | .ssl _ _ => none
/-- … or a key of `ssl`. -/
def itemSsl : Item → Option (Bytes × Bytes)
  | .ssl o v => (tableGet sslTable o).map (fun k => (k, v))
  | _ => none

/-- The value of the last setting of `k`, or the default. -/
def lastSet {β : Type} (sets : List (Bytes × β)) (k : Bytes) (d : Option β) : Option β :=
  ((sets.filter (fun p => p.1 == k)).getLast?.map (·.2)).or d

namespace Proofs.Args

theorem getLast_tail (a b : Bytes) (l : List Bytes) : (a :: (l ++ [b])).getLast (by simp) = b := by
  rw [List.getLast_cons (by simp), List.getLast_append_of_ne_nil _ (by simp)]; rfl

theorem lastSet_cons {β : Type} (p : Bytes × β) (sets : List (Bytes × β)) (k : Bytes) (d : Option β) :
    lastSet (p :: sets) k d = lastSet sets k (if p.1 = k then some p.2 else d) := by
  unfold lastSet
  by_cases h : p.1 = k
  · rw [List.filter_cons_of_pos (by simpa using h)]
    cases hf : sets.filter (fun p => p.1 == k) with
    | nil => simp [h]
    | cons a l =>
      rw [List.getLast?_cons_cons]
      simp [List.getLast?_eq_some_getLast]
  · rw [List.filter_cons_of_neg (by simpa using h)]
    simp [h]

theorem dashed_iff (a : Bytes) : startsWith a b!"-" = true ↔ Dashed a := by
  unfold Dashed
  cases a with
  | nil => simp [startsWith]
  | cons x a => simp [startsWith]; exact eq_comm

theorem tableGet_mem {β : Type} {t : List (Bytes × β)} {o : Bytes} {v : β} (h : tableGet t o = some v) : (o, v) ∈ t := by
  unfold tableGet at h
  rw [Option.map_eq_some_iff] at h
  obtain ⟨⟨o', v'⟩, h1, rfl⟩ := h
  have h2 := List.find?_some h1
  simp at h2
  subst h2
  exact List.mem_of_find?_eq_some h1

variable {S : Type}

theorem step_flag (int? : Bytes → Option Int) (cbs : Callbacks S) (o cur k : Bytes) (b : Bool) (h : tableGet flagTable o = some (k, b)) (st : Options × S) :
    stepArg int? cbs o cur st = .ok ({ st.1 with opts := Dict.set st.1.opts k (.bool b) }, st.2) := by
  have h2 := tableGet_mem h
  simp only [flagTable, List.mem_cons, List.not_mem_nil, or_false, Prod.mk.injEq] at h2
  rcases h2 with ⟨rfl, rfl, rfl⟩ | ⟨rfl, rfl, rfl⟩ | ⟨rfl, rfl, rfl⟩ <;> rfl

theorem step_text (int? : Bytes → Option Int) (cbs : Callbacks S) (o cur k : Bytes) (h : tableGet textTable o = some k) (st : Options × S) :
    stepArg int? cbs o cur st = .ok ({ st.1 with opts := Dict.set st.1.opts k (.str cur) }, st.2) := by
  have h2 := tableGet_mem h
  simp only [textTable, List.mem_cons, List.not_mem_nil, or_false, Prod.mk.injEq] at h2
  rcases h2 with ⟨rfl, rfl⟩ | ⟨rfl, rfl⟩ | ⟨rfl, rfl⟩ | ⟨rfl, rfl⟩ | ⟨rfl, rfl⟩ <;> rfl

theorem step_number (int? : Bytes → Option Int) (cbs : Callbacks S) (o cur k : Bytes) (h : tableGet numberTable o = some k) (st : Options × S) :
    stepArg int? cbs o cur st = match int? cur with
      | some n => .ok ({ st.1 with opts := Dict.set st.1.opts k (.int n) }, st.2)
      | none => .error (.badNumber o cur) := by
  have h2 := tableGet_mem h
  simp only [numberTable, List.mem_cons, List.not_mem_nil, or_false, Prod.mk.injEq] at h2
  rcases h2 with ⟨rfl, rfl⟩ | ⟨rfl, rfl⟩ | ⟨rfl, rfl⟩ | ⟨rfl, rfl⟩ | ⟨rfl, rfl⟩ | ⟨rfl, rfl⟩ | ⟨rfl, rfl⟩ | ⟨rfl, rfl⟩ |
    ⟨rfl, rfl⟩ | ⟨rfl, rfl⟩ | ⟨rfl, rfl⟩ | ⟨rfl, rfl⟩ | ⟨rfl, rfl⟩ | ⟨rfl, rfl⟩ | ⟨rfl, rfl⟩ | ⟨rfl, rfl⟩ <;> rfl

theorem step_ssl (int? : Bytes → Option Int) (cbs : Callbacks S) (o cur k : Bytes) (h : tableGet sslTable o = some k) (st : Options × S) :
    stepArg int? cbs o cur st = .ok ({ st.1 with ssl := Dict.set st.1.ssl k cur }, st.2) := by
  have h2 := tableGet_mem h
  simp only [sslTable, List.mem_cons, List.not_mem_nil, or_false, Prod.mk.injEq] at h2
  rcases h2 with ⟨rfl, rfl⟩ | ⟨rfl, rfl⟩ <;> rfl

theorem not_dashed_of {o : Bytes} (h : ¬ Dashed o) (x : Bytes) : (45 :: x) ≠ o := by
  rintro rfl; exact h rfl

theorem step_plain (int? : Bytes → Option Int) (cbs : Callbacks S) (o cur : Bytes) (h : ¬ Dashed o) (st : Options × S) :
    stepArg int? cbs o cur st = .ok st := by
  have hn : ∀ x : Bytes, o ≠ 45 :: x := fun x he => h (by rw [he]; rfl)
  have hd : startsWith o b!"-" = false := by rw [← Bool.not_eq_true, dashed_iff]; exact h
  have h1 : o ∉ strOpts := by
    intro hm
    simp only [strOpts, List.mem_cons, List.not_mem_nil, or_false] at hm
    rcases hm with h | h | h | h | h <;> exact hn _ h
  have h2 : o ∉ numOpts := by
    intro hm
    simp only [numOpts, List.mem_cons, List.not_mem_nil, or_false] at hm
    rcases hm with h | h | h | h | h | h | h | h | h | h | h | h | h | h | h | h <;> exact hn _ h
  simp only [stepArg]
  rw [if_neg (hn _), if_neg (by rintro (h | h) <;> exact hn _ h), if_neg h1, if_neg h2, if_neg (hn _), if_neg (hn _), if_neg (by rw [hd]; simp)]

theorem tables_dashed (o : Bytes) :
    (tableGet flagTable o).isSome ∨ (tableGet textTable o).isSome ∨ (tableGet numberTable o).isSome ∨ (tableGet sslTable o).isSome → Dashed o := by
  simp only [Option.isSome_iff_exists]
  rintro (⟨v, h⟩ | ⟨v, h⟩ | ⟨v, h⟩ | ⟨v, h⟩) <;>
    (have h2 := tableGet_mem h; revert h2; clear h)
  · intro h2
    simp only [flagTable, List.mem_cons, List.not_mem_nil, or_false, Prod.mk.injEq] at h2
    rcases h2 with ⟨rfl, -⟩ | ⟨rfl, -⟩ | ⟨rfl, -⟩ <;> rfl
  · intro h2
    simp only [textTable, List.mem_cons, List.not_mem_nil, or_false, Prod.mk.injEq] at h2
    rcases h2 with ⟨rfl, -⟩ | ⟨rfl, -⟩ | ⟨rfl, -⟩ | ⟨rfl, -⟩ | ⟨rfl, -⟩ <;> rfl
  · intro h2
    simp only [numberTable, List.mem_cons, List.not_mem_nil, or_false, Prod.mk.injEq] at h2
    rcases h2 with ⟨rfl, -⟩ | ⟨rfl, -⟩ | ⟨rfl, -⟩ | ⟨rfl, -⟩ | ⟨rfl, -⟩ | ⟨rfl, -⟩ | ⟨rfl, -⟩ | ⟨rfl, -⟩ |
      ⟨rfl, -⟩ | ⟨rfl, -⟩ | ⟨rfl, -⟩ | ⟨rfl, -⟩ | ⟨rfl, -⟩ | ⟨rfl, -⟩ | ⟨rfl, -⟩ | ⟨rfl, -⟩ <;> rfl
  · intro h2
    simp only [sslTable, List.mem_cons, List.not_mem_nil, or_false, Prod.mk.injEq] at h2
    rcases h2 with ⟨rfl, -⟩ | ⟨rfl, -⟩ <;> rfl

/-- consecutive pairs -/
def adj : List Bytes → List (Bytes × Bytes)
  | a :: b :: t => (a, b) :: adj (b :: t)
  | _ => []

theorem zip_adj (a : Bytes) (l : List Bytes) : (a :: l).dropLast.zip l = adj (a :: l) := by
  induction l generalizing a with
  | nil => rfl
  | cons b l ih => rw [List.dropLast_cons_cons, List.zip_cons_cons, ih]; rfl

theorem argPairs_cons (a : Bytes) (l : List Bytes) : argPairs (a :: l) = ((a :: l).getLast (by simp), a) :: adj (a :: l) := by
  unfold argPairs
  rw [List.getLast?_eq_some_getLast (by simp)]
  simp only [List.zip_cons_cons, zip_adj]

theorem adj_cons {o : Bytes} {l : List Bytes} (h : l ≠ []) : ∃ c, adj (o :: l) = (o, c) :: adj l := by
  cases l with
  | nil => exact absurd rfl h
  | cons c t => exact ⟨c, rfl⟩

theorem loop_items (int? : Bytes → Option Int) (cbs : Callbacks S) (tl : List Bytes) (htl : tl ≠ []) (items : List Item) :
    (∀ i ∈ items, i.Good int?) → ∀ st : Options × S, ∃ o, loopArgs int? cbs (adj (items.flatMap Item.args ++ tl)) st = loopArgs int? cbs (adj tl) (o, st.2) ∧
      (∀ k, Dict.get o.opts k = lastSet (items.filterMap (itemOpt int?)) k (Dict.get st.1.opts k)) ∧
      (∀ k, Dict.get o.ssl k = lastSet (items.filterMap itemSsl) k (Dict.get st.1.ssl k)) := by
  induction items with
  | nil => intro _ st; exact ⟨st.1, rfl, by simp [lastSet], by simp [lastSet]⟩
  | cons i items ih =>
    intro hg st
    have hgi := hg i (by simp)
    have ih := ih (fun x hx => hg x (by simp [hx]))
    have hne : items.flatMap Item.args ++ tl ≠ [] := by simp [htl]
    rw [List.flatMap_cons]
    have hval : ∀ (o v : Bytes) (st1 st2 : Options × S), ¬ Dashed v → stepArg int? cbs o v st1 = .ok st2 →
        loopArgs int? cbs (adj (o :: v :: (items.flatMap Item.args ++ tl))) st1 = loopArgs int? cbs (adj (items.flatMap Item.args ++ tl)) st2 := by
      intro o v st1 st2 hv hs
      obtain ⟨c, hc⟩ := adj_cons (o := v) hne
      show loopArgs int? cbs ((o, v) :: adj (v :: _)) st1 = _
      rw [hc]
      simp only [loopArgs, hs, step_plain int? cbs v c hv]
    cases i with
    | flag o =>
      obtain ⟨⟨k, b⟩, hk⟩ := Option.isSome_iff_exists.1 hgi
      obtain ⟨c, hc⟩ := adj_cons (o := o) hne
      obtain ⟨r, h1, h2, h3⟩ := ih ({ st.1 with opts := Dict.set st.1.opts k (.bool b) }, st.2)
      refine ⟨r, ?_, ?_, ?_⟩
      · simp only [Item.args, List.cons_append, List.nil_append]
        rw [hc]
        simp only [loopArgs, step_flag int? cbs o c k b hk]
        exact h1
      · intro k'
        rw [h2, List.filterMap_cons_some (b := (k, OVal.bool b)) (by simp [itemOpt, hk]), lastSet_cons, Dict.get_set]
      · intro k'; rw [h3, List.filterMap_cons_none (by rfl)]
    | text o v =>
      obtain ⟨h0, hv⟩ := hgi
      obtain ⟨k, hk⟩ := Option.isSome_iff_exists.1 h0
      obtain ⟨r, h1, h2, h3⟩ := ih ({ st.1 with opts := Dict.set st.1.opts k (.str v) }, st.2)
      refine ⟨r, ?_, ?_, ?_⟩
      · simp only [Item.args, List.cons_append, List.nil_append]
        rw [hval o v st _ hv (step_text int? cbs o v k hk st)]
        exact h1
      · intro k'
        rw [h2, List.filterMap_cons_some (b := (k, OVal.str v)) (by simp [itemOpt, hk]), lastSet_cons, Dict.get_set]
      · intro k'; rw [h3, List.filterMap_cons_none (by rfl)]
    | number o v =>
      obtain ⟨h0, hv, hn⟩ := hgi
      obtain ⟨k, hk⟩ := Option.isSome_iff_exists.1 h0
      obtain ⟨n, hn⟩ := Option.isSome_iff_exists.1 hn
      obtain ⟨r, h1, h2, h3⟩ := ih ({ st.1 with opts := Dict.set st.1.opts k (.int n) }, st.2)
      refine ⟨r, ?_, ?_, ?_⟩
      · simp only [Item.args, List.cons_append, List.nil_append]
        rw [hval o v st _ hv (by rw [step_number int? cbs o v k hk st, hn])]
        exact h1
      · intro k'
        rw [h2, List.filterMap_cons_some (b := (k, OVal.int n)) (by simp [itemOpt, hk, hn]), lastSet_cons, Dict.get_set]
      · intro k'; rw [h3, List.filterMap_cons_none (by rfl)]
    | ssl o v =>
      obtain ⟨h0, hv⟩ := hgi
      obtain ⟨k, hk⟩ := Option.isSome_iff_exists.1 h0
      obtain ⟨r, h1, h2, h3⟩ := ih ({ st.1 with ssl := Dict.set st.1.ssl k v }, st.2)
      refine ⟨r, ?_, ?_, ?_⟩
      · simp only [Item.args, List.cons_append, List.nil_append]
        rw [hval o v st _ hv (step_ssl int? cbs o v k hk st)]
        exact h1
      · intro k'; rw [h2, List.filterMap_cons_none (by rfl)]
      · intro k'
        rw [h3, List.filterMap_cons_some (b := (k, v)) (by simp [itemSsl, hk]), lastSet_cons, Dict.get_set]

end Proofs.Args
open Proofs.Args

/-- **C58 (well-formed lines).** For every command line made of options of the tables with their values (none starting with a dash)
followed by the application: parsing succeeds, calls no callback, and every key has the value of its last occurrence or its default;
`__main__` takes the last argument as the application (unless it equals the program name). -/
theorem C58_wellformed_partial {S : Type} (int? : Bytes → Option Int) (cbs : Callbacks S) (s : S) (prog app : Bytes) (items : List Item)
    (hp : ¬ Dashed prog) (ha : ¬ Dashed app) (hg : ∀ i ∈ items, i.Good int?) :
    (∃ o, parseArgs int? cbs (prog :: (items.flatMap Item.args ++ [app])) s = .ok (o, s) ∧
      (∀ k, Dict.get o.opts k = lastSet (items.filterMap (itemOpt int?)) k
        (Dict.get [(b!"host", OVal.str b!"127.0.0.1"), (b!"port", OVal.int 8000)] k)) ∧
      (∀ k, Dict.get o.ssl k = lastSet (items.filterMap itemSsl) k none)) ∧
    (app ≠ prog → ∃ o, main int? (prog :: (items.flatMap Item.args ++ [app])) = .ok (o, [], some app)) := by
  have key : ∀ {S : Type} (cbs : Callbacks S) (s : S), ∃ o, parseArgs int? cbs (prog :: (items.flatMap Item.args ++ [app])) s = .ok (o, s) ∧
      (∀ k, Dict.get o.opts k = lastSet (items.filterMap (itemOpt int?)) k
        (Dict.get [(b!"host", OVal.str b!"127.0.0.1"), (b!"port", OVal.int 8000)] k)) ∧
      (∀ k, Dict.get o.ssl k = lastSet (items.filterMap itemSsl) k none) := by
    intro S cbs s
    obtain ⟨o, h1, h2, h3⟩ := loop_items int? cbs [app] (by simp) items hg (defaults, s)
    refine ⟨o, ?_, h2, h3⟩
    unfold parseArgs
    rw [argPairs_cons]
    have hl : (prog :: (items.flatMap Item.args ++ [app])).getLast (by simp) = app := by
      exact getLast_tail _ _ _
    rw [hl]
    obtain ⟨c, hc⟩ := adj_cons (o := prog) (l := items.flatMap Item.args ++ [app]) (by simp)
    rw [hc]
    simp only [loopArgs, step_plain int? cbs app prog ha, step_plain int? cbs prog c hp]
    exact h1
  refine ⟨key cbs s, ?_⟩
  intro hne
  obtain ⟨o, h1, -, -⟩ := key (mainCallbacks int?) []
  refine ⟨o, ?_⟩
  unfold main
  rw [h1]
  simp only [List.head?_cons]
  have hl : (prog :: (items.flatMap Item.args ++ [app])).getLast? = some app := by
    rw [List.getLast?_cons, List.getLast?_append]; simp
  rw [hl]
  simp only
  rw [if_pos ⟨hne, by rw [dashed_iff]; exact ha⟩]

namespace Proofs.Args

theorem parse_prefix {S : Type} (int? : Bytes → Option Int) (cbs : Callbacks S) (s : S) (prog : Bytes) (items : List Item) (tl : List Bytes)
    (htl : tl ≠ []) (hp : ¬ Dashed prog) (hl : ¬ Dashed (tl.getLast htl)) (hg : ∀ i ∈ items, i.Good int?) :
    ∃ o, parseArgs int? cbs (prog :: (items.flatMap Item.args ++ tl)) s = loopArgs int? cbs (adj tl) (o, s) := by
  obtain ⟨o, h1, -, -⟩ := loop_items int? cbs tl htl items hg (defaults, s)
  refine ⟨o, ?_⟩
  unfold parseArgs
  rw [argPairs_cons]
  have hl' : (prog :: (items.flatMap Item.args ++ tl)).getLast (by simp) = tl.getLast htl := by
    rw [List.getLast_cons (by simp [htl]), List.getLast_append_of_ne_nil _ htl]
  rw [hl']
  obtain ⟨c, hc⟩ := adj_cons (o := prog) (l := items.flatMap Item.args ++ tl) (by simp [htl])
  rw [hc]
  simp only [loopArgs, step_plain int? cbs _ prog hl, step_plain int? cbs prog c hp]
  exact h1

end Proofs.Args

/-- **C58 (bad number).** After any options, a numeric option whose value `int` rejects ends the program with an error naming both,
whatever follows. -/
theorem C58_bad_number {S : Type} (int? : Bytes → Option Int) (cbs : Callbacks S) (s : S) (prog o v : Bytes) (items : List Item)
    (more : List Bytes) (hp : ¬ Dashed prog) (hl : ¬ Dashed ((o :: v :: more).getLast (by simp))) (hg : ∀ i ∈ items, i.Good int?)
    (ho : (tableGet numberTable o).isSome) (hv : int? v = none) :
    parseArgs int? cbs (prog :: (items.flatMap Item.args ++ o :: v :: more)) s = .error (.badNumber o v) := by
  obtain ⟨r, h⟩ := parse_prefix int? cbs s prog items (o :: v :: more) (by simp) hp hl hg
  obtain ⟨k, hk⟩ := Option.isSome_iff_exists.1 ho
  rw [h]
  show loopArgs int? cbs ((o, v) :: adj (v :: more)) (r, s) = _
  simp only [loopArgs, step_number int? cbs o v k hk, hv]

namespace Proofs.Args

theorem step_unknown {S : Type} (int? : Bytes → Option Int) (cbs : Callbacks S) (o cur : Bytes) (hd : Dashed o)
    (h1 : tableGet flagTable o = none) (h2 : tableGet textTable o = none) (h3 : tableGet numberTable o = none) (h4 : tableGet sslTable o = none)
    (hcb : Dict.get cbs (optName o) = none) (st : Options × S) : stepArg int? cbs o cur st = .error (.unrecognized o) := by
  have hn : ∀ {β : Type} {t : List (Bytes × β)}, tableGet t o = none → ∀ p ∈ t, o ≠ p.1 := by
    intro β t h p hp he
    unfold tableGet at h
    rw [Option.map_eq_none_iff, List.find?_eq_none] at h
    exact h p hp (by simp [he])
  have f := hn h1; have g := hn h2; have m := hn h3; have l := hn h4
  simp only [flagTable, textTable, numberTable, sslTable, List.forall_mem_cons, List.not_mem_nil, false_implies, implies_true, and_true] at f g m l
  have hs : o ∉ strOpts := by simp only [strOpts, List.mem_cons, List.not_mem_nil, or_false, not_or]; exact g
  have hm : o ∉ numOpts := by simp only [numOpts, List.mem_cons, List.not_mem_nil, or_false, not_or]; exact m
  simp only [stepArg]
  rw [if_neg f.1, if_neg (by rintro (h | h); exact f.2.1 h; exact f.2.2 h), if_neg hs, if_neg hm, if_neg l.1, if_neg l.2,
    if_pos ((dashed_iff o).2 hd), hcb]

end Proofs.Args

/-- **C58 (unknown option).** After any options, an argument that starts with a dash and is no option of the tables nor a callback ends the
program with an error naming it — whether something follows it or it is the last argument. -/
theorem C58_unknown {S : Type} (int? : Bytes → Option Int) (cbs : Callbacks S) (s : S) (prog o : Bytes) (items : List Item)
    (more : List Bytes) (hp : ¬ Dashed prog) (hg : ∀ i ∈ items, i.Good int?) (hd : Dashed o)
    (h1 : tableGet flagTable o = none) (h2 : tableGet textTable o = none) (h3 : tableGet numberTable o = none) (h4 : tableGet sslTable o = none)
    (hcb : Dict.get cbs (optName o) = none) :
    (∀ app, ¬ Dashed app → parseArgs int? cbs (prog :: (items.flatMap Item.args ++ o :: (more ++ [app]))) s = .error (.unrecognized o)) ∧
    parseArgs int? cbs (prog :: (items.flatMap Item.args ++ [o])) s = .error (.unrecognized o) := by
  constructor
  · intro app ha
    obtain ⟨r, h⟩ := parse_prefix int? cbs s prog items (o :: (more ++ [app])) (by simp) hp (by rw [getLast_tail]; exact ha) hg
    rw [h]
    obtain ⟨c, hc⟩ := adj_cons (o := o) (l := more ++ [app]) (by simp)
    rw [hc]
    simp only [loopArgs, step_unknown int? cbs o c hd h1 h2 h3 h4 hcb]
  · unfold parseArgs
    rw [argPairs_cons]
    have hl' : (prog :: (items.flatMap Item.args ++ [o])).getLast (by simp) = o := getLast_tail _ _ _
    rw [hl']
    simp only [loopArgs, step_unknown int? cbs o prog hd h1 h2 h3 h4 hcb]

/-- **C58 refuted.** (1) An option without its value at the end is not reported: `prog --host` listens on host `prog`.
(2) A value that starts with a dash is taken for an option: `--backlog -5` is refused as unknown option `-5`, whatever `int` says.
(3) Without an application the last value is taken for it: `prog --port 8080` serves the application `8080`. -/
theorem C58_refuted (int? : Bytes → Option Int) (n : Int) (h5 : int? b!"-5" = some n) (h8 : int? b!"8080" = some 8080) :
    (parseArgs int? ([] : Callbacks Unit) [b!"prog", b!"--host"] ()).map (fun r => Dict.get r.1.opts b!"host") = .ok (some (.str b!"prog")) ∧
    parseArgs int? ([] : Callbacks Unit) [b!"prog", b!"--backlog", b!"-5", b!"app"] () = .error (.unrecognized b!"-5") ∧
    (main int? [b!"prog", b!"--port", b!"8080"]).map (·.2.2) = .ok (some b!"8080") := by
  refine ⟨rfl, ?_, ?_⟩
  · unfold parseArgs
    have : argPairs [b!"prog", b!"--backlog", b!"-5", b!"app"] = [(b!"app", b!"prog"), (b!"prog", b!"--backlog"), (b!"--backlog", b!"-5"), (b!"-5", b!"app")] := rfl
    rw [this]
    simp only [loopArgs]
    rw [step_plain _ _ _ _ (by decide)]
    simp only
    rw [step_plain _ _ _ _ (by decide)]
    simp only
    rw [step_number int? _ b!"--backlog" _ b!"backlog" (by decide), h5]
    simp only
    rw [step_unknown int? _ b!"-5" _ rfl (by decide) (by decide) (by decide) (by decide) (by rfl)]
  · have h := (C58_wellformed_partial int? ([] : Callbacks Unit) () b!"prog" b!"x" [] (by decide) (by decide) (by simp)).1
    unfold main parseArgs
    have : argPairs [b!"prog", b!"--port", b!"8080"] = [(b!"8080", b!"prog"), (b!"prog", b!"--port"), (b!"--port", b!"8080")] := rfl
    rw [this]
    simp only [loopArgs]
    rw [step_plain _ _ _ _ (by decide)]
    simp only
    rw [step_plain _ _ _ _ (by decide)]
    simp only
    rw [step_number int? _ b!"--port" _ b!"port" (by decide), h8]
    rfl

example : Item.Good (fun s => if s = b!"80" then some 80 else none) (.number b!"--port" b!"80") := ⟨by decide, by decide, by decide⟩
example : tableGet numberTable b!"--bogus" = none ∧ Dashed b!"--bogus" := by decide
example : intDec b!"-5" = some (-5) ∧ intDec b!"8080" = some 8080 := by decide +kernel

/-! ## C59: `--bind` -/

/-- An address of the `--bind` list as its author means it. -/
inductive BindItem
  | tcp (host port : Bytes) (n : Int)
  | tcp6 (host port : Bytes) (n : Int)
  | unix (path : Bytes)

def BindItem.text : BindItem → Bytes
  | .tcp h p _ => h ++ b!":" ++ p
  | .tcp6 h p _ => b!"[" ++ h ++ b!"]:" ++ p
  | .unix p => p

/-- The address it means: no host means the default one. -/
def BindItem.addr : BindItem → Addr
  | .tcp h _ n => (if h = [] then none else some h, some n)
  | .tcp6 h _ n => (some h, some n)
  | .unix p => (some p, none)

/-- Hosts and paths have no comma, plain hosts no bracket at an end, ports are colon-free numbers, and no address has the Windows drive
mark `:\`. -/
def BindItem.Good (int? : Bytes → Option Int) : BindItem → Prop
  | .tcp h p n => (44 : UInt8) ∉ h ++ p ∧ (58 : UInt8) ∉ p ∧ (92 : UInt8) ∉ h ++ p ∧ int? p = some n ∧ (91 : UInt8) ∉ h ∧ (93 : UInt8) ∉ h
  | .tcp6 h p n => (44 : UInt8) ∉ h ++ p ∧ (58 : UInt8) ∉ p ∧ (92 : UInt8) ∉ h ++ p ∧ int? p = some n ∧ (91 : UInt8) ∉ h ∧ (93 : UInt8) ∉ h ∧ h ≠ []
  | .unix p => (44 : UInt8) ∉ p ∧ ((58 : UInt8) ∉ p ∨ b!":\\" <:+: p)

namespace Proofs.Args

theorem rfind_byte {c : UInt8} {a r : Bytes} (h : c ∉ r) : rfind [c] (a ++ c :: r) = some a.length := by
  have h0 : ∀ r : Bytes, c ∉ r → rfind [c] r = none := by
    intro r
    induction r with
    | nil => intro _; simp [rfind]
    | cons x r ih =>
      intro h
      simp only [List.mem_cons, not_or] at h
      simp [rfind, ih h.2, h.1]
  induction a with
  | nil => simp [rfind, h0 r h]
  | cons x a ih => simp [rfind, ih]

theorem stripBy_none {p : UInt8 → Bool} {s : Bytes} (h : ∀ x ∈ s, p x = false) : stripBy p s = s := by
  unfold stripBy
  rw [dropWhile_eq_self h, dropWhile_eq_self (by simpa using h), List.reverse_reverse]

theorem bindOne_good (int? : Bytes → Option Int) (b : BindItem) (hg : b.Good int?) (ports : Ports) :
    bindOne int? b.text ports = some (if Dict.mem ports b.addr then ports else Dict.set ports b.addr ()) := by
  have hl : ∀ (port : PortArg) (host : Option Bytes), (listen ports port host ()).2 =
      if Dict.mem ports (addrOf port host) then ports else Dict.set ports (addrOf port host) () := by
    intro port host; unfold listen; simp only; split <;> rfl
  have h92 : ∀ s : Bytes, (92 : UInt8) ∉ s → contains b!":\\" s = false := by
    intro s hs; rw [contains_false_iff]; intro h; exact hs (h.subset (by simp))
  cases b with
  | unix p =>
    obtain ⟨h1, h2⟩ := hg
    unfold bindOne
    rw [if_neg, hl]
    · rfl
    · simp only [BindItem.text, Bool.and_eq_true, Bool.not_eq_true', not_and]
      intro h3
      rcases h2 with h2 | h2
      · rw [contains_singleton]; exact h2
      · rw [← contains_iff, h3] at h2; cases h2
  | tcp h p n =>
    obtain ⟨h1, h2, h3, h4, h5, h6⟩ := hg
    have e : (BindItem.tcp h p n).text = h ++ 58 :: p := by simp [BindItem.text]
    have hs : rsplitColon (BindItem.tcp h p n).text = (h, p) := by
      unfold rsplitColon; rw [e, rfind_byte h2]; simp
    have hst : stripBy (fun c => c == 91 || c == 93) h = h := by
      apply stripBy_none
      intro x hx
      simp only [Bool.or_eq_false_iff, beq_eq_false_iff_ne]
      exact ⟨by rintro rfl; exact h5 hx, by rintro rfl; exact h6 hx⟩
    unfold bindOne
    rw [if_pos, hs]
    · simp only [h4, hst, hl]; rfl
    · rw [e, h92 _ (by simp at h3 ⊢; exact h3)]
      simp only [Bool.not_false, Bool.true_and, contains_singleton]; simp
  | tcp6 h p n =>
    obtain ⟨h1, h2, h3, h4, h5, h6, h7⟩ := hg
    have e : (BindItem.tcp6 h p n).text = (91 :: h ++ [93]) ++ 58 :: p := by simp [BindItem.text]
    have hs : rsplitColon (BindItem.tcp6 h p n).text = (91 :: h ++ [93], p) := by
      unfold rsplitColon; rw [e, rfind_byte h2]
      simp only
      rw [List.take_left, ← List.drop_drop, List.drop_left]
      rfl
    have hst : stripBy (fun c => c == 91 || c == 93) (91 :: h ++ [93]) = h := by
      have hx : ∀ x ∈ h, (x == 91 || x == 93) = false := by
        intro x hx
        simp only [Bool.or_eq_false_iff, beq_eq_false_iff_ne]
        exact ⟨by rintro rfl; exact h5 hx, by rintro rfl; exact h6 hx⟩
      unfold stripBy
      rw [List.cons_append, List.dropWhile_cons_of_pos (by rfl)]
      cases h with
      | nil => exact absurd rfl h7
      | cons y h =>
        rw [List.cons_append, List.dropWhile_cons_of_neg (by rw [hx y (by simp)]; simp)]
        rw [← List.cons_append, List.reverse_append]
        simp only [List.reverse_singleton, List.cons_append, List.nil_append]
        rw [List.dropWhile_cons_of_pos (by rfl), dropWhile_eq_self (by
          intro x h'; rw [List.mem_reverse] at h'; exact hx x h'), List.reverse_reverse]
    unfold bindOne
    rw [if_pos, hs]
    · simp only [h4, hst, hl, h7, if_false]; rfl
    · rw [e, h92 _ (by simp at h3 ⊢; exact h3)]
      simp only [Bool.not_false, Bool.true_and, contains_singleton]; simp

theorem splitByte_join (parts : List Bytes) (hne : parts ≠ []) (hc : ∀ p ∈ parts, (44 : UInt8) ∉ p) :
    ∀ n, parts.length ≤ n + 1 → splitByte 44 n (join [44] parts) = parts := by
  induction parts with
  | nil => exact absurd rfl hne
  | cons p parts ih =>
    intro n hn
    have hp : (44 : UInt8) ∉ p := hc p (by simp)
    cases parts with
    | nil =>
      simp only [join]
      clear hn ih hne hc
      induction p with
      | nil => simp [splitByte]
      | cons x p ih =>
        simp only [List.mem_cons, not_or] at hp
        cases n with
        | zero => simp [splitByte]
        | succ n => simp only [splitByte, if_neg (Ne.symm hp.1), ih hp.2]
    | cons q parts =>
      obtain ⟨m, rfl⟩ : ∃ m, n = m + 1 := ⟨n - 1, by simp at hn; omega⟩
      have ih := ih (by simp) (fun x hx => hc x (by simp [hx])) m (by simp at hn ⊢; omega)
      have e : join [44] (p :: q :: parts) = p ++ 44 :: join [44] (q :: parts) := by simp [join]
      rw [e]
      generalize join [44] (q :: parts) = J at ih
      generalize q :: parts = Q at ih
      clear e hn hne hc
      induction p with
      | nil => simp [splitByte, ih]
      | cons x p ihp =>
        simp only [List.mem_cons, not_or] at hp
        simp only [List.cons_append, splitByte, if_neg (Ne.symm hp.1), ihp hp.2]

theorem join_length (parts : List Bytes) (hne : parts ≠ []) : parts.length ≤ (join [44] parts).length + 1 := by
  induction parts with
  | nil => simp
  | cons p parts ih =>
    cases parts with
    | nil => simp [join]
    | cons q parts =>
      have := ih (by simp)
      simp only [join, List.length_append, List.length_cons, List.length_nil] at this ⊢
      omega

end Proofs.Args

/-- **C59.** `--bind a,b,…` listens on exactly the addresses of its list, each once, after those already there, and unsets the host. -/
theorem C59_bind (int? : Bytes → Option Int) (items : List BindItem) (hne : items ≠ []) (hg : ∀ b ∈ items, b.Good int?) (o : Options) (ports : Ports) :
    ∃ ports', bind int? (join b!"," (items.map BindItem.text)) (o, ports) = .ok ({ o with opts := Dict.set o.opts b!"host" .none }, ports') ∧
      (∀ a, Dict.mem ports' a = (Dict.mem ports a || items.any (fun b => b.addr == a))) ∧
      ports.map (·.1) <+: ports'.map (·.1) ∧ ((ports.map (·.1)).Nodup → (ports'.map (·.1)).Nodup) := by
  have hcomma : ∀ p ∈ items.map BindItem.text, (44 : UInt8) ∉ p := by
    intro p hp
    obtain ⟨b, hb, rfl⟩ := List.mem_map.1 hp
    have := hg b hb
    cases b with
    | tcp h p n => have := this.1; simp [BindItem.text] at this ⊢; exact this
    | tcp6 h p n => have := this.1; simp [BindItem.text] at this ⊢; exact this
    | unix p => exact this.1
  unfold Model.Args.bind
  simp only
  rw [splitByte_join _ (by simpa using hne) hcomma _ (join_length _ (by simpa using hne))]
  clear hcomma hne
  suffices h : ∃ ports', bindAll int? (items.map BindItem.text) ports = some ports' ∧
      (∀ a, Dict.mem ports' a = (Dict.mem ports a || items.any (fun b => b.addr == a))) ∧
      ports.map (·.1) <+: ports'.map (·.1) ∧ ((ports.map (·.1)).Nodup → (ports'.map (·.1)).Nodup) by
    obtain ⟨p', h1, h2⟩ := h
    exact ⟨p', by rw [h1], h2⟩
  induction items generalizing ports with
  | nil => exact ⟨ports, rfl, by simp, List.prefix_rfl, id⟩
  | cons b items ih =>
    simp only [List.map_cons, bindAll]
    rw [bindOne_good int? b (hg b (by simp)) ports]
    simp only
    by_cases hm : Dict.mem ports b.addr = true
    · obtain ⟨p', h1, h2, h3, h4⟩ := ih (fun x hx => hg x (by simp [hx])) ports
      rw [if_pos hm]
      refine ⟨p', h1, ?_, h3, h4⟩
      intro a
      rw [h2, List.any_cons]
      by_cases ha : b.addr = a
      · subst ha; rw [hm]; rfl
      · rw [beq_eq_false_iff_ne.2 ha, Bool.false_or]
    · rw [if_neg hm]
      have hk := Dict.keys_set ports b.addr ()
      rw [if_neg hm] at hk
      obtain ⟨p', h1, h2, h3, h4⟩ := ih (fun x hx => hg x (by simp [hx])) (Dict.set ports b.addr ())
      rw [hk] at h3 h4
      refine ⟨p', h1, ?_, (List.prefix_append _ _).trans h3, ?_⟩
      · intro a
        rw [h2, List.any_cons]
        unfold Dict.mem
        rw [Dict.get_set]
        by_cases ha : b.addr = a
        · simp [ha]
        · simp only [beq_eq_false_iff_ne.2 ha, Bool.false_or, if_neg ha]
      · intro hnd
        apply h4
        rw [List.nodup_append]
        refine ⟨hnd, by simp, ?_⟩
        intro a ha c hc heq
        simp at hc
        obtain ⟨x, hx, hxa⟩ := List.mem_map.1 ha
        exact hm ((Dict.mem_iff _ _).2 ⟨x.2, by rw [← hc, ← heq, ← hxa]; exact hx⟩)

/-- An element of a `--bind` list that has a colon, no drive mark, and no number behind its last colon. -/
def BadBind (int? : Bytes → Option Int) (b : Bytes) : Prop := ∃ h p, b = h ++ b!":" ++ p ∧ (58 : UInt8) ∉ p ∧ ¬ b!":\\" <:+: b ∧ int? p = none

namespace Proofs.Args

theorem last_colon {b : Bytes} (h : (58 : UInt8) ∈ b) : ∃ x p, b = x ++ 58 :: p ∧ (58 : UInt8) ∉ p := by
  induction b with
  | nil => simp at h
  | cons c t ih =>
    by_cases ht : (58 : UInt8) ∈ t
    · obtain ⟨x, p, h1, h2⟩ := ih ht
      exact ⟨c :: x, p, by rw [h1]; rfl, h2⟩
    · rcases List.mem_cons.1 h with h | h
      · exact ⟨[], t, by rw [← h]; rfl, ht⟩
      · exact absurd h ht

theorem bindOne_bad (int? : Bytes → Option Int) (b : Bytes) (ports : Ports) : bindOne int? b ports = none ↔ BadBind int? b := by
  unfold bindOne
  by_cases hd : contains b!":\\" b = true
  · rw [if_neg (by simp [hd])]
    refine ⟨by simp, fun ⟨h, p, e, _, hn, _⟩ => absurd (contains_iff.1 hd) hn⟩
  · by_cases hc : (58 : UInt8) ∈ b
    · have hc' : contains b!":" b = true := by rw [contains_singleton]; exact hc
      rw [if_pos (by simp [hd, hc'])]
      obtain ⟨x, p, e, hp⟩ := last_colon hc
      have hs : rsplitColon b = (x, p) := by unfold rsplitColon; rw [e, rfind_byte hp]; simp
      rw [hs]
      simp only
      constructor
      · intro h
        refine ⟨x, p, by simp [e], hp, fun hi => hd (contains_iff.2 hi), ?_⟩
        cases hi : int? p with
        | none => rfl
        | some n => rw [hi] at h; cases h
      · rintro ⟨x', p', e', hp', -, hi⟩
        have : p = p' := by
          have h1 : rsplitColon b = (x', p') := by
            unfold rsplitColon; rw [e', List.append_assoc, show b!":" ++ p' = 58 :: p' from rfl, rfind_byte hp']; simp
          rw [hs] at h1; exact (Prod.mk.inj h1).2
        rw [this, hi]
    · rw [if_neg (by simp only [Bool.and_eq_true, contains_singleton]; exact fun h => hc h.2)]
      refine ⟨by simp, ?_⟩
      rintro ⟨x, p, e, -⟩
      exact absurd (by rw [e]; simp) hc

theorem bindAll_bad (int? : Bytes → Option Int) : ∀ (l : List Bytes) (ports : Ports), bindAll int? l ports = none ↔ ∃ b ∈ l, BadBind int? b
  | [], _ => by simp [bindAll]
  | b :: t, ports => by
    simp only [bindAll, List.mem_cons, exists_eq_or_imp]
    cases h : bindOne int? b ports with
    | none => simp [(bindOne_bad int? b ports).1 h]
    | some p =>
      have hn : ¬ BadBind int? b := fun hb => by rw [(bindOne_bad int? b ports).2 hb] at h; cases h
      simp only [bindAll_bad int? t p, hn, false_or]

end Proofs.Args

/-- **C59 (refused).** A list is refused as a whole exactly if one of its elements, wherever it stands, has a colon but no port number behind it. -/
theorem C59_refused (int? : Bytes → Option Int) (parts : List Bytes) (hne : parts ≠ []) (hc : ∀ p ∈ parts, (44 : UInt8) ∉ p) (o : Options) (ports : Ports) :
    bind int? (join b!"," parts) (o, ports) = .error (.badBind (join b!"," parts)) ↔ ∃ b ∈ parts, BadBind int? b := by
  rw [← bindAll_bad int? parts ports]
  unfold Model.Args.bind
  simp only
  rw [splitByte_join _ hne hc _ (join_length _ hne)]
  cases bindAll int? parts ports <;> simp

/-- A good address, then one without a port number: nothing is registered. -/
example : bind intDec b!"127.0.0.1:80,localhost:http" (defaults, []) = .error (.badBind b!"127.0.0.1:80,localhost:http") :=
  (C59_refused intDec [b!"127.0.0.1:80", b!"localhost:http"] (by simp) (by decide) defaults []).2
    ⟨b!"localhost:http", by simp, b!"localhost", b!"http", rfl, by decide, by decide, by decide⟩

example : bind intDec b!"127.0.0.1:80,[::1]:81,/tmp/a.sock,:82" (defaults, []) = .ok ({ opts := [(b!"host", .none), (b!"port", .int 8000)], ssl := [] },
    [((some b!"127.0.0.1", some 80), ()), ((some b!"::1", some 81), ()), ((some b!"/tmp/a.sock", none), ()), ((none, some 82), ())]) := by rfl
example : BindItem.Good intDec (.tcp6 b!"::1" b!"81" 81) := by
  refine ⟨by decide, by decide, by decide, by decide +kernel, by decide, by decide, by decide⟩

end Verif
