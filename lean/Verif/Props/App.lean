import Verif.Proofs.AppTable
/-!
# C39–C43, C55–C57: registration, routing, middlewares, options, hooks
-/
namespace Verif
open Py Model.App Model.Regex Spec.App Proofs.App

variable {F V : Type}

namespace Proofs.App

theorem fresh_init (e400 e404 e500 index : F) (o404 oIndex : Opts V) :
    Fresh (initTable e400 e404 e500 index o404 oIndex) ⟨indexPat, index, oIndex⟩ := ⟨rfl, rfl, rfl⟩

theorem find_filterMap {α : Type} {g : α → Option (Entry F V)} {l : List α} {m : Entry F V → Bool} {e : Entry F V}
    (h : (l.filterMap g).find? m = some e) :
    m e = true ∧ ∃ pre a post, l = pre ++ a :: post ∧ g a = some e ∧ ∀ x ∈ pre, ∀ e', g x = some e' → m e' = false := by
  induction l with
  | nil => simp at h
  | cons a l ih =>
    cases hg : g a with
    | none =>
      rw [List.filterMap_cons_none hg] at h
      obtain ⟨h1, pre, b, post, rfl, h2, h3⟩ := ih h
      refine ⟨h1, a :: pre, b, post, rfl, h2, ?_⟩
      intro x hx e' he'
      rcases List.mem_cons.1 hx with rfl | hx
      · rw [hg] at he'; cases he'
      · exact h3 x hx e' he'
    | some e0 =>
      rw [List.filterMap_cons_some hg] at h
      by_cases hm : m e0 = true
      · rw [List.find?_cons_of_pos hm] at h
        cases h
        exact ⟨hm, [], a, l, rfl, hg, by simp⟩
      · rw [List.find?_cons_of_neg hm] at h
        obtain ⟨h1, pre, b, post, rfl, h2, h3⟩ := ih h
        refine ⟨h1, a :: pre, b, post, rfl, h2, ?_⟩
        intro x hx e' he'
        rcases List.mem_cons.1 hx with rfl | hx
        · rw [hg] at he'; cases he'; simpa using hm
        · exact h3 x hx e' he'

theorem pathKey_path (p : Bytes) : ∃ b, pathKey p = .path b := ⟨_, rfl⟩

end Proofs.App

/-! ## C39 -/

/-- Every non-regex route of a registration list is for a literal path. -/
def AllLiteral (regs : List (Reg F V)) : Prop :=
  ∀ path f o, Reg.route path f o ∈ regs → ¬ RegexPath path → ∀ p, Stripped path p → Literal p

/-- `path` registers a plain (non-regex) route for `p`. -/
def RegFor (p : Bytes) (r : Reg F V) : Prop := ∃ path f o, r = .route path f o ∧ ¬ RegexPath path ∧ Stripped path p

/-- **C39 (found).** After any registrations that include one for the literal path `p`, and after any history of requests, every
spelling of `p` is dispatched to the function and options of the first route registered for `p`. -/
theorem C39_found (rx : Bytes → Bytes → Bool) (e400 e404 e500 index : F) (o404 oIndex : Opts V)
    (regs : List (Reg F V)) (evs : List Ev) (p url : Bytes) (hlit : AllLiteral regs) (hreg : ∃ r ∈ regs, RegFor p r) (hp : p ≠ [])
    (hs : Spelling p url) (hlf : (10 : UInt8) ∉ url) :
    ∃ e pre path post, choose rx (evs.foldl (step rx) (regs.foldl register (initTable e400 e404 e500 index o404 oIndex))) true url = .keyed e ∧
      regs = pre ++ .route path e.func e.opts :: post ∧ RegFor p (.route path e.func e.opts : Reg F V) ∧ ∀ r ∈ pre, ¬ RegFor p r := by
  obtain ⟨r0, hr0, path0, f0, o0, rfl, hnr0, hst0⟩ := hreg
  have hp3 : (63 : UInt8) ∉ p ∧ p.head? ≠ some 47 ∧ p.getLast? ≠ some 47 := by
    obtain ⟨n, m, tail, -, -, h1, h2, h3⟩ := hst0; exact ⟨h3, h1, h2⟩
  have hlp : Literal p := hlit _ _ _ hr0 hnr0 p hst0
  obtain ⟨b, hb⟩ := pathKey_path p
  have hkey : urlKey url = .path b := by
    rw [urlKey_spelling hs hp3.2.1 hp3.2.2 hp3.1, keyOf, if_neg hp, hb]
  have hreg0 : ∀ path f o, RegFor p (.route path f o : Reg F V) → entryFor b (.route path f o : Reg F V) = some ⟨litPat p, f, o⟩ := by
    rintro path f o ⟨_, _, _, h, h1, h2⟩
    cases h
    simp only [entryFor]
    rw [if_neg (by rw [isRegex_iff]; exact h1), routePath_of_stripped h2, if_pos ⟨hp, hb⟩]
  obtain ⟨hk, -, -, -⟩ := built_spec (fresh_init e400 e404 e500 index o404 oIndex) regs
  have hk := hk b
  -- the key's routes are not changed by requests
  have hne : regs.filterMap (entryFor b) ≠ [] := by
    intro h
    have : (⟨litPat p, f0, o0⟩ : Entry F V) ∈ regs.filterMap (entryFor b) :=
      List.mem_filterMap.2 ⟨_, hr0, hreg0 _ _ _ ⟨_, _, _, rfl, hnr0, hst0⟩⟩
    rw [h] at this; simp at this
  have hk2 : Dict.get (built (initTable e400 e404 e500 index o404 oIndex) regs).keyed (.path b) = some (regs.filterMap (entryFor b)) := by
    rw [hk]; cases h : regs.filterMap (entryFor b) with
    | nil => exact absurd h hne
    | cons => rfl
  have hk3 := steps_keyed rx evs (built (initTable e400 e404 e500 index o404 oIndex) regs) (.path b)
  rw [hk2] at hk3
  have hk4 : Dict.get (evs.foldl (step rx) (regs.foldl register (initTable e400 e404 e500 index o404 oIndex))).keyed (.path b) = some (regs.filterMap (entryFor b)) := by
    rcases hk3 with h | ⟨h, -⟩
    · exact h
    · cases h
  -- the first matching entry
  have hmatch : matchPat rx (litPat p) url = true := (matchPat_lit hlp hp hlf).2 hs
  cases hf : (regs.filterMap (entryFor b)).find? (fun e => matchPat rx e.pat url) with
  | none =>
    rw [List.find?_eq_none] at hf
    exact absurd hmatch (hf ⟨litPat p, f0, o0⟩ (List.mem_filterMap.2 ⟨_, hr0, hreg0 _ _ _ ⟨_, _, _, rfl, hnr0, hst0⟩⟩))
  | some e =>
    obtain ⟨hm, pre, r, post, rfl, hg, hpre⟩ := find_filterMap hf
    refine ⟨e, pre, ?_⟩
    have hch : choose rx (evs.foldl (step rx) ((pre ++ r :: post).foldl register (initTable e400 e404 e500 index o404 oIndex))) true url = .keyed e := by
      unfold choose
      rw [hkey, hk4]
      simp only [hf]
      rfl
    cases r with
    | error c f o => simp [entryFor] at hg
    | route path f o =>
      have hnrx : ¬ RegexPath path := by
        intro h
        rw [← isRegex_iff] at h
        simp only [entryFor] at hg
        rw [if_pos h] at hg
        cases hg
      simp only [entryFor] at hg
      rw [if_neg (by rw [isRegex_iff]; exact hnrx)] at hg
      split at hg
      · next hcond =>
        cases hg
        have hsp := (matchPat_lit (hlit path f o (by simp) hnrx _ (stripped_routePath path)) hcond.1 hlf).1 hm
        refine ⟨path, post, hch, rfl, ⟨path, f, o, rfl, hnrx, ?_⟩, ?_⟩
        · -- the same URL cannot be a spelling of two different stripped paths
          have hu : routePath path = p := by
            obtain ⟨n, m, tail, hst1, hst2, h1, h2, h3⟩ := stripped_routePath path
            have e1 : stripSlash (urlPath url) = p := by
              obtain ⟨n, m, tail, rfl, ht⟩ := hs
              unfold urlPath
              rw [partition1_fst (not_mem_replicate_append hp3.1) ht, stripSlash_spelled hp3.2.1 hp3.2.2]
            have e2 : stripSlash (urlPath url) = routePath path := by
              obtain ⟨n, m, tail, rfl, ht⟩ := hsp
              unfold urlPath
              rw [partition1_fst (not_mem_replicate_append h3) ht, stripSlash_spelled h1 h2]
            rw [← e1, e2]
          rw [← hu]; exact stripped_routePath path
        · rintro x hx ⟨path', f', o', rfl, h1, h2⟩
          have := hpre _ hx _ (hreg0 path' f' o' ⟨_, _, _, rfl, h1, h2⟩)
          simp only at this
          rw [hmatch] at this
          cases this
      · cases hg

/-- The last route registered for the index path, or the built-in one. -/
def IndexIs (regs : List (Reg F V)) (index : F) (oIndex : Opts V) (f : F) (o : Opts V) : Prop :=
  ((∀ r ∈ regs, ¬ RegFor [] r) ∧ f = index ∧ o = oIndex) ∨
  ∃ pre path post, regs = pre ++ .route path f o :: post ∧ RegFor [] (.route path f o : Reg F V) ∧ ∀ r ∈ post, ¬ RegFor [] r

namespace Proofs.App

theorem regFor_nil_iff (r : Reg F V) : RegFor [] r ↔ ∃ e, indexFor r = some e := by
  cases r with
  | error c f o => simp [RegFor, indexFor]
  | route path f o =>
    constructor
    · rintro ⟨_, _, _, h, h1, h2⟩
      cases h
      refine ⟨⟨indexPat, f, o⟩, ?_⟩
      simp only [indexFor]
      rw [if_neg (by rw [isRegex_iff]; exact h1), if_pos (routePath_of_stripped h2)]
    · rintro ⟨e, he⟩
      simp only [indexFor] at he
      split at he
      · cases he
      · next h =>
        split at he
        · next h2 => exact ⟨path, f, o, rfl, by rwa [isRegex_iff] at h, h2 ▸ stripped_routePath path⟩
        · cases he

theorem indexIs_lastSome (regs : List (Reg F V)) (index : F) (oIndex : Opts V) :
    IndexIs regs index oIndex (lastSome indexFor ⟨indexPat, index, oIndex⟩ regs).func (lastSome indexFor ⟨indexPat, index, oIndex⟩ regs).opts := by
  induction regs using snocInd with
  | h0 => left; simp [lastSome]
  | h1 regs r ih =>
    rw [lastSome_snoc]
    cases hi : indexFor r with
    | none =>
      have hnr : ¬ RegFor [] r := by rw [regFor_nil_iff, hi]; simp
      simp only [Option.getD]
      rcases ih with ⟨h1, h2⟩ | ⟨pre, path, post, h1, h2, h3⟩
      · left
        refine ⟨?_, h2⟩
        intro x hx
        rcases List.mem_append.1 hx with hx | hx
        · exact h1 x hx
        · simp at hx; subst hx; exact hnr
      · right
        refine ⟨pre, path, post ++ [r], ?_, h2, ?_⟩
        · exact (congrArg (· ++ [r]) h1).trans (by simp only [List.append_assoc, List.cons_append])
        · intro x hx
          rcases List.mem_append.1 hx with hx | hx
          · exact h3 x hx
          · simp at hx; subst hx; exact hnr
    | some e =>
      have hr : RegFor [] r := (regFor_nil_iff r).2 ⟨e, hi⟩
      obtain ⟨path, f, o, rfl, h1, h2⟩ := hr
      have he : e = ⟨indexPat, f, o⟩ := by
        simp only [indexFor] at hi
        rw [if_neg (by rw [isRegex_iff]; exact h1), if_pos (routePath_of_stripped h2)] at hi
        cases hi; rfl
      subst he
      right
      exact ⟨regs, path, [], rfl, ⟨path, f, o, rfl, h1, h2⟩, by simp⟩

end Proofs.App

/-- **C39 (index).** Slashes alone, with an optional query string, are dispatched to the last route registered for `/`. -/
theorem C39_index (rx : Bytes → Bytes → Bool) (e400 e404 e500 index : F) (o404 oIndex : Opts V)
    (regs : List (Reg F V)) (evs : List Ev) (url : Bytes) (hs : Spelling [] url) (hlf : (10 : UInt8) ∉ url) :
    ∃ e, choose rx (evs.foldl (step rx) (regs.foldl register (initTable e400 e404 e500 index o404 oIndex))) true url = .keyed e ∧
      IndexIs regs index oIndex e.func e.opts := by
  obtain ⟨-, hk, hpat, -⟩ := built_spec (fresh_init e400 e404 e500 index o404 oIndex) regs
  have hk3 := steps_keyed rx evs (built (initTable e400 e404 e500 index o404 oIndex) regs) .index
  rw [hk] at hk3
  refine ⟨lastSome indexFor ⟨indexPat, index, oIndex⟩ regs, ?_, indexIs_lastSome regs index oIndex⟩
  unfold choose
  have hkey : urlKey url = .index := by rw [urlKey_spelling hs (by simp) (by simp) (by simp)]; rfl
  rcases hk3 with h | ⟨h, -⟩
  · have h : Dict.get (evs.foldl (step rx) (regs.foldl register (initTable e400 e404 e500 index o404 oIndex))).keyed .index = _ := h
    have hm : matchPat rx (lastSome indexFor ⟨indexPat, index, oIndex⟩ regs).pat url = true := by
      rw [hpat]; exact (matchPat_index hlf).2 hs
    rw [hkey, h]
    simp [hm]
  · cases h

/-- **C39 (only spellings).** Whatever was registered (literal paths and regular expressions) and requested before: if a request
is dispatched to a plain route, the URL is a spelling of that route's path. -/
theorem C39_only (rx : Bytes → Bytes → Bool) (e400 e404 e500 index : F) (o404 oIndex : Opts V)
    (regs : List (Reg F V)) (evs : List Ev) (url : Bytes) (hlit : AllLiteral regs) (hlf : (10 : UInt8) ∉ url) (e : Entry F V)
    (hc : choose rx (evs.foldl (step rx) (regs.foldl register (initTable e400 e404 e500 index o404 oIndex))) true url = .keyed e) :
    (∃ path, Reg.route path e.func e.opts ∈ regs ∧ RegexPath path ∧ matchPat rx path url = true) ∨
    (∃ p path, Reg.route path e.func e.opts ∈ regs ∧ RegFor p (.route path e.func e.opts : Reg F V) ∧ Spelling p url) ∨
    (IndexIs regs index oIndex e.func e.opts ∧ Spelling [] url) := by
  obtain ⟨hk, hki, hpat, hrx⟩ := built_spec (fresh_init e400 e404 e500 index o404 oIndex) regs
  have hk3 := steps_keyed rx evs (built (initTable e400 e404 e500 index o404 oIndex) regs) (urlKey url)
  unfold choose at hc
  simp only [Bool.not_true, Bool.false_eq_true, if_false] at hc
  have h : ∀ x, Dict.get (evs.foldl (step rx) (regs.foldl register (initTable e400 e404 e500 index o404 oIndex))).keyed (urlKey url) = x →
    Dict.get (evs.foldl (step rx) (built (initTable e400 e404 e500 index o404 oIndex) regs)).keyed (urlKey url) = x := fun x hx => hx
  split at hc
  · next l hl =>
    have hl := h _ hl
    split at hc
    · next e' hf =>
      cases hc
      have hm : matchPat rx e.pat url = true := by simpa using List.find?_some hf
      have hmem := List.mem_of_find?_eq_some hf
      rcases hk3 with h3 | ⟨-, e1, he1, h3⟩
      · rw [hl] at h3
        cases hkey : urlKey url with
        | index =>
          rw [hkey, hki] at h3
          simp at h3
          subst h3
          simp at hmem
          subst hmem
          right; right
          refine ⟨indexIs_lastSome _ _ _, ?_⟩
          rw [hpat] at hm
          exact (matchPat_index hlf).1 hm
        | path b =>
          rw [hkey, hk b] at h3
          have h4 : l = regs.filterMap (entryFor b) := by
            revert h3
            cases regs.filterMap (entryFor b) <;> simp [orNone]
          subst h4
          obtain ⟨r, hr, he⟩ := List.mem_filterMap.1 hmem
          cases r with
          | error c f o => simp [entryFor] at he
          | route path f o =>
            simp only [entryFor] at he
            split at he
            · cases he
            · next hnr =>
              rw [isRegex_iff] at hnr
              split at he
              · next hcond =>
                cases he
                right; left
                refine ⟨routePath path, path, hr, ⟨path, f, o, rfl, hnr, stripped_routePath path⟩, ?_⟩
                exact (matchPat_lit (hlit path f o hr hnr _ (stripped_routePath path)) hcond.1 hlf).1 hm
              · cases he
      · rw [hl] at h3
        cases h3
        simp at hmem
        subst hmem
        rw [hrx] at he1
        obtain ⟨r, hr, he⟩ := List.mem_filterMap.1 he1
        cases r with
        | error c f o => simp [rxFor] at he
        | route path f o =>
          simp only [rxFor] at he
          split at he
          · next hreg =>
            cases he
            exact Or.inl ⟨path, hr, (isRegex_iff path).1 hreg, hm⟩
          · cases he
    · cases hc
  · split at hc <;> cases hc

example : (match choose (fun _ _ => false) (register (V := Nat) (initTable 400 404 500 (0 : Nat) [] []) (.route b!"/blog/post" 7 [])) true
    b!"//blog/post///?a=1/2" with | .keyed e => e.func == 7 | _ => false) = true := by decide +kernel
example : Stripped b!"/blog/post/?x" b!"blog/post" ∧ Literal b!"blog/post" :=
  ⟨⟨1, 1, b!"?x", by decide, Or.inr ⟨_, rfl⟩, by decide, by decide, by decide⟩, by unfold Literal; decide⟩
example : Spelling b!"blog/post" b!"//blog/post///?a=1/2" := ⟨1, 3, b!"?a=1/2", by decide, Or.inr ⟨_, rfl⟩⟩
example : (match choose (fun _ _ => false) (register (V := Nat) (initTable 400 404 500 (0 : Nat) [] []) (.route b!"/blog/post" 7 [])) true
    b!"/blog/posts" with | .notFound => true | _ => false) = true := by decide +kernel

/-- the function of the chosen route -/
def routeFunc : Choice F V → Option F
  | .keyed e => some e.func
  | .regex _ e => some e.func
  | _ => none

/-- **C39 (limit).** A path with a regex metacharacter is not taken literally: a route for `/x/a.b` also answers `/x/axb`, and a
route for `/a+b` does not answer `/a+b`. -/
theorem C39_refuted_metachar :
    routeFunc (choose (fun _ _ => false) (register (initTable 400 404 500 (0 : Nat) ([] : Opts Nat) []) (.route b!"/x/a.b" 7 [])) true b!"/x/axb") = some 7 ∧
    routeFunc (choose (fun _ _ => false) (register (initTable 400 404 500 (0 : Nat) ([] : Opts Nat) []) (.route b!"/a+b" 7 [])) true b!"/a+b") = none := by
  decide +kernel

/-! ## C40 -/

/-- What dispatch should do, as a relation: the rules of http_server.py's comments on the request's validity, its key and the
two kinds of routes. -/
inductive Dispatch (rx : Bytes → Bytes → Bool) (t : Table F V) (url : Bytes) : Bool → Choice F V → Prop
  | bad : Dispatch rx t url false .bad
  | keyed {pre e post} : Dict.get t.keyed (urlKey url) = some (pre ++ e :: post) → matchPat rx e.pat url = true →
      (∀ x ∈ pre, matchPat rx x.pat url = false) → Dispatch rx t url true (.keyed e)
  | keyedNone {l} : Dict.get t.keyed (urlKey url) = some l → (∀ x ∈ l, matchPat rx x.pat url = false) → Dispatch rx t url true .notFound
  | regex {pre e post} : Dict.get t.keyed (urlKey url) = none → t.rx = pre ++ e :: post → matchPat rx e.pat url = true →
      (∀ x ∈ post, matchPat rx x.pat url = false) → Dispatch rx t url true (.regex pre.length e)
  | regexNone : Dict.get t.keyed (urlKey url) = none → (∀ x ∈ t.rx, matchPat rx x.pat url = false) → Dispatch rx t url true .notFound

namespace Proofs.App

theorem first_unique {α : Type} {m : α → Bool} {pre pre' post post' : List α} {e e' : α} (h : pre ++ e :: post = pre' ++ e' :: post')
    (he : m e = true) (he' : m e' = true) (hp : ∀ x ∈ pre, m x = false) (hp' : ∀ x ∈ pre', m x = false) :
    pre = pre' ∧ e = e' ∧ post = post' := by
  rcases List.append_eq_append_iff.1 h with ⟨a, rfl, ha⟩ | ⟨c, rfl, hc⟩
  · cases a with
    | nil => simp at ha ⊢; exact ⟨ha.1, ha.2⟩
    | cons x a =>
      simp at ha
      obtain ⟨rfl, -⟩ := ha
      rw [hp' _ (by simp)] at he; cases he
  · cases c with
    | nil => simp at hc ⊢; exact ⟨hc.1.symm, hc.2.symm⟩
    | cons x c =>
      simp at hc
      obtain ⟨rfl, -⟩ := hc
      rw [hp _ (by simp)] at he'; cases he'

theorem last_unique {α : Type} {m : α → Bool} {pre pre' post post' : List α} {e e' : α} (h : pre ++ e :: post = pre' ++ e' :: post')
    (he : m e = true) (he' : m e' = true) (hp : ∀ x ∈ post, m x = false) (hp' : ∀ x ∈ post', m x = false) :
    pre = pre' ∧ e = e' ∧ post = post' := by
  have h2 : post.reverse ++ e :: pre.reverse = post'.reverse ++ e' :: pre'.reverse := by
    have := congrArg List.reverse h
    simpa using this
  obtain ⟨h3, h4, h5⟩ := first_unique h2 he he' (by simpa using hp) (by simpa using hp')
  exact ⟨List.reverse_inj.1 h5, h4, List.reverse_inj.1 h3⟩

theorem find_split_entry {l : List (Entry F V)} {m : Entry F V → Bool} {e : Entry F V} (h : l.find? m = some e) :
    m e = true ∧ ∃ pre post, l = pre ++ e :: post ∧ ∀ x ∈ pre, m x = false := by
  induction l with
  | nil => simp at h
  | cons a l ih =>
    by_cases hm : m a = true
    · rw [List.find?_cons_of_pos hm] at h; cases h; exact ⟨hm, [], l, rfl, by simp⟩
    · rw [List.find?_cons_of_neg hm] at h
      obtain ⟨h1, pre, post, rfl, h2⟩ := ih h
      exact ⟨h1, a :: pre, post, rfl, by simpa [hm] using h2⟩

end Proofs.App

/-- **C40.** For every table, request and regex engine exactly one choice satisfies the dispatch rules, and it is the one the
server makes. -/
theorem C40_dispatch (rx : Bytes → Bytes → Bool) (t : Table F V) (valid : Bool) (url : Bytes) (c : Choice F V) :
    Dispatch rx t url valid c ↔ choose rx t valid url = c := by
  have hex : Dispatch rx t url valid (choose rx t valid url) := by
    unfold choose
    cases valid with
    | false => exact .bad
    | true =>
      simp only [Bool.not_true, Bool.false_eq_true, if_false]
      split
      · next l hl =>
        split
        · next e he =>
          obtain ⟨h1, pre, post, rfl, h2⟩ := find_split_entry he
          exact .keyed hl h1 h2
        · next he => exact .keyedNone hl (by simpa using he)
      · next hl =>
        split
        · next i e he =>
          obtain ⟨h1, h2, h3, h4⟩ := lastMatch_some he
          have hlen : (t.rx.take i).length = i := by simp; omega
          have := Dispatch.regex (pre := t.rx.take i) (e := e) (post := t.rx.drop (i + 1)) hl (by
            obtain ⟨hi, rfl⟩ := List.getElem?_eq_some_iff.1 h2
            rw [← List.drop_eq_getElem_cons, List.take_append_drop]) h3 (by
            intro x hx
            obtain ⟨j, hj⟩ := List.getElem?_of_mem hx
            rw [List.getElem?_drop] at hj
            obtain ⟨hj1, -⟩ := List.getElem?_eq_some_iff.1 hj
            exact h4 (i + 1 + j) x (by omega) hj1 hj)
          rw [hlen] at this
          exact this
        · next he =>
          refine .regexNone hl ?_
          intro x hx
          obtain ⟨j, hj⟩ := List.getElem?_of_mem hx
          obtain ⟨hj1, -⟩ := List.getElem?_eq_some_iff.1 hj
          exact lastMatch_none (Nat.le_refl _) he j x hj1 hj
  constructor
  · intro h
    generalize choose rx t valid url = c' at hex
    cases h with
    | bad => cases hex; rfl
    | keyed h1 h2 h3 =>
      cases hex with
      | keyed h1' h2' h3' =>
        rw [h1] at h1'
        obtain ⟨-, rfl, -⟩ := first_unique (m := fun x => matchPat rx x.pat url) (Option.some.inj h1') h2 h2' h3 h3'
        rfl
      | keyedNone h1' h2' => rw [h1] at h1'; cases h1'; rw [h2' _ (by simp)] at h2; cases h2
      | regex h1' => rw [h1] at h1'; cases h1'
      | regexNone h1' => rw [h1] at h1'; cases h1'
    | keyedNone h1 h2 =>
      cases hex with
      | keyed h1' h2' h3' => rw [h1] at h1'; cases h1'; rw [h2 _ (by simp)] at h2'; cases h2'
      | keyedNone => rfl
      | regex h1' => rw [h1] at h1'; cases h1'
      | regexNone => rfl
    | regex h1 h2 h3 h4 =>
      cases hex with
      | keyed h1' => rw [h1] at h1'; cases h1'
      | keyedNone h1' => rw [h1] at h1'; cases h1'
      | regex h1' h2' h3' h4' =>
        rw [h2] at h2'
        obtain ⟨rfl, rfl, -⟩ := last_unique (m := fun x => matchPat rx x.pat url) h2' h3 h3' h4 h4'
        rfl
      | regexNone h1' h2' => rw [h2] at h2'; rw [h2' _ (by simp)] at h3; cases h3
    | regexNone h1 h2 =>
      cases hex with
      | keyed h1' => rw [h1] at h1'; cases h1'
      | keyedNone => rfl
      | regex h1' h2' h3' h4' => rw [h2'] at h2; rw [h2 _ (by simp)] at h3'; cases h3'
      | regexNone => rfl
  · rintro rfl; exact hex

/-- the function that should run for a choice -/
def expected (e400 e404 : F) : Choice F V → F
  | .bad => e400
  | .keyed e => e.func
  | .regex _ e => e.func
  | .notFound => e404

/-- **C40 (one handler).** When the request middlewares let a request through, the calls made for it are theirs, then exactly one
handler: the one for the dispatch choice. -/
theorem C40_one_handler (rx : Bytes → Bytes → Bool) (t : Table F V) (rate buf : V) (qms rms : List ((F × Opts V) × Ret))
    (valid : Bool) (url : Bytes) (hret : Ret) (c : Choice F V) (hc : Dispatch rx t url valid c)
    (hq : ∀ m ∈ qms, m.2 = .none) (e400 e404 : Nat × F × Opts V) (rest : List (Nat × F × Opts V)) (he : t.errs = e400 :: e404 :: rest) :
    ∃ f o pre post, (headersReceived rx t rate buf qms rms valid url hret).1 = pre ++ .handler f o :: post ∧
      (∀ x ∈ pre ++ post, ∀ f' o', x ≠ .handler f' o') ∧
      f = expected e400.2.1 e404.2.1 c := by
  have hreq : ∀ (qms : List ((F × Opts V) × Ret)) o, (∀ m ∈ qms, m.2 = .none) → ∃ o', (requestLoop qms o).2 = .next o' := by
    intro qms
    induction qms with
    | nil => intro o _; exact ⟨o, rfl⟩
    | cons m ms ih =>
      intro o h
      obtain ⟨m, r⟩ := m
      have hr : r = .none := h (m, r) (by simp)
      subst hr
      simp only [requestLoop, handleMiddleware]
      exact ih _ (fun x hx => h x (by simp [hx]))
  have hnoh : ∀ (qms : List ((F × Opts V) × Ret)) o, ∀ x ∈ (requestLoop qms o).1, ∀ f' o', x ≠ .handler f' o' := by
    intro qms
    induction qms with
    | nil => intro o x hx; simp [requestLoop] at hx
    | cons m ms ih =>
      intro o x hx f' o'
      obtain ⟨m, r⟩ := m
      cases r with
      | none =>
        simp only [requestLoop, handleMiddleware, List.cons_append, List.nil_append, List.mem_cons] at hx
        rcases hx with rfl | hx
        · simp
        · exact ih _ x hx f' o'
      | body => simp [requestLoop, handleMiddleware] at hx; rcases hx with rfl | rfl <;> simp
      | other => simp [requestLoop, handleMiddleware] at hx; subst hx; simp
      | raises => simp [requestLoop, handleMiddleware] at hx; subst hx; simp
  have hnor : ∀ (rms : List ((F × Opts V) × Ret)) n o, ∀ x ∈ (responseLoop rms n o).1, ∀ f' o', x ≠ .handler f' o' := by
    intro rms n
    induction n with
    | zero => intro o x hx; simp [responseLoop] at hx
    | succ n ih =>
      intro o x hx f' o'
      unfold responseLoop at hx
      split at hx
      · simp at hx
      · next m r _ =>
        cases r with
        | none =>
          simp only [handleMiddleware, List.cons_append, List.nil_append, List.mem_cons] at hx
          rcases hx with rfl | hx
          · simp
          · exact ih _ x hx f' o'
        | body => simp [handleMiddleware] at hx; rcases hx with rfl | rfl <;> simp
        | other => simp [handleMiddleware] at hx; subst hx; simp
        | raises => simp [handleMiddleware] at hx; subst hx; simp
  have hresp : ∀ f (o : Opts V), ∃ o' post, (handleResponse rate buf rms f o hret).1 = .handler f o' :: post ∧ ∀ x ∈ post, ∀ f' o'', x ≠ .handler f' o'' := by
    intro f o
    unfold handleResponse
    cases hret with
    | none => exact ⟨_, _, rfl, by simp⟩
    | other => exact ⟨_, _, rfl, by simp⟩
    | raises => exact ⟨_, _, rfl, by simp⟩
    | body =>
      simp only
      have hn := hnor rms rms.length (withDefaults rate buf o)
      split
      · next tr o' heq =>
        rw [heq] at hn
        refine ⟨_, _, rfl, ?_⟩
        intro x hx f' o''
        rcases List.mem_append.1 hx with hx | hx
        · exact hn x hx f' o''
        · simp at hx; subst hx; simp
      · next tr fl _ heq =>
        rw [heq] at hn
        exact ⟨_, _, rfl, hn⟩
  have hc' := (C40_dispatch rx t valid url c).1 hc
  clear hc
  obtain ⟨o1, ho1⟩ := hreq qms [] hq
  have hn := hnoh qms []
  unfold headersReceived
  rw [hc']
  clear hc'
  cases hrl : requestLoop qms [] with
  | mk tr fl =>
    rw [hrl] at ho1 hn
    simp only at ho1 hn
    subst ho1
    simp only
    have ht : ∃ f ko, target t c = some (f, ko) ∧
        f = expected e400.2.1 e404.2.1 c := by
      cases c with
      | bad => exact ⟨e400.2.1, e400.2.2, by simp [target, errEntry, he], rfl⟩
      | keyed e => exact ⟨_, _, rfl, rfl⟩
      | regex i e => exact ⟨_, _, rfl, rfl⟩
      | notFound => exact ⟨e404.2.1, e404.2.2, by simp [target, errEntry, he], rfl⟩
    obtain ⟨f, ko, ht, hf⟩ := ht
    obtain ⟨o', post, h1, h2⟩ := hresp f (Dict.merge ko o1)
    rw [ht]
    refine ⟨f, o', tr, post, by simp only []; rw [h1], ?_, hf⟩
    intro x hx
    rcases List.mem_append.1 hx with hx | hx
    · exact hn x hx
    · exact h2 x hx

example : (match headersReceived (fun _ _ => false) (initTable 400 404 500 (0 : Nat) ([] : Opts Nat) []) 1 2 [((10, []), .none)] [((20, []), .none)]
    true b!"/nowhere" .body with
    | ([.middleware 10 _, .handler 404 _, .middleware 20 _, .respond], _) => true | _ => false) = true := by decide +kernel

/-! ## C41 -/

/-- The regex `^/+[xy]` stands for a route that matches both `/x` and `/y` (the engine decides, our fragment has no sets). -/
def rxXY : Bytes → Bytes → Bool := fun _ url => url.take 2 == b!"/x" || url.take 2 == b!"/y"

/-- **C41 refuted (history).** One regex route answers `/y` in a fresh worker, but not after it has answered `/x`: the route was
moved to the key of `/x`. -/
theorem C41_refuted_history : ∃ (t : Table Nat Nat) (url url' : Bytes),
    (∃ e, choose rxXY t true url = .regex 0 e ∧ e.func = 7) ∧
    choose rxXY (serve rxXY t true url').2 true url = .notFound := by
  refine ⟨register (initTable 400 404 500 0 [] []) (.route b!"^/+[xy]" 7 []), b!"/y", b!"/x", ⟨⟨b!"^/+[xy]", 7, []⟩, ?_, rfl⟩, ?_⟩ <;> rfl

/-- **C41 refuted (concurrency).** Two overlapping requests that both match the same regex route delete two routes: an
unrelated route is lost. -/
theorem C41_refuted_concurrent : ∃ (t : Table Nat Nat) (evs : List Ev) (url : Bytes),
    (∃ e, choose rxXY t true url = .regex 1 e ∧ e.func = 8) ∧
    (∃ e, choose rxXY t true b!"/x" = .regex 0 e) ∧ (∃ e, choose rxXY t true b!"/y" = .regex 0 e) ∧
    evs = [.start true b!"/x", .start true b!"/y", .finish 0, .finish 0] ∧
    choose rxXY (evs.foldl (step rxXY) t) true url = .notFound := by
  refine ⟨register (register (initTable 400 404 500 0 [] []) (.route b!"^/+[xy]" 7 [])) (.route b!"^/other" 8 []), _, b!"/other",
    ⟨⟨b!"^/other", 8, []⟩, ?_, rfl⟩, ⟨⟨b!"^/+[xy]", 7, []⟩, ?_⟩, ⟨⟨b!"^/+[xy]", 7, []⟩, ?_⟩, rfl, ?_⟩ <;> rfl

/-- **C41 (partial).** For every history of overlapping requests: a URL whose key has routes in the initial table, and any URL when
there are no regex routes, is dispatched as in the initial table. Missing: URLs served by regex routes (see the refutations). -/
theorem C41_partial (rx : Bytes → Bytes → Bool) (t : Table F V) (evs : List Ev) (valid : Bool) (url : Bytes)
    (h : t.rx = [] ∨ Dict.get t.keyed (urlKey url) ≠ none) :
    choose rx (evs.foldl (step rx) t) valid url = choose rx t valid url := by
  have hk : Dict.get (evs.foldl (step rx) t).keyed (urlKey url) = Dict.get t.keyed (urlKey url) := by
    rcases steps_keyed rx evs t (urlKey url) with h1 | ⟨h1, e, he, h2⟩
    · exact h1
    · rcases h with h | h
      · rw [h] at he; simp at he
      · exact absurd h1 h
  unfold choose
  rw [hk]
  rcases h with h | h
  · have hr : (evs.foldl (step rx) t).rx = [] := by
      have := steps_rx rx evs t
      rw [h] at this
      exact List.sublist_nil.1 this
    rw [hr, h]
  · split
    · rfl
    · split
      · rfl
      · next hn => exact absurd hn h

/-- **C41 (partial, sticky).** Once a regex route has been chosen for a URL, the same URL goes to that route forever, whatever
else is requested meanwhile. -/
theorem C41_sticky_partial (rx : Bytes → Bytes → Bool) (t : Table F V) (evs : List Ev) (url : Bytes) (i : Nat) (e : Entry F V)
    (h : choose rx t true url = .regex i e) :
    choose rx (evs.foldl (step rx) (step rx t (.start true url))) true url = .keyed e := by
  have h0 := (C40_dispatch rx t true url _).2 h
  cases h0 with
  | regex h1 h2 h3 h4 =>
    have hk : Dict.get (step rx t (.start true url)).keyed (urlKey url) = some [e] := by
      simp only [step, h, promote, h1, Dict.get_set, if_true]
    rw [C41_partial rx _ evs true url (Or.inr (by rw [hk]; simp))]
    rw [← C40_dispatch]
    exact .keyed (pre := []) (post := []) hk h3 (by simp)

/-! ## C42 -/

/-- The functions called as middlewares. -/
def mwCalls (tr : List (Call F V)) : List F := tr.filterMap (fun | .middleware f _ => some f | _ => none)
/-- No handler was called and no handler data written. -/
def noHandler (tr : List (Call F V)) : Prop := ∀ x ∈ tr, (∀ f o, x ≠ .handler f o) ∧ x ≠ .respond

namespace Proofs.App

theorem requestLoop_all (qms : List ((F × Opts V) × Ret)) : (∀ m ∈ qms, m.2 = .none) → ∀ o,
    mwCalls (requestLoop qms o).1 = qms.map (·.1.1) ∧ noHandler (requestLoop qms o).1 ∧
    (∃ o', (requestLoop qms o).2 = .next o' ∧ ∀ k, Dict.get o' k = (Dict.get o k).or (resolve (qms.map (·.1.2)) k)) := by
  induction qms with
  | nil => intro _ o; exact ⟨rfl, by simp [noHandler, requestLoop], o, rfl, by simp [resolve]⟩
  | cons m ms ih =>
    intro h o
    obtain ⟨m, r⟩ := m
    have hr : r = .none := h (m, r) (by simp)
    subst hr
    obtain ⟨h1, h2, o', h3, h4⟩ := ih (fun x hx => h x (by simp [hx])) (Dict.merge m.2 o)
    simp only [requestLoop, handleMiddleware]
    refine ⟨?_, ?_, o', h3, ?_⟩
    · simp only [mwCalls, List.cons_append, List.nil_append, List.filterMap_cons, List.map_cons] at h1 ⊢
      rw [h1]
    · intro x hx
      simp only [List.cons_append, List.nil_append, List.mem_cons] at hx
      rcases hx with rfl | hx
      · simp
      · exact h2 x hx
    · intro k
      rw [h4, Dict.get_merge]
      simp only [resolve, List.map_cons, List.findSome?_cons]
      cases Dict.get o k <;> cases Dict.get m.2 k <;> simp

theorem requestLoop_stop (pre : List ((F × Opts V) × Ret)) (m : F × Opts V) (r : Ret) (post : List ((F × Opts V) × Ret)) (hr : r ≠ .none) :
    (∀ m ∈ pre, m.2 = .none) → ∀ o,
    mwCalls (requestLoop (pre ++ (m, r) :: post) o).1 = pre.map (·.1.1) ++ [m.1] ∧
    noHandler (requestLoop (pre ++ (m, r) :: post) o).1 ∧
    (requestLoop (pre ++ (m, r) :: post) o).2 = (if r = .raises then .error else .stop) ∧
    ((requestLoop (pre ++ (m, r) :: post) o).1.countP (fun | .reply => true | _ => false) = if r = .body then 1 else 0) := by
  induction pre with
  | nil =>
    intro _ o
    cases r with
    | none => exact absurd rfl hr
    | body => simp [requestLoop, handleMiddleware, mwCalls, noHandler]
    | other => simp [requestLoop, handleMiddleware, mwCalls, noHandler]
    | raises => simp [requestLoop, handleMiddleware, mwCalls, noHandler]
  | cons a pre ih =>
    intro h o
    obtain ⟨a, ra⟩ := a
    have hra : ra = .none := h (a, ra) (by simp)
    subst hra
    obtain ⟨h1, h2, h3, h4⟩ := ih (fun x hx => h x (by simp [hx])) (Dict.merge a.2 o)
    simp only [List.cons_append, requestLoop, handleMiddleware]
    refine ⟨?_, ?_, h3, ?_⟩
    · simp only [mwCalls, List.nil_append, List.filterMap_cons, List.map_cons, List.cons_append] at h1 ⊢
      rw [h1]
    · intro x hx
      simp only [List.nil_append, List.mem_cons] at hx
      rcases hx with rfl | hx
      · simp
      · exact h2 x hx
    · simp only [List.nil_append, List.countP_cons]
      rw [h4]; simp

/-- The countdown loop over a list is the forward loop over its reverse. -/
theorem responseLoop_eq (ms : List ((F × Opts V) × Ret)) (o : Opts V) : responseLoop ms ms.length o = requestLoop ms.reverse o := by
  suffices h : ∀ n, n ≤ ms.length → ∀ o, responseLoop ms n o = requestLoop (ms.take n).reverse o by
    have := h ms.length (Nat.le_refl _) o
    rwa [List.take_length] at this
  intro n
  induction n with
  | zero => intro _ o; simp [responseLoop, requestLoop]
  | succ n ih =>
    intro hn o
    have hlt : n < ms.length := by omega
    rw [List.take_succ_eq_append_getElem hlt, List.reverse_append]
    unfold responseLoop
    rw [List.getElem?_eq_getElem hlt]
    cases hm : ms[n] with
    | mk m r =>
      simp only [List.reverse_cons, List.reverse_nil, List.nil_append, List.cons_append, requestLoop]
      cases r <;> simp only [handleMiddleware]
      rw [ih (by omega)]

end Proofs.App

/-- **C42 (request, all pass).** When every request middleware returns None they all run, in registration order, before the handler. -/
theorem C42_request_pass (rx : Bytes → Bytes → Bool) (t : Table F V) (rate buf : V) (qms rms : List ((F × Opts V) × Ret))
    (valid : Bool) (url : Bytes) (hret : Ret) (hq : ∀ m ∈ qms, m.2 = .none) :
    ∃ tr tr', (headersReceived rx t rate buf qms rms valid url hret).1 = tr ++ tr' ∧ mwCalls tr = qms.map (·.1.1) ∧ noHandler tr ∧
      (∀ x y, tr' = x :: y → ∃ f o, x = .handler f o) := by
  obtain ⟨h1, h2, o', h3, -⟩ := requestLoop_all qms hq []
  unfold headersReceived
  cases hrl : requestLoop qms [] with
  | mk tr fl =>
    rw [hrl] at h1 h2 h3
    simp only at h1 h2 h3
    subst h3
    simp only
    cases target t (choose rx t valid url) with
    | none => exact ⟨tr, [], by simp, h1, h2, by simp⟩
    | some fk =>
      refine ⟨tr, _, rfl, h1, h2, ?_⟩
      intro x y hxy
      unfold handleResponse at hxy
      split at hxy <;> simp only at hxy
      · cases hxy; exact ⟨_, _, rfl⟩
      · cases hxy; exact ⟨_, _, rfl⟩
      · cases hxy; exact ⟨_, _, rfl⟩
      · split at hxy <;> (cases hxy; exact ⟨_, _, rfl⟩)

/-- **C42 (request, stop).** The first request middleware that does not return None ends the processing: the middlewares called are
those up to it, in order, no handler runs, and its body (if it returned one) is sent once. -/
theorem C42_request_stop (rx : Bytes → Bytes → Bool) (t : Table F V) (rate buf : V) (pre post rms : List ((F × Opts V) × Ret))
    (m : F × Opts V) (r : Ret) (valid : Bool) (url : Bytes) (hret : Ret) (hpre : ∀ m ∈ pre, m.2 = .none) (hr : r ≠ .none) :
    let tr := (headersReceived rx t rate buf (pre ++ (m, r) :: post) rms valid url hret).1
    mwCalls tr = pre.map (·.1.1) ++ [m.1] ∧ noHandler tr ∧ tr.countP (fun | .reply => true | _ => false) = (if r = .body then 1 else 0) := by
  obtain ⟨h1, h2, h3, h4⟩ := requestLoop_stop pre m r post hr hpre []
  have : (headersReceived rx t rate buf (pre ++ (m, r) :: post) rms valid url hret).1 = (requestLoop (pre ++ (m, r) :: post) []).1 := by
    unfold headersReceived
    cases hrl : requestLoop (pre ++ (m, r) :: post) [] with
    | mk tr fl =>
      rw [hrl] at h3
      simp only at h3
      subst h3
      split
      · next heq => simp at heq; split at heq <;> simp at heq
      · next heq => simp at heq; simp [heq.1]
  simp only [this]
  exact ⟨h1, h2, h4⟩

/-- **C42 (response, all pass).** Response middlewares run after the handler, in reverse registration order; when all return None the
handler's data is written. -/
theorem C42_response_pass (rate buf : V) (rms : List ((F × Opts V) × Ret)) (f : F) (o : Opts V) (hr : ∀ m ∈ rms, m.2 = .none) :
    ∃ o' tr, (handleResponse rate buf rms f o .body).1 = .handler f o' :: tr ++ [.respond] ∧ mwCalls tr = (rms.map (·.1.1)).reverse ∧ noHandler tr := by
  obtain ⟨h1, h2, o', h3, -⟩ := requestLoop_all rms.reverse (by simpa using hr) (withDefaults rate buf o)
  unfold handleResponse
  simp only [responseLoop_eq]
  cases hrl : requestLoop rms.reverse (withDefaults rate buf o) with
  | mk tr fl =>
    rw [hrl] at h1 h2 h3
    simp only at h1 h2 h3
    subst h3
    exact ⟨_, tr, rfl, by rw [h1, List.map_reverse], h2⟩

/-- **C42 (response, stop).** The last registered response middleware that does not return None ends the processing: those registered
before it do not run and the handler's data is not written. -/
theorem C42_response_stop (rate buf : V) (pre post : List ((F × Opts V) × Ret)) (m : F × Opts V) (r : Ret) (f : F) (o : Opts V)
    (hpost : ∀ m ∈ post, m.2 = .none) (hr : r ≠ .none) :
    ∃ o' tr, (handleResponse rate buf (pre ++ (m, r) :: post) f o .body).1 = .handler f o' :: tr ∧
      mwCalls tr = (post.map (·.1.1)).reverse ++ [m.1] ∧ noHandler tr ∧ tr.countP (fun | .reply => true | _ => false) = (if r = .body then 1 else 0) := by
  obtain ⟨h1, h2, h3, h4⟩ := requestLoop_stop post.reverse m r pre.reverse hr (by simpa using hpost) (withDefaults rate buf o)
  unfold handleResponse
  simp only [responseLoop_eq]
  have he : (pre ++ (m, r) :: post).reverse = post.reverse ++ (m, r) :: pre.reverse := by simp
  rw [he]
  cases hrl : requestLoop (post.reverse ++ (m, r) :: pre.reverse) (withDefaults rate buf o) with
  | mk tr fl =>
    rw [hrl] at h1 h2 h3 h4
    simp only at h1 h2 h3 h4
    rw [List.map_reverse] at h1
    cases fl with
    | next o' => split at h3 <;> cases h3
    | stop => exact ⟨_, tr, rfl, h1, h2, h4⟩
    | error => exact ⟨_, tr, rfl, h1, h2, h4⟩

/-- **C42 (connect).** Connect middlewares (and worker-start hooks) run in order up to and including the first that returns a true
value or raises. -/
theorem C42_connect (pre post : List (F × HookRet)) (hpre : ∀ h ∈ pre, h.2 = .falsy) :
    runForward pre = pre.map (·.1) ∧ ∀ f r, r ≠ .falsy → runForward (pre ++ (f, r) :: post) = pre.map (·.1) ++ [f] := by
  induction pre with
  | nil =>
    refine ⟨rfl, ?_⟩
    intro f r hr
    cases r with
    | falsy => exact absurd rfl hr
    | truthy => rfl
    | raises => rfl
  | cons a pre ih =>
    obtain ⟨a, ra⟩ := a
    have : ra = .falsy := hpre (a, ra) (by simp)
    subst this
    obtain ⟨h1, h2⟩ := ih (fun x hx => hpre x (by simp [hx]))
    refine ⟨by simp [runForward, h1], ?_⟩
    intro f r hr
    simp [runForward, h2 f r hr]

theorem Proofs.App.runBackward_eq (hs : List (F × HookRet)) : runBackward hs hs.length = runForward hs.reverse := by
  suffices h : ∀ n, n ≤ hs.length → runBackward hs n = runForward (hs.take n).reverse by
    have := h hs.length (Nat.le_refl _)
    rwa [List.take_length] at this
  intro n
  induction n with
  | zero => intro _; simp [runBackward, runForward]
  | succ n ih =>
    intro hn
    have hlt : n < hs.length := by omega
    rw [List.take_succ_eq_append_getElem hlt, List.reverse_append]
    unfold runBackward
    rw [List.getElem?_eq_getElem hlt]
    cases hm : hs[n] with
    | mk f r => cases r <;> simp [runForward, ih (by omega : n ≤ hs.length)]

/-- **C42 (close).** Close middlewares (and worker-stop hooks) run in reverse order up to and including the first that returns a true
value or raises. -/
theorem C42_close (pre post : List (F × HookRet)) (hpost : ∀ h ∈ post, h.2 = .falsy) :
    runBackward post post.length = (post.map (·.1)).reverse ∧
    ∀ f r, r ≠ .falsy → runBackward (pre ++ (f, r) :: post) (pre ++ (f, r) :: post).length = (post.map (·.1)).reverse ++ [f] := by
  have h := C42_connect post.reverse pre.reverse (by simpa using hpost)
  rw [List.map_reverse] at h
  refine ⟨by rw [runBackward_eq]; exact h.1, ?_⟩
  intro f r hr
  rw [runBackward_eq]
  have := h.2 f r hr
  simpa using this

/-! ## C43 -/

/-- **C43.** When the request middlewares let the request through, the handler runs with these options: for each name the value of
the first dictionary that has it among the middlewares' in registration order, the route's own, and the server defaults. -/
theorem C43_options (rx : Bytes → Bytes → Bool) (t : Table F V) (rate buf : V) (qms rms : List ((F × Opts V) × Ret))
    (valid : Bool) (url : Bytes) (hret : Ret) (hq : ∀ m ∈ qms, m.2 = .none) (f : F) (ko o : Opts V)
    (htarget : target t (choose rx t valid url) = some (f, ko))
    (f' : F) (hmem : Call.handler f' o ∈ (headersReceived rx t rate buf qms rms valid url hret).1) :
    f' = f ∧ ∀ k, Dict.get o k = resolve (qms.map (·.1.2) ++ [ko, [(b!"rate", rate), (b!"buffer_size", buf)]]) k := by
  obtain ⟨-, hno, o1, h3, h4⟩ := requestLoop_all qms hq []
  unfold headersReceived at hmem
  cases hrl : requestLoop qms [] with
  | mk tr fl =>
    rw [hrl] at hno h3 hmem
    simp only at hno h3 hmem
    subst h3
    simp only [htarget] at hmem
    rcases List.mem_append.1 hmem with hmem | hmem
    · exact absurd rfl ((hno _ hmem).1 f' o)
    · have key : f' = f ∧ o = withDefaults rate buf (Dict.merge ko o1) := by
        have hnor : ∀ (l : List ((F × Opts V) × Ret)) o2, Call.handler f' o ∉ (requestLoop l o2).1 := by
          intro l
          induction l with
          | nil => intro o2; simp [requestLoop]
          | cons a l ih =>
            intro o2
            obtain ⟨a, r⟩ := a
            cases r <;> simp [requestLoop, handleMiddleware, ih]
        unfold handleResponse at hmem
        cases hret with
        | none => simp at hmem; exact hmem
        | other => simp at hmem; exact hmem
        | raises => simp at hmem; exact hmem
        | body =>
          simp only [responseLoop_eq] at hmem
          have hn := hnor rms.reverse (withDefaults rate buf (Dict.merge ko o1))
          split at hmem
          · next heq => rw [heq] at hn; simp [hn] at hmem; exact hmem
          · next heq => rw [heq] at hn; simp [hn] at hmem; exact hmem
      refine ⟨key.1, ?_⟩
      intro k
      rw [key.2]
      simp only [withDefaults, Dict.get_set, Dict.get_merge, h4]
      simp only [resolve, List.findSome?_append, List.findSome?_cons, List.findSome?_nil, Dict.get]
      by_cases hk1 : b!"buffer_size" = k
      · subst hk1
        simp
        cases (List.findSome? (fun d => Dict.get d b!"buffer_size") (qms.map (·.1.2))) <;> cases Dict.get ko b!"buffer_size" <;> simp
      · by_cases hk2 : b!"rate" = k
        · subst hk2
          simp
          cases (List.findSome? (fun d => Dict.get d b!"rate") (qms.map (·.1.2))) <;> cases Dict.get ko b!"rate" <;> simp
        · simp only [hk1, hk2, if_false]
          simp
          cases (List.findSome? (fun d => Dict.get d k) (qms.map (·.1.2))) <;> cases Dict.get ko k <;> simp

/-! ## C55 -/

/-- **C55.** For every sequence of `listen` calls: the call returns True exactly when its address was not listened on before, every
address appears once, and its options are those of its first call. -/
theorem C55_listen {O : Type} (calls : List (PortArg × Option Bytes × O)) :
    let ports := calls.foldl (fun p c => (listen p c.1 c.2.1 c.2.2).2) ([] : Dict Addr O)
    (ports.map (·.1)).Nodup ∧
    (∀ a, Dict.get ports a = (calls.find? (fun c => addrOf c.1 c.2.1 = a)).map (·.2.2)) ∧
    (∀ c : PortArg × Option Bytes × O, (listen ports c.1 c.2.1 c.2.2).1 = !calls.any (fun c' => addrOf c'.1 c'.2.1 == addrOf c.1 c.2.1)) := by
  intro ports
  have hget : ∀ a, Dict.get ports a = (calls.find? (fun c => addrOf c.1 c.2.1 = a)).map (·.2.2) := by
    show ∀ a, Dict.get (calls.foldl (fun p c => (listen p c.1 c.2.1 c.2.2).2) ([] : Dict Addr O)) a = _
    induction calls using snocInd with
    | h0 => intro a; rfl
    | h1 calls c ih =>
      intro a
      rw [List.foldl_append, List.foldl_cons, List.foldl_nil, List.find?_append]
      generalize hp : calls.foldl (fun p c => (listen p c.1 c.2.1 c.2.2).2) ([] : Dict Addr O) = p at ih
      unfold listen
      simp only
      split
      · next hm =>
        rw [ih]
        have hm' := ih (addrOf c.1 c.2.1)
        unfold Dict.mem at hm
        rw [hm'] at hm
        cases hf : calls.find? (fun c => addrOf c.1 c.2.1 = a) with
        | some x => simp
        | none =>
          simp only [Option.none_or]
          by_cases ha : addrOf c.1 c.2.1 = a
          · subst ha; rw [hf] at hm; simp at hm
          · simp [ha]
      · next hm =>
        rw [Dict.get_set, ih]
        have hm' := ih (addrOf c.1 c.2.1)
        unfold Dict.mem at hm
        rw [hm'] at hm
        by_cases ha : addrOf c.1 c.2.1 = a
        · subst ha
          simp only [if_true]
          cases hf : calls.find? (fun c' => addrOf c'.1 c'.2.1 = addrOf c.1 c.2.1) with
          | some x => rw [hf] at hm; simp at hm
          | none => simp
        · simp only [ha, if_false]
          cases hf : calls.find? (fun c => addrOf c.1 c.2.1 = a) <;> simp [ha]
  refine ⟨?_, hget, ?_⟩
  · show ((calls.foldl (fun p c => (listen p c.1 c.2.1 c.2.2).2) ([] : Dict Addr O)).map (·.1)).Nodup
    clear hget ports
    induction calls using snocInd with
    | h0 => simp
    | h1 calls c ih =>
      rw [List.foldl_append, List.foldl_cons, List.foldl_nil]
      generalize calls.foldl (fun p c => (listen p c.1 c.2.1 c.2.2).2) ([] : Dict Addr O) = p at ih
      unfold listen
      simp only
      split
      · exact ih
      · next hm =>
        simp only [Dict.keys_set, hm, Bool.false_eq_true, if_false]
        rw [List.nodup_append]
        refine ⟨ih, by simp, ?_⟩
        intro a ha b hb heq
        simp at hb
        obtain ⟨x, hx, hxa⟩ := List.mem_map.1 ha
        exact hm ((Dict.mem_iff _ _).2 ⟨x.2, by rw [← hb, ← heq, ← hxa]; exact hx⟩)
  · intro c
    have hmem : Dict.mem ports (addrOf c.1 c.2.1) = calls.any (fun c' => addrOf c'.1 c'.2.1 == addrOf c.1 c.2.1) := by
      unfold Dict.mem
      rw [hget]
      rw [Option.isSome_map, Bool.eq_iff_iff, List.find?_isSome, List.any_eq_true]
      simp
    unfold listen
    simp only
    split
    · next hm => rw [hmem] at hm; simp [hm]
    · next hm =>
      rw [hmem] at hm
      simp only [Bool.not_eq_true] at hm
      rw [hm]
      simp [Dict.mem, Dict.get_set]

example : let c := [(PortArg.port 80, none, 1), (.path b!"/tmp/a.sock", none, 2), (.port 80, none, 3)]
    (c.foldl (fun p c => (listen p c.1 c.2.1 c.2.2).2) ([] : Dict Addr Nat)) = [((none, some 80), 1), ((some b!"/tmp/a.sock", none), 2)] := by
  decide +kernel

/-! ## C56 -/

/-- The last handler registered for an error code, or the built-in one. -/
def lastError (code : Nat) (d : F) (regs : List (Reg F V)) : F :=
  (regs.filterMap (fun | .error c f _ => if c = code then some f else none | .route _ _ _ => none)).getLastD d

/-- **C56 (shape, errors).** After every sequence of registrations and requests the error table has exactly the codes 400, 404 and 500 in
this order, each with the last handler registered for it; other codes and routes do not touch it. -/
theorem C56_shape (rx : Bytes → Bytes → Bool) (e400 e404 e500 index : F) (o404 oIndex : Opts V) (regs : List (Reg F V)) (evs : List Ev) :
    (evs.foldl (step rx) (regs.foldl register (initTable e400 e404 e500 index o404 oIndex))).errs.map (fun h => (h.1, h.2.1)) =
      [(400, lastError 400 e400 regs), (404, lastError 404 e404 regs), (500, lastError 500 e500 regs)] := by
  rw [steps_errs]
  have hsnoc : ∀ code (d : F) (regs : List (Reg F V)) r, lastError code d (regs ++ [r]) =
      (match r with | .error c f _ => if c = code then f else lastError code d regs | .route _ _ _ => lastError code d regs) := by
    intro code d regs r
    unfold lastError
    rw [filterMap_snoc]
    cases r with
    | error c f o => by_cases h : c = code <;> simp [h, List.getLastD_eq_getLast?]
    | route p f o => simp
  induction regs using snocInd with
  | h0 => rfl
  | h1 regs r ih =>
    rw [List.foldl_append, List.foldl_cons, List.foldl_nil]
    simp only [hsnoc]
    generalize regs.foldl register (initTable e400 e404 e500 index o404 oIndex) = t at ih
    cases r with
    | route p f o =>
      simp only [register, addRoute]
      split
      · exact ih
      · split
        · exact ih
        · split <;> exact ih
    | error c f o =>
      simp only [register, error]
      obtain ⟨h1, h2, h3, hl⟩ : ∃ h1 h2 h3, t.errs = [h1, h2, h3] := by
        match hh : t.errs with
        | [] => rw [hh] at ih; simp at ih
        | [_] => rw [hh] at ih; simp at ih
        | [_, _] => rw [hh] at ih; simp at ih
        | [a, b, c] => exact ⟨a, b, c, rfl⟩
        | _ :: _ :: _ :: _ :: _ => rw [hh] at ih; simp at ih
      rw [hl] at ih ⊢
      simp only [List.map_cons, List.map_nil, List.cons.injEq, Prod.mk.injEq, and_true] at ih
      obtain ⟨⟨a1, b1⟩, ⟨a2, b2⟩, a3, b3⟩ := ih
      simp only [setErr, a1, a2, a3]
      by_cases hc1 : c = 400
      · subst hc1; simp [a2, a3, b2, b3]
      · by_cases hc2 : c = 404
        · subst hc2; simp [a1, a3, b1, b3]
        · by_cases hc3 : c = 500
          · subst hc3; simp [a1, a2, b1, b2]
          · simp [hc1, hc2, hc3, a1, a2, a3, b1, b2, b3]

/-- **C56 (routes).** Registering a route never removes one: every list of routes keeps its elements in order (at most one is added at the
end), except that a route for `/` replaces the index route, and registering an error handler changes no route. -/
theorem C56_routes (t : Table F V) (r : Reg F V) :
    (∀ b l, Dict.get t.keyed (.path b) = some l → ∃ l', Dict.get (register t r).keyed (.path b) = some l' ∧ l <+: l') ∧
    t.rx <+: (register t r).rx ∧
    (¬ RegFor [] r → Dict.get (register t r).keyed .index = Dict.get t.keyed .index) ∧
    (∀ path f o, r = .route path f o → RegFor [] r → ∃ e, Dict.get (register t r).keyed .index = some [e] ∧ e.func = f ∧ e.opts = o) ∧
    (∀ path f o, r = .route path f o → RegexPath path → ∃ e, (register t r).rx = t.rx ++ [e] ∧ e.pat = path ∧ e.func = f ∧ e.opts = o) ∧
    (∀ path f o p, r = .route path f o → RegFor p r → p ≠ [] →
      ∃ e l, Dict.get (register t r).keyed (pathKey p) = some (l ++ [e]) ∧ e.pat = litPat p ∧ e.func = f ∧ e.opts = o) := by
  cases r with
  | error c f o =>
    refine ⟨fun b l h => ⟨l, h, List.prefix_rfl⟩, List.prefix_rfl, fun _ => rfl, by simp, by simp, by simp⟩
  | route path f o =>
    by_cases hr : (startsWith path b!"^" || endsWith path b!"$") = true
    · have h4 : register t (.route path f o) = { t with rx := t.rx ++ [⟨path, f, o⟩] } := by
        simp only [register, addRoute]; rw [if_pos hr]
      rw [h4]
      have hrp := (isRegex_iff path).1 hr
      refine ⟨fun b l h => ⟨l, h, List.prefix_rfl⟩, ⟨_, rfl⟩, fun _ => rfl, ?_, ?_, ?_⟩
      · rintro _ _ _ - ⟨_, _, _, h, hn, -⟩; cases h; exact absurd hrp hn
      · intro _ _ _ h _; cases h; exact ⟨_, rfl, rfl, rfl, rfl⟩
      · rintro _ _ _ _ - ⟨_, _, _, h, hn, -⟩; cases h; exact absurd hrp hn
    · have hrp : ¬ RegexPath path := fun h => hr ((isRegex_iff path).2 h)
      by_cases hp : routePath path = []
      · have h4 : ∃ pat, register t (.route path f o) = { t with keyed := Dict.set t.keyed .index [⟨pat, f, o⟩] } := by
          simp only [register, addRoute]; rw [if_neg hr, if_pos hp]; exact ⟨_, rfl⟩
        obtain ⟨pat, h4⟩ := h4
        rw [h4]
        have hreg : RegFor [] (.route path f o : Reg F V) := ⟨path, f, o, rfl, hrp, hp ▸ stripped_routePath path⟩
        refine ⟨?_, List.prefix_rfl, fun h => absurd hreg h, ?_, ?_, ?_⟩
        · intro b l h; rw [Dict.get_set]; exact ⟨l, by simpa using h, List.prefix_rfl⟩
        · intro _ _ _ h _; cases h; rw [Dict.get_set]; exact ⟨_, by simp; rfl, rfl, rfl⟩
        · intro _ _ _ h h2; cases h; exact absurd h2 hrp
        · rintro _ _ _ p - ⟨_, _, _, h, -, hs⟩ hne
          cases h
          exact absurd ((routePath_of_stripped hs).symm.trans hp) hne
      · have h4 : ∃ l, (Dict.get t.keyed (pathKey (routePath path)) = some l ∨ (Dict.get t.keyed (pathKey (routePath path)) = none ∧ l = [])) ∧
            register t (.route path f o) = { t with keyed := Dict.set t.keyed (pathKey (routePath path)) (l ++ [⟨litPat (routePath path), f, o⟩]) } := by
          simp only [register, addRoute]; rw [if_neg hr, if_neg hp]
          cases hg : Dict.get t.keyed (pathKey (routePath path)) with
          | none => exact ⟨[], Or.inr ⟨rfl, rfl⟩, rfl⟩
          | some l => exact ⟨l, Or.inl rfl, rfl⟩
        obtain ⟨l0, hl0, h4⟩ := h4
        rw [h4]
        refine ⟨?_, List.prefix_rfl, ?_, ?_, ?_, ?_⟩
        · intro b l h
          simp only [Dict.get_set]
          by_cases hb : pathKey (routePath path) = .path b
          · rw [hb] at hl0 ⊢
            rw [h] at hl0
            simp only [if_true]
            rcases hl0 with hl0 | ⟨hl0, -⟩
            · cases hl0; exact ⟨_, rfl, _, rfl⟩
            · cases hl0
          · simp only [hb, if_false]; exact ⟨l, h, List.prefix_rfl⟩
        · intro _
          simp only [Dict.get_set]
          rw [if_neg]
          obtain ⟨b, hb⟩ := pathKey_path (routePath path)
          rw [hb]; simp
        · rintro _ _ _ - ⟨_, _, _, h, -, hs⟩
          cases h
          exact absurd (routePath_of_stripped hs) hp
        · intro _ _ _ h h2; cases h; exact absurd h2 hrp
        · rintro _ _ _ p h ⟨_, _, _, h', -, hs⟩ hne
          cases h; cases h'
          rw [← routePath_of_stripped hs]
          simp only [Dict.get_set, if_true]
          exact ⟨_, l0, rfl, rfl, rfl, rfl⟩

/-! ## C57 -/

/-- **C57.** Worker-start hooks run in registration order and worker-stop hooks in reverse, each up to and including the first that
returns a true value or raises. -/
theorem C57_hooks (pre post : List (F × HookRet)) (f : F) (r : HookRet) (hr : r ≠ .falsy) :
    ((∀ h ∈ pre, h.2 = .falsy) → runForward (pre ++ (f, r) :: post) = pre.map (·.1) ++ [f] ∧ runForward pre = pre.map (·.1)) ∧
    ((∀ h ∈ post, h.2 = .falsy) → runBackward (pre ++ (f, r) :: post) (pre ++ (f, r) :: post).length = (post.map (·.1)).reverse ++ [f] ∧
      runBackward post post.length = (post.map (·.1)).reverse) :=
  ⟨fun h => ⟨(C42_connect pre post h).2 f r hr, (C42_connect pre post h).1⟩,
   fun h => ⟨(C42_close pre post h).2 f r hr, (C42_close pre post h).1⟩⟩

example : runForward [(1, .falsy), (2, .truthy), (3, .falsy)] = [1, 2] ∧
    runBackward [(1, HookRet.falsy), (2, .truthy), (3, .falsy)] 3 = [3, 2] := by decide

end Verif
