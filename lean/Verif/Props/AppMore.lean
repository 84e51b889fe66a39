import Verif.Props.App
/-!
# C42, C43, C55, C56: what the first theorems left open

Each theorem here was added because an edited model still satisfied those of `Props/App.lean`.
-/
namespace Verif
open Py Model.App Model.Regex Spec.App Proofs.App

variable {F V : Type}

/-- The place a `listen` call names: a socket path (where the host argument has no meaning) or a port of a host. -/
inductive Place
  | socket (path : Bytes)
  | tcp (host : Option Bytes) (port : Int)
deriving DecidableEq

def placeOf : PortArg → Option Bytes → Place
  | .path p, _ => .socket p
  | .port n, h => .tcp h n

/-- The key of a place in `app.ports`. -/
def Place.key : Place → Addr
  | .socket p => (some p, none)
  | .tcp h n => (h, some n)

theorem addrOf_eq_iff (a b : PortArg) (h k : Option Bytes) : addrOf a h = addrOf b k ↔ placeOf a h = placeOf b k := by
  cases a <;> cases b <;> simp [addrOf, placeOf]

/-- **C55 (places).** A `listen` call returns False exactly when an earlier call named the same place: the same socket path, whatever the
host arguments, or the same host and port. -/
theorem C55_places {O : Type} (calls : List (PortArg × Option Bytes × O)) (port : PortArg) (host : Option Bytes) (o : O) :
    (listen (calls.foldl (fun p c => (listen p c.1 c.2.1 c.2.2).2) ([] : Dict Addr O)) port host o).1 = false ↔
      ∃ c ∈ calls, placeOf c.1 c.2.1 = placeOf port host := by
  have h := (C55_listen calls).2.2 (port, host, o)
  simp only at h
  rw [h]
  simp [List.any_eq_true, beq_iff_eq, addrOf_eq_iff]

example : (listen ((listen ([] : Dict Addr Nat) (.path b!"/a") none 1).2) (.path b!"/a") (some b!"h") 2).1 = false := by decide +kernel

/-- **C55 (options).** The options kept for a place are those of the first call that named it. -/
theorem C55_options {O : Type} (pre post : List (PortArg × Option Bytes × O)) (port : PortArg) (host : Option Bytes) (o : O)
    (hpre : ∀ c ∈ pre, placeOf c.1 c.2.1 ≠ placeOf port host) :
    Dict.get ((pre ++ (port, host, o) :: post).foldl (fun p c => (listen p c.1 c.2.1 c.2.2).2) ([] : Dict Addr O))
      (placeOf port host).key = some o := by
  have h := (C55_listen (pre ++ (port, host, o) :: post)).2.1
  have ha : (placeOf port host).key = addrOf port host := by
    cases port <;> rfl
  rw [ha, h, List.find?_append, List.find?_eq_none.2]
  · simp
  · intro c hc
    simpa [addrOf_eq_iff] using hpre c hc

example : ∀ c ∈ [(PortArg.port 80, (none : Option Bytes), 1)], placeOf c.1 c.2.1 ≠ placeOf (.path b!"/a") none := by decide +kernel

/-! ## C56: the options of an error handler -/

/-- The options given with the registrations for an error code, last one first. -/
def errOpts (code : Nat) (regs : List (Reg F V)) : List (Opts V) :=
  (regs.filterMap (fun | .error c _ o => if c = code then some o else none | .route _ _ _ => none)).reverse

theorem errOpts_snoc (code : Nat) (regs : List (Reg F V)) (r : Reg F V) :
    errOpts code (regs ++ [r]) =
      match r with
      | .error c _ o => if c = code then o :: errOpts code regs else errOpts code regs
      | .route _ _ _ => errOpts code regs := by
  unfold errOpts
  rw [List.filterMap_append, List.reverse_append]
  cases r with
  | error c f o => by_cases h : c = code <;> simp [h]
  | route p f o => simp

/-- **C56 (error options).** For every sequence of registrations and requests, an option of the handler of an error code is the one given
with the last registration for that code that has it, else the built-in one. -/
theorem C56_options (rx : Bytes → Bytes → Bool) (e400 e404 e500 index : F) (o404 oIndex : Opts V) (regs : List (Reg F V)) (evs : List Ev) :
    ∃ o0 o1 o2, (evs.foldl (step rx) (regs.foldl register (initTable e400 e404 e500 index o404 oIndex))).errs =
        [(400, lastError 400 e400 regs, o0), (404, lastError 404 e404 regs, o1), (500, lastError 500 e500 regs, o2)] ∧
      ∀ k, Dict.get o0 k = resolve (errOpts 400 regs) k ∧ Dict.get o1 k = resolve (errOpts 404 regs ++ [o404]) k ∧
        Dict.get o2 k = resolve (errOpts 500 regs) k := by
  have hs := C56_shape rx e400 e404 e500 index o404 oIndex regs evs
  rw [steps_errs] at hs ⊢
  have key : ∀ regs : List (Reg F V), ∃ f0 f1 f2 o0 o1 o2, (regs.foldl register (initTable e400 e404 e500 index o404 oIndex)).errs =
      [(400, f0, o0), (404, f1, o1), (500, f2, o2)] ∧
      ∀ k, Dict.get o0 k = resolve (errOpts 400 regs) k ∧ Dict.get o1 k = resolve (errOpts 404 regs ++ [o404]) k ∧
        Dict.get o2 k = resolve (errOpts 500 regs) k := by
    intro regs
    induction regs using snocInd with
    | h0 =>
      exact ⟨_, _, _, _, _, _, rfl, fun k => by
        refine ⟨rfl, ?_, rfl⟩
        simp only [errOpts, resolve, List.filterMap_nil, List.reverse_nil, List.nil_append, List.findSome?_cons, List.findSome?_nil]
        cases Dict.get o404 k <;> rfl⟩
    | h1 regs r ih =>
      obtain ⟨f0, f1, f2, o0, o1, o2, he, hk⟩ := ih
      rw [List.foldl_append, List.foldl_cons, List.foldl_nil]
      generalize regs.foldl register (initTable e400 e404 e500 index o404 oIndex) = t at he
      simp only [errOpts_snoc]
      cases r with
      | route p f o =>
        refine ⟨f0, f1, f2, o0, o1, o2, ?_, hk⟩
        simp only [register, addRoute]
        split
        · exact he
        · split
          · exact he
          · split <;> exact he
      | error c f o =>
        simp only [register, error, he, setErr]
        have hm : ∀ (l : List (Opts V)) (b : Opts V) k, Dict.get b k = resolve l k →
            Dict.get (Dict.merge b o) k = resolve (o :: l) k := by
          intro l b k h
          rw [Dict.get_merge, h]
          simp only [resolve, List.findSome?_cons]
          cases Dict.get o k <;> rfl
        by_cases h1 : c = 400
        · subst h1
          refine ⟨f, f1, f2, _, o1, o2, rfl, fun k => ⟨?_, (hk k).2.1, (hk k).2.2⟩⟩
          rw [if_pos rfl]; exact hm _ _ _ (hk k).1
        · by_cases h2 : c = 404
          · subst h2
            refine ⟨f0, f, f2, o0, _, o2, rfl, fun k => ⟨(hk k).1, ?_, (hk k).2.2⟩⟩
            rw [if_pos rfl]; exact hm _ _ _ (hk k).2.1
          · by_cases h3 : c = 500
            · subst h3
              refine ⟨f0, f1, f, o0, o1, _, rfl, fun k => ⟨(hk k).1, (hk k).2.1, ?_⟩⟩
              rw [if_pos rfl]; exact hm _ _ _ (hk k).2.2
            · simp only [h1, h2, h3, if_false]
              exact ⟨f0, f1, f2, o0, o1, o2, rfl, hk⟩
  obtain ⟨f0, f1, f2, o0, o1, o2, he, hk⟩ := key regs
  rw [he] at hs ⊢
  simp only [List.map_cons, List.map_nil, List.cons.injEq, Prod.mk.injEq, true_and, and_true] at hs
  exact ⟨o0, o1, o2, by rw [hs.1, hs.2.1, hs.2.2], hk⟩

example : resolve (errOpts 404 [Reg.error 404 (1 : Nat) [(b!"rate", (3 : Nat))], .error 404 2 [(b!"x", 5)]] ++ [[(b!"rate", 9)]]) b!"rate" = some 3 := by
  decide +kernel

/-! ## C43: the options of a handler are the defaults of its parameters -/

theorem foldl_set_get (l : List (Bytes × V)) (d : Opts V) (k : Bytes) (hn : (l.map (·.1)).Nodup) :
    Dict.get (l.foldl (fun d p => Dict.set d p.1 p.2) d) k = (Dict.get l k).or (Dict.get d k) := by
  induction l generalizing d with
  | nil => simp [Dict.get]
  | cons p t ih =>
    rw [List.map_cons, List.nodup_cons] at hn
    rw [List.foldl_cons, ih _ hn.2, Dict.get_set]
    obtain ⟨n, v⟩ := p
    simp only [Dict.get]
    by_cases h : n = k
    · subst h
      have : Dict.get t n = none := by
        rw [Option.eq_none_iff_forall_ne_some]
        intro v hv
        exact hn.1 (List.mem_map.2 ⟨_, Dict.get_mem hv, rfl⟩)
      simp [this]
    · simp [h]

/-- **C43 (own options).** For a handler with parameters `plain` without and `named` with defaults (names all different, as Python
requires), the options it is registered with are exactly the defaults of the named ones. -/
theorem C43_getoptions (plain : List Bytes) (named : List (Bytes × V)) (hn : (named.map (·.1)).Nodup) (k : Bytes) :
    Dict.get (getoptions (plain ++ named.map (·.1)) (named.map (·.2))) k = (named.find? (fun p => p.1 == k)).map (·.2) := by
  unfold getoptions
  have h1 : (plain ++ named.map (·.1)).drop ((plain ++ named.map (·.1)).length - (named.map (·.2)).length) = named.map (·.1) := by
    simp
  have h2 : (named.map (·.1)).zip (named.map (·.2)) = named := by
    clear hn h1
    induction named with
    | nil => rfl
    | cons p t ih => simp only [List.map_cons, List.zip_cons_cons, ih]
  rw [h1, h2, foldl_set_get _ _ _ hn]
  simp only [Dict.get, Option.or_none]
  clear h1 h2 hn
  induction named with
  | nil => rfl
  | cons p t ih =>
    obtain ⟨n, v⟩ := p
    simp only [Dict.get, List.find?_cons]
    by_cases h : n = k
    · simp [h]
    · rw [if_neg h, ih, beq_false_of_ne h]

example : getoptions [b!"request", b!"rate", b!"ws"] [(1 : Nat), 2] = [(b!"rate", 1), (b!"ws", 2)] := by decide +kernel

/-! ## C42: handlers that return no data -/

/-- **C42 (response, none).** When the handler returns None the response is closed and no response middleware runs; when it returns
something that is not data, or raises, no response middleware runs and the response is not closed here. -/
theorem C42_response_none (rate buf : V) (rms : List ((F × Opts V) × Ret)) (f : F) (o : Opts V) :
    (∃ o', (handleResponse rate buf rms f o .none).1 = [.handler f o', .close]) ∧
    (∃ o', (handleResponse rate buf rms f o .other).1 = [.handler f o']) ∧
    (∃ o', (handleResponse rate buf rms f o .raises).1 = [.handler f o']) :=
  ⟨⟨_, rfl⟩, ⟨_, rfl⟩, ⟨_, rfl⟩⟩

end Verif
