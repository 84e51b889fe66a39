import Verif.Proofs.Register
import Verif.Props.App
/-!
# C109: what the decorators register
-/
namespace Verif
open Verif.Py Verif.Model.App Verif.Model.Register Verif.Spec.Register Verif.Proofs.Register

namespace Register
variable {V : Type}

/-- `Tremolo()` with the built-in handlers (tremolo.py:39-65). -/
def fresh (e400 e404 e500 index : Fn V) (o404 oIndex : Opts V) : AppSt V := { table := initTable e400 e404 e500 index o404 oIndex }

theorem fresh_shape (e400 e404 e500 index : Fn V) (o404 oIndex : Opts V) : Shape (fresh e400 e404 e500 index o404 oIndex) := shape_init rfl

/-- The registrations of a program that go to one place. -/
def at' (rs : List (Registration V)) (d : Deco) : List (Registration V) := rs.filter (fun r => r.place == d)

theorem happens_func : ∀ s : Stmt V, (happens s).map (fun r => (r.place, r.func)) = (meant s).map (fun r => (r.place, r.func))
  | .define f [] => rfl
  | .define f (u :: us) => by simp [happens, meant]
  | .addRoute _ _ _ => rfl
  | .addMiddleware _ _ _ => rfl

theorem happens_meant {s : Stmt V} (h : Once s) : happens s = meant s := by
  match s, h with
  | .define f [], _ => rfl
  | .define f (u :: us), h =>
    rcases h with h | h | ⟨h1, h2⟩
    · cases h
    · have e : stated f = fun _ => none := by
        match f, h with
        | .user _ _, h => exact h
        | .obj _, _ => rfl
        | .wrap _, _ => rfl
      simp [happens, meant, h, e]
    · cases us with
      | nil => simp [happens, meant, h2]
      | cons _ _ => simp at h1
  | .addRoute _ _ _, _ => rfl
  | .addMiddleware _ _ _, _ => rfl

theorem flat_meant : ∀ {prog : List (Stmt V)}, (∀ s ∈ prog, Once s) → prog.flatMap happens = prog.flatMap meant
  | [], _ => rfl
  | s :: ss, h => by
    rw [List.flatMap_cons, List.flatMap_cons, happens_meant (h s (by simp)), flat_meant (fun x hx => h x (by simp [hx]))]

theorem flat_func : ∀ prog : List (Stmt V), (prog.flatMap happens).map (fun r => (r.place, r.func)) = (prog.flatMap meant).map (fun r => (r.place, r.func))
  | [] => rfl
  | s :: ss => by rw [List.flatMap_cons, List.flatMap_cons, List.map_append, List.map_append, happens_func, flat_func ss]

theorem at_func {r s : List (Registration V)} (h : r.map (fun r => (r.place, r.func)) = s.map (fun r => (r.place, r.func))) (d : Deco) :
    (at' r d).map (·.func) = (at' s d).map (·.func) := by
  have key : ∀ l : List (Registration V), (at' l d).map (·.func) = ((l.map (fun r => (r.place, r.func))).filter (fun x => x.1 == d)).map (·.2) := by
    intro l
    unfold at'
    rw [List.filter_map, List.map_map]
    rfl
  rw [key, key, h]

theorem all2_map {α β γ : Type} {R : α → β → Prop} {f : α → γ} {g : β → γ} (hr : ∀ a b, R a b → f a = g b) : ∀ {l : List α} {m : List β}, All2 R l m → l.map f = m.map g
  | _, _, .nil => rfl
  | _, _, .cons h t => by rw [List.map_cons, List.map_cons, hr _ _ h, all2_map hr t]

end Register
open Register

variable {V : Type}

/-- **C109 (exceptions)**: a program of registrations raises no exception exactly if every name it registers for exists, the options of every
function can be read where they are needed, and no `on_x(...)` with a function is used as a decorator. -/
theorem C109_runs (e400 e404 e500 index : Fn V) (o404 oIndex : Opts V) (prog : List (Stmt V)) :
    (∃ a, run (fresh e400 e404 e500 index o404 oIndex) prog = .ok a) ↔ ∀ s ∈ prog, Accepted s := run_ok (fresh_shape ..)

/-- **C109 (middlewares)**: after a program each list of middlewares holds exactly the functions registered for it, in the order of the program,
with the options each registration gives. -/
theorem C109_middlewares {e400 e404 e500 index : Fn V} {o404 oIndex : Opts V} {prog : List (Stmt V)} (hp : ∀ s ∈ prog, StmtNamed s) {a : AppSt V}
    (h : run (fresh e400 e404 e500 index o404 oIndex) prog = .ok a) {n : Bytes} (hn : Known (.middleware n)) :
    ∃ l, Dict.get a.mws n = some l ∧ All2 (fun e r => root e.1 = r.func ∧ ∀ k, Dict.get e.2 k = r.opts k) l (at' (prog.flatMap happens) (.middleware n)) := by
  have hs : Dict.get (fresh e400 e404 e500 index o404 oIndex).mws n = some [] := by
    rcases hn with rfl | rfl | rfl | rfl <;> rfl
  obtain ⟨m, h1, h2⟩ := (run_adds hp h).mws n [] hs
  exact ⟨m, h1, h2⟩

/-- **C109 (worker hooks)**: likewise the functions for the start and the stop of a worker. -/
theorem C109_events {e400 e404 e500 index : Fn V} {o404 oIndex : Opts V} {prog : List (Stmt V)} (hp : ∀ s ∈ prog, StmtNamed s) {a : AppSt V}
    (h : run (fresh e400 e404 e500 index o404 oIndex) prog = .ok a) {n : Bytes} (hn : Known (.event n)) :
    ∃ l, Dict.get a.events n = some l ∧ l.map root = (at' (prog.flatMap meant) (.event n)).map (·.func) := by
  have hs : Dict.get (fresh e400 e404 e500 index o404 oIndex).events n = some [] := by
    rcases hn with rfl | rfl <;> rfl
  obtain ⟨m, h1, h2⟩ := (run_adds hp h).events n [] hs
  refine ⟨m, h1, ?_⟩
  rw [← at_func (flat_func prog)]
  exact all2_map (fun _ _ h => h) h2

/-- **C109 (routes)**: the table of routes is that of the routes and error handlers of the program, in its order (C56 says what they do). -/
theorem C109_routes {e400 e404 e500 index : Fn V} {o404 oIndex : Opts V} {prog : List (Stmt V)} (hp : ∀ s ∈ prog, StmtNamed s) {a : AppSt V}
    (h : run (fresh e400 e404 e500 index o404 oIndex) prog = .ok a) :
    ∃ regs : List (Reg (Fn V) V), a.table = regs.foldl register (initTable e400 e404 e500 index o404 oIndex) ∧
      All2 (fun e r => ∃ f o, (root f = r.func ∧ ∀ k, Dict.get o k = r.opts k) ∧
          ((∃ p, r.place = .route p ∧ e = .route p f o) ∨ ∃ c, r.place = .error c ∧ e = .error c f o))
        regs ((prog.flatMap happens).filter (fun r => match r.place with | .route _ | .error _ => true | _ => false)) :=
  (run_adds hp h).table

/-- **C109 (options)**: what happens is what is meant, if no function that states options is decorated twice. -/
theorem C109_meant_partial {prog : List (Stmt V)} (h : ∀ s ∈ prog, Once s) : prog.flatMap happens = prog.flatMap meant := flat_meant h

/-- **C109 (calls)**: a wrapper is called like the function it wraps. -/
theorem C109_call (f : Fn V) (kw : Dict Bytes V) : call f kw = call (root f) kw := by
  match f with
  | .user _ _ => rfl
  | .obj _ => rfl
  | .wrap f => exact C109_call f kw

/-- **C109 (parameters)**: a function gets each of its parameters from the keywords, else from its default, and fails exactly if there is
neither, or a keyword it has no place for. -/
theorem C109_bound (id : Nat) (s : Sig V) (kw : Dict Bytes V) (hd : (s.plain ++ s.named.map (·.1) ++ s.kwonly.map (·.1)).Nodup) :
    (call (.user id s) kw = none ↔
      (s.rest = false ∧ ∃ p ∈ kw, p.1 ∉ s.plain ++ s.named.map (·.1) ++ s.kwonly.map (·.1)) ∨
      (∃ n ∈ s.plain, Dict.get kw n = none) ∨ ∃ n, (n, none) ∈ s.kwonly ∧ Dict.get kw n = none) ∧
    ∀ i ps rest, call (.user id s) kw = some (i, ps, rest) → i = id ∧
      (∀ n ∈ s.plain, Dict.get ps n = Dict.get kw n) ∧ (∀ n v, (n, v) ∈ s.named → Dict.get ps n = (Dict.get kw n).or (some v)) ∧
      (∀ n v, (n, v) ∈ s.kwonly → Dict.get ps n = (Dict.get kw n).or v) ∧
      ∀ k, Dict.get rest k = if k ∈ s.plain ++ s.named.map (·.1) ++ s.kwonly.map (·.1) then none else Dict.get kw k := by
  generalize hps : s.plain.map (fun n => (n, (none : Option V))) ++ s.named.map (fun p => (p.1, some p.2)) ++ s.kwonly = qs
  have hnames : qs.map (·.1) = s.plain ++ s.named.map (·.1) ++ s.kwonly.map (·.1) := by
    rw [← hps]; simp [Function.comp_def]
  have hmem : ∀ k, qs.any (fun q => q.1 == k) = true ↔ k ∈ s.plain ++ s.named.map (·.1) ++ s.kwonly.map (·.1) := by
    intro k
    rw [← hnames, List.any_eq_true]
    constructor
    · rintro ⟨q, hq, e⟩
      exact List.mem_map.2 ⟨q, hq, by simpa using e⟩
    · intro h
      obtain ⟨q, hq, e⟩ := List.mem_map.1 h
      exact ⟨q, hq, by simpa using e⟩
  have hget : ∀ (l : List (Bytes × Option V)), (l.map (·.1)).Nodup → ∀ n v, (n, v) ∈ l →
      Dict.get (l.filterMap (fun q => ((Dict.get kw q.1).or q.2).map (fun v => (q.1, v)))) n = (Dict.get kw n).or v := by
    have hnone : ∀ (l : List (Bytes × Option V)) n, n ∉ l.map (·.1) →
        Dict.get (l.filterMap (fun q => ((Dict.get kw q.1).or q.2).map (fun v => (q.1, v)))) n = none := by
      intro l n
      induction l with
      | nil => intro _; rfl
      | cons q t ih =>
        intro hn
        simp only [List.map_cons, List.mem_cons, not_or] at hn
        simp only [List.filterMap_cons]
        cases (Dict.get kw q.1).or q.2 with
        | none => exact ih hn.2
        | some v =>
          simp only [Option.map_some, Dict.get]
          rw [if_neg (Ne.symm hn.1)]; exact ih hn.2
    intro l hl n v hv
    induction l with
    | nil => cases hv
    | cons q t ih =>
      simp only [List.map_cons, List.nodup_cons] at hl
      simp only [List.filterMap_cons]
      rcases List.mem_cons.1 hv with e | hv
      · subst e
        dsimp only
        cases h : (Dict.get kw n).or v with
        | none => simp only [Option.map_none]; exact hnone t n hl.1
        | some w => simp only [Option.map_some, Dict.get]; rw [if_pos trivial]
      · have hne : q.1 ≠ n := fun e => hl.1 (List.mem_map.2 ⟨_, hv, e.symm⟩)
        cases (Dict.get kw q.1).or q.2 with
        | none => exact ih hl.2 hv
        | some w => simp only [Option.map_some, Dict.get]; rw [if_neg hne]; exact ih hl.2 hv
  have e1 : (!s.rest && kw.any (fun p => !qs.any (fun q => q.1 == p.1))) = true ↔
      s.rest = false ∧ ∃ p ∈ kw, p.1 ∉ s.plain ++ s.named.map (·.1) ++ s.kwonly.map (·.1) := by
    rw [Bool.and_eq_true, Bool.not_eq_true', List.any_eq_true]
    refine and_congr Iff.rfl ⟨fun ⟨p, hp, h⟩ => ⟨p, hp, fun hx => ?_⟩, fun ⟨p, hp, h⟩ => ⟨p, hp, ?_⟩⟩
    · rw [(hmem _).2 hx] at h; cases h
    · rw [Bool.not_eq_true', Bool.eq_false_iff]; exact fun hx => h ((hmem _).1 hx)
  have e2 : qs.any (fun q => !Dict.mem kw q.1 && q.2.isNone) = true ↔ (∃ n ∈ s.plain, Dict.get kw n = none) ∨ ∃ n, (n, none) ∈ s.kwonly ∧ Dict.get kw n = none := by
    rw [← hps, List.any_append, List.any_append, List.any_map, List.any_map]
    simp only [Bool.or_eq_true, List.any_eq_true, Function.comp_def, Option.isNone_some, Bool.and_false, Bool.false_eq_true, and_false, exists_false, or_false,
      Bool.and_eq_true, Bool.not_eq_true', Option.isNone_iff_eq_none, Option.isNone_none, and_true, Dict.mem, Option.isSome_eq_false_iff]
    refine or_congr Iff.rfl ⟨?_, ?_⟩
    · rintro ⟨⟨n, v⟩, h1, h2, h3⟩
      cases h3
      exact ⟨n, h1, h2⟩
    · rintro ⟨n, h1, h2⟩
      exact ⟨_, h1, h2, rfl⟩
  simp only [call]
  rw [hps]
  split
  · rename_i h
    exact ⟨⟨fun _ => .inl (e1.1 h), fun _ => rfl⟩, fun i ps rest hx => by cases hx⟩
  · rename_i h
    split
    · rename_i h'
      exact ⟨⟨fun _ => .inr (e2.1 h'), fun _ => rfl⟩, fun i ps rest hx => by cases hx⟩
    · rename_i h'
      refine ⟨⟨fun hx => (by cases hx), fun hx => ?_⟩, fun i ps rest hx => ?_⟩
      · rcases hx with hx | hx
        · exact absurd (e1.2 hx) h
        · exact absurd (e2.2 hx) h'
      · cases hx
        have hq := hget qs (by rw [hnames]; exact hd)
        refine ⟨rfl, fun n hn => ?_, fun n v hn => ?_, fun n v hn => ?_, fun k => ?_⟩
        · rw [hq n none (by rw [← hps]; simp [hn]), Option.or_none]
        · exact hq n (some v) (by rw [← hps]; simp only [List.mem_append]; exact .inl (.inr (List.mem_map.2 ⟨_, hn, rfl⟩)))
        · exact hq n v (by rw [← hps]; simp [hn])
        · rw [Dict.get_filter kw (fun x => !qs.any (fun q => q.1 == x)) k]
          by_cases hk : k ∈ s.plain ++ s.named.map (·.1) ++ s.kwonly.map (·.1)
          · rw [if_pos hk, (hmem k).2 hk]; rfl
          · rw [if_neg hk, Bool.eq_false_iff.2 (fun hx => hk ((hmem k).1 hx))]; rfl

/-- **C109 (order)**: for every request the request middlewares of the program run in its order as long as they return None, and the response
middlewares in the opposite order; this does not depend on how the functions are decorated. -/
theorem C109_order {e400 e404 e500 index : Fn V} {o404 oIndex : Opts V} {prog : List (Stmt V)} (hp : ∀ s ∈ prog, StmtNamed s) {a : AppSt V}
    (h : run (fresh e400 e404 e500 index o404 oIndex) prog = .ok a) :
    ∃ qs rs, Dict.get a.mws b!"request" = some qs ∧ Dict.get a.mws b!"response" = some rs ∧
      (∀ rx rate buf rms valid url hret, ∃ tr tr', (headersReceived rx a.table rate buf (qs.map (fun m => (m, .none))) rms valid url hret).1 = tr ++ tr' ∧
        (mwCalls tr).map root = (at' (prog.flatMap meant) (.middleware b!"request")).map (·.func) ∧ noHandler tr ∧ ∀ x y, tr' = x :: y → ∃ f o, x = .handler f o) ∧
      (∀ rate buf f o, ∃ o' tr, (handleResponse rate buf (rs.map (fun m => (m, .none))) f o .body).1 = .handler f o' :: tr ++ [.respond] ∧
        (mwCalls tr).map root = ((at' (prog.flatMap meant) (.middleware b!"response")).map (·.func)).reverse) := by
  obtain ⟨qs, q1, q2⟩ := C109_middlewares hp h (n := b!"request") (.inr (.inr (.inl rfl)))
  obtain ⟨rs, r1, r2⟩ := C109_middlewares hp h (n := b!"response") (.inr (.inr (.inr rfl)))
  refine ⟨qs, rs, q1, r1, fun rx rate buf rms valid url hret => ?_, fun rate buf f o => ?_⟩
  · obtain ⟨tr, tr', h1, h2, h3, h4⟩ := C42_request_pass rx a.table rate buf (qs.map (fun m => (m, .none))) rms valid url hret
      (fun m hm => by obtain ⟨x, _, rfl⟩ := List.mem_map.1 hm; rfl)
    refine ⟨tr, tr', h1, ?_, h3, h4⟩
    rw [h2, ← at_func (flat_func prog), List.map_map, List.map_map]
    exact all2_map (fun _ _ h => h.1) q2
  · obtain ⟨o', tr, h1, h2, _⟩ := C42_response_pass rate buf (rs.map (fun m => (m, .none))) f o
      (fun m hm => by obtain ⟨x, _, rfl⟩ := List.mem_map.1 hm; rfl)
    refine ⟨o', tr, h1, ?_⟩
    rw [h2, ← at_func (flat_func prog), List.map_reverse, List.map_map, List.map_map]
    congr 1
    exact all2_map (fun _ _ h => h.1) r2

/-- **C109 (spellings)**: `@app.on_request`, `@app.on_request()` and `@app.middleware('request')` do the same, and so for every hook. -/
theorem C109_spellings (a : AppSt V) (f : Fn V) (h : Hook) {args : List (Option (Fn V))} (hn : ∀ g, args ≠ [some g]) :
    use a f (.bare h) = decorate a (place (.bare h : Use V)) f ∧ use a f (.called h args) = decorate a (place (.bare h : Use V)) f := by
  refine ⟨use_eq (by simp), ?_⟩
  rw [use_eq (fun k g e => by cases e; exact hn g rfl), place_called, place_hook]

/-! ## Cases -/

namespace Register
def ws : Fn Nat := .user 1 { plain := [b!"request"], named := [(b!"websocket", 0), (b!"rate", 5)] }
def start : AppSt Nat := fresh (.obj 400) (.obj 404) (.obj 500) (.obj 0) [] []
def prog : List (Stmt Nat) :=
  [.define ws [.deco (.route b!"/a")], .define (.user 2 { named := [(b!"status", 7)] }) [.bare .request], .define (.user 3 {}) [.called .request [], .deco (.route b!"/b")],
    .addMiddleware (.user 4 {}) b!"response" [(b!"rate", 1)]]
end Register

/-- A program that meets the hypotheses, and what it leaves. -/
example : (∀ s ∈ prog, Accepted s) ∧ (∀ s ∈ prog, StmtNamed s) ∧ ∀ s ∈ prog, Once s := by
  simp [prog, Accepted, StmtNamed, Once, Named, Known, place, Readable, ws, root]
  rfl
example : (run start prog).toOption.bind (fun a => (Dict.get a.mws b!"request").map (fun l => l.map (fun e => (match root e.1 with | .user i _ => i | _ => 0, e.2)))) =
    some [(2, [(b!"status", 7)]), (3, [])] := by decide +kernel

/-- Two routes for one function: the upper one has none of its options, so for `/b` there is no WebSocket object (`'websocket' in options` is
false, C94) and the rate is that of the server. -/
theorem C109_refuted_stack : ∃ a, run start [.define ws [.deco (.route b!"/a"), .deco (.route b!"/b")]] = .ok a ∧
    (target a.table (choose (fun _ _ => false) a.table true b!"/a")).map (·.2) = some [(b!"websocket", 0), (b!"rate", 5)] ∧
    (target a.table (choose (fun _ _ => false) a.table true b!"/b")).map (·.2) = some [] ∧
    (∀ s ∈ [Stmt.define ws [.deco (.route b!"/a"), .deco (.route b!"/b")]], Accepted s ∧ StmtNamed s) := by
  refine ⟨_, rfl, by decide +kernel, by decide +kernel, ?_⟩
  simp [Accepted, StmtNamed, Known, place, Readable, ws, Named]

/-- A default of a parameter after `*` is no option. -/
theorem C109_refuted_kwonly : options (.user 1 { kwonly := [(b!"websocket", some 0)] } : Fn Nat) = .ok [] := rfl

/-- A handler for another error code than 400, 404 and 500 is not registered, without a word. -/
theorem C109_refuted_code (a : AppSt V) (h : a.table.errs.map (·.1) = [400, 404, 500]) (f : Fn V) (c : Nat) (hc : c ≠ 400 ∧ c ≠ 404 ∧ c ≠ 500) :
    decorate a (.error c) f = .ok (a, .wrap f) := by
  simp only [decorate]
  rw [if_neg]
  rw [any_code h]; omega

/-- A misspelt name raises ValueError (middlewares) or KeyError (events). -/
example : run start [.define ws [.deco (.middleware b!"requests")]] = .error .value ∧ run start [.define ws [.deco (.event b!"start")]] = .error .key ∧
    run start [.define (.obj 9) [.deco (.route b!"/")]] = .error .attribute ∧ run start [.define ws [.called .request [some ws]]] = .error .type := ⟨rfl, rfl, rfl, rfl⟩

end Verif
