import Verif.Spec.Context
import Verif.Props.App
/-!
# C114: what is stored in a context is found there, and by that connection only
-/
namespace Verif
open Py Model.Context Spec.App Spec.Context
open Model.App hiding step Ev

variable {V : Type}

namespace Context

/-- The context after some operations. -/
def after (k : Kind) (ops : List (Op V)) : Ctx V := ops.foldl (fun x op => (call x op).2) (init k)

theorem after_snoc (k : Kind) (ops : List (Op V)) (op : Op V) : after k (ops ++ [op]) = (call (after k ops) op).2 := by
  simp [after]

theorem call_kind (c : Ctx V) (op : Op V) : (call c op).2.kind = c.kind := by
  cases op <;> simp only [call, setattr, delattr] <;> (try split) <;> (try split) <;> rfl

theorem after_kind (k : Kind) (ops : List (Op V)) : (after k ops).kind = k := by
  induction ops using snocInd with
  | h0 => rfl
  | h1 l a ih => rw [after_snoc, call_kind, ih]

theorem stored_nil (n : Bytes) (v : V) : ¬ Stored ([] : List (Op V)) n v := by
  rintro ⟨pre, op, post, h, -⟩
  simp at h

theorem stored_snoc (ops : List (Op V)) (op : Op V) (n : Bytes) (v : V) :
    Stored (ops ++ [op]) n v ↔ Assigns op n v ∨ (¬ Touches op n ∧ Stored ops n v) := by
  constructor
  · rintro ⟨pre, x, post, h, ha, hp⟩
    rcases List.eq_nil_or_concat post with rfl | ⟨post, y, rfl⟩
    · have := List.append_inj' h (by simp)
      obtain ⟨-, h2⟩ := this
      cases h2
      exact Or.inl ha
    · rw [List.concat_eq_append] at h hp
      rw [← List.cons_append, ← List.append_assoc] at h
      obtain ⟨h1, h2⟩ := List.append_inj' h (by simp)
      cases h2
      refine Or.inr ⟨hp _ (by simp), pre, x, post, h1, ha, ?_⟩
      exact fun z hz => hp z (by simp [hz])
  · rintro (h | ⟨h, pre, x, post, rfl, ha, hp⟩)
    · exact ⟨ops, op, [], by simp, h, by simp⟩
    · refine ⟨pre, x, post ++ [op], by simp, ha, ?_⟩
      intro z hz
      rcases List.mem_append.1 hz with hz | hz
      · exact hp z hz
      · simp at hz; subst hz; exact h

theorem get_init (k : Kind) (n : Bytes) : Dict.get (init k : Ctx V).dict n = if n ∈ props k then some (.made n) else none := by
  cases k <;> simp only [init, props, List.map_cons, List.map_nil, Dict.get, List.mem_cons, List.not_mem_nil, or_false]
  all_goals
    split
    · next h => subst h; simp
    · next h =>
      split
      · next h' => subst h'; simp
      · next h' => rw [if_neg]; rintro (h2 | h2) <;> simp_all

/-- What one operation does to the dictionary under a name that is no property. -/
theorem get_call (c : Ctx V) (op : Op V) (n : Bytes) (hn : n ∉ props c.kind) :
    (∀ v, Assigns op n v → Dict.get (call c op).2.dict n = some (.val v)) ∧
    (op = .delattr n → Dict.get (call c op).2.dict n = none) ∧
    (¬ Touches op n → Dict.get (call c op).2.dict n = Dict.get c.dict n) := by
  refine ⟨?_, ?_, ?_⟩
  · rintro v (rfl | rfl) <;> simp only [call, setattr, if_neg hn, Dict.get_set, if_true]
  · rintro rfl
    simp only [call, delattr, if_neg hn]
    split
    · have := Dict.get_filter c.dict (fun k => k != n) n
      simpa using this
    · assumption
  · intro h
    cases op with
    | setattr m v =>
      have hm : m ≠ n := by rintro rfl; exact h (Or.inl ⟨v, Or.inl rfl⟩)
      simp only [call, setattr]
      split
      · rfl
      · simp only [Dict.get_set, if_neg hm]
    | setitem m v =>
      have hm : m ≠ n := by rintro rfl; exact h (Or.inl ⟨v, Or.inr rfl⟩)
      simp only [call, setattr]
      split
      · rfl
      · simp only [Dict.get_set, if_neg hm]
    | delattr m =>
      have hm : m ≠ n := by rintro rfl; exact h (Or.inr rfl)
      simp only [call, delattr]
      split
      · rfl
      · split
        · have := Dict.get_filter c.dict (fun k => k != m) n
          rw [this, if_pos (by simp [Ne.symm hm])]
        · rfl
    | _ => rfl

theorem get_call_prop (c : Ctx V) (op : Op V) (n : Bytes) (hn : n ∈ props c.kind) :
    Dict.get (call c op).2.dict n = Dict.get c.dict n := by
  cases op with
  | setattr m v =>
    simp only [call, setattr]
    split
    · rfl
    · next h => simp only [Dict.get_set]; rw [if_neg]; rintro rfl; exact h hn
  | setitem m v =>
    simp only [call, setattr]
    split
    · rfl
    · next h => simp only [Dict.get_set]; rw [if_neg]; rintro rfl; exact h hn
  | delattr m =>
    simp only [call, delattr]
    split
    · rfl
    · next h =>
      split
      · have := Dict.get_filter c.dict (fun k => k != m) n
        rw [this, if_pos]
        have : n ≠ m := by rintro rfl; exact h hn
        simp [this]
      · rfl
  | _ => rfl

theorem get_after_prop (k : Kind) (ops : List (Op V)) (n : Bytes) (hn : n ∈ props k) :
    Dict.get (after k ops).dict n = some (.made n) := by
  induction ops using snocInd with
  | h0 => show Dict.get (init k : Ctx V).dict n = _; rw [get_init, if_pos hn]
  | h1 l a ih => rw [after_snoc, get_call_prop _ _ _ (by rw [after_kind]; exact hn), ih]

theorem get_after (k : Kind) (ops : List (Op V)) (n : Bytes) (hn : n ∉ props k) :
    (∀ v, Dict.get (after k ops).dict n = some (.val v) ↔ Stored ops n v) ∧
    (Dict.get (after k ops).dict n = none ↔ ∀ v, ¬ Stored ops n v) := by
  induction ops using snocInd with
  | h0 =>
    have h : Dict.get (after k ([] : List (Op V))).dict n = none := by
      show Dict.get (init k : Ctx V).dict n = _; rw [get_init, if_neg hn]
    rw [h]
    refine ⟨fun v => ⟨(fun h => by cases h), fun h => absurd h (stored_nil n v)⟩, ⟨fun _ v => stored_nil n v, fun _ => rfl⟩⟩
  | h1 l a ih =>
    obtain ⟨h1, h2, h3⟩ := get_call (after k l) a n (by rw [after_kind]; exact hn)
    rw [after_snoc]
    by_cases ha : ∃ v, Assigns a n v
    · obtain ⟨v, ha⟩ := ha
      rw [h1 v ha]
      have key : ∀ w, Stored (l ++ [a]) n w ↔ v = w := by
        intro w
        rw [stored_snoc]
        constructor
        · rintro (h | ⟨h, -⟩)
          · rcases ha with rfl | rfl <;> rcases h with h | h <;> cases h <;> rfl
          · exact absurd (Or.inl ⟨v, ha⟩) h
        · rintro rfl; exact Or.inl ha
      refine ⟨fun w => ?_, ?_⟩
      · rw [key]; constructor
        · intro h; cases h; rfl
        · rintro rfl; rfl
      · constructor
        · intro h; cases h
        · intro h; exact absurd ((key v).2 rfl) (h v)
    · by_cases hd : a = .delattr n
      · rw [h2 hd]
        have key : ∀ w, ¬ Stored (l ++ [a]) n w := by
          intro w
          rw [stored_snoc]
          rintro (h | ⟨h, -⟩)
          · exact ha ⟨w, h⟩
          · exact h (Or.inr hd)
        refine ⟨fun w => ⟨(fun h => by cases h), fun h => absurd h (key w)⟩, ⟨fun _ => key, fun _ => rfl⟩⟩
      · have ht : ¬ Touches a n := by rintro (h | h); exact ha h; exact hd h
        rw [h3 ht]
        have key : ∀ w, Stored (l ++ [a]) n w ↔ Stored l n w := by
          intro w
          rw [stored_snoc]
          exact ⟨fun h => h.elim (fun h => absurd ⟨w, h⟩ ha) (·.2), fun h => Or.inr ⟨ht, h⟩⟩
        simp only [key]
        exact ih

/-! ## The world -/

theorem run_snoc (w : World V) (evs : List (Ev V)) (e : Ev V) : run w (evs ++ [e]) = (step (run w evs) e).2 := by
  simp [run]

theorem opsOf_append (c : Nat) (a b : List (Ev V)) : opsOf c (a ++ b) = opsOf c a ++ opsOf c b := by
  induction a with
  | nil => rfl
  | cons e t ih => cases e <;> simp only [List.cons_append, opsOf, ih]; split <;> rfl

theorem workerOps_append (a b : List (Ev V)) : workerOps (a ++ b) = workerOps a ++ workerOps b := by
  induction a with
  | nil => rfl
  | cons e t ih => cases e <;> simp only [List.cons_append, workerOps, ih]

theorem conn_of (c : Nat) (pre post : List (Ev V)) (h : Ev.accept c ∉ post) :
    Dict.get (run start (pre ++ .accept c :: post)).conns c = some (after .server (opsOf c post)) := by
  induction post using snocInd with
  | h0 => rw [run_snoc]; simp only [step, Dict.get_set, if_true]; rfl
  | h1 l a ih =>
    have ih := ih (fun hm => h (by simp [hm]))
    rw [← List.cons_append, ← List.append_assoc, run_snoc, opsOf_append]
    cases a with
    | accept d =>
      have hd : d ≠ c := by rintro rfl; exact h (by simp)
      simp only [step, Dict.get_set, if_neg hd, ih, opsOf, List.append_nil]
    | worker op => simp only [step, ih, opsOf, List.append_nil]
    | on d op =>
      by_cases hd : d = c
      · subst hd
        simp only [step, ih, Dict.get_set, if_true, opsOf, after_snoc]
      · simp only [step, opsOf, if_neg hd, List.append_nil]
        split
        · simp only [Dict.get_set, if_neg hd, ih]
        · exact ih

theorem worker_of (evs : List (Ev V)) : (run start evs).worker = after .worker (workerOps evs) := by
  induction evs using snocInd with
  | h0 => rfl
  | h1 l a ih =>
    rw [run_snoc, workerOps_append]
    cases a with
    | accept d => simp only [step, ih, workerOps, List.append_nil]
    | worker op => simp only [step, ih, workerOps, after_snoc]
    | on d op =>
      simp only [step, workerOps, List.append_nil]
      split <;> exact ih

/-- What an operation on the context of connection `c` gives after a history. -/
def ask (evs : List (Ev V)) (c : Nat) (op : Op V) : Ans V := (step (run start evs) (.on c op)).1
def askWorker (evs : List (Ev V)) (op : Op V) : Ans V := (step (run start evs) (.worker op)).1

theorem ask_eq (evs post : List (Ev V)) (c : Nat) (h : Since c evs post) (op : Op V) :
    ask evs c op = (call (after .server (opsOf c post)) op).1 := by
  obtain ⟨pre, rfl, hp⟩ := h
  simp only [ask, step, conn_of c pre post hp]

theorem askWorker_eq (evs : List (Ev V)) (op : Op V) : askWorker evs op = (call (after .worker (workerOps evs)) op).1 := by
  simp only [askWorker, step, worker_of]

/-- How reads of a name follow what is in the dictionary. -/
theorem reads (k : Kind) (ops : List (Op V)) (n : Bytes) (hn : n ∉ props k) :
    (∀ v, Stored ops n v →
      (call (after k ops) (.getitem n)).1 = .val (.val v) ∧ (call (after k ops) (.getattr n)).1 = .val (.val v) ∧
      (call (after k ops) (.contains n)).1 = .bool true) ∧
    ((∀ v, ¬ Stored ops n v) →
      (call (after k ops) (.getitem n)).1 = .raises .keyError ∧ (call (after k ops) (.contains n)).1 = .bool false ∧
      (n ≠ b!"get" → (call (after k ops) (.getattr n)).1 = .raises .attributeError)) := by
  obtain ⟨h1, h2⟩ := get_after k ops n hn
  have hk := after_kind k ops
  constructor
  · intro v hv
    have := (h1 v).2 hv
    simp only [call, getattr, hk, if_neg hn, Dict.mem, this]
    simp
  · intro hv
    have := h2.2 hv
    refine ⟨?_, ?_, ?_⟩
    · simp only [call, this]
    · simp only [call, Dict.mem, this]; rfl
    · intro hg
      simp only [call, getattr, hk, if_neg hn, this, method]
      exact if_neg hg

theorem get_reads (k : Kind) (ops : List (Op V)) (n : Bytes) (hn : n ∉ props k) (hg : ∀ v, ¬ Stored ops b!"get" v) :
    (∀ v, Stored ops n v → (call (after k ops) (.get n)).1 = .val (.val v)) ∧
    ((∀ v, ¬ Stored ops n v) → (call (after k ops) (.get n)).1 = .none) := by
  have hm : b!"get" ∉ props k := by cases k <;> decide
  have hgn := (get_after k ops b!"get" hm).2.2 hg
  obtain ⟨h1, h2⟩ := get_after k ops n hn
  have hk := after_kind k ops
  have hga : getattr (after k ops) method = .val .method := by
    simp only [getattr, hk, method, if_neg hm, hgn, if_true]
  constructor
  · intro v hv
    simp only [call, hga, (h1 v).2 hv]
  · intro hv
    simp only [call, hga, h2.2 hv]

theorem opts_after (k : Kind) (ops : List (Op V)) (n : Bytes) :
    Dict.get (after k ops).opts n = resolve (given ops).reverse n := by
  have hga : ∀ a b : List (Op V), given (a ++ b) = given a ++ given b := by
    intro a b
    induction a with
    | nil => rfl
    | cons e t ih => cases e <;> simp only [List.cons_append, given, ih]
  induction ops using snocInd with
  | h0 => rfl
  | h1 l a ih =>
    rw [after_snoc, hga]
    have hsame : ∀ (c : Ctx V) m v, (setattr c m v).2.opts = c.opts := by
      intro c m v; unfold setattr; split <;> rfl
    have hdel : ∀ (c : Ctx V) m, (delattr c m).2.opts = c.opts := by
      intro c m; unfold delattr; split
      · rfl
      · split <;> rfl
    cases a with
    | update o =>
      simp only [call, Dict.get_merge, given, List.reverse_append, List.reverse_cons, List.reverse_nil, List.nil_append,
        List.singleton_append, resolve, List.findSome?_cons]
      rw [ih]
      cases Dict.get o n <;> simp [resolve]
    | setattr m v => simp only [call, hsame, given, List.append_nil, ih]
    | setitem m v => simp only [call, hsame, given, List.append_nil, ih]
    | delattr m => simp only [call, hdel, given, List.append_nil, ih]
    | _ => simp only [call, given, List.append_nil, ih]

end Context

open Context

/-! ## C114 -/

/-- **C114 (found).** Whatever happened in the worker: a name of a connection's context gives the value last stored under it for this
connection since it was accepted, as `context.n`, as `context['n']` and with `in`; a name under which nothing is stored is missing in
all three ways.  What other connections and the worker's context did makes no difference.  (`get` names a method.) -/
theorem C114_found (evs post : List (Ev V)) (c : Nat) (h : Since c evs post) (n : Bytes) (ho : n ≠ b!"options") (ht : n ≠ b!"tasks") :
    (∀ v, Stored (opsOf c post) n v →
      ask evs c (.getitem n) = .val (.val v) ∧ ask evs c (.getattr n) = .val (.val v) ∧ ask evs c (.contains n) = .bool true) ∧
    ((∀ v, ¬ Stored (opsOf c post) n v) →
      ask evs c (.getitem n) = .raises .keyError ∧ ask evs c (.contains n) = .bool false ∧
      (n ≠ b!"get" → ask evs c (.getattr n) = .raises .attributeError)) := by
  simp only [ask_eq evs post c h]
  exact reads .server _ n (by simp [props, ho, ht])

/-- **C114 (get).** `context.get('n')` gives the same value, or None for a missing name, unless the program has stored something under
the name `get`. -/
theorem C114_get_partial (evs post : List (Ev V)) (c : Nat) (h : Since c evs post) (n : Bytes) (ho : n ≠ b!"options")
    (ht : n ≠ b!"tasks") (hg : ∀ v, ¬ Stored (opsOf c post) b!"get" v) :
    (∀ v, Stored (opsOf c post) n v → ask evs c (.get n) = .val (.val v)) ∧
    ((∀ v, ¬ Stored (opsOf c post) n v) → ask evs c (.get n) = .none) := by
  simp only [ask_eq evs post c h]
  exact get_reads .server _ n (by simp [props, ho, ht]) hg

/-- **C114 (get, lost).** Once something is stored under the name `get`, `context.get(...)` calls that value for every name. -/
theorem C114_refuted_get (evs post : List (Ev V)) (c : Nat) (h : Since c evs post) (v : V) (hg : Stored (opsOf c post) b!"get" v)
    (n : Bytes) : ask evs c (.get n) = .calls (.val v) := by
  rw [ask_eq evs post c h]
  have hm : b!"get" ∉ props .server := by decide
  have h1 := ((get_after .server (opsOf c post) b!"get" hm).1 v).2 hg
  have hga : getattr (after .server (opsOf c post)) method = .val (.val v) := by
    simp only [getattr, after_kind, method, if_neg hm, h1]
  simp only [call, hga]

/-- **C114 (worker).** The context of the worker is one for all connections: a name gives the value last stored under it by any of
them. -/
theorem C114_worker (evs : List (Ev V)) (n : Bytes) (ho : n ≠ b!"options") (ht : n ≠ b!"queues") :
    (∀ v, Stored (workerOps evs) n v →
      askWorker evs (.getitem n) = .val (.val v) ∧ askWorker evs (.getattr n) = .val (.val v) ∧
      askWorker evs (.contains n) = .bool true) ∧
    ((∀ v, ¬ Stored (workerOps evs) n v) →
      askWorker evs (.getitem n) = .raises .keyError ∧ askWorker evs (.contains n) = .bool false ∧
      (n ≠ b!"get" → askWorker evs (.getattr n) = .raises .attributeError)) := by
  simp only [askWorker_eq]
  exact reads .worker _ n (by simp [props, ho, ht])

/-- **C114 (kept).** `options` and `tasks` of a connection, and `options` and `queues` of the worker, are for ever the objects they were
at the start: reads give them, assignments and deletions are refused and change nothing. -/
theorem C114_kept (evs post : List (Ev V)) (c : Nat) (h : Since c evs post) (n : Bytes) (v : V) :
    (n = b!"options" ∨ n = b!"tasks" →
      ask evs c (.getattr n) = .val (.made n) ∧ ask evs c (.getitem n) = .val (.made n) ∧
      ask evs c (.setattr n v) = .raises .attributeError ∧ ask evs c (.setitem n v) = .raises .attributeError ∧
      ask evs c (.delattr n) = .raises .attributeError) ∧
    (n = b!"options" ∨ n = b!"queues" →
      askWorker evs (.getattr n) = .val (.made n) ∧ askWorker evs (.getitem n) = .val (.made n) ∧
      askWorker evs (.setattr n v) = .raises .attributeError ∧ askWorker evs (.setitem n v) = .raises .attributeError ∧
      askWorker evs (.delattr n) = .raises .attributeError) := by
  have key : ∀ k (ops : List (Op V)), n ∈ props k →
      (call (after k ops) (.getattr n)).1 = .val (.made n) ∧ (call (after k ops) (.getitem n)).1 = .val (.made n) ∧
      (call (after k ops) (.setattr n v)).1 = .raises .attributeError ∧ (call (after k ops) (.setitem n v)).1 = .raises .attributeError ∧
      (call (after k ops) (.delattr n)).1 = .raises .attributeError := by
    intro k ops hn
    have h1 := get_after_prop k ops n hn
    have hk := after_kind k ops
    simp only [call, getattr, setattr, delattr, hk, if_pos hn, h1]
    simp
  simp only [ask_eq evs post c h, askWorker_eq]
  exact ⟨fun hn => key _ _ (by simpa [props] using hn), fun hn => key _ _ (by simpa [props] using hn)⟩

/-! ## The options -/

/-- What `context.options` holds under a name after a history. -/
def optionOf (evs : List (Ev V)) (c : Nat) (n : Bytes) : Option V := (Dict.get (run start evs).conns c).bind (fun x => Dict.get x.opts n)

/-- **C114 (options).** Under each name `context.options` holds the value of the latest dictionary with that name, among all that were
handed over on this connection since it was accepted. -/
theorem C114_options (evs post : List (Ev V)) (c : Nat) (h : Since c evs post) (n : Bytes) :
    optionOf evs c n = resolve (given (opsOf c post)).reverse n := by
  obtain ⟨pre, rfl, hp⟩ := h
  simp only [optionOf, conn_of c pre post hp, Option.bind_some, opts_after]

/-- What the calls for a request on connection `c` do to its context. -/
def updates {F : Type} (c : Nat) (calls : List (Call F V)) : List (Ev V) := (calls.filterMap updateOf).map (fun o => .on c (.update o))

/-- The options of the middlewares and handlers among the calls. -/
def handed {F : Type} : List (Call F V) → List (Opts V)
  | [] => []
  | .middleware _ o :: t => o :: handed t
  | .handler _ o :: t => o :: handed t
  | _ :: t => handed t

theorem handed_eq {F : Type} : ∀ (l : List (Call F V)), l.filterMap updateOf = handed l
  | [] => rfl
  | x :: t => by cases x <;> simp only [handed, List.filterMap_cons, updateOf, handed_eq t]

/-- **C114 (requests).** After any requests on a connection, with any middlewares: `context.options` holds under each name the value that
the latest middleware or handler with an option of that name had, whichever request that was for. -/
theorem C114_requests {F : Type} (c : Nat) (pre : List (Ev V)) (reqs : List (List (Call F V))) (n : Bytes) :
    optionOf (pre ++ .accept c :: reqs.flatMap (updates c)) c n = resolve (reqs.flatMap handed).reverse n := by
  rw [show reqs.flatMap handed = reqs.flatMap (·.filterMap updateOf) from by simp only [handed_eq]]
  have hno : ∀ l : List (Opts V), Ev.accept c ∉ l.map (fun o => Ev.on c (Op.update o)) := by
    intro l h
    simp at h
  have e : reqs.flatMap (updates c) = (reqs.flatMap (·.filterMap updateOf)).map (fun o => Ev.on c (.update o)) := by
    induction reqs with
    | nil => rfl
    | cons q t ih => simp only [List.flatMap_cons, List.map_append, ih, updates]
  rw [C114_options _ _ c ⟨pre, rfl, by rw [e]; exact hno _⟩, e]
  congr 2
  generalize reqs.flatMap (·.filterMap updateOf) = l
  induction l with
  | nil => rfl
  | cons o t ih => simp only [List.map_cons, opsOf, if_true, given, ih]

/-- **C114 (own options).** When a function of the application runs, each of its own options has its own value in `context.options`. -/
theorem C114_own_partial (evs post : List (Ev V)) (c : Nat) (h : Since c evs post) (o : Opts V) (n : Bytes) (v : V)
    (hv : Dict.get o n = some v) : optionOf (evs ++ [.on c (.update o)]) c n = some v := by
  have h' : Since c (evs ++ [.on c (.update o)]) (post ++ [.on c (.update o)]) := by
    obtain ⟨pre, rfl, hp⟩ := h
    exact ⟨pre, by simp, by simpa using hp⟩
  rw [C114_options _ _ c h']
  have hg : ∀ a b : List (Op V), given (a ++ b) = given a ++ given b := by
    intro a b
    induction a with
    | nil => rfl
    | cons e t ih => cases e <;> simp only [List.cons_append, given, ih]
  rw [opsOf_append, hg]
  simp [opsOf, given, resolve, hv]

/-- **C114 (first).** If nothing was handed over before on the connection, `context.options` is what the function was registered with
(and the defaults), and nothing else. -/
theorem C114_first_partial (evs post : List (Ev V)) (c : Nat) (h : Since c evs post) (hg : given (opsOf c post) = []) (o : Opts V)
    (n : Bytes) : optionOf (evs ++ [.on c (.update o)]) c n = Dict.get o n := by
  have h' : Since c (evs ++ [.on c (.update o)]) (post ++ [.on c (.update o)]) := by
    obtain ⟨pre, rfl, hp⟩ := h
    exact ⟨pre, by simp, by simpa using hp⟩
  rw [C114_options _ _ c h', opsOf_append]
  have hga : ∀ a b : List (Op V), given (a ++ b) = given a ++ given b := by
    intro a b
    induction a with
    | nil => rfl
    | cons e t ih => cases e <;> simp only [List.cons_append, given, ih]
  rw [hga, hg]
  simp only [opsOf, if_true, given, List.nil_append, List.reverse_cons, List.reverse_nil, resolve, List.findSome?_cons, List.findSome?_nil]
  cases Dict.get o n <;> rfl

/-- A program with the routes `/a`, whose handler has an option `x`, and `/b`, whose handler has none. -/
def twoRoutes : Table Nat Nat :=
  addRoute (addRoute (initTable 0 1 2 3 [] []) b!"/a" 4 [(b!"x", 7)]) b!"/b" 5 []

/-- The calls for a request for `url`: no middlewares, the handler returns a body. -/
def callsFor (url : Bytes) : List (Call Nat Nat) := (headersReceived (fun _ _ => false) twoRoutes 1 2 [] [] true url .body).1

/-- **C114 (options, refuted).** On a connection that asked for `/a` first, the handler of `/b` finds the option of the handler of `/a` in
`context.options`; on a connection of its own it does not, and it is not among its options. -/
theorem C114_refuted_options :
    (∀ o, Call.handler 5 o ∈ callsFor b!"/b" → Dict.get o b!"x" = none) ∧
    optionOf (.accept 0 :: (updates 0 (callsFor b!"/b"))) 0 b!"x" = none ∧
    optionOf (.accept 0 :: (updates 0 (callsFor b!"/a") ++ updates 0 (callsFor b!"/b"))) 0 b!"x" = some 7 := by
  have hb : callsFor b!"/b" = [.handler 5 [(b!"rate", 1), (b!"buffer_size", 2)], .respond] := by rfl
  have ha : callsFor b!"/a" = [.handler 4 [(b!"x", 7), (b!"rate", 1), (b!"buffer_size", 2)], .respond] := by rfl
  refine ⟨?_, ?_, ?_⟩
  · intro o h
    rw [hb] at h
    simp at h
    subst h
    decide +kernel
  · rw [hb]; decide +kernel
  · rw [ha, hb]; decide +kernel

/-! ## Cases -/

/-- Two connections store under the same name, and each finds its own value; the second was accepted anew. -/
def story : List (Ev Nat) :=
  [.accept 1, .on 1 (.setattr b!"user" 5), .accept 2, .on 2 (.setitem b!"user" 6), .worker (.setattr b!"user" 9), .on 1 (.getattr b!"user")]

example : Since 1 story (story.drop 1) ∧ Stored (opsOf 1 (story.drop 1)) b!"user" 5 := by
  refine ⟨⟨[], rfl, by simp [story]⟩, [], .setattr b!"user" 5, [.getattr b!"user"], rfl, Or.inl rfl, ?_⟩
  intro x hx
  simp at hx
  subst hx
  rintro (⟨v, h | h⟩ | h) <;> cases h

example : ask story 1 (.getitem b!"user") = .val (.val 5) ∧ ask story 2 (.getattr b!"user") = .val (.val 6) ∧
    askWorker story (.get b!"user") = .val (.val 9) ∧ ask story 2 (.get b!"none") = .none ∧
    ask (story ++ [.on 1 (.delattr b!"user")]) 1 (.getattr b!"user") = .raises .attributeError ∧
    ask (story ++ [.accept 1]) 1 (.contains b!"user") = .bool false := by decide +kernel

/-- The name of the server's own under which the task of the connect hooks is kept can be used by the program: the next request awaits
what the program stored (http_server.py:264). -/
example : ask [.accept 1, .on 1 (.setattr onConnect 0), .on 1 (.setattr onConnect 5)] 1 (.getattr onConnect) = .val (.val 5) := by
  decide +kernel

/-- `context['get'] = 5` and then `context.get('user')`. -/
example : ask (story ++ [.on 1 (.setitem b!"get" 5)]) 1 (.get b!"user") = .calls (.val 5) := by decide +kernel

end Verif
