import Verif.Proofs.Launch
/-!
# C101: options reach the workers; C102: the application that is served
-/
namespace Verif
open Verif.Py Verif.Model.Launch Verif.Spec.Launch
open Verif.Model.App (Opts Addr listen)
open Verif.Model.Args (OVal Options Ports mainCallbacks parseArgs main bind defaults loopArgs)
open Verif.Spec.Args (Item Dashed)
open Proofs.Launch

/-! ## C102 -/

/-- The text of an application with its attribute: `dir` and `stem` name a file, `ext` may be `.py`. -/
structure Named (d stem ext attr : Bytes) : Prop where
  dir : d = [] ∨ d.getLast? = some 47
  stem : stem ≠ [] ∧ (47 : UInt8) ∉ stem ∧ (46 : UInt8) ∉ stem
  ext : ext = [] ∨ ext = b!".py"
  attr : ∀ c ∈ attr, c ≠ 58 ∧ c ≠ 92

/-- **C102 (with an attribute).** `dir/module:attr` and `dir/module.py:attr` name the attribute of the module of that name, from a
directory in which the name stands for the very file that the text names from the working directory. -/
theorem C102_named {cwd d stem ext attr : Bytes} (hc : cwd.head? = some 47) (hn : Named d stem ext attr) :
    ∃ dir, target cwd (d ++ stem ++ ext ++ b!":" ++ attr) = (dir, stem, attr) ∧ dir.head? = some 47 ∧
      locate cwd (dir ++ b!"/" ++ stem ++ b!".py") = locate cwd (d ++ stem ++ b!".py") := by
  obtain ⟨dir, h1, h2, h3, h4⟩ := split_target hc hn.dir hn.stem.1 hn.stem.2.1 hn.stem.2.2 hn.ext
  refine ⟨dir, ?_, h3, h4⟩
  unfold target
  rw [List.append_assoc _ b!":" attr, show b!":" ++ attr = 58 :: attr from rfl]
  simp only [if_neg (app_kept (x := d ++ stem ++ ext) hn.attr), rsplit_colon (x := d ++ stem ++ ext) (fun h => (hn.attr 58 h).1 rfl)]
  rw [h1, h2]

/-- **C102 (without an attribute).** A text without a colon names the attribute `app`. -/
theorem C102_default {cwd d stem ext : Bytes} (hc : cwd.head? = some 47) (hn : Named d stem ext b!"app")
    (h58 : (58 : UInt8) ∉ d ++ stem ++ ext) :
    ∃ dir, target cwd (d ++ stem ++ ext) = (dir, stem, b!"app") ∧ dir.head? = some 47 ∧
      locate cwd (dir ++ b!"/" ++ stem ++ b!".py") = locate cwd (d ++ stem ++ b!".py") := by
  obtain ⟨dir, h1, h2, h3, h4⟩ := split_target hc hn.dir hn.stem.1 hn.stem.2.1 hn.stem.2.2 hn.ext
  refine ⟨dir, ?_, h3, h4⟩
  unfold target
  have hk : contains b!":" (d ++ stem ++ ext) = false := contains_singleton_false.2 h58
  rw [hk]
  simp only [Bool.false_eq_true, not_false_eq_true, or_true, if_true,
    show (d ++ stem ++ ext ++ b!":app") = (d ++ stem ++ ext) ++ 58 :: b!"app" from rfl,
    rsplit_colon (x := d ++ stem ++ ext) (show (58 : UInt8) ∉ b!"app" by decide)]
  rw [h1, h2]

/-- The file `dir/stem.py` is the module `m`, and the name is not taken by a module that is loaded or built in. -/
structure Offers {M O : Type} (w : World M O) (cwd d stem : Bytes) (m : M) : Prop where
  loaded : Dict.get w.loaded stem = none
  builtin : Dict.get w.builtin stem = none
  file : ∀ dir, dir.head? = some 47 → locate cwd (dir ++ b!"/" ++ stem ++ b!".py") = locate cwd (d ++ stem ++ b!".py") →
    w.found dir stem = some m

theorem Launch.load {M O : Type} {w : World M O} {cwd d stem attr app dir : Bytes} {m : M} (h46 : (46 : UInt8) ∉ stem)
    (ho : Offers w cwd d stem m) (ht : target cwd app = (dir, stem, attr)) (hd : dir.head? = some 47)
    (hl : locate cwd (dir ++ b!"/" ++ stem ++ b!".py") = locate cwd (d ++ stem ++ b!".py")) :
    loadApp w cwd app = match w.attr m attr with
      | some o => .ok o
      | none => .error (.noAttr stem attr) := by
  unfold loadApp
  rw [ht]
  have hi : importModule w (dir :: w.path) stem = some m := by
    unfold importModule
    rw [show contains b!"." stem = false from contains_singleton_false.2 h46, ho.loaded, ho.builtin]
    simp [ho.file dir hd hl]
  simp only [hi]
  cases w.attr m attr <;> rfl

/-- **C102 (the application served).** A worker serves the attribute named, of the module in the file named; if the module has no such
attribute, it serves nothing. -/
theorem C102_served {M O : Type} {w : World M O} {cwd d stem ext attr : Bytes} {m : M} (hc : cwd.head? = some 47)
    (hn : Named d stem ext attr) (ho : Offers w cwd d stem m) :
    (loadApp w cwd (d ++ stem ++ ext ++ b!":" ++ attr) = match w.attr m attr with
      | some o => .ok o
      | none => .error (.noAttr stem attr)) ∧
    ((58 : UInt8) ∉ d ++ stem ++ ext → loadApp w cwd (d ++ stem ++ ext) = match w.attr m b!"app" with
      | some o => .ok o
      | none => .error (.noAttr stem b!"app")) := by
  constructor
  · obtain ⟨dir, h1, h2, h3⟩ := C102_named hc hn
    exact Launch.load hn.stem.2.2 ho h1 h2 h3
  · intro h58
    obtain ⟨dir, h1, h2, h3⟩ := C102_default hc ⟨hn.dir, hn.stem, hn.ext, by decide⟩ h58
    exact Launch.load hn.stem.2.2 ho h1 h2 h3

/-- **C102 (an object).** If the object given to `run` is in `__main__` under a name that does not begin with two underscores, the
workers serve what the file of `__main__` has under such a name. -/
theorem C102_object {M O : Type} (eq : O → O → Bool) (truthy : O → Bool) {w : World M O} {cwd d stem : Bytes} {m : M} (o : O)
    (attrs : List (Bytes × O)) (hc : cwd.head? = some 47) (hn : Named d stem b!".py" []) (ho : Offers w cwd d stem m)
    (hid : ∀ a ∈ attrs, ∀ c ∈ a.1, c ≠ 58 ∧ c ≠ 92) (ht : truthy o = true)
    (hin : ∃ a ∈ attrs, startsWith a.1 b!"__" = false ∧ eq a.2 o = true)
    (hsame : ∀ a ∈ attrs, w.attr m a.1 = some a.2) :
    ∃ t a, appText eq truthy ⟨some (d ++ stem ++ b!".py"), attrs⟩ (.obj o) = some (some t) ∧ a ∈ attrs ∧
      startsWith a.1 b!"__" = false ∧ eq a.2 o = true ∧ loadApp w cwd t = .ok a.2 := by
  have hf : ∀ l : List (Bytes × O), (∃ a ∈ l, startsWith a.1 b!"__" = false ∧ eq a.2 o = true) →
      ∃ a ∈ l, findAttr eq o l = a.1 ∧ startsWith a.1 b!"__" = false ∧ eq a.2 o = true := by
    intro l
    induction l with
    | nil => rintro ⟨a, ha, _⟩; cases ha
    | cons x l ih =>
      intro h
      unfold findAttr
      by_cases hx : startsWith x.1 b!"__" = true ∨ eq x.2 o = false
      · rw [if_pos hx]
        obtain ⟨a, ha, h1, h2⟩ := h
        rcases List.mem_cons.1 ha with rfl | ha
        · rcases hx with hx | hx
          · rw [h1] at hx; cases hx
          · rw [h2] at hx; cases hx
        · obtain ⟨b, hb, h3⟩ := ih ⟨a, ha, h1, h2⟩
          exact ⟨b, by simp [hb], h3⟩
      · rw [if_neg hx]
        refine ⟨x, by simp, rfl, ?_, ?_⟩
        · cases h1 : startsWith x.1 b!"__" with
          | false => rfl
          | true => exact absurd (.inl h1) hx
        · cases h1 : eq x.2 o with
          | true => rfl
          | false => exact absurd (.inr h1) hx
  obtain ⟨a, ha, h1, h2, h3⟩ := hf attrs hin
  refine ⟨d ++ stem ++ b!".py" ++ b!":" ++ a.1, a, ?_, ha, h2, h3, ?_⟩
  · unfold appText
    simp only [ht, if_true, Option.map_some, h1]
  · have := (C102_served (w := w) (m := m) hc ⟨hn.dir, hn.stem, hn.ext, hid a ha⟩ ho).1
    rw [this, hsame a ha]

/-- What the example needs of a machine: the working directory `/srv`, the file `/srv/a/web.py`. -/
def Launch.world : World Nat Nat where
  loaded := [(b!"json", 7)]
  builtin := [(b!"time", 8)]
  found := fun dir name => if locate b!"/srv" (dir ++ b!"/" ++ name ++ b!".py") = [b!"web.py", b!"a", b!"srv"] then some 1
    else if locate b!"/srv" (dir ++ b!"/" ++ name ++ b!".py") = [b!"pkg.py", b!"srv"] then some 2 else none
  dotted := fun _ => some 3
  path := [b!"/usr/lib/python3"]
  attr := fun m n => if n = b!"app" then some (100 * m) else if n = b!"other" then some (100 * m + 1) else none

example : loadApp Launch.world b!"/srv" b!"./x/../a//web.py:other" = .ok 101 ∧ loadApp Launch.world b!"/srv" b!"/srv/a/web.py" = .ok 100 := by
  decide +kernel
example : Named b!"./x/../a//" b!"web" b!".py" b!"other" ∧ Offers Launch.world b!"/srv" b!"a/" b!"web" 1 :=
  ⟨⟨by decide, by decide, by decide, by decide⟩, by decide, by decide, by
    intro dir _ h
    unfold Launch.world
    simp only
    rw [if_pos (h.trans (by decide))]⟩

/-- **C102 fails for a module of a package**, `package.module:attr`: the package is imported instead. -/
theorem C102_refuted_package : target b!"/srv" b!"pkg.mod:app" = (b!"/srv", b!"pkg", b!"app") ∧
    loadApp Launch.world b!"/srv" b!"pkg.mod:app" = .ok 200 := by decide +kernel

/-- **C102 fails for a path with a colon and no attribute:** the part behind the colon is taken for the attribute. -/
theorem C102_refuted_colon : target b!"/srv" b!"/srv/v:1/web.py" = (b!"/srv", b!"v", b!"1/web.py") := by decide +kernel

/-- **C102 fails for a file that has the name of a module in use:** that module is taken. -/
theorem C102_refuted_loaded : loadApp Launch.world b!"/srv" b!"/srv/json.py" = .ok 700 := by decide +kernel

/-- **C102 fails for an object that no name of `__main__` stands for** (`run(app=make())`): the attribute `app` is served. -/
theorem C102_refuted_unnamed : appText (· == ·) (fun _ => true) ⟨some b!"/srv/a/web.py", [(b!"__x", 5), (b!"app", 100)]⟩ (.obj 5) =
    some (some b!"/srv/a/web.py:app") ∧ loadApp Launch.world b!"/srv" b!"/srv/a/web.py:app" = .ok 100 := by decide +kernel

/-! ## C101 -/

/-- What is meant for an option: the value given for the address, else that given for all, else the default. -/
def Launch.meant (here all : Opts Val) (k : Bytes) (d : Val) : Val := ((Dict.get here k).or (Dict.get all k)).getD d

/-- The addresses with the options given for each: those of `listen`, and that of `run`. -/
def Launch.addrs (ports : Dict Addr (Opts Val)) (r : RunArgs) : Dict Addr (Opts Val) :=
  match r.host with
  | none => ports
  | some h => if Dict.mem ports (some h, some r.port) then ports else ports ++ [((some h, some r.port), [])]

/-- The workers of an address have its host and port, each option with the value that is meant, and there are as many as are meant. -/
structure Launch.Started (r : RunArgs) (cpus : Nat) (app : Option Bytes) (e : Addr × Opts Val) (s : Start) : Prop where
  host : s.host = e.1.1.getD (r.host.getD b!"localhost")
  port : s.port = e.1.2.getD r.port
  number : ∀ p ∈ numbers, setting s.opts p.1 = some (Launch.meant e.2 r.kw p.1 (.v (.int p.2)))
  ws : setting s.opts b!"ws" = some (Launch.meant e.2 r.kw b!"ws" (.v (.bool true)))
  debug : setting s.opts b!"debug" = some (Launch.meant e.2 r.kw b!"debug" (.v (.bool false)))
  root : setting s.opts b!"root_path" = some (Launch.meant e.2 r.kw b!"root_path" (.v (.str [])))
  other : ∀ k, k ≠ b!"reuse_port" → k ≠ b!"log_level" → k ≠ b!"app" → Dict.get s.opts k = (Dict.get e.2 k).or (Dict.get r.kw k)
  app : Dict.get s.opts b!"app" = (Dict.get e.2 b!"app").or (some (app.elim (.v .none) (fun t => .v (.str t))))
  level : Dict.get s.opts b!"log_level" = (Dict.get e.2 b!"log_level").or ((levelOf r.kw).map (fun l => .v (.str l)))
  reuse : Dict.get s.opts b!"reuse_port" = (Dict.get e.2 b!"reuse_port").or (some (.v (.bool r.reusePort)))
  count : (∀ v, Dict.get e.2 b!"worker_num" = some v → ∃ n, v = .v (.int n) ∧ s.n = n.toNat) ∨ (∃ b, Dict.get e.2 b!"worker_num" = some (.v (.bool b)))
  shared : Dict.get e.2 b!"worker_num" = none → s.n = (min r.workerNum cpus).toNat

namespace Launch

theorem served_numbers : ∀ p ∈ numbers, Dict.get served p.1 = some (.v (.int p.2)) ∧ p.1 ≠ b!"reuse_port" ∧ p.1 ≠ b!"log_level" ∧ p.1 ≠ b!"app" := by
  decide +kernel

theorem get_kwargs (r : RunArgs) (level : Bytes) (a : Option Bytes) (k : Bytes) : Dict.get (kwargsOf r level a) k =
    if b!"app" = k then some (a.elim (.v .none) (fun t => .v (.str t)))
    else if b!"log_level" = k then some (.v (.str level))
    else if b!"reuse_port" = k then some (.v (.bool r.reusePort)) else Dict.get r.kw k := by
  unfold kwargsOf
  rw [Dict.get_set, Dict.get_set, Dict.get_set]
  cases a <;> rfl

theorem setting_meant {o : Opts Val} {k : Bytes} {d : Val} {here all : Opts Val} (hs : Dict.get served k = some d)
    (ho : Dict.get o k = (Dict.get here k).or (Dict.get all k)) : setting o k = some (meant here all k d) := by
  unfold setting meant
  rw [hs, ho]; rfl

theorem start_ok {r : RunArgs} {cpus : Nat} {level : Bytes} {a : Option Bytes} (hl : levelOf r.kw = some level)
    (hw : Dict.get r.kw b!"worker_num" = none) {e : Addr × Opts Val} {o : Opts Val} {n : Nat}
    (hget : ∀ k, Dict.get o k = (Dict.get e.2 k).or (Dict.get (kwargsOf r level a) k))
    (hn : countOf (min r.workerNum cpus) o = some n) :
    Started r cpus a e { host := e.1.1.getD (r.host.getD b!"localhost"), port := e.1.2.getD r.port, opts := o, n := n } := by
  have ho : ∀ k, k ≠ b!"reuse_port" → k ≠ b!"log_level" → k ≠ b!"app" →
      Dict.get o k = (Dict.get e.2 k).or (Dict.get r.kw k) := by
    intro k h1 h2 h3
    rw [hget, get_kwargs, if_neg h3.symm, if_neg h2.symm, if_neg h1.symm]
  have hwn := ho b!"worker_num" (by decide) (by decide) (by decide)
  rw [hw, Option.or_none] at hwn
  refine ⟨rfl, rfl, ?_, ?_, ?_, ?_, ho, ?_, ?_, ?_, ?_, ?_⟩
  · intro p hp
    obtain ⟨h1, h2, h3, h4⟩ := served_numbers p hp
    exact setting_meant h1 (ho _ h2 h3 h4)
  · exact setting_meant (by decide) (ho _ (by decide) (by decide) (by decide))
  · exact setting_meant (by decide) (ho _ (by decide) (by decide) (by decide))
  · exact setting_meant (by decide) (ho _ (by decide) (by decide) (by decide))
  · rw [hget, get_kwargs, if_pos rfl]
  · rw [hget, get_kwargs, if_neg (by decide), if_pos rfl, hl]; rfl
  · rw [hget, get_kwargs, if_neg (by decide), if_neg (by decide), if_pos rfl]
  · unfold countOf at hn
    rw [hwn] at hn
    cases hv : Dict.get e.2 b!"worker_num" with
    | none => exact .inl (by intro v h; cases h)
    | some v =>
      rw [hv] at hn
      cases v with
      | ssl d => cases hn
      | v o =>
        cases o with
        | int n' => exact .inl (by intro v h; cases h; exact ⟨n', rfl, by cases hn; rfl⟩)
        | bool b => exact .inr ⟨b, rfl⟩
        | str t => cases hn
        | none => cases hn
  · intro hv
    unfold countOf at hn
    rw [hwn, hv] at hn
    cases hn; rfl

theorem startAll_ok {r : RunArgs} {cpus : Nat} {level : Bytes} {a : Option Bytes} (hl : levelOf r.kw = some level)
    (hw : Dict.get r.kw b!"worker_num" = none) : ∀ {ports ports' : Dict Addr (Opts Val)} {l : List Start},
    All2 (fun e e' => e.1 = e'.1 ∧ ∀ k, (Dict.get e'.2 k).or (Dict.get (kwargsOf r level a) k) = (Dict.get e.2 k).or (Dict.get (kwargsOf r level a) k))
      ports' ports →
    startAll (r.host.getD b!"localhost") r.port (min r.workerNum cpus) (kwargsOf r level a) ports = some l →
    All2 (Started r cpus a) ports' l
  | [], _, l, hp, h => by cases hp; cases h; exact .nil
  | e :: t, _, l, hp, h => by
    cases hp with
    | cons h0 hp =>
      rename_i e' t'
      unfold startAll at h
      split at h
      · rename_i s l' h1 h2
        cases h
        refine .cons ?_ (startAll_ok hl hw hp h2)
        unfold startOf at h1
        simp only [Option.map_eq_some_iff] at h1
        obtain ⟨n, hn, rfl⟩ := h1
        rw [← h0.1]
        exact start_ok hl hw (by intro k; rw [Dict.get_merge, h0.2]) hn
      · cases h

theorem All2.refl {α : Type} {R : α → α → Prop} (h : ∀ a, R a a) : ∀ l : List α, All2 R l l
  | [] => .nil
  | _ :: t => .cons (h _) (All2.refl h t)

theorem All2.append {α β : Type} {R : α → β → Prop} {a b : List α} {x y : List β} (h1 : All2 R a x) (h2 : All2 R b y) : All2 R (a ++ b) (x ++ y) := by
  induction h1 with
  | nil => exact h2
  | cons h _ ih => exact .cons h ih

theorem set_new {K V : Type} [DecidableEq K] : ∀ {d : Dict K V} {k : K} {v : V}, Dict.mem d k = false → Dict.set d k v = d ++ [(k, v)]
  | [], _, _, _ => rfl
  | (k', v') :: t, k, v, h => by
    unfold Dict.set
    by_cases hk : k' = k
    · subst hk; simp [Dict.mem, Dict.get] at h
    · rw [if_neg hk, set_new (d := t) (by simpa [Dict.mem, Dict.get, hk] using h)]; rfl

theorem listen_snd {O : Type} (ports : Dict Addr O) (h : Bytes) (n : Int) (o : O) : (listen ports (.port n) (some h) o).2 =
    if Dict.mem ports (some h, some n) = true then ports else Dict.set ports (some h, some n) o := by
  unfold listen
  simp only
  split
  · rename_i h1; exact (if_pos h1).symm
  · rename_i h1; exact (if_neg h1).symm

theorem startAll_some {host : Bytes} {port n : Int} {kw : Opts Val} : ∀ {ports : Dict Addr (Opts Val)},
    (∀ e ∈ ports, (countOf n (Dict.merge kw e.2)).isSome) → ∃ l, startAll host port n kw ports = some l
  | [], _ => ⟨[], rfl⟩
  | e :: t, h => by
    obtain ⟨l, hl⟩ := startAll_some (host := host) (port := port) (n := n) (kw := kw) (ports := t) (fun e he => h e (by simp [he]))
    obtain ⟨k, hk⟩ := Option.isSome_iff_exists.1 (h e (by simp))
    unfold startAll startOf
    simp only [hk, Option.map_some, hl]
    exact ⟨_, rfl⟩

end Launch

open Launch in
/-- **C101 (options).** When `run` comes to start workers, it starts them for each address given to `listen` and for its own, in this
order, and each option has the value given for the address, else the value given to `run`, else the documented default. -/
theorem C101_options {O : Type} (eq : O → O → Bool) (truthy : O → Bool) (m : Main O) (cpus : Nat) (ports : Dict Addr (Opts Val))
    (app : AppArg O) (r : RunArgs) (l : List Start) (hw : Dict.get r.kw b!"worker_num" = none)
    (h : run eq truthy m cpus ports app r = .ok l) :
    ∃ a, appText eq truthy m app = some a ∧ All2 (Started r cpus a) (addrs ports r) l ∧ 1 ≤ r.workerNum ∧ (r.host = none → ports ≠ []) := by
  unfold run at h
  cases hl : levelOf r.kw with
  | none => simp [hl] at h
  | some level =>
    cases ha : appText eq truthy m app with
    | none => simp [hl, ha] at h
    | some a =>
      simp only [hl, ha] at h
      split at h
      · cases h
      · rename_i hp
        split at h
        · cases h
        · rename_i hn
          refine ⟨a, rfl, ?_, by omega, by intro h1 h2; exact hp ⟨h1, h2⟩⟩
          split at h
          · rename_i l' h1
            cases h
            refine startAll_ok hl hw ?_ h1
            unfold addrs portsOf
            cases hh : r.host with
            | none => exact All2.refl (fun _ => ⟨rfl, fun _ => rfl⟩) _
            | some h0 =>
              simp only
              rw [listen_snd]
              by_cases hm : Dict.mem ports (some h0, some r.port) = true
              · rw [if_pos hm, if_pos hm]; exact All2.refl (fun _ => ⟨rfl, fun _ => rfl⟩) _
              · rw [if_neg hm, if_neg hm]
                rw [set_new (by simpa using hm)]
                refine All2.append (All2.refl (fun _ => ⟨rfl, fun _ => rfl⟩) _) (.cons ⟨rfl, ?_⟩ .nil)
                intro k
                simp [Dict.get]
          · cases h

/-- **C101 (it starts).** With an address, at least one worker, a text as log level and numbers of workers that are numbers, `run` comes
to start the workers; with no address, or with less than one worker, it raises. -/
theorem C101_starts {O : Type} (eq : O → O → Bool) (truthy : O → Bool) (m : Main O) (cpus : Nat) (ports : Dict Addr (Opts Val))
    (app : AppArg O) (r : RunArgs) (hw : Dict.get r.kw b!"worker_num" = none) (hl : (levelOf r.kw).isSome)
    (ha : (appText eq truthy m app).isSome) (hc : ∀ e ∈ ports, ∀ v, Dict.get e.2 b!"worker_num" = some v → ∃ n, v = .v (.int n)) :
    (r.host ≠ none ∨ ports ≠ [] → 1 ≤ r.workerNum → ∃ l, run eq truthy m cpus ports app r = .ok l) ∧
    (r.host = none → ports = [] → run eq truthy m cpus ports app r = .error .noPorts) ∧
    (r.host ≠ none ∨ ports ≠ [] → r.workerNum < 1 → run eq truthy m cpus ports app r = .error .workerNum) := by
  obtain ⟨level, hl⟩ := Option.isSome_iff_exists.1 hl
  obtain ⟨a, ha⟩ := Option.isSome_iff_exists.1 ha
  unfold run
  simp only [hl, ha]
  refine ⟨?_, ?_, ?_⟩
  · intro h1 h2
    rw [if_neg (by rintro ⟨h3, h4⟩; rcases h1 with h1 | h1; exact h1 h3; exact h1 h4), if_neg (by omega)]
    have hcount : ∀ lo : Opts Val, (∀ v, Dict.get lo b!"worker_num" = some v → ∃ n, v = .v (.int n)) →
        (countOf (min r.workerNum cpus) (Dict.merge (kwargsOf r level a) lo)).isSome := by
      intro lo hlo
      unfold countOf
      rw [Dict.get_merge, Launch.get_kwargs, if_neg (by decide), if_neg (by decide), if_neg (by decide), hw, Option.or_none]
      cases hv : Dict.get lo b!"worker_num" with
      | none => rfl
      | some v => obtain ⟨n, rfl⟩ := hlo v hv; rfl
    have hk : ∀ v, Dict.get (kwargsOf r level a) b!"worker_num" = some v → ∃ n, v = Val.v (.int n) := by
      intro v hv
      rw [Launch.get_kwargs, if_neg (by decide), if_neg (by decide), if_neg (by decide), hw] at hv
      cases hv
    have hall : ∀ e ∈ portsOf ports r (kwargsOf r level a),
        (countOf (min r.workerNum cpus) (Dict.merge (kwargsOf r level a) e.2)).isSome := by
      unfold portsOf
      cases r.host with
      | none => intro e he; exact hcount _ (hc e he)
      | some h0 =>
        simp only
        rw [Launch.listen_snd]
        split
        · intro e he; exact hcount _ (hc e he)
        · rename_i hm
          rw [Launch.set_new (by simpa using hm)]
          intro e he
          rcases List.mem_append.1 he with he | he
          · exact hcount _ (hc e he)
          · simp only [List.mem_cons, List.not_mem_nil, or_false] at he; rw [he]; exact hcount _ hk
    obtain ⟨l, h⟩ := Launch.startAll_some (host := r.host.getD b!"localhost") (port := r.port) hall
    exact ⟨l, by rw [h]⟩
  · intro h1 h2; rw [if_pos ⟨h1, h2⟩]
  · intro h1 h2
    rw [if_neg (by rintro ⟨h3, h4⟩; rcases h1 with h1 | h1; exact h1 h3; exact h1 h4), if_pos h2]

/-! ### From the command line -/

namespace Launch
open Verif.Spec.Args (tableGet flagTable textTable numberTable sslTable)
open Proofs.Args (tableGet_mem)

/-- What the options that `run` names are set to. -/
theorem item_kinds (int? : Bytes → Option Int) (i : Item) (k : Bytes) (v : OVal) (h : itemOpt int? i = some (k, v)) :
    (k = b!"host" → ∃ s, v = .str s) ∧ (k = b!"log_level" → ∃ s, v = .str s) ∧ (k = b!"port" → ∃ n, v = .int n) ∧
      (k = b!"worker_num" → ∃ n, v = .int n) ∧ k ≠ b!"ssl" ∧ k ≠ b!"app" := by
  cases i with
  | flag o =>
    simp only [itemOpt, Option.map_eq_some_iff, Prod.mk.injEq] at h
    obtain ⟨⟨k', b⟩, h1, rfl, rfl⟩ := h
    have := tableGet_mem h1
    have hd : ∀ x ∈ flagTable, x.2.1 ≠ b!"host" ∧ x.2.1 ≠ b!"log_level" ∧ x.2.1 ≠ b!"port" ∧ x.2.1 ≠ b!"worker_num" ∧ x.2.1 ≠ b!"ssl" ∧ x.2.1 ≠ b!"app" := by decide
    obtain ⟨h2, h3, h4, h5, h6, h7⟩ := hd _ this
    exact ⟨fun e => absurd e h2, fun e => absurd e h3, fun e => absurd e h4, fun e => absurd e h5, h6, h7⟩
  | text o v' =>
    simp only [itemOpt, Option.map_eq_some_iff, Prod.mk.injEq] at h
    obtain ⟨k', h1, rfl, rfl⟩ := h
    have := tableGet_mem h1
    have hd : ∀ x ∈ textTable, x.2 ≠ b!"port" ∧ x.2 ≠ b!"worker_num" ∧ x.2 ≠ b!"ssl" ∧ x.2 ≠ b!"app" := by decide
    obtain ⟨h4, h5, h6, h7⟩ := hd _ this
    exact ⟨fun _ => ⟨_, rfl⟩, fun _ => ⟨_, rfl⟩, fun e => absurd e h4, fun e => absurd e h5, h6, h7⟩
  | number o v' =>
    simp only [itemOpt] at h
    split at h
    · rename_i k' n h1 h2
      simp only [Option.some.injEq, Prod.mk.injEq] at h
      obtain ⟨rfl, rfl⟩ := h
      have := tableGet_mem h1
      have hd : ∀ x ∈ numberTable, x.2 ≠ b!"host" ∧ x.2 ≠ b!"log_level" ∧ x.2 ≠ b!"ssl" ∧ x.2 ≠ b!"app" := by decide
      obtain ⟨h4, h5, h6, h7⟩ := hd _ this
      exact ⟨fun e => absurd e h4, fun e => absurd e h5, fun _ => ⟨_, rfl⟩, fun _ => ⟨_, rfl⟩, h6, h7⟩
    · cases h
  | ssl o v' => simp [itemOpt] at h

theorem lastSet_mem {β : Type} {sets : List (Bytes × β)} {k : Bytes} {d : Option β} {v : β} (h : lastSet sets k d = some v) :
    (k, v) ∈ sets ∨ d = some v := by
  unfold lastSet at h
  cases hf : (sets.filter (fun p => p.1 == k)).getLast? with
  | none => rw [hf] at h; exact .inr (by simpa using h)
  | some p =>
    rw [hf] at h
    simp only [Option.map_some, Option.some_or, Option.some.injEq] at h
    have hm : p ∈ sets.filter (fun p => p.1 == k) := List.mem_of_getLast? hf
    simp only [List.mem_filter, beq_iff_eq] at hm
    left
    rw [← hm.2, ← h]; exact hm.1

theorem lastSet_some {β : Type} {sets : List (Bytes × β)} {k : Bytes} {d : β} : ∃ v, lastSet sets k (some d) = some v := by
  unfold lastSet
  cases (sets.filter (fun p => p.1 == k)).getLast? <;> simp

theorem get_mapV (l : List (Bytes × OVal)) (k : Bytes) : Dict.get (l.map (fun e => (e.1, Val.v e.2))) k = (Dict.get l k).map Val.v := by
  induction l with
  | nil => rfl
  | cons p t ih =>
    simp only [List.map_cons, Dict.get]
    split
    · rfl
    · exact ih

theorem get_kwOf (o : Options) {k : Bytes} (h1 : k ≠ b!"host") (h2 : k ≠ b!"port") (h3 : k ≠ b!"worker_num") :
    Dict.get (kwOf o) k = ((Dict.get o.opts k).map Val.v).or (if b!"ssl" = k then some (.ssl o.ssl) else none) := by
  unfold kwOf
  rw [Dict.get_append, get_mapV, Dict.get_filter o.opts (fun k => !(k == b!"host" || k == b!"port" || k == b!"worker_num"))]
  simp [h1, h2, h3, Dict.get]

theorem get_kwOf_num (o : Options) : Dict.get (kwOf o) b!"worker_num" = none := by
  unfold kwOf
  rw [Dict.get_append, get_mapV, Dict.get_filter o.opts (fun k => !(k == b!"host" || k == b!"port" || k == b!"worker_num"))]
  simp [Dict.get]

/-- The workers are started as the line says: `S` are its options in order, `T` those of `ssl`. -/
structure FromLine (S : List (Bytes × OVal)) (T : List (Bytes × Bytes)) (app : Bytes) (s : Start) : Prop where
  number : ∀ q ∈ numbers, setting s.opts q.1 = (lastSet S q.1 (some (.int q.2))).map .v
  ws : setting s.opts b!"ws" = (lastSet S b!"ws" (some (.bool true))).map .v
  debug : setting s.opts b!"debug" = (lastSet S b!"debug" (some (.bool false))).map .v
  root : setting s.opts b!"root_path" = (lastSet S b!"root_path" (some (.str []))).map .v
  app : Dict.get s.opts b!"app" = some (.v (.str app))
  level : ∃ t, lastSet S b!"log_level" (some (.str b!"DEBUG")) = some (.str t) ∧ Dict.get s.opts b!"log_level" = some (.v (.str (upper t)))
  name : ∀ t, lastSet S b!"server_name" (some (.str b!"Tremolo")) = some (.str t) →
    serverName s.opts true = some (if t = [] then [] else t ++ b!" (ASGI)")
  plain : T = [] → tls s.opts = none
  tls : T ≠ [] → tls s.opts = some ((lastSet T b!"cert" (some [])).getD [], lastSet T b!"key" none)
  loop : lastSet S b!"loop" none = none → loopOf s.opts = some (b!"asyncio", b!"new_event_loop")
  loopSet : ∀ t m c, lastSet S b!"loop" none = some (.str t) → Spec.Launch.Loop t m c → loopOf s.opts = some (m, c)

theorem lastSet_or {β : Type} (S : List (Bytes × β)) (k : Bytes) (d : β) : lastSet S k (some d) = some ((lastSet S k none).getD d) := by
  unfold lastSet
  cases (S.filter (fun p => p.1 == k)).getLast? <;> rfl

theorem lastSet_ne {β : Type} {S : List (Bytes × β)} (h : S ≠ []) : ∃ k v, lastSet S k none = some v := by
  obtain ⟨p, t, rfl⟩ := List.exists_cons_of_ne_nil h
  have : ((p :: t).filter (fun q => q.1 == p.1)) ≠ [] := by simp
  refine ⟨p.1, (((p :: t).filter (fun q => q.1 == p.1)).getLast this).2, ?_⟩
  unfold lastSet
  rw [List.getLast?_eq_some_getLast this]; rfl

theorem from_line {int? : Bytes → Option Int} {items : List Item} {o : Options} {r : RunArgs} {cpus : Nat} {app : Bytes}
    {e : Addr × Opts Val} {s : Start}
    (ho : ∀ k, k ≠ b!"host" → k ≠ b!"port" → Dict.get o.opts k = lastSet (items.filterMap (itemOpt int?)) k none)
    (hs : ∀ k, Dict.get o.ssl k = lastSet (items.filterMap itemSsl) k none)
    (hr : r.kw = kwOf o) (he : e.2 = []) (h : Started r cpus (some app) e s) :
    FromLine (items.filterMap (itemOpt int?)) (items.filterMap itemSsl) app s := by
  have hkind : ∀ k v, lastSet (items.filterMap (itemOpt int?)) k none = some v → ∃ i, itemOpt int? i = some (k, v) := by
    intro k v hv
    rcases lastSet_mem hv with h | h
    · obtain ⟨i, _, hi⟩ := List.mem_filterMap.1 h; exact ⟨i, hi⟩
    · cases h
  have hget : ∀ k, k ≠ b!"host" → k ≠ b!"port" → k ≠ b!"worker_num" → k ≠ b!"ssl" →
      Dict.get r.kw k = (lastSet (items.filterMap (itemOpt int?)) k none).map .v := by
    intro k h1 h2 h3 h4
    rw [hr, get_kwOf o h1 h2 h3, if_neg h4.symm, Option.or_none, ho k h1 h2]
  have hmeant : ∀ k d, k ≠ b!"host" → k ≠ b!"port" → k ≠ b!"worker_num" → k ≠ b!"ssl" →
      some (meant e.2 r.kw k (.v d)) = (lastSet (items.filterMap (itemOpt int?)) k (some d)).map .v := by
    intro k d h1 h2 h3 h4
    unfold meant
    rw [he, hget k h1 h2 h3 h4, lastSet_or]
    cases lastSet (items.filterMap (itemOpt int?)) k none <;> rfl
  have hother : ∀ k, k ≠ b!"reuse_port" → k ≠ b!"log_level" → k ≠ b!"app" → Dict.get s.opts k = Dict.get r.kw k := by
    intro k h1 h2 h3
    rw [h.other k h1 h2 h3, he]; rfl
  refine ⟨?_, ?_, ?_, ?_, ?_, ?_, ?_, ?_, ?_, ?_, ?_⟩
  · intro q hq
    have hn : ∀ q ∈ numbers, q.1 ≠ b!"host" ∧ q.1 ≠ b!"port" ∧ q.1 ≠ b!"worker_num" ∧ q.1 ≠ b!"ssl" := by decide
    obtain ⟨h1, h2, h3, h4⟩ := hn q hq
    rw [h.number q hq, hmeant _ _ h1 h2 h3 h4]
  · rw [h.ws, hmeant _ _ (by decide) (by decide) (by decide) (by decide)]
  · rw [h.debug, hmeant _ _ (by decide) (by decide) (by decide) (by decide)]
  · rw [h.root, hmeant _ _ (by decide) (by decide) (by decide) (by decide)]
  · rw [h.app, he]; rfl
  · have hl := hget b!"log_level" (by decide) (by decide) (by decide) (by decide)
    rw [h.level, he]
    unfold levelOf
    rw [hl, lastSet_or]
    cases hv : lastSet (items.filterMap (itemOpt int?)) b!"log_level" none with
    | none => exact ⟨_, rfl, rfl⟩
    | some v =>
      obtain ⟨i, hi⟩ := hkind _ _ hv
      obtain ⟨t, rfl⟩ := (item_kinds int? i _ _ hi).2.1 rfl
      exact ⟨t, rfl, rfl⟩
  · intro t ht
    rw [lastSet_or] at ht
    unfold serverName
    rw [hother _ (by decide) (by decide) (by decide), hget _ (by decide) (by decide) (by decide) (by decide)]
    cases hv : lastSet (items.filterMap (itemOpt int?)) b!"server_name" none with
    | none => rw [hv] at ht; cases ht; rfl
    | some v =>
      rw [hv] at ht
      simp only [Option.getD_some, Option.some.injEq] at ht
      subst ht
      simp only [Option.map_some]
      by_cases h0 : t = [] <;> simp [h0]
  · intro hT
    have h0 : o.ssl = [] := by
      cases hh : o.ssl with
      | nil => rfl
      | cons p t =>
        have := hs p.1
        rw [hh, hT] at this
        simp [Dict.get, lastSet] at this
    unfold Model.Launch.tls
    rw [hother _ (by decide) (by decide) (by decide), hr, get_kwOf o (by decide) (by decide) (by decide), ho _ (by decide) (by decide)]
    cases hv : lastSet (items.filterMap (itemOpt int?)) b!"ssl" none with
    | none => simp [h0]
    | some v => obtain ⟨i, hi⟩ := hkind _ _ hv; exact absurd rfl (item_kinds int? i _ _ hi).2.2.2.2.1
  · intro hT
    have h0 : o.ssl ≠ [] := by
      obtain ⟨k, v, hk⟩ := lastSet_ne hT
      intro hh
      have := hs k
      rw [hh, hk] at this
      cases this
    unfold Model.Launch.tls
    rw [hother _ (by decide) (by decide) (by decide), hr, get_kwOf o (by decide) (by decide) (by decide), ho _ (by decide) (by decide)]
    cases hv : lastSet (items.filterMap (itemOpt int?)) b!"ssl" none with
    | none =>
      simp only [Option.map_none, Option.none_or, if_true, h0, if_false, hs, lastSet_or, Option.getD_some]
    | some v => obtain ⟨i, hi⟩ := hkind _ _ hv; exact absurd rfl (item_kinds int? i _ _ hi).2.2.2.2.1
  · intro hv
    apply loopOf_none
    rw [hother _ (by decide) (by decide) (by decide), hget _ (by decide) (by decide) (by decide) (by decide), hv]; rfl
  · intro t m c hv hl
    refine loopOf_some (t := t) ?_ hl
    rw [hother _ (by decide) (by decide) (by decide), hget _ (by decide) (by decide) (by decide) (by decide), hv]; rfl

/-- The arguments of `run`. -/
theorem of_main {int? : Bytes → Option Int} {items : List Item} {o : Options} (hb : Bool)
    (ho : ∀ k, k ≠ b!"host" → Dict.get o.opts k = lastSet (items.filterMap (itemOpt int?)) k (if b!"port" = k then some (.int 8000) else none))
    (hh : Dict.get o.opts b!"host" = if hb then some .none else lastSet (items.filterMap (itemOpt int?)) b!"host" (some (.str b!"127.0.0.1"))) :
    ∃ h p n, lastSet (items.filterMap (itemOpt int?)) b!"host" (some (.str b!"127.0.0.1")) = some (.str h) ∧
      lastSet (items.filterMap (itemOpt int?)) b!"port" (some (.int 8000)) = some (.int p) ∧
      lastSet (items.filterMap (itemOpt int?)) b!"worker_num" (some (.int 1)) = some (.int n) ∧
      ofMain o = some { host := if hb then none else some h, port := p, workerNum := n, kw := kwOf o } := by
  have hkind : ∀ k v, lastSet (items.filterMap (itemOpt int?)) k none = some v → ∃ i, itemOpt int? i = some (k, v) := by
    intro k v hv
    rcases lastSet_mem hv with h | h
    · obtain ⟨i, _, hi⟩ := List.mem_filterMap.1 h; exact ⟨i, hi⟩
    · cases h
  have h1 : ∃ h, lastSet (items.filterMap (itemOpt int?)) b!"host" (some (.str b!"127.0.0.1")) = some (.str h) := by
    rw [lastSet_or]
    cases hv : lastSet (items.filterMap (itemOpt int?)) b!"host" none with
    | none => exact ⟨_, rfl⟩
    | some v => obtain ⟨i, hi⟩ := hkind _ _ hv; obtain ⟨t, rfl⟩ := (item_kinds int? i _ _ hi).1 rfl; exact ⟨t, rfl⟩
  have h2 : ∃ p, lastSet (items.filterMap (itemOpt int?)) b!"port" (some (.int 8000)) = some (.int p) := by
    rw [lastSet_or]
    cases hv : lastSet (items.filterMap (itemOpt int?)) b!"port" none with
    | none => exact ⟨_, rfl⟩
    | some v => obtain ⟨i, hi⟩ := hkind _ _ hv; obtain ⟨t, rfl⟩ := (item_kinds int? i _ _ hi).2.2.1 rfl; exact ⟨t, rfl⟩
  have h3 : ∃ n, lastSet (items.filterMap (itemOpt int?)) b!"worker_num" (some (.int 1)) = some (.int n) := by
    rw [lastSet_or]
    cases hv : lastSet (items.filterMap (itemOpt int?)) b!"worker_num" none with
    | none => exact ⟨_, rfl⟩
    | some v => obtain ⟨i, hi⟩ := hkind _ _ hv; obtain ⟨t, rfl⟩ := (item_kinds int? i _ _ hi).2.2.2.1 rfl; exact ⟨t, rfl⟩
  obtain ⟨h, h1⟩ := h1
  obtain ⟨p, h2⟩ := h2
  obtain ⟨n, h3⟩ := h3
  refine ⟨h, p, n, h1, h2, h3, ?_⟩
  unfold ofMain
  have hp := ho b!"port" (by decide)
  rw [if_pos rfl, h2] at hp
  have hn : (Dict.get o.opts b!"worker_num").getD (.int 1) = .int n := by
    rw [ho _ (by decide), if_neg (by decide)]
    rw [lastSet_or] at h3
    exact Option.some.inj h3
  rw [hp, hn, hh]
  cases hb
  · simp [h1]
  · simp

theorem level_ok {int? : Bytes → Option Int} {items : List Item} {o : Options}
    (ho : ∀ k, k ≠ b!"host" → k ≠ b!"port" → Dict.get o.opts k = lastSet (items.filterMap (itemOpt int?)) k none) :
    (levelOf (kwOf o)).isSome := by
  unfold levelOf
  rw [get_kwOf o (by decide) (by decide) (by decide), if_neg (by decide), Option.or_none, ho _ (by decide) (by decide)]
  cases hv : lastSet (items.filterMap (itemOpt int?)) b!"log_level" none with
  | none => rfl
  | some v =>
    rcases lastSet_mem hv with hm | hm
    · obtain ⟨i, _, hi⟩ := List.mem_filterMap.1 hm
      obtain ⟨t, rfl⟩ := (item_kinds int? i _ _ hi).2.1 rfl
      rfl
    · cases hm

theorem step_bind (int? : Bytes → Option Int) (v : Bytes) (st : Options × Ports) :
    Model.Args.stepArg int? (mainCallbacks int?) b!"--bind" v st = bind int? v st := by rfl

theorem All2.imp_mem {α β : Type} {R Q : α → β → Prop} {l : List α} {m : List β} (h : All2 R l m) (hq : ∀ a ∈ l, ∀ b, R a b → Q a b) : All2 Q l m := by
  induction h with
  | nil => exact .nil
  | cons h _ ih => exact .cons (hq _ (by simp) _ h) (ih (fun a ha b => hq a (by simp [ha]) b))

theorem All2.of_map {α β γ : Type} {R : γ → β → Prop} (f : α → γ) : ∀ {l : List α} {m : List β}, All2 R (l.map f) m → All2 (fun a b => R (f a) b) l m
  | [], _, h => by cases h; exact .nil
  | a :: t, _, h => by cases h with | cons h1 h2 => exact .cons h1 (All2.of_map f h2)

theorem All2.to_map {α β γ : Type} {R : γ → β → Prop} (f : α → γ) {l : List α} {m : List β} (h : All2 (fun a b => R (f a) b) l m) : All2 R (l.map f) m := by
  induction h with
  | nil => exact .nil
  | cons h _ ih => exact .cons h ih

end Launch

open Launch in
/-- **C101 (the command line).** `python -m tremolo OPTIONS APP`: workers are started for one address, the host and port of the last
`--host` and `--port`, and each option has the value of its last occurrence, or the default that the usage text names. -/
theorem C101_command {O : Type} (eq : O → O → Bool) (truthy : O → Bool) (m : Main O) (cpus : Nat) (int? : Bytes → Option Int)
    (prog app : Bytes) (items : List Item) (hp : ¬ Dashed prog) (ha : ¬ Dashed app) (hg : ∀ i ∈ items, i.Good int?) (hne : app ≠ prog)
    (ha0 : app ≠ []) :
    ∃ o r h p n, main int? (prog :: (items.flatMap Item.args ++ [app])) = .ok (o, [], some app) ∧ ofMain o = some r ∧
      lastSet (items.filterMap (itemOpt int?)) b!"host" (some (.str b!"127.0.0.1")) = some (.str h) ∧
      lastSet (items.filterMap (itemOpt int?)) b!"port" (some (.int 8000)) = some (.int p) ∧
      lastSet (items.filterMap (itemOpt int?)) b!"worker_num" (some (.int 1)) = some (.int n) ∧
      (n < 1 → run eq truthy m cpus [] (.text app) r = .error .workerNum) ∧
      (1 ≤ n → ∃ s, run eq truthy m cpus [] (.text app) r = .ok [s] ∧ s.host = h ∧ s.port = p ∧ s.n = (min n cpus).toNat ∧
        FromLine (items.filterMap (itemOpt int?)) (items.filterMap itemSsl) app s) := by
  obtain ⟨⟨o, h1, h2, h3⟩, -⟩ := C58_wellformed_partial int? (mainCallbacks int?) ([] : Ports) prog app items hp ha hg
  have hmain : main int? (prog :: (items.flatMap Item.args ++ [app])) = .ok (o, [], some app) := by
    unfold main
    rw [h1]
    have hl : (prog :: (items.flatMap Item.args ++ [app])).getLast? = some app := by
      rw [List.getLast?_cons, List.getLast?_append]; simp
    simp only [List.head?_cons]
    rw [hl]
    simp only
    rw [if_pos ⟨hne, by rw [Proofs.Args.dashed_iff]; exact ha⟩]
  obtain ⟨h, p, n, e1, e2, e3, e4⟩ := of_main (items := items) (int? := int?) (o := o) false
    (by
      intro k hk
      rw [h2]
      simp only [Dict.get, if_neg hk.symm])
    (by rw [h2]; rfl)
  simp only [Bool.false_eq_true, if_false] at e4
  refine ⟨o, _, h, p, n, hmain, e4, e1, e2, e3, ?_⟩
  have ho : ∀ k, k ≠ b!"host" → k ≠ b!"port" → Dict.get o.opts k = lastSet (items.filterMap (itemOpt int?)) k none := by
    intro k hk hk2
    rw [h2]
    simp only [Dict.get, if_neg hk.symm, if_neg hk2.symm]
  have hlev := level_ok (o := o) ho
  have happ : appText eq truthy m (.text app) = some (some app) := by
    unfold appText
    simp [ha0]
  obtain ⟨s1, -, s3⟩ := C101_starts eq truthy m cpus [] (.text app) { host := some h, port := p, workerNum := n, kw := kwOf o }
    (get_kwOf_num o) hlev (by rw [happ]; rfl) (by intro e he; cases he)
  refine ⟨fun hn => s3 (.inl (by simp)) hn, ?_⟩
  intro hn
  obtain ⟨l, hl⟩ := s1 (.inl (by simp)) hn
  obtain ⟨a, ha1, ha2, -, -⟩ := C101_options eq truthy m cpus [] (.text app) _ l (get_kwOf_num o) hl
  rw [happ] at ha1
  cases ha1
  cases ha2 with
  | cons x y =>
    cases y
    rename_i s
    exact ⟨s, hl, x.host, x.port, x.shared rfl, from_line ho h3 rfl rfl x⟩

open Launch in
/-- **C101 (`--bind`).** `python -m tremolo OPTIONS --bind ADDRESSES APP`: workers are started for each address of the list, once, and for
no other; an address without a host is on `localhost`. Each option has the value of its last occurrence, or the documented default. -/
theorem C101_bind {O : Type} (eq : O → O → Bool) (truthy : O → Bool) (m : Main O) (cpus : Nat) (int? : Bytes → Option Int)
    (prog app : Bytes) (items : List Item) (binds : List BindItem) (hp : ¬ Dashed prog) (ha : ¬ Dashed app) (hg : ∀ i ∈ items, i.Good int?)
    (hne : app ≠ prog) (ha0 : app ≠ []) (hb : binds ≠ []) (hbg : ∀ b ∈ binds, b.Good int?)
    (hd : ¬ Dashed (join b!"," (binds.map BindItem.text))) :
    ∃ o ports r p n, main int? (prog :: (items.flatMap Item.args ++ [b!"--bind", join b!"," (binds.map BindItem.text), app])) =
        .ok (o, ports, some app) ∧ ofMain o = some r ∧ (ports.map (·.1)).Nodup ∧ (∀ a, a ∈ ports.map (·.1) ↔ ∃ b ∈ binds, b.addr = a) ∧
      lastSet (items.filterMap (itemOpt int?)) b!"port" (some (.int 8000)) = some (.int p) ∧
      lastSet (items.filterMap (itemOpt int?)) b!"worker_num" (some (.int 1)) = some (.int n) ∧
      (1 ≤ n → ∃ l, run eq truthy m cpus (ports.map (fun e => (e.1, []))) (.text app) r = .ok l ∧
        All2 (fun a s => s.host = a.1.getD b!"localhost" ∧ s.port = a.2.getD p ∧ s.n = (min n cpus).toNat ∧
          FromLine (items.filterMap (itemOpt int?)) (items.filterMap itemSsl) app s) (ports.map (·.1)) l) := by
  obtain ⟨o, h1, h2, h3⟩ := Proofs.Args.loop_items int? (mainCallbacks int?) [b!"--bind", join b!"," (binds.map BindItem.text), app] (by simp)
    items hg (defaults, ([] : Ports))
  obtain ⟨ports, b1, b2, -, b4⟩ := C59_bind int? binds hb hbg o []
  let o' : Options := { o with opts := Dict.set o.opts b!"host" .none }
  have hparse : parseArgs int? (mainCallbacks int?) (prog :: (items.flatMap Item.args ++ [b!"--bind", join b!"," (binds.map BindItem.text), app])) [] =
      .ok (o', ports) := by
    unfold parseArgs
    rw [Proofs.Args.argPairs_cons]
    have hl : (prog :: (items.flatMap Item.args ++ [b!"--bind", join b!"," (binds.map BindItem.text), app])).getLast (by simp) = app := by
      rw [List.getLast_cons (by simp), List.getLast_append_of_ne_nil _ (by simp)]; rfl
    rw [hl]
    obtain ⟨c, hc⟩ := Proofs.Args.adj_cons (o := prog) (l := items.flatMap Item.args ++ [b!"--bind", join b!"," (binds.map BindItem.text), app]) (by simp)
    rw [hc]
    simp only [loopArgs, Proofs.Args.step_plain int? _ app prog ha, Proofs.Args.step_plain int? _ prog c hp]
    rw [h1]
    simp only [Proofs.Args.adj, loopArgs, step_bind, b1, Proofs.Args.step_plain int? _ _ app hd]
    rfl
  have hmain : main int? (prog :: (items.flatMap Item.args ++ [b!"--bind", join b!"," (binds.map BindItem.text), app])) = .ok (o', ports, some app) := by
    unfold main
    rw [hparse]
    have hl : (prog :: (items.flatMap Item.args ++ [b!"--bind", join b!"," (binds.map BindItem.text), app])).getLast? = some app := by
      rw [List.getLast?_cons, List.getLast?_append]; simp
    simp only [List.head?_cons]
    rw [hl]
    simp only
    rw [if_pos ⟨hne, by rw [Proofs.Args.dashed_iff]; exact ha⟩]
  have h2' : ∀ k, k ≠ b!"host" → Dict.get o'.opts k = lastSet (items.filterMap (itemOpt int?)) k (if b!"port" = k then some (.int 8000) else none) := by
    intro k hk
    show Dict.get (Dict.set o.opts b!"host" .none) k = _
    rw [Dict.get_set, if_neg hk.symm, h2]
    show lastSet _ k (Dict.get [(b!"host", OVal.str b!"127.0.0.1"), (b!"port", OVal.int 8000)] k) = _
    simp only [Dict.get, if_neg hk.symm]
  obtain ⟨h, p, n, e1, e2, e3, e4⟩ := of_main (items := items) (int? := int?) (o := o') true h2'
    (by show Dict.get (Dict.set o.opts b!"host" .none) b!"host" = _; rw [Dict.get_set, if_pos rfl]; rfl)
  simp only [if_true] at e4
  have hmem : ∀ a, a ∈ ports.map (·.1) ↔ ∃ b ∈ binds, b.addr = a := by
    intro a
    have := b2 a
    rw [show Dict.mem ([] : Ports) a = false from rfl, Bool.false_or] at this
    have h5 := Dict.mem_iff ports a
    rw [this, List.any_eq_true] at h5
    simp only [List.mem_map, beq_iff_eq] at h5 ⊢
    rw [h5]
    constructor
    · rintro ⟨⟨a', v⟩, h6, rfl⟩; exact ⟨v, h6⟩
    · rintro ⟨v, h6⟩; exact ⟨_, h6, rfl⟩
  refine ⟨o', ports, _, p, n, hmain, e4, b4 (by simp), hmem, e2, e3, ?_⟩
  intro hn
  have ho : ∀ k, k ≠ b!"host" → k ≠ b!"port" → Dict.get o'.opts k = lastSet (items.filterMap (itemOpt int?)) k none := by
    intro k hk hk2
    rw [h2' k hk, if_neg hk2.symm]
  have happ : appText eq truthy m (.text app) = some (some app) := by
    unfold appText
    simp [ha0]
  have hports : ports.map (fun e => (e.1, ([] : Opts Val))) ≠ [] := by
    intro h0
    obtain ⟨b, hb'⟩ := List.exists_mem_of_ne_nil _ hb
    have := (hmem b.addr).2 ⟨b, hb', rfl⟩
    rw [List.map_eq_nil_iff] at h0
    rw [h0] at this
    cases this
  obtain ⟨s1, -, -⟩ := C101_starts eq truthy m cpus (ports.map (fun e => (e.1, []))) (.text app) { host := none, port := p, workerNum := n, kw := kwOf o' }
    (get_kwOf_num o') (level_ok ho) (by rw [happ]; rfl) (by
      intro e he v hv
      obtain ⟨x, _, rfl⟩ := List.mem_map.1 he
      cases hv)
  obtain ⟨l, hl⟩ := s1 (.inr hports) hn
  obtain ⟨a, ha1, ha2, -, -⟩ := C101_options eq truthy m cpus _ (.text app) _ l (get_kwOf_num o') hl
  rw [happ] at ha1
  cases ha1
  refine ⟨l, hl, ?_⟩
  apply All2.to_map
  have ha3 : All2 (Started { host := none, port := p, workerNum := n, kw := kwOf o' } cpus (some app)) (ports.map (fun e => (e.1, ([] : Opts Val)))) l := ha2
  refine Launch.All2.imp_mem (Launch.All2.of_map _ ha3) ?_
  intro e _ s x
  exact ⟨x.host, x.port, x.shared rfl, from_line ho h3 rfl rfl x⟩

namespace Launch

theorem All2.right {α β : Type} {R : α → β → Prop} {l : List α} {m : List β} (h : All2 R l m) : ∀ b ∈ m, ∃ a ∈ l, R a b := by
  induction h with
  | nil => intro b hb; cases hb
  | cons h _ ih =>
    intro b hb
    rcases List.mem_cons.1 hb with rfl | hb
    · exact ⟨_, by simp, h⟩
    · obtain ⟨a, ha, h1⟩ := ih b hb; exact ⟨a, by simp [ha], h1⟩

theorem All2.map_eq {α β γ : Type} {R : α → β → Prop} {f : α → γ} {g : β → γ} (hfg : ∀ a b, R a b → g b = f a) {l : List α} {m : List β}
    (h : All2 R l m) : m.map g = l.map f := by
  induction h with
  | nil => rfl
  | cons h _ ih => simp [ih, hfg _ _ h]

theorem addrs_mem {ports : Dict Addr (Opts Val)} {r : RunArgs} {e : Addr × Opts Val} (h : e ∈ addrs ports r) :
    e ∈ ports ∨ (e.2 = [] ∧ ∃ h0, r.host = some h0 ∧ e.1 = (some h0, some r.port)) := by
  unfold addrs at h
  split at h
  · exact .inl h
  · rename_i h0 hh
    split at h
    · exact .inl h
    · rcases List.mem_append.1 h with h | h
      · exact .inl h
      · simp only [List.mem_cons, List.not_mem_nil, or_false] at h
        exact .inr ⟨by rw [h], h0, hh, by rw [h]⟩

theorem addrs_nodup {ports : Dict Addr (Opts Val)} {r : RunArgs} (h : (ports.map (·.1)).Nodup) : ((addrs ports r).map (·.1)).Nodup := by
  unfold addrs
  split
  · exact h
  · rename_i h0 hh
    split
    · exact h
    · rename_i hm
      rw [List.map_append, List.nodup_append]
      refine ⟨h, by simp, ?_⟩
      intro a ha b hb
      simp only [List.map_cons, List.map_nil, List.mem_cons, List.not_mem_nil, or_false] at hb
      rintro rfl
      apply hm
      rw [Dict.mem_iff, ← hb]
      obtain ⟨x, hx, rfl⟩ := List.mem_map.1 ha
      exact ⟨x.2, hx⟩

end Launch

open Launch in
/-- **C101 (workers).** Where `listen` gives no number, each address gets at least one worker, and no more than there are CPUs. -/
theorem C101_workers_partial {O : Type} (eq : O → O → Bool) (truthy : O → Bool) (m : Main O) (cpus : Nat) (ports : Dict Addr (Opts Val))
    (app : AppArg O) (r : RunArgs) (l : List Start) (hw : Dict.get r.kw b!"worker_num" = none) (hc : 1 ≤ cpus)
    (hp : ∀ e ∈ ports, Dict.get e.2 b!"worker_num" = none) (h : run eq truthy m cpus ports app r = .ok l) :
    l ≠ [] ∧ ∀ s ∈ l, 1 ≤ s.n ∧ s.n ≤ cpus := by
  obtain ⟨a, -, h1, h2, h3⟩ := C101_options eq truthy m cpus ports app r l hw h
  constructor
  · rintro rfl
    have h4 : addrs ports r = [] := by cases hx : addrs ports r with
      | nil => rfl
      | cons x y => rw [hx] at h1; cases h1
    unfold addrs at h4
    split at h4
    · rename_i hh; exact h3 hh h4
    · split at h4
      · rename_i hm; rw [h4] at hm; cases hm
      · simp at h4
  · intro s hs
    obtain ⟨e, he, h4⟩ := Launch.All2.right h1 s hs
    have h5 : s.n = (min r.workerNum cpus).toNat := by
      apply h4.shared
      rcases addrs_mem he with he | ⟨he, -⟩
      · exact hp e he
      · rw [he]; rfl
    rw [h5]; omega

open Launch in
/-- **C101 (log level).** A level given to `run` is taken in upper or lower case, by the workers of each address for which `listen` does
not give another; a level that `logging` does not have, or none, is DEBUG (10). -/
theorem C101_level_partial {O : Type} (eq : O → O → Bool) (truthy : O → Bool) (m : Main O) (cpus : Nat) (ports : Dict Addr (Opts Val))
    (app : AppArg O) (r : RunArgs) (l : List Start) (attrs : Dict Bytes LogAttr) (t : Bytes) (n : Nat)
    (hw : Dict.get r.kw b!"worker_num" = none)
    (ht : Dict.get r.kw b!"log_level" = some (.v (.str t)) ∧ Dict.get attrs (upper t) = some (.level n) ∨
      Dict.get r.kw b!"log_level" = some (.v (.str t)) ∧ Dict.get attrs (upper t) = none ∧ n = 10 ∨
      Dict.get r.kw b!"log_level" = none ∧ Dict.get attrs b!"DEBUG" = some (.level n) ∧ n = 10) (hp : ∀ e ∈ ports, Dict.get e.2 b!"log_level" = none)
    (h : run eq truthy m cpus ports app r = .ok l) : ∀ s ∈ l, setLevel attrs s.opts = some n := by
  obtain ⟨a, -, h1, -, -⟩ := C101_options eq truthy m cpus ports app r l hw h
  intro s hs
  obtain ⟨e, he, h4⟩ := Launch.All2.right h1 s hs
  have h5 : Dict.get e.2 b!"log_level" = none := by
    rcases addrs_mem he with he | ⟨he, -⟩
    · exact hp e he
    · rw [he]; rfl
  have h6 := h4.level
  unfold levelOf at h6
  unfold setLevel
  rcases ht with ⟨ht, hn⟩ | ⟨ht, hn, rfl⟩ | ⟨ht, hn, -⟩ <;> rw [h5, ht] at h6 <;> rw [h6] <;> simp [hn]

open Launch in
/-- **C101 (event loop).** The loop that is named for the address, or to `run`, is the one that its workers run: `module.Class`, or the
`new_event_loop` of a module; that of asyncio if none is named. -/
theorem C101_loop {O : Type} (eq : O → O → Bool) (truthy : O → Bool) (m : Main O) (cpus : Nat) (ports : Dict Addr (Opts Val))
    (app : AppArg O) (r : RunArgs) (l : List Start) (hw : Dict.get r.kw b!"worker_num" = none)
    (h : run eq truthy m cpus ports app r = .ok l) :
    All2 (fun e s => (∀ t md c, (Dict.get e.2 b!"loop").or (Dict.get r.kw b!"loop") = some (.v (.str t)) → Spec.Launch.Loop t md c →
        loopOf s.opts = some (md, c)) ∧
      ((Dict.get e.2 b!"loop").or (Dict.get r.kw b!"loop") = none → loopOf s.opts = some (b!"asyncio", b!"new_event_loop")))
      (addrs ports r) l := by
  obtain ⟨a, -, h1, -, -⟩ := C101_options eq truthy m cpus ports app r l hw h
  refine Launch.All2.imp_mem h1 ?_
  intro e _ s x
  have h2 := x.other b!"loop" (by decide) (by decide) (by decide)
  exact ⟨fun t md c h3 h4 => loopOf_some (by rw [h2, h3]) h4, fun h3 => loopOf_none (by rw [h2, h3])⟩

open Launch in
/-- **C101 (one start for each address).** Where each address has a host and a port, no address is started twice. -/
theorem C101_once_partial {O : Type} (eq : O → O → Bool) (truthy : O → Bool) (m : Main O) (cpus : Nat) (ports : Dict Addr (Opts Val))
    (app : AppArg O) (r : RunArgs) (l : List Start) (hw : Dict.get r.kw b!"worker_num" = none) (hd : (ports.map (·.1)).Nodup)
    (hp : ∀ e ∈ ports, e.1.1.isSome ∧ e.1.2.isSome) (h : run eq truthy m cpus ports app r = .ok l) :
    (l.map (fun s => (s.host, s.port))).Nodup := by
  obtain ⟨a, -, h1, -, -⟩ := C101_options eq truthy m cpus ports app r l hw h
  have h2 : l.map (fun s => (some s.host, some s.port)) = (addrs ports r).map (·.1) := by
    have := Launch.All2.imp_mem h1 (Q := fun e s => (some s.host, some s.port) = e.1) (by
      intro e he s hs
      rw [hs.host, hs.port]
      have : e.1.1.isSome ∧ e.1.2.isSome := by
        rcases addrs_mem he with he | ⟨-, h0, -, he⟩
        · exact hp e he
        · rw [he]; exact ⟨rfl, rfl⟩
      obtain ⟨⟨x, y⟩, z⟩ := e
      obtain ⟨x', rfl⟩ := Option.isSome_iff_exists.1 this.1
      obtain ⟨y', rfl⟩ := Option.isSome_iff_exists.1 this.2
      rfl)
    exact Launch.All2.map_eq (fun a b hab => hab) this
  have h3 := addrs_nodup (r := r) hd
  rw [← h2] at h3
  have h4 : l.map (fun s => (some s.host, some s.port)) = (l.map (fun s => (s.host, s.port))).map (fun p => (some p.1, some p.2)) := by
    rw [List.map_map]; rfl
  rw [h4] at h3
  exact List.Pairwise.imp (fun h e => h (by rw [e])) (List.pairwise_map.1 h3)

/-- A number given to `listen` is neither limited by the CPUs nor checked: with 0 there is no worker at the address. -/
theorem C101_refuted_workers : (run (O := Nat) (· == ·) (fun _ => true) ⟨none, []⟩ 2
      [((none, some 80), [(b!"worker_num", .v (.int 0))]), ((none, some 81), [(b!"worker_num", .v (.int 500))])] .none {}).map
      (fun l => l.map (fun s => (s.port, s.n))) = .ok [(80, 0), (81, 500)] := by decide +kernel

/-- A level in lower case that is given to `listen` names a function of `logging`: each worker of the address fails. -/
theorem C101_refuted_level : (run (O := Nat) (· == ·) (fun _ => true) ⟨none, []⟩ 2 [((none, some 80), [(b!"log_level", .v (.str b!"info"))])]
      .none {}).map (fun l => l.map (fun s => setLevel [(b!"INFO", .level 20), (b!"info", .other)] s.opts)) = .ok [none] := by decide +kernel

/-- `listen(80)` and `run('127.0.0.1', 80)` are the same address, and it is started twice. -/
theorem C101_refuted_twice : (run (O := Nat) (· == ·) (fun _ => true) ⟨none, []⟩ 2 [((none, some 80), [])] .none
      { host := some b!"127.0.0.1", port := 80 }).map (fun l => l.map (fun s => (s.host, s.port))) =
    .ok [(b!"127.0.0.1", 80), (b!"127.0.0.1", 80)] := by decide +kernel

example : (run (O := Nat) (· == ·) (fun _ => true) ⟨none, []⟩ 4 [((some b!"::", some 81), [(b!"buffer_size", .v (.int 5)), (b!"ws", .v (.bool false))])] .none
      { host := some b!"127.0.0.1", port := 80, workerNum := 3, kw := [(b!"buffer_size", .v (.int 7)), (b!"log_level", .v (.str b!"Info"))] }).map
      (fun l => l.map (fun s => (s.host, s.port, s.n, setting s.opts b!"buffer_size", setting s.opts b!"ws", setLevel [(b!"INFO", .level 20)] s.opts))) =
    .ok [(b!"::", 81, 3, some (.v (.int 5)), some (.v (.bool false)), some 20),
      (b!"127.0.0.1", 80, 3, some (.v (.int 7)), some (.v (.bool true)), some 20)] := by rfl

example : Spec.Launch.Loop b!"uvloop" b!"uvloop" b!"new_event_loop" := .plain _ (by decide) (by decide)
example : Spec.Launch.Loop b!"a.b.Loop" b!"a.b" b!"Loop" := .named b!"a.b" b!"Loop" (by decide) (by decide) (by decide)
example : loopOf [(b!"loop", .v (.str b!"a.b.Loop"))] = some (b!"a.b", b!"Loop") := by decide +kernel

example : ∀ i ∈ [Item.number b!"--buffer-size" b!"9", .ssl b!"--ssl-key" b!"k.pem"], i.Good intDec := by
  intro i hi
  simp only [List.mem_cons, List.not_mem_nil, or_false] at hi
  rcases hi with rfl | rfl
  · exact ⟨by decide, by decide, by decide +kernel⟩
  · exact ⟨by decide, by decide⟩
example : ∀ b ∈ [BindItem.tcp b!"" b!"80" 80, .unix b!"/tmp/x.sock"], b.Good intDec := by
  intro b hb
  simp only [List.mem_cons, List.not_mem_nil, or_false] at hb
  rcases hb with rfl | rfl
  · exact ⟨by decide, by decide, by decide, by decide +kernel, by decide, by decide⟩
  · exact ⟨by decide, .inl (by decide)⟩

end Verif
