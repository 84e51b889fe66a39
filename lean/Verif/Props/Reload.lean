import Verif.Model.Reload
import Verif.Py.Util
/-!
# C91: a change of the code reloads the worker
-/
namespace Verif
open Verif.Py Verif.Model.Reload

namespace Reload

/-- The module was loaded from the file `f`, and `f` does not start with any of the paths that are left out. -/
def Watched (ps : List Str) (m : Mod) (f : Str) : Prop := m.file = some (some f) ∧ ∀ p ∈ ps, ¬ p <+: f

theorem Watched.any {ps : List Str} {m : Mod} {f : Str} (h : Watched ps m f) : ps.any (fun p => p.isPrefixOf f) = false := by
  rw [List.any_eq_false]
  intro p hp
  simpa using h.2 p hp

theorem Watched.unique {ps : List Str} {m : Mod} {f g : Str} (h : Watched ps m f) (h' : Watched ps m g) : f = g := by
  have := h.1.symm.trans h'.1; simpa using this

theorem get_forget (w : Dict Mod Sig) (m x : Mod) : Dict.get (w.filter (fun p => p.1 ≠ m)) x = if x = m then none else Dict.get w x := by
  induction w with
  | nil => simp [Dict.get]
  | cons p t ih =>
    obtain ⟨k, v⟩ := p
    by_cases h : k = m
    · rw [List.filter_cons_of_neg (by simp [h]), ih]
      by_cases hx : x = m
      · simp [hx]
      · have : ¬ k = x := fun e => hx (e ▸ h)
        simp [hx, Dict.get, this]
    · rw [List.filter_cons_of_pos (by simp [h])]
      simp only [Dict.get]
      split
      · next e => subst e; simp [h]
      · rw [ih]

/-- What a look at a module gives. -/
theorem look_cases {ps : List Str} {fs : Str → Option Sig} {w : Dict Mod Sig} {m : Mod} :
    (∃ f, Watched ps m f ∧
      ((fs f = none ∧ look ps fs w m = .go (w.filter (fun p => p.1 ≠ m))) ∨
       (∃ s, fs f = some s ∧ Dict.get w m = none ∧ look ps fs w m = .go (Dict.set w m s)) ∨
       (∃ s, fs f = some s ∧ Dict.get w m = some s ∧ look ps fs w m = .go w) ∨
       (∃ s a, fs f = some s ∧ Dict.get w m = some a ∧ a ≠ s ∧ look ps fs w m = .reload m))) ∨
    ((∀ f, ¬ Watched ps m f) ∧ (look ps fs w m = .go w ∨ (ps = [] ∧ m.file = some none ∧ look ps fs w m = .fail))) := by
  unfold look
  split
  · next hf => exact .inr ⟨fun f h => (by rw [h.1] at hf; cases hf), .inl rfl⟩
  · next hf =>
    refine .inr ⟨fun f h => (by rw [h.1] at hf; cases hf), ?_⟩
    split
    · next h => exact .inr ⟨h, hf, rfl⟩
    · exact .inl rfl
  · next f hf =>
    split
    · next h =>
      refine .inr ⟨fun g hg => ?_, .inl rfl⟩
      have : f = g := by have := hf.symm.trans hg.1; simpa using this
      subst this
      rw [hg.any] at h; cases h
    · next h =>
      refine .inl ⟨f, ⟨hf, fun p hp hx => h (List.any_eq_true.2 ⟨p, hp, by simpa using hx⟩)⟩, ?_⟩
      split
      · next e => exact .inl ⟨e, rfl⟩
      · next s e =>
        split
        · next a ha =>
          split
          · next hs => subst hs; exact .inr (.inr (.inl ⟨a, e, ha, rfl⟩))
          · next hs => exact .inr (.inr (.inr ⟨s, a, e, ha, hs, rfl⟩))
        · next ha => exact .inr (.inl ⟨s, e, ha, rfl⟩)

/-- The dictionary after a look that does not reload. -/
theorem look_go {ps : List Str} {fs : Str → Option Sig} {w w' : Dict Mod Sig} {m : Mod} (h : look ps fs w m = .go w') :
    (∀ x, x ≠ m → Dict.get w' x = Dict.get w x) ∧ (∀ f, Watched ps m f → Dict.get w' m = fs f ∧ ∀ a b, Dict.get w m = some a → fs f = some b → a = b) ∧
    ((∀ f, ¬ Watched ps m f) → Dict.get w' m = Dict.get w m) := by
  rcases look_cases (ps := ps) (fs := fs) (w := w) (m := m) with ⟨f, hf, hc⟩ | ⟨hn, hc⟩
  · rcases hc with ⟨h1, h2⟩ | ⟨s, h1, h2, h3⟩ | ⟨s, h1, h2, h3⟩ | ⟨s, a, h1, h2, h3, h4⟩
    · rw [h2] at h; cases h
      refine ⟨fun x hx => by rw [get_forget, if_neg hx], fun g hg => ?_, fun hn => absurd hf (hn f)⟩
      cases hf.unique hg
      exact ⟨by rw [get_forget, if_pos rfl, h1], fun a b _ hb => by rw [h1] at hb; cases hb⟩
    · rw [h3] at h; cases h
      refine ⟨fun x hx => by rw [Dict.get_set, if_neg (Ne.symm hx)], fun g hg => ?_, fun hn => absurd hf (hn f)⟩
      cases hf.unique hg
      exact ⟨by rw [Dict.get_set, if_pos rfl, h1], fun a b ha _ => by rw [h2] at ha; cases ha⟩
    · rw [h3] at h; cases h
      refine ⟨fun x hx => rfl, fun g hg => ?_, fun hn => absurd hf (hn f)⟩
      cases hf.unique hg
      refine ⟨by rw [h2, h1], fun a b ha hb => ?_⟩
      rw [h2] at ha; rw [h1] at hb; cases ha; cases hb; rfl
    · rw [h4] at h; cases h
  · rcases hc with hc | ⟨_, _, hc⟩
    · rw [hc] at h; cases h
      exact ⟨fun _ _ => rfl, fun f hf => absurd hf (hn f), fun _ => rfl⟩
    · rw [hc] at h; cases h

theorem scanL_go {ps : List Str} {fs : Str → Option Sig} : ∀ {l : List Mod} {w w' : Dict Mod Sig}, scanL ps fs l w = .go w' →
    (∀ x, x ∉ l → Dict.get w' x = Dict.get w x) ∧ (∀ x ∈ l, ∀ f, Watched ps x f → Dict.get w' x = fs f ∧ ∀ a b, Dict.get w x = some a → fs f = some b → a = b) ∧
    (∀ x, (∀ f, ¬ Watched ps x f) → Dict.get w' x = Dict.get w x)
  | [], w, w', h => by cases h; exact ⟨fun _ _ => rfl, fun _ hx => (by cases hx), fun _ _ => rfl⟩
  | m :: l, w, w', h => by
    unfold scanL at h
    cases hl : look ps fs w m with
    | reload x => rw [hl] at h; cases h
    | fail => rw [hl] at h; cases h
    | go w1 =>
      rw [hl] at h; dsimp only at h
      obtain ⟨a1, a2, a3⟩ := look_go hl
      obtain ⟨b1, b2, b3⟩ := scanL_go h
      refine ⟨fun x hx => ?_, fun x hx f hf => ?_, fun x hx => ?_⟩
      · rw [List.mem_cons, not_or] at hx
        rw [b1 x hx.2, a1 x hx.1]
      · by_cases hm : x = m
        · subst hm
          refine ⟨?_, (a2 f hf).2⟩
          by_cases hin : x ∈ l
          · exact (b2 x hin f hf).1
          · rw [b1 x hin]; exact (a2 f hf).1
        · have hin : x ∈ l := by simpa [hm] using hx
          refine ⟨(b2 x hin f hf).1, fun a b ha hb => (b2 x hin f hf).2 a b (by rw [a1 x hm]; exact ha) hb⟩
      · rw [b3 x hx]
        by_cases hm : x = m
        · subst hm; exact a3 hx
        · exact a1 x hm

theorem scanL_reload {ps : List Str} {fs : Str → Option Sig} {m : Mod} : ∀ {l : List Mod} {w : Dict Mod Sig}, scanL ps fs l w = .reload m →
    m ∈ l ∧ ∃ f a b, Watched ps m f ∧ Dict.get w m = some a ∧ fs f = some b ∧ a ≠ b
  | [], w, h => by cases h
  | x :: l, w, h => by
    unfold scanL at h
    cases hl : look ps fs w x with
    | fail => rw [hl] at h; cases h
    | reload y =>
      rw [hl] at h; cases h
      rcases look_cases (ps := ps) (fs := fs) (w := w) (m := x) with ⟨f, hf, hc⟩ | ⟨hn, hc⟩
      · rcases hc with ⟨h1, h2⟩ | ⟨s, h1, h2, h3⟩ | ⟨s, h1, h2, h3⟩ | ⟨s, a, h1, h2, h3, h4⟩
        · rw [h2] at hl; cases hl
        · rw [h3] at hl; cases hl
        · rw [h3] at hl; cases hl
        · rw [h4] at hl; cases hl; exact ⟨by simp, f, a, s, hf, h2, h1, h3⟩
      · rcases hc with hc | ⟨_, _, hc⟩ <;> rw [hc] at hl <;> cases hl
    | go w1 =>
      rw [hl] at h; dsimp only at h
      obtain ⟨hm, f, a, b, hf, ha, hb, hne⟩ := scanL_reload h
      obtain ⟨a1, a2, _⟩ := look_go hl
      refine ⟨by simp [hm], f, a, b, hf, ?_, hb, hne⟩
      by_cases hx : m = x
      · subst hx
        have := (a2 f hf).1
        rw [ha, hb] at this; cases this; exact absurd rfl hne
      · rw [← a1 m hx]; exact ha

theorem scanL_fail {ps : List Str} {fs : Str → Option Sig} : ∀ {l : List Mod} {w : Dict Mod Sig}, scanL ps fs l w = .fail → ps = [] ∧ ∃ m ∈ l, m.file = some none
  | [], w, h => by cases h
  | x :: l, w, h => by
    unfold scanL at h
    cases hl : look ps fs w x with
    | reload y => rw [hl] at h; cases h
    | go w1 =>
      rw [hl] at h; dsimp only at h
      obtain ⟨h1, m, hm, h2⟩ := scanL_fail h
      exact ⟨h1, m, by simp [hm], h2⟩
    | fail =>
      rcases look_cases (ps := ps) (fs := fs) (w := w) (m := x) with ⟨f, hf, hc⟩ | ⟨hn, hc⟩
      · rcases hc with ⟨h1, h2⟩ | ⟨s, h1, h2, h3⟩ | ⟨s, h1, h2, h3⟩ | ⟨s, a, h1, h2, h3, h4⟩
        · rw [h2] at hl; cases hl
        · rw [h3] at hl; cases hl
        · rw [h3] at hl; cases hl
        · rw [h4] at hl; cases hl
      · rcases hc with hc | ⟨h1, h2, hc⟩
        · rw [hc] at hl; cases hl
        · exact ⟨h1, x, by simp, h2⟩

theorem run_snoc (ps : List Str) : ∀ (ts : List Tick) (t : Tick) (w : Dict Mod Sig),
    run ps (ts ++ [t]) w = match run ps ts w with | .go w' => scan ps t w' | r => r
  | [], t, w => by
    show (match scan ps t w with | .go w => run ps [] w | r => r) = scan ps t w
    cases scan ps t w <;> rfl
  | x :: ts, t, w => by
    rw [List.cons_append]
    unfold run
    cases scan ps x w with
    | go w1 => exact run_snoc ps ts t w1
    | reload _ => rfl
    | fail => rfl

theorem key_of_get {w : Dict Mod Sig} {m : Mod} {a : Sig} (h : Dict.get w m = some a) : m ∈ w.map (·.1) ∧ w ≠ [] := by
  have := Dict.get_mem h
  exact ⟨List.mem_map.2 ⟨_, this, rfl⟩, fun e => by rw [e] at this; cases this⟩

theorem get_of_key {w : Dict Mod Sig} {m : Mod} (h : m ∈ w.map (·.1)) : ∃ a, Dict.get w m = some a := by
  obtain ⟨⟨k, v⟩, hk, rfl⟩ := List.mem_map.1 h
  have := (Dict.mem_iff w k).2 ⟨v, hk⟩
  unfold Dict.mem at this
  exact Option.isSome_iff_exists.1 this

/-- Every module in the dictionary was loaded at some second, and its file has had this signature ever since. -/
theorem known {ps : List Str} {ts : List Tick} {w : Dict Mod Sig} (h : run ps ts [] = .go w) {m : Mod} {a : Sig} (ha : Dict.get w m = some a) :
    ∃ f pre t0 mid, Watched ps m f ∧ ts = pre ++ t0 :: mid ∧ m ∈ t0.mods ∧ ∀ x ∈ t0 :: mid, x.fs f = some a := by
  induction ts using snocInd generalizing w m a with
  | h0 => cases h; cases ha
  | h1 ts t ih =>
    rw [run_snoc] at h
    cases hr : run ps ts [] with
    | reload _ => rw [hr] at h; cases h
    | fail => rw [hr] at h; cases h
    | go w0 =>
      rw [hr] at h; dsimp only at h
      unfold scan at h
      obtain ⟨s1, s2, s3⟩ := scanL_go h
      have old : ∀ b, Dict.get w0 m = some b → b = a ∧ ∃ f pre t0 mid, Watched ps m f ∧ ts ++ [t] = pre ++ t0 :: mid ∧ m ∈ t0.mods ∧ ∀ x ∈ t0 :: mid, x.fs f = some a := by
        intro b hb
        obtain ⟨hk, hne⟩ := key_of_get hb
        rw [if_neg hne] at s2
        obtain ⟨f, pre, t0, mid, hf, e, hm, hall⟩ := ih hr hb
        obtain ⟨x1, x2⟩ := s2 m hk f hf
        rw [ha] at x1
        have := x2 b a hb x1.symm
        subst this
        refine ⟨rfl, f, pre, t0, mid ++ [t], hf, by rw [e]; simp, hm, fun x hx => ?_⟩
        rcases List.mem_cons.1 hx with rfl | hx
        · exact hall _ (by simp)
        · rcases List.mem_append.1 hx with hx | hx
          · exact hall x (by simp [hx])
          · simp at hx; subst hx; exact x1.symm
      cases hg : Dict.get w0 m with
      | some b => exact (old b hg).2
      | none =>
        by_cases hin : m ∈ (if w0 = [] then t.mods else w0.map (·.1))
        · by_cases hw : ∃ f, Watched ps m f
          · obtain ⟨f, hf⟩ := hw
            have := (s2 m hin f hf).1
            rw [ha] at this
            split at hin
            · exact ⟨f, ts, t, [], hf, by simp, hin, fun x hx => by simp at hx; subst hx; exact this.symm⟩
            · obtain ⟨b, hb⟩ := get_of_key hin
              rw [hb] at hg; cases hg
          · have := s3 m (fun f hf => hw ⟨f, hf⟩)
            rw [ha, hg] at this; cases this
        · have := s1 m hin
          rw [ha, hg] at this; cases this

end Reload
open Reload

/-- **C91 (only changes reload)**: a worker is reloaded only because of a module that was loaded at some second, from a file that is
not under one of the paths left out, which has existed ever since with the same signature and now has another. -/
theorem C91_sound {ps : List Str} {ts : List Tick} {t : Tick} {m : Mod} {w : Dict Mod Sig} (h : run ps ts [] = .go w) (hr : run ps (ts ++ [t]) [] = .reload m) :
    ∃ f a b pre t0 mid, Watched ps m f ∧ ts = pre ++ t0 :: mid ∧ m ∈ t0.mods ∧ (∀ x ∈ t0 :: mid, x.fs f = some a) ∧ t.fs f = some b ∧ a ≠ b := by
  rw [run_snoc, h] at hr
  obtain ⟨_, f, a, b, hf, ha, hb, hne⟩ := scanL_reload hr
  obtain ⟨g, pre, t0, mid, hg, e, hm, hall⟩ := known h ha
  cases hf.unique hg
  exact ⟨f, a, b, pre, t0, mid, hf, e, hm, hall, hb, hne⟩

/-- **C91 (changes reload)**: a module that was loaded at the first second that had anything to watch, and whose file has been there at
every second since. If the file changes, the worker is reloaded (because of this or another module) at the latest in the second
that sees the change. -/
theorem C91_partial {ps : List Str} (hp : ps ≠ []) {pre mid : List Tick} {t0 t : Tick} {m : Mod} {f : Str} {a b : Sig} (hf : Watched ps m f)
    (h0 : run ps pre [] = .go []) (hm : m ∈ t0.mods) (ha : ∀ x ∈ t0 :: mid, x.fs f = some a) (hb : t.fs f = some b) (hne : a ≠ b) :
    ∃ m', run ps (pre ++ t0 :: mid ++ [t]) [] = .reload m' := by
  have base : ∀ w, run ps (pre ++ t0 :: mid) [] = .go w → Dict.get w m = some a := by
    clear hb
    induction mid using snocInd with
    | h0 =>
      intro w h
      rw [show pre ++ [t0] = pre ++ t0 :: [] from rfl] at h
      rw [run_snoc, h0] at h
      dsimp only at h
      unfold scan at h
      rw [if_pos rfl] at h
      rw [((scanL_go h).2.1 m hm f hf).1]
      exact ha t0 (by simp)
    | h1 mid x ih =>
      intro w h
      rw [show pre ++ t0 :: (mid ++ [x]) = (pre ++ t0 :: mid) ++ [x] by simp, run_snoc] at h
      cases hr : run ps (pre ++ t0 :: mid) [] with
      | reload _ => rw [hr] at h; cases h
      | fail => rw [hr] at h; cases h
      | go w0 =>
        rw [hr] at h; dsimp only at h
        have hg := ih (fun y hy => ha y (by rcases List.mem_cons.1 hy with h | h <;> simp [h])) w0 hr
        obtain ⟨hk, hn⟩ := key_of_get hg
        unfold scan at h
        rw [if_neg hn] at h
        rw [((scanL_go h).2.1 m hk f hf).1]
        exact ha x (by simp)
  have nofail : ∀ (l : List Tick), run ps l [] ≠ .fail := by
    intro l
    induction l using snocInd with
    | h0 => intro h; cases h
    | h1 l y ih =>
      intro h
      rw [run_snoc] at h
      cases hr : run ps l [] with
      | reload _ => rw [hr] at h; cases h
      | fail => exact ih hr
      | go w0 => rw [hr] at h; exact hp (scanL_fail h).1
  cases hr : run ps (pre ++ t0 :: mid ++ [t]) [] with
  | reload m' => exact ⟨m', rfl⟩
  | fail => exact absurd hr (nofail _)
  | go w' =>
    exfalso
    rw [run_snoc] at hr
    cases hr0 : run ps (pre ++ t0 :: mid) [] with
    | reload _ => rw [hr0] at hr; cases hr
    | fail => rw [hr0] at hr; cases hr
    | go w0 =>
      rw [hr0] at hr; dsimp only at hr
      have hg := base w0 hr0
      obtain ⟨hk, hn⟩ := key_of_get hg
      unfold scan at hr
      rw [if_neg hn] at hr
      exact hne (((scanL_go hr).2.1 m hk f hf).2 a b hg hb)

/-- **C91 (what is never seen)**: as long as one module is watched and its file stays as it is, a module that is not watched by then never
reloads the worker, whatever happens to its file. -/
theorem C91_never {ps : List Str} {pre mid : List Tick} {w : Dict Mod Sig} {m m0 : Mod} {f0 : Str} {a0 : Sig} (h : run ps pre [] = .go w)
    (hw : Watched ps m0 f0) (h0 : Dict.get w m0 = some a0) (hall : ∀ x ∈ mid, x.fs f0 = some a0) (hm : Dict.get w m = none) :
    run ps (pre ++ mid) [] ≠ .reload m := by
  have key : (∀ w', run ps (pre ++ mid) [] = .go w' → Dict.get w' m0 = some a0 ∧ Dict.get w' m = none) ∧ run ps (pre ++ mid) [] ≠ .reload m := by
    induction mid using snocInd with
    | h0 =>
      rw [List.append_nil, h]
      exact ⟨fun w' e => by cases e; exact ⟨h0, hm⟩, fun e => by cases e⟩
    | h1 mid x ih =>
      obtain ⟨i1, i2⟩ := ih (fun y hy => hall y (by simp [hy]))
      rw [← List.append_assoc, run_snoc]
      cases hr : run ps (pre ++ mid) [] with
      | fail => exact ⟨fun _ e => (by cases e), fun e => (by cases e)⟩
      | reload m' => exact ⟨fun _ e => (by cases e), fun e => i2 (by rw [hr]; exact e)⟩
      | go w1 =>
        obtain ⟨g0, g1⟩ := i1 w1 hr
        obtain ⟨hk, hn⟩ := key_of_get g0
        dsimp only
        unfold scan
        rw [if_neg hn]
        refine ⟨fun w' e => ?_, fun e => ?_⟩
        · obtain ⟨s1, s2, _⟩ := scanL_go e
          refine ⟨by rw [(s2 m0 hk f0 hw).1]; exact hall x (by simp), ?_⟩
          rw [s1 m (fun hx => ?_)]
          · exact g1
          · obtain ⟨b, hb⟩ := get_of_key hx
            rw [hb] at g1; cases g1
        · obtain ⟨_, _, a, _, _, ha, _⟩ := scanL_reload e
          rw [g1] at ha; cases ha
  exact key.2

/-- **C91 (what is watched)**: the files of modules that no entry of `sys.path` leads to, unless it also leads to the directory of the application. -/
theorem C91_watched {sysPath : List Str} {appDir f : Str} {m : Mod} :
    Watched (paths sysPath appDir) m f ↔ m.file = some (some f) ∧ ∀ p ∈ sysPath, p <+: f → p <+: appDir := by
  unfold Watched paths
  constructor
  · rintro ⟨h1, h2⟩
    refine ⟨h1, fun p hp hf => ?_⟩
    cases ha : p.isPrefixOf appDir with
    | true => simpa using ha
    | false => exact absurd hf (h2 p (List.mem_filter.2 ⟨hp, by simp [ha]⟩))
  · rintro ⟨h1, h2⟩
    refine ⟨h1, fun p hp hf => ?_⟩
    obtain ⟨hp, ha⟩ := List.mem_filter.1 hp
    have : p.isPrefixOf appDir = true := by simpa using h2 p hp hf
    rw [this] at ha; cases ha

namespace Reload
def sA : Sig := ⟨0o100000, 10, 1⟩
def sB : Sig := ⟨0o100000, 12, 2⟩
/-- `sys.path` is `/srv/app`, `/srv/app/lib` and the library; the application is in `/srv/app`. -/
def ps0 : List Str := paths ["/srv/app".toList, "/srv/app/lib".toList, "/usr/lib".toList] "/srv/app".toList
def main : Mod := ⟨0, some (some "/srv/app/main.py".toList)⟩
def late : Mod := ⟨1, some (some "/srv/app/late.py".toList)⟩
def library : Mod := ⟨2, some (some "/srv/app/library.py".toList)⟩
def os : Mod := ⟨3, some (some "/usr/lib/os.py".toList)⟩
def sys : Mod := ⟨4, none⟩
def nspkg : Mod := ⟨5, some none⟩
def fsOf (l : List (Str × Sig)) : Str → Option Sig := Dict.get l
def both (a b : Sig) : Str → Option Sig := fsOf [("/srv/app/main.py".toList, a), ("/srv/app/late.py".toList, b), ("/srv/app/library.py".toList, b), ("/usr/lib/os.py".toList, b)]
end Reload

/-- A file is edited while the server runs: the worker is reloaded because of it. The change of a library file does not. -/
example : Watched ps0 main "/srv/app/main.py".toList ∧
    run ps0 [⟨[sys, nspkg, os, main], both sA sA⟩, ⟨[sys, nspkg, os, main], both sA sB⟩] [] = .go [(main, sA)] ∧
    run ps0 [⟨[sys, nspkg, os, main], both sA sA⟩, ⟨[sys, nspkg, os, main], both sA sB⟩, ⟨[sys, nspkg, os, main], both sB sB⟩] [] = .reload main := by
  refine ⟨⟨rfl, ?_⟩, ?_, ?_⟩ <;> decide +kernel

/-- C91 as it stands is false: a module of the application that is imported after the first second (say, inside a handler) is never looked at; -/
theorem C91_refuted_late : late ∈ (⟨[main, late], both sA sA⟩ : Tick).mods ∧ Watched ps0 late "/srv/app/late.py".toList ∧
    run ps0 [⟨[main], both sA sA⟩, ⟨[main, late], both sA sA⟩, ⟨[main, late], both sA sB⟩] [] = .go [(main, sA)] := by
  refine ⟨?_, ⟨rfl, ?_⟩, ?_⟩ <;> decide +kernel

/-- a file that is missing at one second (an editor that removes the file and writes it anew) is forgotten, and its new content goes unseen; -/
theorem C91_refuted_missing : run ps0 [⟨[main, late], both sA sA⟩, ⟨[main, late], fsOf [("/srv/app/main.py".toList, sA)]⟩, ⟨[main, late], both sA sB⟩] [] = .go [(main, sA)] := by
  decide +kernel

/-- and the paths are compared without a separator: with `/srv/app/lib` on `sys.path`, the file `/srv/app/library.py` of the application is left out. -/
theorem C91_refuted_prefix : run ps0 [⟨[main, library], both sA sA⟩, ⟨[main, library], both sA sB⟩] [] = .go [(main, sA)] := by
  decide +kernel

/-- When every entry of `sys.path` leads to the application, a namespace package ends the worker with an exception. -/
theorem C91_refuted_fail : paths ["/srv/app".toList, "/srv".toList] "/srv/app".toList = [] ∧ run [] [⟨[sys, nspkg, main], both sA sA⟩] [] = .fail := by
  decide +kernel

end Verif
