import Verif.Proofs.Rebind
/-!
# C103: after a reload the workers are given the routes, error handlers, middlewares and hooks of the changed program
-/
namespace Verif
open Verif.Py Verif.Model.Rebind Verif.Spec.Rebind
open Proofs.Rebind

namespace Rebind

/-- What the interpreter has loaded before the application: nothing from the directory of the application. -/
structure Base (E : Env) (base : Dict Bytes Mod) : Prop where
  nodup : (base.map (·.1)).Nodup
  foreign : ∀ q r, Dict.get base q = some r → ¬ E.helper q ∧ q ≠ E.main ∧ (Special q ∨ r.file = none ∨ ∃ p, r.file = some p ∧ startsWith p E.dir = false)

/-- Another process that imports the module now finds the function. -/
def Findable (d : Disk) (m n : Bytes) : Prop := ∃ p t ds, d.path m = some p ∧ d.text p = some t ∧ .defn n ds ∈ t

theorem findable {E : Env} {d : Disk} {src : List Stmt} (hP : Program E d src) {main h m n : Bytes} (hd : Denotes main src h m n)
    (hm : m = main → d.path m = some E.script) : Findable d m n := by
  rcases hd with ⟨⟨ds, h1⟩, rfl, rfl⟩ | h1
  · exact ⟨_, _, ds, hm rfl, hP.text, h1⟩
  · obtain ⟨-, h2, t, h3, h4⟩ := hP.imports m n h h1
    exact ⟨_, t, [], h2, h3, h4⟩

theorem All2.all {α β : Type} {R : α → β → Prop} : ∀ {l : List α} {m : List β}, All2 R l m → ∀ b ∈ m, ∃ a, R a b
  | _, _, .cons h t, b, hb => by
    rcases List.mem_cons.1 hb with rfl | hb
    · exact ⟨_, h⟩
    · exact All2.all t b hb

theorem boot_ok {E : Env} {d : Disk} {src : List Stmt} {base : Dict Bytes Mod} (n : Nat) (hE : E.Ok) (hP : Program E d src) (hb : Base E base) :
    ∃ s me, boot d (n + 2) base E.script E.a = .ok (s, me) ∧ Good b!"__main__" src me.routes s ∧ Held E s me ∧ E.main ∉ keys s ∧
      ∀ q, Imports src q → q ∈ keys s := by
  obtain ⟨s0, hs0, hmods, hnext⟩ : ∃ s0 : St, ({ mods := Dict.set base b!"__main__" ⟨some E.script, []⟩, heap := [], next := 1 } : St) = s0 ∧
      s0.mods = Dict.set base b!"__main__" ⟨some E.script, []⟩ ∧ s0.next = 1 := ⟨_, rfl, rfl, rfl⟩
  have hsm : Special b!"__main__" := .inl rfl
  have hmm : b!"__main__" ≠ E.main := fun h => hE.main (h ▸ hsm)
  have hmh : ¬ E.helper b!"__main__" := fun h => (hE.helper _ h).2.1 hsm
  have hget : ∀ q r, Dict.get s0.mods q = some r → ¬ E.helper q ∧ q ≠ E.main ∧ (Special q ∨ r.file = none ∨ ∃ p, r.file = some p ∧ startsWith p E.dir = false) := by
    intro q r hr
    rw [hmods, Dict.get_set] at hr
    split at hr
    · next h => subst h; exact ⟨hmh, Ne.symm (Ne.symm hmm), .inl hsm⟩
    · exact hb.foreign q r hr
  have hnot : ∀ q, E.helper q ∨ q = E.main → q ∉ keys s0 := by
    intro q hq hk
    obtain ⟨r, hr⟩ := Option.isSome_iff_exists.1 (mem_keys.1 hk)
    obtain ⟨h1, h2, -⟩ := hget q r hr
    rcases hq with hq | hq
    · exact h1 hq
    · exact h2 hq
  have hm0 : Dict.get s0.mods b!"__main__" = some ⟨some E.script, []⟩ := by rw [hmods, Dict.get_set, if_pos rfl]
  have hready : ∀ q x y, .imp q x y ∈ src → Ready d s0 b!"__main__" q x := by
    intro q x y hq
    obtain ⟨b1, b2, t, b3, b4⟩ := hP.imports q x y hq
    exact ⟨fun h => hmh (h ▸ b1), fun h => absurd h (hnot q (.inl b1)), fun _ => ⟨E.path q, t, b2, b3, hP.helpers q t b1 b3, b4⟩⟩
  obtain ⟨s, c1, c2, c3⟩ := exec_main (n + 1) hP.ok hready hm0
  obtain ⟨i, g1, g2, g3⟩ := inv_good hP.ok c2
  have hnd0 : (keys s0).Nodup := by
    show (s0.mods.map (·.1)).Nodup
    rw [hmods, Dict.keys_set]
    split
    · exact hb.nodup
    · next h =>
      rw [List.nodup_append]
      refine ⟨hb.nodup, by simp, ?_⟩
      intro x hx y hy
      simp only [List.mem_singleton] at hy
      subst hy
      rintro rfl
      apply h
      rw [Dict.mem_iff]
      obtain ⟨e, he, he2⟩ := List.mem_map.1 hx
      exact ⟨e.2, by rw [← he2]; exact he⟩
  have hkm : E.main ∉ keys s := by
    obtain ⟨new, k1, k2⟩ := c2.keys
    rw [k1]
    intro h
    rcases List.mem_append.1 h with h | h
    · exact hnot _ (.inr rfl) h
    · obtain ⟨x, y, h1⟩ := k2 _ h
      exact (hE.helper _ (hP.imports _ x y h1).1).1 rfl
  refine ⟨s, ⟨0, i, i⟩, ?_, g3, ⟨inv_files hP c2 (fun q r hr => .foreign (hget q r hr).1 (hget q r hr).2.1 (hget q r hr).2.2), c2.nd hnd0, ?_, rfl, ?_⟩, hkm, ?_⟩
  · unfold boot
    rw [hP.text]
    simp only
    rw [hs0, c1]
    simp only
    rw [g2]
  · intro x c j hx
    unfold attr at hx
    have : Dict.get s.mods E.main = none := by
      cases hg : Dict.get s.mods E.main with
      | none => rfl
      | some r => exact absurd (mem_keys.2 (by simp [Dict.mem, hg])) hkm
    rw [this] at hx
    cases hx
  · refine c2.lt ?_ 0 i g2
    obtain ⟨u, v, h⟩ := List.append_of_mem hP.ok.app
    rw [h, bound_append]; simp [bound]
  · rintro q ⟨x, y, h⟩
    exact c3 q x y h

theorem reloads_ok {E : Env} (n : Nat) (hE : E.Ok) (src0 : List Stmt) : ∀ (ds : List (Disk × List Stmt)) (s : St) (me : Self), Held E s me →
    (∀ q, Imports src0 q → q ∈ keys s) → (∀ e ∈ ds, Program E e.1 e.2) → (∀ e ∈ ds, ∀ q, Imports e.2 q → ¬ After E s q) →
    ds.Pairwise (fun e e' => ∀ q, Imports e.2 q → Imports e'.2 q → Imports src0 q) →
    All2 (fun e r => ∃ l, r = some l ∧ Table E.main e.2 l ∧ ∀ x ∈ l, Findable e.1 x.2.1 x.2.2) ds
      (reloads (n + 2) E.dir E.main (ds.map (·.1)) s me)
  | [], _, _, _, _, _, _, _ => .nil
  | e :: ds, s, me, h, h0, hP, ha, hp => by
    obtain ⟨s', me', a1, a2, a3, a4, a5⟩ := reload_once n hE (hP e (by simp)) h (ha e (by simp))
    obtain ⟨l, b1, b2⟩ := good_handed a2
    simp only [List.map_cons, reloads, a1, b1]
    obtain ⟨hp1, hp2⟩ := List.pairwise_cons.1 hp
    refine .cons ⟨l, rfl, b2, ?_⟩ (reloads_ok n hE src0 ds s' me' a3 (fun q hq => a4 q (h0 q hq)) (fun e' he => hP e' (by simp [he])) ?_ hp2)
    · intro x hx
      obtain ⟨r, -, hr⟩ := All2.all b2 x hx
      exact findable (hP e (by simp)) hr (fun hm => by rw [hm]; exact (hP e (by simp)).found)
    · intro e' he q hq haf
      rcases a5 q haf with h1 | ⟨h1, h2⟩
      · exact ha e' (by simp [he]) q hq h1
      · exact h2 (h0 q (hp1 e' he q h1 hq))

end Rebind
open Rebind

/-- **C103 (reloads).** An application that is one main module, with functions from modules of its own, starts with the routes, error
handlers, middlewares and hooks of its text; and each time that it is reloaded, with whatever files there are then, the new worker is given exactly those of the
new text, in order, with functions that it finds in the files. This holds for every number of reloads, as long as no module that came into use by a
reload is used again after a later one. -/
theorem C103_partial {E : Env} {d0 : Disk} {src0 : List Stmt} {base : Dict Bytes Mod} (n : Nat) (hE : E.Ok) (hb : Base E base)
    (h0 : Program E d0 src0) (ds : List (Disk × List Stmt)) (hP : ∀ e ∈ ds, Program E e.1 e.2)
    (hp : ds.Pairwise (fun e e' => ∀ q, Imports e.2 q → Imports e'.2 q → Imports src0 q)) :
    ∃ s me l, boot d0 (n + 2) base E.script E.a = .ok (s, me) ∧ handed s me = some l ∧ Table b!"__main__" src0 l ∧
      All2 (fun e r => ∃ l, r = some l ∧ Table E.main e.2 l ∧ ∀ x ∈ l, Findable e.1 x.2.1 x.2.2) ds
        (reloads (n + 2) E.dir E.main (ds.map (·.1)) s me) := by
  obtain ⟨s, me, h1, h2, h3, h4, h5⟩ := boot_ok n hE h0 hb
  obtain ⟨l, h6, h7⟩ := good_handed h2
  refine ⟨s, me, l, h1, h6, h7, reloads_ok n hE src0 ds s me h3 h5 hP ?_ hp⟩
  rintro e _ q _ ⟨l1, l2, hl, -⟩
  exact h4 (by rw [hl]; simp)

end Verif
