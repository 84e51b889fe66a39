import Verif.Spec.ErrorPage
import Verif.Proofs.Asgi
import Verif.Proofs.Params
import Verif.Props.ResponseFlow
/-!
# C98: error pages
-/
namespace Verif
open Py Model.ErrorPage Spec.ErrorPage
open Model.Response (Cfg St M Exc headersSent setStatus setContentType putHeaders end_ close abort handleException errorResponse errPage finally_ ErrHandler runScript endBody)
open Spec.Response (CfgOk bodyless)
open Proofs.Response (bind_ok bind_err get_run putHeaders_run headers_some raise_run)
open Spec.Params (utf8)
open Spec.Asgi (errText)

namespace C98

/-! ### Texts and bytes -/

theorem ofNat_toNat {c : Char} (h : c.toNat < 256) : Char.ofNat (UInt8.ofNat c.toNat).toNat = c := by
  rw [UInt8.toNat_ofNat_of_lt' (by simpa using h), Char.ofNat_toNat]

theorem narrow_sound : ∀ {s : Str} {b : Bytes} {n : Nat}, n ≤ 256 → narrow n s = some b → latin1 b = s ∧ (∀ c ∈ s, c.toNat < n)
  | [], b, n, _, h => by simp [narrow] at h; subst h; exact ⟨rfl, by simp⟩
  | c :: t, b, n, hn, h => by
    unfold narrow at h
    split at h
    · next hc =>
      rw [Option.map_eq_some_iff] at h
      obtain ⟨b', hb, rfl⟩ := h
      obtain ⟨i1, i2⟩ := narrow_sound hn hb
      refine ⟨?_, ?_⟩
      · show Char.ofNat _ :: latin1 b' = _
        rw [i1, ofNat_toNat (by omega)]
      · intro x hx
        rcases List.mem_cons.1 hx with rfl | hx
        · exact hc
        · exact i2 x hx
    · cases h

theorem narrow_complete : ∀ {s : Str} {n : Nat}, (∀ c ∈ s, c.toNat < n) → ∃ b, narrow n s = some b
  | [], _, _ => ⟨[], rfl⟩
  | c :: t, n, h => by
    obtain ⟨b, hb⟩ := narrow_complete (fun x hx => h x (List.mem_cons_of_mem _ hx))
    exact ⟨UInt8.ofNat c.toNat :: b, by simp [narrow, h c (by simp), hb]⟩

theorem latin1_lf {b : Bytes} : (10 : UInt8) ∈ b ↔ '\n' ∈ latin1 b := by
  unfold latin1
  rw [List.mem_map]
  refine ⟨fun h => ⟨10, h, rfl⟩, ?_⟩
  rintro ⟨a, ha, e⟩
  have : a = 10 := forall_u8 (P := fun a => Char.ofNat a.toNat = '\n' → a = 10) (by decide +kernel) a e
  rwa [this] at ha

theorem latin1_inj : ∀ {a b : Bytes}, latin1 a = latin1 b → a = b
  | [], [], _ => rfl
  | [], _ :: _, h => by cases h
  | _ :: _, [], h => by cases h
  | x :: a, y :: b, h => by
    have h' : Char.ofNat x.toNat :: latin1 a = Char.ofNat y.toNat :: latin1 b := h
    injection h' with h1 h2
    have hx : (Char.ofNat x.toNat).toNat = x.toNat := forall_u8 (P := fun a => (Char.ofNat a.toNat).toNat = a.toNat) (by decide +kernel) x
    have hy : (Char.ofNat y.toNat).toNat = y.toNat := forall_u8 (P := fun a => (Char.ofNat a.toNat).toNat = a.toNat) (by decide +kernel) y
    rw [latin1_inj h2, UInt8.toNat_inj.1 (hx.symm.trans ((congrArg Char.toNat h1).trans hy))]

/-- A line has one encoding, and it has no LF. -/
theorem line_narrow {s : Str} : Line s ↔ ∃ b, narrow 256 s = some b ∧ (10 : UInt8) ∉ b := by
  constructor
  · intro h
    obtain ⟨b, hb⟩ := narrow_complete (fun c hc => (h c hc).1)
    refine ⟨b, hb, fun hm => ?_⟩
    rw [latin1_lf, (narrow_sound (Nat.le_refl _) hb).1] at hm
    exact (h _ hm).2 rfl
  · rintro ⟨b, hb, hn⟩ c hc
    obtain ⟨h1, h2⟩ := narrow_sound (Nat.le_refl _) hb
    refine ⟨h2 c hc, ?_⟩
    rintro rfl
    exact hn (latin1_lf.2 (h1 ▸ hc))

/-! ### `str(exc)` -/

theorem allStr_map (l : List Str) : allStr (l.map some) = some l := by
  induction l with
  | nil => rfl
  | cons a t ih => simp [allStr, ih]

theorem allStr_some {l : List (Option Str)} {r : List Str} (h : allStr l = some r) : l = r.map some := by
  induction l generalizing r with
  | nil => simp [allStr] at h; subst h; rfl
  | cons a t ih =>
    cases a with
    | none => simp [allStr] at h
    | some a =>
      simp only [allStr, Option.map_eq_some_iff] at h
      obtain ⟨q, hq, rfl⟩ := h
      simp [ih hq]

theorem joinS_blank (a : Str) (r : List Str) : joinS [' '] (a :: r) = a ++ r.flatMap (fun s => ' ' :: s) := by
  induction r generalizing a with
  | nil => simp [joinS]
  | cons b r ih => simp [joinS, ih b]

theorem strOf_some {h : HExc} {t : Str} : strOf h = some t ↔ PageText (.http h) t := by
  unfold strOf
  constructor
  · intro e
    split at e
    · next h0 => cases e; exact .message h h0
    · next h0 =>
      rw [Option.map_eq_some_iff] at e
      obtain ⟨l, hl, rfl⟩ := e
      have := allStr_some hl
      cases l with
      | nil => exact absurd (by simpa using this) h0
      | cons a r => rw [joinS_blank]; exact .args h a r this
  · rintro (_ | _ | _ | _)
    · next h0 => rw [if_pos h0]
    · next a r h0 => rw [if_neg (by simp [h0]), h0, allStr_map, Option.map_some, joinS_blank]

theorem asHttp_eq (x : Raised) : ((asHttp x).code, (asHttp x).message, (asHttp x).ctype) = statusOf x := by cases x <;> rfl

/-- The text of the page, when `str(exc)` can be formed. -/
theorem page_text {x : Raised} {t : Str} (ht : x.text = some t) : ∃ p, strOf (asHttp x) = some p ∧ PageText x p := by
  cases x with
  | http h => exact ⟨t, ht, strOf_some.1 ht⟩
  | timeout a => cases ht; exact ⟨_, rfl, .timeout _⟩
  | other a => cases ht; exact ⟨_, rfl, .other _⟩

theorem text_of_page {x : Raised} {p : Str} (h : PageText x p) : (∃ t, x.text = some t) ∧ strOf (asHttp x) = some p := by
  cases h with
  | message h h0 => exact ⟨⟨_, strOf_some.2 (.message h h0)⟩, strOf_some.2 (.message h h0)⟩
  | args h a r h0 => exact ⟨⟨_, strOf_some.2 (.args h a r h0)⟩, strOf_some.2 (.args h a r h0)⟩
  | timeout t => exact ⟨⟨t, rfl⟩, rfl⟩
  | other t => exact ⟨⟨t, rfl⟩, rfl⟩

/-! ### The charset -/

theorem dropWhile_all {p : Char → Bool} {a b : Str} (ha : ∀ c ∈ a, p c = true) : (a ++ b).dropWhile p = b.dropWhile p := by
  induction a with
  | nil => rfl
  | cons x a ih =>
    rw [List.cons_append, List.dropWhile_cons, if_pos (ha x (by simp))]
    exact ih (fun c hc => ha c (List.mem_cons_of_mem _ hc))

theorem dropWhile_head {p : Char → Bool} {b : Str} (hb : ∀ c ∈ b.head?, p c = false) : b.dropWhile p = b := by
  cases b with
  | nil => rfl
  | cons x b => simp [hb x (by simp)]

theorem stripS_pad {w n w' : Str} (h1 : ∀ c ∈ w, pySpace c = true) (h2 : ∀ c ∈ w', pySpace c = true)
    (hn : ∀ c ∈ n.head?, pySpace c = false) (hl : ∀ c ∈ n.getLast?, pySpace c = false) : stripS (w ++ n ++ w') = n := by
  unfold stripS
  rw [List.append_assoc, dropWhile_all h1]
  cases n with
  | nil =>
    have : (w' ++ ([] : Str)).dropWhile pySpace = [] := by rw [dropWhile_all h2]; rfl
    rw [List.append_nil] at this
    rw [List.nil_append, this]; rfl
  | cons x n =>
    have e : ((x :: n) ++ w').dropWhile pySpace = (x :: n) ++ w' := dropWhile_head (by simpa using hn)
    rw [e, List.reverse_append, dropWhile_all (by simpa using h2), dropWhile_head (by rw [List.head?_reverse]; exact hl), List.reverse_reverse]

theorem takeDrop (p : Char → Bool) (s : Str) : ∃ w, (∀ c ∈ w, p c = true) ∧ s = w ++ s.dropWhile p ∧ ∀ c ∈ (s.dropWhile p).head?, p c = false := by
  refine ⟨s.takeWhile p, fun c hc => ?_, (List.takeWhile_append_dropWhile).symm, fun c hc => ?_⟩
  · have := List.all_takeWhile (p := p) (l := s)
    rw [List.all_eq_true] at this
    exact this c hc
  · have := List.head?_dropWhile_not p s
    cases h : (s.dropWhile p).head? with
    | none => rw [h] at hc; cases hc
    | some d => rw [h] at hc this; cases hc; simpa using this

theorem stripS_split (s : Str) : ∃ w w', (∀ c ∈ w ++ w', pySpace c = true) ∧ s = w ++ stripS s ++ w' ∧
    (∀ c ∈ (stripS s).head?, pySpace c = false) ∧ ∀ c ∈ (stripS s).getLast?, pySpace c = false := by
  obtain ⟨w, h1, h2, h3⟩ := takeDrop pySpace s
  obtain ⟨w', g1, g2, g3⟩ := takeDrop pySpace (s.dropWhile pySpace).reverse
  have e : s.dropWhile pySpace = stripS s ++ w'.reverse := by
    have := congrArg List.reverse g2
    rw [List.reverse_reverse, List.reverse_append] at this
    exact this
  refine ⟨w, w'.reverse, ?_, ?_, ?_, ?_⟩
  · intro c hc
    rcases List.mem_append.1 hc with h | h
    · exact h1 c h
    · exact g1 c (by simpa using h)
  · rw [List.append_assoc, ← e]; exact h2
  · intro c hc
    refine h3 c ?_
    rw [e]
    cases hs : stripS s with
    | nil => rw [hs] at hc; cases hc
    | cons x t => rw [hs] at hc; simpa using hc
  · intro c hc
    refine g3 c ?_
    unfold stripS at hc
    simpa using hc

/-- The prefix test finds the declarations. -/
theorem prefix_declares (v : Str) : "charset=".toList <+: lstripS v ↔ ∃ n, Declares v n := by
  constructor
  · rintro ⟨r, hr⟩
    obtain ⟨w, h1, h2, _⟩ := takeDrop pySpace v
    obtain ⟨w', w'', g1, g2, g3, g4⟩ := stripS_split r
    refine ⟨stripS r, w, w', w'', ?_, ?_, g3, g4⟩
    · intro c hc
      simp only [List.append_assoc, List.mem_append] at hc g1
      rcases hc with h | h | h
      · exact h1 c h
      · exact g1 c (.inl h)
      · exact g1 c (.inr h)
    · rw [h2]
      show w ++ lstripS v = _
      rw [← hr]
      conv => lhs; rw [g2]
      simp [List.append_assoc]
  · rintro ⟨n, w, w', w'', h1, rfl, _⟩
    unfold lstripS
    rw [List.append_assoc, List.append_assoc, List.append_assoc, dropWhile_all (fun c hc => h1 c (by simp [hc])), dropWhile_head (by intro c hc; cases hc; decide)]
    exact ⟨_, rfl⟩

theorem declares_name {v n : Str} (h : Declares v n) : stripS ((lstripS v).drop 8) = n := by
  obtain ⟨w, w', w'', h1, rfl, h3, h4⟩ := h
  unfold lstripS
  rw [List.append_assoc, List.append_assoc, List.append_assoc, dropWhile_all (fun c hc => h1 c (by simp [hc])), dropWhile_head (by intro c hc; cases hc; decide)]
  have : ("charset=".toList ++ (w' ++ (n ++ w''))).drop 8 = w' ++ (n ++ w'') := rfl
  rw [this, ← List.append_assoc]
  exact stripS_pad (fun c hc => h1 c (by simp [hc])) (fun c hc => h1 c (by simp [hc])) h3 h4

theorem splitC_one {s : Str} {n : Nat} (h : ';' ∉ s) : splitC ';' n s = [s] := by
  cases n with
  | zero => rfl
  | succ n =>
    unfold splitC
    have : s.dropWhile (· != ';') = [] := by
      rw [← List.append_nil s, dropWhile_all (fun c hc => by simp; rintro rfl; exact h hc)]; rfl
    rw [this]

theorem splitC_parts : ∀ {ps : List Str} {n : Nat}, ps ≠ [] → ps.length ≤ n + 1 → (∀ p ∈ ps, ';' ∉ p) → splitC ';' n (parts ps) = ps
  | [], _, h, _, _ => absurd rfl h
  | [p], n, _, _, h => splitC_one (h p (by simp))
  | p :: q :: r, 0, _, hl, _ => by simp at hl
  | p :: q :: r, n + 1, _, hl, h => by
    have hp : ∀ c ∈ p, (c != ';') = true := fun c hc => by
      simp; rintro rfl; exact h p (by simp) hc
    have e1 : (p ++ ';' :: parts (q :: r)).dropWhile (· != ';') = ';' :: parts (q :: r) := by
      rw [dropWhile_all hp]; rfl
    have e2 : (p ++ ';' :: parts (q :: r)).takeWhile (· != ';') = p := by
      rw [List.takeWhile_append_of_pos hp]; simp
    show splitC ';' (n + 1) (p ++ ';' :: parts (q :: r)) = _
    unfold splitC
    rw [e1]
    dsimp only
    rw [e2, splitC_parts (by simp) (by simpa using hl) (fun x hx => h x (List.mem_cons_of_mem _ hx))]

end C98

open C98

/-- **C98 (charset).** The codec of the page is the first one declared in the content type (of its first 101 parts), and
UTF-8 if none is declared or the name is empty. -/
theorem C98_charset {ps : List Str} (h0 : ps ≠ []) (hl : ps.length ≤ 101) (hs : ∀ p ∈ ps, ';' ∉ p) :
    (∀ pre p post n, ps = pre ++ p :: post → (∀ q ∈ pre, ¬ ∃ m, Declares q m) → Declares p n →
      charsetOf (parts ps) = if n = [] then "utf-8".toList else n) ∧
    ((∀ q ∈ ps, ¬ ∃ m, Declares q m) → charsetOf (parts ps) = "utf-8".toList) := by
  unfold charsetOf
  rw [splitC_parts h0 hl hs]
  clear h0 hl hs
  constructor
  · rintro pre p post n rfl hpre hp
    induction pre with
    | nil =>
      rw [List.nil_append]
      unfold pick
      rw [if_pos ((prefix_declares p).2 ⟨n, hp⟩)]
      dsimp only
      rw [declares_name hp]
    | cons q pre ih =>
      rw [List.cons_append]
      unfold pick
      rw [if_neg (fun h => hpre q (by simp) ((prefix_declares q).1 h))]
      exact ih (fun x hx => hpre x (List.mem_cons_of_mem _ hx))
  · intro h
    induction ps with
    | nil => rfl
    | cons q r ih =>
      unfold pick
      rw [if_neg (fun h' => h q (by simp) ((prefix_declares q).1 h'))]
      exact ih (fun x hx => h x (List.mem_cons_of_mem _ hx))

example : charsetOf "text/plain; format=flowed; charset= Latin-1 ; charset=utf-8".toList = "Latin-1".toList ∧
    charsetOf "application/json".toList = "utf-8".toList ∧ charsetOf "text/html; Charset=latin-1".toList = "utf-8".toList := by decide +kernel

namespace C98

/-! ### The response -/

/-- The answer of the error handler with its text encoded. -/
inductive Renders (env : Env) (h : HExc) : Except Exc Data → Except Exc (Option Bytes) → Prop
  | str (t : Str) (b : Bytes) : encodeAs env (charsetOf h.ctype) t = some b → Renders env h (.ok (.str t)) (.ok (some b))
  | bytes (b : Bytes) : Renders env h (.ok (.bytes b)) (.ok (some b))
  | none : Renders env h (.ok .none) (.ok none)
  | error (e : Exc) : Renders env h (.error e) (.error e)

theorem finally_renders {c : Cfg} {env : Env} {h : HExc} {sc ret ret'} (hr : Renders env h ret ret') :
    finally_ (dataOf c ⟨sc, ret⟩) (sendData c env h) = finally_ (errPage c ⟨sc, ret'⟩) (fun d => end_ c (d.getD []) false) := by
  funext s
  unfold finally_ dataOf errPage
  rw [Proofs.Response.bind_run, Proofs.Response.bind_run]
  rcases hs : runScript c sc s with ⟨r, s'⟩
  cases r with
  | error e => rfl
  | ok u =>
    dsimp only
    cases hr with
    | str t b hb =>
      show sendData c env h (some (.str t)) s' = end_ c b false {throttle := false} s'
      unfold sendData
      dsimp only
      rw [hb]
    | bytes b => rfl
    | none => rfl
    | error e => rfl

end C98

/-- **C98 (what is sent).** An exception whose text, message and content type can be encoded is answered as in C28: the
texts appear as their Latin-1 bytes in the head, the page as its bytes in the declared codec. For every error handler. -/
theorem C98_agrees {c : Cfg} {env : Env} {eh : HExc → EHandler} {x : Raised} {s : St} {t : Str} (hx : x.text = some t)
    {m ct : Bytes} (hm : latin1 m = (statusOf x).2.1) (ht : latin1 ct = (statusOf x).2.2) {ret}
    (hr : C98.Renders env (asHttp x) (eh (asHttp x)).ret ret) :
    respond c env eh x s = handleException c ⟨(eh (asHttp x)).script, ret⟩ (.http (statusOf x).1 m ct) s := by
  have e0 := asHttp_eq x
  have n1 : narrow 256 (asHttp x).message = some m := by
    obtain ⟨b, hb⟩ := narrow_complete (s := (asHttp x).message) (n := 256) (by
      have : (asHttp x).message = latin1 m := by rw [hm, ← e0]
      rw [this]; unfold latin1; intro ch hch
      obtain ⟨a, _, rfl⟩ := List.mem_map.1 hch
      exact forall_u8 (P := fun a => (Char.ofNat a.toNat).toNat < 256) (by decide +kernel) a)
    have := (narrow_sound (Nat.le_refl _) hb).1
    rw [hb, C98.latin1_inj (this.trans (by rw [hm, ← e0]))]
  have n2 : narrow 256 (asHttp x).ctype = some ct := by
    obtain ⟨b, hb⟩ := narrow_complete (s := (asHttp x).ctype) (n := 256) (by
      have : (asHttp x).ctype = latin1 ct := by rw [ht, ← e0]
      rw [this]; unfold latin1; intro ch hch
      obtain ⟨a, _, rfl⟩ := List.mem_map.1 hch
      exact forall_u8 (P := fun a => (Char.ofNat a.toNat).toNat < 256) (by decide +kernel) a)
    have := (narrow_sound (Nat.le_refl _) hb).1
    rw [hb, C98.latin1_inj (this.trans (by rw [ht, ← e0]))]
  unfold respond handleException
  rw [bind_ok (get_run s), bind_ok (get_run s)]
  split
  · rfl
  · rw [hx]
    dsimp only
    unfold errorResponse
    rw [bind_ok (get_run s)]
    split
    · rfl
    · unfold setStatusS setTypeS
      rw [n1, n2, ← e0]
      dsimp only [Model.Response.asHttp]
      rw [← finally_renders hr]

namespace C98

theorem line_bytes {s : Str} (h : Line s) : ∃ b, latin1 b = s ∧ (10 : UInt8) ∉ b := by
  obtain ⟨b, h1, h2⟩ := line_narrow.1 h
  exact ⟨b, (narrow_sound (Nat.le_refl _) h1).1, h2⟩

/-- The page that `error_500` makes. -/
def shown (env : Env) (x : Raised) (p : Str) : Str := if env.debug then debugPage (env.trace (asHttp x)) else p

theorem error500_ret {env : Env} {x : Raised} {p : Str} (h : strOf (asHttp x) = some p) :
    (error500 env (asHttp x)).ret = .ok (.str (shown env x p)) ∧ (error500 env (asHttp x)).script = [] := by
  unfold error500 shown
  split
  · exact ⟨rfl, rfl⟩
  · rw [h]; exact ⟨rfl, rfl⟩

theorem sent_page {c : Cfg} (hc : CfgOk c) {env : Env} {x : Raised} {p : Str} (hp : PageText x p) (hm : Line (statusOf x).2.1) (ht : Line (statusOf x).2.2)
    {b : Bytes} (hb : encodeAs env (charsetOf (statusOf x).2.2) (shown env x p) = some b) {s : St} {h} (eh : s.headers = some h) (hu : s.upgraded = false) :
    ∃ m ct, latin1 m = (statusOf x).2.1 ∧ latin1 ct = (statusOf x).2.2 ∧
      (respond c env (error500 env) x s).2.log = s.log ++ [.head (errText c (statusOf x).1 m ct b.length) (if bodyless c (statusOf x).1 then [] else b) { throttle := false }, .mark false] := by
  obtain ⟨m, m1, m2⟩ := line_bytes hm
  obtain ⟨ct, t1, t2⟩ := line_bytes ht
  obtain ⟨⟨t, hx⟩, h2⟩ := text_of_page hp
  obtain ⟨r1, r2⟩ := error500_ret (env := env) h2
  have hct : (asHttp x).ctype = (statusOf x).2.2 := by rw [← asHttp_eq]
  have hr : Renders env (asHttp x) (error500 env (asHttp x)).ret (.ok (some b)) := by
    rw [r1]; exact .str _ _ (by rw [hct]; exact hb)
  refine ⟨m, ct, m1, t1, ?_⟩
  rw [C98_agrees hx m1 t1 hr, r2]
  have := (Proofs.Asgi.handle_spec hc (e := { phrase := fun _ => none, page := fun _ => b }) (x := .http (statusOf x).1 m ct)
    ⟨fun k hk => (by cases hk), fun hk => (by cases hk), m2, t2⟩ eh hu).1
  rw [endBody_eq] at this
  exact this

end C98

/-- **C98 (page).** Without the debug option, what was raised is answered with its status and reason and with a page that is
the text of the exception in the declared codec; then the connection ends. -/
theorem C98_page {c : Cfg} (hc : CfgOk c) {env : Env} (hd : env.debug = false) {x : Raised} {p : Str} (hp : PageText x p)
    (hm : Line (statusOf x).2.1) (ht : Line (statusOf x).2.2) {b : Bytes} (hb : encodeAs env (charsetOf (statusOf x).2.2) p = some b)
    {s : St} {h} (eh : s.headers = some h) (hu : s.upgraded = false) :
    ∃ m ct, latin1 m = (statusOf x).2.1 ∧ latin1 ct = (statusOf x).2.2 ∧
      (respond c env (error500 env) x s).2.log = s.log ++ [.head (errText c (statusOf x).1 m ct b.length) (if bodyless c (statusOf x).1 then [] else b) { throttle := false }, .mark false] :=
  sent_page hc hp hm ht (by rw [shown, if_neg (by simp [hd])]; exact hb) eh hu

theorem toNat_eq {c : Char} {n : Nat} (h : c.toNat = n) : c = Char.ofNat n := by rw [← h, Char.ofNat_toNat]

/-- **C98 (white space)**: what may stand around the name of a charset. -/
theorem C98_white (c : Char) : pySpace c = true ↔ c ∈ blanks := by
  constructor
  · intro h
    unfold pySpace at h
    simp only [Bool.or_eq_true, Bool.and_eq_true, decide_eq_true_eq, beq_iff_eq] at h
    have hn : c.toNat ∈ blanks.map Char.toNat := by
      have e : blanks.map Char.toNat = [9, 10, 11, 12, 13, 28, 29, 30, 31, 32, 0x85, 0xa0, 0x1680, 0x2000, 0x2001, 0x2002, 0x2003, 0x2004, 0x2005, 0x2006, 0x2007, 0x2008, 0x2009, 0x200a, 0x2028, 0x2029, 0x202f, 0x205f, 0x3000] := by decide
      rw [e]
      simp only [List.mem_cons, List.not_mem_nil, or_false]
      omega
    obtain ⟨d, hd, e⟩ := List.mem_map.1 hn
    rwa [toNat_eq e.symm, Char.ofNat_toNat] at *
  · have : ∀ c ∈ blanks, pySpace c = true := by decide
    exact this c

theorem letter_word {c : Char} : wordC (lowerC c) = true ↔ Letter c := by
  constructor
  · intro h
    have hn : c.toNat ∈ "abcdefghijklmnopqrstuvwxyzABCDEFGHIJKLMNOPQRSTUVWXYZ0123456789.".toList.map Char.toNat := by
      have hc : (65 ≤ c.toNat ∧ c.toNat ≤ 90) ∨ (97 ≤ c.toNat ∧ c.toNat ≤ 122) ∨ (48 ≤ c.toNat ∧ c.toNat ≤ 57) ∨ c.toNat = 46 := by
        unfold lowerC at h
        split at h
        · omega
        · simp only [wordC, Bool.or_eq_true, Bool.and_eq_true, decide_eq_true_eq, beq_iff_eq] at h
          rcases h with (h | h) | h
          · omega
          · omega
          · rw [h]; decide
      have all : ∀ n, n ≤ 122 → ((65 ≤ n ∧ n ≤ 90) ∨ (97 ≤ n ∧ n ≤ 122) ∨ (48 ≤ n ∧ n ≤ 57) ∨ n = 46) →
          n ∈ "abcdefghijklmnopqrstuvwxyzABCDEFGHIJKLMNOPQRSTUVWXYZ0123456789.".toList.map Char.toNat := by decide +kernel
      exact all _ (by omega) hc
    obtain ⟨d, hd, e⟩ := List.mem_map.1 hn
    have : d = c := by rw [toNat_eq e, Char.ofNat_toNat]
    exact this ▸ hd
  · have : ∀ c ∈ "abcdefghijklmnopqrstuvwxyzABCDEFGHIJKLMNOPQRSTUVWXYZ0123456789.".toList, wordC (lowerC c) = true := by decide
    exact this c

theorem norm_sep : ∀ {w : Str} (_ : ∀ c ∈ w, ¬ Letter c) (st p : Bool) (t : Str), normAux st p (w ++ t) = normAux st (p || !w.isEmpty) t
  | [], _, st, p, t => by simp
  | c :: w, h, st, p, t => by
    rw [List.cons_append, normAux, if_neg (fun hw => h c (by simp) (letter_word.1 hw)), norm_sep (fun d hd => h d (by simp [hd]))]
    simp

theorem norm_word : ∀ {w : Str} (_ : ∀ c ∈ w, Letter c) (_ : w ≠ []) (st p : Bool) (t : Str),
    normAux st p (w ++ t) = (if p && st then ['_'] else []) ++ w.map lowerC ++ normAux true false t
  | [], _, h, _, _, _ => absurd rfl h
  | [c], h, _, st, p, t => by
    rw [List.cons_append, normAux, if_pos (letter_word.2 (h c (by simp)))]; simp
  | c :: d :: w, h, _, st, p, t => by
    rw [List.cons_append, normAux, if_pos (letter_word.2 (h c (by simp))), norm_word (w := d :: w) (fun e he => h e (by simp at he ⊢; exact .inr he)) (by simp)]
    simp

/-- **C98 (names of encodings)**: a name is its words, in small letters, with one underscore between them, whatever stands between them and
around them. -/
theorem C98_names {s : Str} {ws : List (Str × Str)} {z : Str} (hs : ∀ c ∈ s ++ z, ¬ Letter c) {w : Str} (hw : w ≠ [] ∧ ∀ c ∈ w, Letter c)
    (h : ∀ x ∈ ws, (x.1 ≠ [] ∧ ∀ c ∈ x.1, ¬ Letter c) ∧ x.2 ≠ [] ∧ ∀ c ∈ x.2, Letter c) :
    normName (s ++ w ++ ws.flatMap (fun x => x.1 ++ x.2) ++ z) = w.map lowerC ++ ws.flatMap (fun x => '_' :: x.2.map lowerC) := by
  have rest : ∀ ws : List (Str × Str), (∀ x ∈ ws, (x.1 ≠ [] ∧ ∀ c ∈ x.1, ¬ Letter c) ∧ x.2 ≠ [] ∧ ∀ c ∈ x.2, Letter c) →
      normAux true false (ws.flatMap (fun x => x.1 ++ x.2) ++ z) = ws.flatMap (fun x => '_' :: x.2.map lowerC) := by
    intro ws
    induction ws with
    | nil =>
      intro _
      have := norm_sep (w := z) (fun c hc => hs c (by simp [hc])) true false []
      rw [List.append_nil] at this
      simpa [normAux] using this
    | cons x ws ih =>
      intro h
      obtain ⟨⟨h1, h2⟩, h3, h4⟩ := h x (by simp)
      simp only [List.flatMap_cons, List.append_assoc]
      rw [norm_sep h2, norm_word h4 h3, ih (fun y hy => h y (by simp [hy]))]
      simp [h1]
  unfold normName
  rw [List.append_assoc, List.append_assoc, norm_sep (fun c hc => hs c (by simp [hc])), norm_word hw.2 hw.1, rest ws h]
  simp

/-- ` UTF - 8` is `utf_8`. -/
example : normName " UTF - 8 ".toList = "utf_8".toList :=
  C98_names (s := [' ']) (w := "UTF".toList) (ws := [(" - ".toList, "8".toList)]) (z := [' ']) (by decide) (by decide) (by decide)

/-- **C98 (reading).** The client that decodes the page by the declared charset reads the text: UTF-8 (any spelling of the
name), Latin-1 and ASCII. -/
theorem C98_reads {env : Env} {name p : Str} {b : Bytes} (hn : ∀ ch ∈ name, ch.toNat ≠ 0 ∧ ch.toNat < 128) (hb : encodeAs env name p = some b) :
    (normName name ∈ ["utf_8".toList, "utf8".toList] → decodeReplace b = p) ∧
    (normName name ∈ ["latin_1".toList, "latin1".toList, "iso_8859_1".toList, "iso8859_1".toList, "ascii".toList, "us_ascii".toList] → latin1 b = p) ∧
    (normName name ∈ ["ascii".toList, "us_ascii".toList] → ∀ y ∈ b, y < 128) := by
  unfold encodeAs at hb
  rw [if_neg (by rintro ⟨ch, h1, h2⟩; have := hn ch h1; omega)] at hb
  refine ⟨fun h => ?_, fun h => ?_, fun h => ?_⟩
  · rw [if_pos h] at hb
    cases hb
    exact Proofs.Params.decodeReplace_utf8 p
  · have k1 : ¬ normName name ∈ ["utf_8".toList, "utf8".toList] := by
      intro h'
      simp only [List.mem_cons, List.not_mem_nil, or_false] at h'
      rcases h' with e | e <;> rw [e] at h <;> revert h <;> decide +kernel
    rw [if_neg k1] at hb
    split at hb
    · exact (narrow_sound (Nat.le_refl _) hb).1
    · next k2 =>
      have k3 : normName name ∈ ["ascii".toList, "us_ascii".toList] := by
        simp only [List.mem_cons, List.not_mem_nil, or_false, not_or] at h k2 ⊢
        rcases h with e | e | e | e | e | e
        · exact absurd e k2.1
        · exact absurd e k2.2.1
        · exact absurd e k2.2.2.1
        · exact absurd e k2.2.2.2
        · exact .inl e
        · exact .inr e
      rw [if_pos k3] at hb
      exact (narrow_sound (by decide) hb).1
  · have k1 : ¬ normName name ∈ ["utf_8".toList, "utf8".toList] := by
      intro h'
      simp only [List.mem_cons, List.not_mem_nil, or_false] at h'
      rcases h' with e | e <;> rw [e] at h <;> revert h <;> decide +kernel
    have k2 : ¬ normName name ∈ ["latin_1".toList, "latin1".toList, "iso_8859_1".toList, "iso8859_1".toList] := by
      intro h'
      simp only [List.mem_cons, List.not_mem_nil, or_false] at h'
      rcases h' with e | e | e | e <;> rw [e] at h <;> revert h <;> decide +kernel
    rw [if_neg k1, if_neg k2, if_pos h] at hb
    obtain ⟨e1, e2⟩ := narrow_sound (by decide) hb
    intro y hy
    have := e2 (Char.ofNat y.toNat) (by rw [← e1]; exact List.mem_map_of_mem (f := fun c : UInt8 => Char.ofNat c.toNat) hy)
    exact forall_u8 (P := fun y => (Char.ofNat y.toNat).toNat < 128 → y < 128) (by decide +kernel) y this

/-- Spellings of one codec. -/
example : ["utf-8", "UTF-8", "utf8", "Utf_8", "\"utf-8\""].map (fun n => normName n.toList) = ["utf_8", "utf_8", "utf8", "utf_8", "utf_8"].map (·.toList) := by decide +kernel

namespace C98

theorem default_line : Line "text/html; charset=utf-8".toList := by
  have : ("text/html; charset=utf-8".toList.all (fun ch => decide (ch.toNat < 256) && decide (ch ≠ '\n'))) = true := by decide +kernel
  intro ch hch
  have := List.all_eq_true.1 this ch hch
  simpa using this

theorem ise_latin : latin1 b!"Internal Server Error" = "Internal Server Error".toList := by decide +kernel
theorem timeout_latin : latin1 b!"Request Timeout" = "Request Timeout".toList := by decide +kernel
theorem html_latin : latin1 b!"text/html; charset=utf-8" = "text/html; charset=utf-8".toList := by decide +kernel
theorem line_of {m : Str} (hm : (m.all (fun ch => decide (ch.toNat < 256) && decide (ch ≠ '\n'))) = true) : Line m := fun ch hch => by
  simpa using List.all_eq_true.1 hm ch hch
theorem ise_line : Line "Internal Server Error".toList := line_of (by decide +kernel)
theorem timeout_line : Line "Request Timeout".toList := line_of (by decide +kernel)
theorem default_charset : charsetOf "text/html; charset=utf-8".toList = "utf-8".toList := by decide +kernel
theorem encode_utf8 (env : Env) (p : Str) : encodeAs env "utf-8".toList p = some (utf8 p) := by
  unfold encodeAs
  rw [if_neg (by decide +kernel), if_pos (by decide +kernel)]

end C98

/-- **C98 (nothing leaks).** Without the debug option, an exception that is not an HTTPException is answered with the same
response whatever its text is, and the page is the reason phrase. -/
theorem C98_private {c : Cfg} (hc : CfgOk c) {env : Env} (hd : env.debug = false) (t : Str) {s : St} {h} (eh : s.headers = some h) (hu : s.upgraded = false) :
    (respond c env (error500 env) (.other (some t)) s).2.log = s.log ++ [.head
      (errText c 500 b!"Internal Server Error" b!"text/html; charset=utf-8" 21) (if c.method = b!"HEAD" then [] else b!"Internal Server Error") { throttle := false }, .mark false] ∧
    (respond c env (error500 env) (.timeout (some t)) s).2.log = s.log ++ [.head
      (errText c 408 b!"Request Timeout" b!"text/html; charset=utf-8" 15) (if c.method = b!"HEAD" then [] else b!"Request Timeout") { throttle := false }, .mark false] := by
  constructor
  · obtain ⟨m, ct, h1, h2, h3⟩ := C98_page hc hd (.other t) ise_line default_line
      (by show encodeAs env (charsetOf "text/html; charset=utf-8".toList) _ = _; rw [default_charset, encode_utf8]) eh hu
    have hm : m = b!"Internal Server Error" := latin1_inj (h1.trans ise_latin.symm)
    have ht : ct = b!"text/html; charset=utf-8" := latin1_inj (h2.trans html_latin.symm)
    rw [h3, hm, ht]
    have : utf8 "Internal Server Error".toList = b!"Internal Server Error" := by decide +kernel
    rw [this]
    have hb : bodyless c (statusOf (.other (some t))).1 = decide (c.method = b!"HEAD") := by
      show (decide (c.method = b!"HEAD") || Spec.Response.noBody 500) = _
      rw [show Spec.Response.noBody 500 = false from by decide +kernel, Bool.or_false]
    rw [hb]
    simp only [decide_eq_true_eq]
    rfl
  · obtain ⟨m, ct, h1, h2, h3⟩ := C98_page hc hd (.timeout t) timeout_line default_line
      (by show encodeAs env (charsetOf "text/html; charset=utf-8".toList) _ = _; rw [default_charset, encode_utf8]) eh hu
    have hm : m = b!"Request Timeout" := latin1_inj (h1.trans timeout_latin.symm)
    have ht : ct = b!"text/html; charset=utf-8" := latin1_inj (h2.trans html_latin.symm)
    rw [h3, hm, ht]
    have : utf8 "Request Timeout".toList = b!"Request Timeout" := by decide +kernel
    rw [this]
    have hb : bodyless c (statusOf (.timeout (some t))).1 = decide (c.method = b!"HEAD") := by
      show (decide (c.method = b!"HEAD") || Spec.Response.noBody 408) = _
      rw [show Spec.Response.noBody 408 = false from by decide +kernel, Bool.or_false]
    rw [hb]
    simp only [decide_eq_true_eq]
    rfl

/-- **C98 (own classes).** Every exception class of http_exceptions.py, raised with any str arguments, is answered, and the
page reads as the arguments. -/
theorem C98_classes {c : Cfg} (hc : CfgOk c) {env : Env} (hd : env.debug = false) {k : Int × Str} (hk : k ∈ classes) (args : List Str)
    {s : St} {h} (eh : s.headers = some h) (hu : s.upgraded = false) :
    ∃ p b m, PageText (.http { code := k.1, message := k.2, args := args.map some }) p ∧ decodeReplace b = p ∧ latin1 m = k.2 ∧
      (respond c env (error500 env) (.http { code := k.1, message := k.2, args := args.map some }) s).2.log = s.log ++
        [.head (errText c k.1 m b!"text/html; charset=utf-8" b.length) (if c.method = b!"HEAD" then [] else b) { throttle := false }, .mark false] := by
  obtain ⟨p, hp⟩ : ∃ p, PageText (.http { code := k.1, message := k.2, args := args.map some }) p := by
    cases args with
    | nil => exact ⟨_, .message _ rfl⟩
    | cons a r => exact ⟨_, .args _ a r rfl⟩
  have hl : Line k.2 := by
    have : ∀ k ∈ classes, (k.2.all (fun ch => decide (ch.toNat < 256) && decide (ch ≠ '\n'))) = true := by decide +kernel
    intro ch hch
    simpa using List.all_eq_true.1 (this k hk) ch hch
  have hn : Spec.Response.noBody k.1 = false := by
    have : ∀ k ∈ classes, Spec.Response.noBody k.1 = false := by decide +kernel
    exact this k hk
  obtain ⟨m, ct, h1, h2, h3⟩ := C98_page hc hd hp hl default_line
    (by show encodeAs env (charsetOf "text/html; charset=utf-8".toList) _ = _; rw [default_charset, encode_utf8]) eh hu
  have ht : ct = b!"text/html; charset=utf-8" := latin1_inj (h2.trans html_latin.symm)
  refine ⟨p, utf8 p, m, hp, Proofs.Params.decodeReplace_utf8 p, h1, ?_⟩
  rw [h3, ht]
  have hb : bodyless c k.1 = decide (c.method = b!"HEAD") := by
    show (decide (c.method = b!"HEAD") || Spec.Response.noBody k.1) = _
    rw [hn, Bool.or_false]
  show s.log ++ [.head (errText c k.1 m _ _) (if bodyless c k.1 = true then [] else utf8 p) _, _] = _
  rw [hb]
  simp only [decide_eq_true_eq]

/-! ## What is not answered -/

namespace C98

theorem setStatusS_run {code : Int} {m : Str} {s : St} (eh : s.headers = some []) :
    (∃ b, Line m ∧ latin1 b = m ∧ setStatusS code m s = (.ok (), { s with status := (code, b) :: s.status })) ∨
    (¬ Line m ∧ ∃ e, setStatusS code m s = (.error e, s)) := by
  unfold setStatusS
  cases hn : narrow 256 m with
  | none =>
    refine .inr ⟨fun hl => ?_, _, rfl⟩
    obtain ⟨b, hb, _⟩ := line_narrow.1 hl
    rw [hn] at hb; cases hb
  | some b =>
    by_cases h10 : (10 : UInt8) ∈ b
    · refine .inr ⟨fun hl => ?_, _, by show setStatus code b s = _; unfold setStatus; rw [if_pos h10]; rfl⟩
      obtain ⟨b', hb, hb'⟩ := line_narrow.1 hl
      rw [hn] at hb; cases hb; exact hb' h10
    · refine .inl ⟨b, line_narrow.2 ⟨b, hn, h10⟩, (narrow_sound (Nat.le_refl _) hn).1, ?_⟩
      show setStatus code b s = _
      unfold setStatus
      rw [if_neg h10, bind_ok (headers_some eh)]
      rfl

theorem setTypeS_run {ct : Str} {s : St} (eh : s.headers = some []) :
    (∃ b, Line ct ∧ latin1 b = ct ∧ setTypeS ct s = (.ok (), { s with ctype := b :: s.ctype })) ∨
    (¬ Line ct ∧ ∃ e, setTypeS ct s = (.error e, s)) := by
  unfold setTypeS
  cases hn : narrow 256 ct with
  | none =>
    refine .inr ⟨fun hl => ?_, _, rfl⟩
    obtain ⟨b, hb, _⟩ := line_narrow.1 hl
    rw [hn] at hb; cases hb
  | some b =>
    by_cases h10 : (10 : UInt8) ∈ b
    · refine .inr ⟨fun hl => ?_, _, by show setContentType b s = _; unfold setContentType; rw [if_pos h10]; rfl⟩
      obtain ⟨b', hb, hb'⟩ := line_narrow.1 hl
      rw [hn] at hb; cases hb; exact hb' h10
    · refine .inl ⟨b, line_narrow.2 ⟨b, hn, h10⟩, (narrow_sound (Nat.le_refl _) hn).1, ?_⟩
      show setContentType b s = _
      unfold setContentType
      rw [if_neg h10, bind_ok (headers_some eh)]
      rfl

end C98

/-- What keeps an exception from being answered: its text cannot be formed, its message or content type does not fit into a
header line, or the page cannot be encoded in the declared codec. -/
def Unsayable (env : Env) (x : Raised) : Prop :=
  (¬ ∃ p, PageText x p) ∨ ¬ Line (statusOf x).2.1 ∨ ¬ Line (statusOf x).2.2 ∨
  ∃ p, PageText x p ∧ encodeAs env (charsetOf (statusOf x).2.2) (if env.debug then debugPage (env.trace (asHttp x)) else p) = none

/-- **C98 (silence), exact.** With the handler of the framework, the exception is not answered exactly when it is
`Unsayable`; then nothing is sent and nothing ends the connection. -/
theorem C98_silent {c : Cfg} (hc : CfgOk c) (env : Env) (x : Raised) {s : St} {h} (eh : s.headers = some h) (hu : s.upgraded = false) :
    ((respond c env (error500 env) x s).2.log = s.log ↔ Unsayable env x) ∧
    (Unsayable env x → (respond c env (error500 env) x s).2.aborted = s.aborted ∧ ∃ e, (respond c env (error500 env) x s).1 = .error e) := by
  have hsent : headersSent s = false := by simp [headersSent, eh]
  have main : Unsayable env x → ∃ e s', respond c env (error500 env) x s = (.error e, s') ∧ s'.log = s.log ∧ s'.aborted = s.aborted := by
    intro hun
    have e0 := asHttp_eq x
    have e1 : (asHttp x).message = (statusOf x).2.1 := by rw [← e0]
    have e2 : (asHttp x).ctype = (statusOf x).2.2 := by rw [← e0]
    unfold respond
    rw [bind_ok (get_run s), if_neg (by simp [hsent])]
    cases ht : x.text with
    | none => exact ⟨_, s, rfl, rfl, rfl⟩
    | some t =>
      obtain ⟨p, hp1, hp2⟩ := page_text ht
      dsimp only
      rw [if_neg (by simp [hsent]), bind_ok (putHeaders_run _ _)]
      rcases setStatusS_run (code := (asHttp x).code) (m := (asHttp x).message) (s := { s with headers := some [] }) rfl with ⟨m, l1, m1, r1⟩ | ⟨_, e, r1⟩
      · rw [bind_ok r1]
        rcases setTypeS_run (ct := (asHttp x).ctype) (s := { s with headers := some [], status := ((asHttp x).code, m) :: s.status }) rfl with ⟨ct, l2, m2, r2⟩ | ⟨_, e, r2⟩
        · rw [bind_ok r2]
          obtain ⟨q1, q2⟩ := error500_ret (env := env) hp1
          have hen : encodeAs env (charsetOf (asHttp x).ctype) (shown env x p) = none := by
            rcases hun with h | h | h | ⟨p', h1, h2⟩
            · exact absurd ⟨p, hp2⟩ h
            · exact absurd (e1 ▸ l1) h
            · exact absurd (e2 ▸ l2) h
            · have : p' = p := by
                have := (text_of_page h1).2
                rw [hp1] at this; exact (Option.some.inj this).symm
              subst this
              rw [e2]; exact h2
          have he : error500 env (asHttp x) = ⟨[], .ok (.str (shown env x p))⟩ := by
            rw [← q1, ← q2]
          refine ⟨.other, { s with headers := some [], status := ((asHttp x).code, m) :: s.status, ctype := ct :: s.ctype }, ?_, rfl, rfl⟩
          rw [he]
          show sendData c env (asHttp x) (some (.str (shown env x p))) _ = _
          unfold sendData
          dsimp only
          rw [hen]
          rfl
        · rw [bind_err r2]
          exact ⟨e, _, rfl, rfl, rfl⟩
      · rw [bind_err r1]
        exact ⟨e, _, rfl, rfl, rfl⟩
  refine ⟨⟨fun hl => ?_, fun hun => ?_⟩, fun hun => ?_⟩
  · refine Classical.byContradiction fun hn => ?_
    have a1 : ∃ p, PageText x p := Classical.byContradiction fun h => hn (.inl h)
    have a2 : Line (statusOf x).2.1 := Classical.byContradiction fun h => hn (.inr (.inl h))
    have a3 : Line (statusOf x).2.2 := Classical.byContradiction fun h => hn (.inr (.inr (.inl h)))
    obtain ⟨p, hp⟩ := a1
    cases hen : encodeAs env (charsetOf (statusOf x).2.2) (shown env x p) with
    | none => exact hn (.inr (.inr (.inr ⟨p, hp, hen⟩)))
    | some b =>
      obtain ⟨m, ct, _, _, h3⟩ := sent_page hc hp a2 a3 hen eh hu
      rw [hl] at h3
      have := congrArg List.length h3
      simp at this
  · obtain ⟨e, s', h1, h2, _⟩ := main hun
    rw [h1]; exact h2
  · obtain ⟨e, s', h1, _, h3⟩ := main hun
    rw [h1]; exact ⟨h3, e, rfl⟩

/-! ## Debug pages -/

namespace C98

def escC (c : Char) : Str :=
  if c = '&' then "&amp;".toList else if c = '<' then "&lt;".toList else if c = '>' then "&gt;".toList
  else if c = '"' then "&quot;".toList else if c = '\'' then "&#x27;".toList else [c]

theorem escapeS_eq (s : Str) : escapeS s = s.flatMap escC := by
  unfold escapeS replC
  induction s with
  | nil => rfl
  | cons c t ih =>
    simp only [List.flatMap_cons, List.flatMap_append]
    rw [ih]
    congr 1
    unfold escC
    by_cases h1 : c = '&'
    · subst h1; decide +kernel
    by_cases h2 : c = '<'
    · subst h2; decide +kernel
    by_cases h3 : c = '>'
    · subst h3; decide +kernel
    by_cases h4 : c = '"'
    · subst h4; decide +kernel
    by_cases h5 : c = '\''
    · subst h5; decide +kernel
    simp [h1, h2, h3, h4, h5]

theorem unescape_escC (c : Char) (t : Str) : unescapeS (escC c ++ t) = c :: unescapeS t := by
  unfold escC
  by_cases h1 : c = '&'
  · subst h1; simp [unescapeS]
  by_cases h2 : c = '<'
  · subst h2; simp [unescapeS]
  by_cases h3 : c = '>'
  · subst h3; simp [unescapeS]
  by_cases h4 : c = '"'
  · subst h4; simp [unescapeS]
  by_cases h5 : c = '\''
  · subst h5; simp [unescapeS]
  rw [if_neg h1, if_neg h2, if_neg h3, if_neg h4, if_neg h5]
  show unescapeS (c :: t) = _
  rw [unescapeS]
  all_goals
    intros
    simp_all

theorem escC_safe (c : Char) : ∀ ch ∈ escC c, ch ≠ '<' ∧ ch ≠ '>' ∧ ch ≠ '"' ∧ ch ≠ '\'' := by
  unfold escC
  by_cases h1 : c = '&'
  · subst h1; decide +kernel
  by_cases h2 : c = '<'
  · subst h2; decide +kernel
  by_cases h3 : c = '>'
  · subst h3; decide +kernel
  by_cases h4 : c = '"'
  · subst h4; decide +kernel
  by_cases h5 : c = '\''
  · subst h5; decide +kernel
  rw [if_neg h1, if_neg h2, if_neg h3, if_neg h4, if_neg h5]
  intro ch hch
  rw [List.mem_singleton] at hch
  subst hch
  exact ⟨h2, h3, h4, h5⟩

theorem count_escape (s : Str) : (escapeS s).count '<' = 0 := by
  rw [escapeS_eq, List.count_eq_zero, List.mem_flatMap]
  rintro ⟨c, _, h⟩
  exact (escC_safe c _ h).1 rfl

end C98

/-- **C98 (debug).** With the debug option the page is a list of the lines of the traceback: a line adds no markup (its
escaped text has none of `<`, `>`, `"`, `'`) and unescaped it is the line again. -/
theorem C98_debug (l : Str) : (∀ ch ∈ escapeS l, ch ≠ '<' ∧ ch ≠ '>' ∧ ch ≠ '"' ∧ ch ≠ '\'') ∧ unescapeS (escapeS l) = l := by
  rw [escapeS_eq]
  constructor
  · intro ch hch
    obtain ⟨c, _, h⟩ := List.mem_flatMap.1 hch
    exact escC_safe c ch h
  · induction l with
    | nil => rfl
    | cons c t ih => rw [List.flatMap_cons, unescape_escC, ih]

/-- The tags of the page depend on the number of lines only. -/
theorem C98_debug_tags (lines : List Str) : (debugPage lines).count '<' = 2 * max lines.length 1 + 2 := by
  have key : ∀ ls : List Str, ls ≠ [] → (joinS "</li><li>".toList (ls.map escapeS)).count '<' + 2 = 2 * ls.length := by
    intro ls
    induction ls with
    | nil => intro h; exact absurd rfl h
    | cons a r ih =>
      intro _
      cases r with
      | nil => simp [joinS, C98.count_escape]
      | cons b r =>
        have := ih (by simp)
        simp only [List.map_cons, joinS, List.count_append, C98.count_escape, List.length_cons] at this ⊢
        have h9 : "</li><li>".toList.count '<' = 2 := by decide +kernel
        omega
  unfold debugPage
  simp only [List.count_append]
  have h1 : "<ul><li>".toList.count '<' = 2 := by decide +kernel
  have h2 : "</li></ul>".toList.count '<' = 2 := by decide +kernel
  cases lines with
  | nil => simp [joinS, h1, h2]
  | cons a r =>
    have := key (a :: r) (by simp)
    simp only [List.length_cons] at this ⊢
    omega

/-- **C98**: the debug page is what is sent. -/
theorem C98_debug_page {c : Cfg} (hc : CfgOk c) {env : Env} (hd : env.debug = true) {t : Str} {s : St} {h} (eh : s.headers = some h) (hu : s.upgraded = false) :
    ∃ b, decodeReplace b = debugPage (env.trace {}) ∧ (respond c env (error500 env) (.other (some t)) s).2.log = s.log ++ [.head
      (errText c 500 b!"Internal Server Error" b!"text/html; charset=utf-8" b.length) (if c.method = b!"HEAD" then [] else b) { throttle := false }, .mark false] := by
  refine ⟨utf8 (debugPage (env.trace {})), Proofs.Params.decodeReplace_utf8 _, ?_⟩
  obtain ⟨m, ct, h1, h2, h3⟩ := sent_page hc (env := env) (.other t) ise_line default_line
    (by show encodeAs env (charsetOf "text/html; charset=utf-8".toList) _ = _; rw [default_charset, encode_utf8]) eh hu
  rw [h3, latin1_inj (h1.trans ise_latin.symm), latin1_inj (h2.trans html_latin.symm)]
  have hb : bodyless c (statusOf (.other (some t))).1 = decide (c.method = b!"HEAD") := by
    show (decide (c.method = b!"HEAD") || Spec.Response.noBody 500) = _
    rw [show Spec.Response.noBody 500 = false from by decide +kernel, Bool.or_false]
  rw [hb, shown, if_pos hd]
  simp only [decide_eq_true_eq]
  rfl

example : debugPage ["Traceback:\n".toList, "  raise ValueError('<b>')\n".toList] =
    "<ul><li>Traceback:\n</li><li>  raise ValueError(&#x27;&lt;b&gt;&#x27;)\n</li></ul>".toList := by decide +kernel

end Verif
