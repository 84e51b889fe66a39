import Verif.Model.FormApi
import Verif.Props.ReadEnd
import Verif.Props.Params
/-!
# C117: `form()` among the other calls by which a handler reads its body
-/
namespace Verif
open Verif.Py Verif.Model.ReadApi Verif.Model.FormApi Verif.Model.Params

namespace FormApi
open Proofs.ReadApi hiding loop

theorem loop_drive {c : Cfg} {a : Args} (hs : a.size ≤ a.limit) : ∀ (fuel : Nat) (g : Gen) (s : St),
    loop c a fuel g s = ((match (drive c fuel g s).1 with | .ok u => .ok u | .error e => .error (.stream e)), (drive c fuel g s).2)
  | 0, _, _ => rfl
  | fuel + 1, g, s => by
    rw [loop, drive]
    rcases next c g s with ⟨r, g1, s1⟩
    cases r with
    | ok d =>
      dsimp only
      rw [if_neg (by omega)]
      exact loop_drive hs fuel g1 _
    | error e => cases e <;> rfl

theorem inner_over {g g' : Gen} {s s' : St} {r : Except Exc (Option Bytes)} (h : inner g s = (r, g', s')) : g'.over = g.over := by
  unfold inner at h
  split at h
  · cases h; rfl
  · split at h <;> (cases h; rfl)

theorem fill_over {g g' : Gen} {s s' : St} {r : Except Exc Unit} (h : fill g s = (r, g', s')) : g'.over = g.over := by
  unfold fill at h
  split at h
  · cases h; rfl
  · rcases hi : inner g s with ⟨r1, g1, s1⟩
    have := inner_over hi
    rw [hi] at h
    rcases r1 with e | ⟨_ | d⟩ <;> (cases h; exact this)

theorem inner_stop (g : Gen) (s : St) : (inner g s).1 ≠ .error .stop := by
  unfold inner
  split
  · exact fun h => by cases h
  · split <;> exact fun h => by cases h

theorem fill_stop (g : Gen) (s : St) : (fill g s).1 ≠ .error .stop := by
  unfold fill
  split
  · exact fun h => by cases h
  · have := inner_stop g s
    revert this
    rcases inner g s with ⟨r1, g1, s1⟩
    intro this
    rcases r1 with e | ⟨_ | d⟩
    · exact fun h => this (by cases h; rfl)
    · dsimp only
      split <;> exact fun h => by cases h
    · exact fun h => by cases h

theorem nextChunk_over {c : Cfg} : ∀ (fuel : Nat) {g g' : Gen} {s s' : St} {r : Except Exc Bytes}, nextChunk c fuel g s = (r, g', s') →
    (∀ d, r = .ok d → g'.over = g.over) ∧ (r = .error .stop → s'.eof = true)
  | 0, _, _, _, _, _, h => by cases h; exact ⟨fun _ h => (by cases h), fun h => (by cases h)⟩
  | fuel + 1, g, g', s, s', r, h => by
    rw [nextChunk] at h
    rcases hf : fill g s with ⟨r1, g1, s1⟩
    have ho := fill_over hf
    rw [hf] at h
    cases r1 with
    | error e =>
      cases h
      refine ⟨fun _ h => (by cases h), fun h => ?_⟩
      cases h
      exact absurd (by rw [hf]) (fill_stop g s)
    | ok u =>
      dsimp only at h
      split at h
      · cases h; exact ⟨fun _ _ => ho, fun h => (by cases h)⟩
      · obtain ⟨h1, h2⟩ := nextChunk_over fuel h
        exact ⟨fun d hd => (h1 d hd).trans ho, h2⟩
      · cases h; exact ⟨fun _ h => (by cases h), fun _ => rfl⟩
      · cases h; exact ⟨fun _ h => (by cases h), fun h => (by cases h)⟩

theorem next_over {c : Cfg} {g g' : Gen} {s s' : St} {r : Except Exc Bytes} (hg : g.over = false) (h : next c g s = (r, g', s')) :
    (∀ d, r = .ok d → g'.over = false) ∧ (r = .error .stop → s'.eof = true) := by
  unfold next at h
  rw [if_neg (by simp [hg])] at h
  split at h
  · rename_i he
    cases h
    simp only [Bool.and_eq_true] at he
    exact ⟨fun _ h => (by cases h), fun _ => he.2⟩
  · split at h
    · obtain ⟨h1, h2⟩ := nextChunk_over _ h
      exact ⟨fun d hd => (h1 d hd).trans hg, h2⟩
    · split at h
      · cases h; exact ⟨fun _ h => (by cases h), fun h => (by cases h)⟩
      · unfold nextRaw at h
        rcases hi : inner { g with started := true } s with ⟨r1, g1, s1⟩
        have := inner_over hi
        rw [hi] at h
        rcases r1 with e | ⟨_ | d⟩
        · cases h
          refine ⟨fun _ h => (by cases h), fun he => ?_⟩
          cases he
          exact absurd (by rw [hi]) (inner_stop { g with started := true } s)
        · cases h; exact ⟨fun _ h => (by cases h), fun _ => rfl⟩
        · cases h; exact ⟨fun _ _ => this.trans hg, fun h => (by cases h)⟩

theorem loop_eof {c : Cfg} {a : Args} : ∀ (fuel : Nat) {g : Gen} {s s' : St} {u : Unit}, g.over = false → loop c a fuel g s = (.ok u, s') → s'.eof = true
  | 0, _, _, _, _, _, h => by cases h
  | fuel + 1, g, s, s', u, hg, h => by
    rw [loop] at h
    rcases hn : next c g s with ⟨r, g1, s1⟩
    obtain ⟨h1, h2⟩ := next_over hg hn
    rw [hn] at h
    cases r with
    | ok d =>
      dsimp only at h
      split at h
      · cases h
      · exact loop_eof fuel (h1 d rfl) h
    | error e => cases e <;> cases h; exact h2 rfl

theorem drive_eof {c : Cfg} {s : St} {raw : Bool} (he : s.eof = true) (f : Nat) : drive c (f + 1) { raw } s = (.ok (), s) := by
  simp [drive, next, he]

theorem body_eof {c : Cfg} {s : St} {raw : Bool} (he : s.eof = true) : call c s (.body raw) = (.ok s.body, s) := by
  simp only [call]
  rw [show bound {} s = (bound {} s - 1) + 1 from by unfold bound; omega, drive_eof he]

end FormApi

/-- **C117 (`form()` is `body()`, parsed).** In every state, whatever was read before, however the body is framed: where `body()` would return
`d`, `form()` gives what `parse_qs` makes of `d`, and where `body()` raises, `form()` raises the same; both leave the same state. (For sizes
within the limits: more than 2 bytes, and no more than `limit`.) -/
theorem C117_same (c : Cfg) (a : Args) (hf : a.isForm = true) (h2 : 2 < a.size) (hl : a.size ≤ a.limit) (s : St) :
    (form c a ⟨s, none⟩).2.st = (call c s (.body false)).2 ∧
    (∀ d, (call c s (.body false)).1 = .ok d → (form c a ⟨s, none⟩).1 = match formFields a.maxFields d with | .fields f => .ok f | .valueError => .error .fields) ∧
    (∀ e, (call c s (.body false)).1 = .error e → (form c a ⟨s, none⟩).1 = .error (.stream e)) := by
  simp only [form, hf, if_true, FormApi.loop_drive hl, call]
  rcases drive c (bound {} s) {} s with ⟨r, s1⟩
  cases r with
  | error e => exact ⟨rfl, fun _ h => (by cases h), fun e' h => by cases h; rfl⟩
  | ok u =>
    dsimp only
    rw [if_pos ⟨h2, hl⟩]
    refine ⟨?_, fun d h => ?_, fun e h => by cases h⟩
    · cases parseQs a.maxFields s1.body <;> rfl
    · cases h
      unfold formFields
      cases parseQs a.maxFields s1.body <;> rfl

/-- **C117 (`body()` after `form()`).** When `form()` has returned, whatever it returned, `body()` returns at once, and what it returns is what
`form()` has parsed. -/
theorem C117_body {c : Cfg} {a : Args} (hf : a.isForm = true) {s : St} {f : Fields} {x : FSt} (h : form c a ⟨s, none⟩ = (.ok f, x)) (raw : Bool) :
    call c x.st (.body raw) = (.ok x.st.body, x.st) ∧ (2 < a.size → a.size ≤ a.limit → formFields a.maxFields x.st.body = .fields f) := by
  simp only [form, hf, if_true] at h
  rcases hl : loop c a (bound {} s) {} s with ⟨r, s1⟩
  rw [hl] at h
  cases r with
  | error e => cases h
  | ok u =>
    have he := FormApi.loop_eof _ rfl hl
    dsimp only at h
    split at h
    · rename_i hsz
      cases hp : parseQs a.maxFields s1.body with
      | none => rw [hp] at h; cases h
      | some d =>
        rw [hp] at h
        cases h
        exact ⟨FormApi.body_eof he, fun _ _ => by dsimp only [formFields]; rw [hp]⟩
    · rename_i hsz
      cases h
      exact ⟨FormApi.body_eof he, fun h1 h2 => absurd ⟨h1, h2⟩ hsz⟩

/-- **C117 (once).** A later call of `form()` reads nothing, whatever has happened to the request since: it returns what the first one returned,
and the empty dict if the first one raised. -/
theorem C117_again (c c' : Cfg) (a a' : Args) (x : FSt) (s : St) :
    let y := form c a x
    form c' a' ⟨s, y.2.post⟩ = (match y.1 with | .ok f => (.ok f, ⟨s, some f⟩) | .error _ => (.ok [], ⟨s, some []⟩)) := by
  intro y
  have : y.2.post = some (match y.1 with | .ok f => f | .error _ => []) := by
    show (form c a x).2.post = some (match (form c a x).1 with | .ok f => f | .error _ => [])
    unfold form
    split
    · assumption
    · split
      · split
        · rfl
        · split
          · split <;> rfl
          · rfl
      · rfl
  rw [this]
  cases y.1 <;> rfl

/-- **C117 (exact).** Of a body with Content-Length that was read in its order (C113), `form()` parses what is neither returned nor held back by
the reads before: it parses the whole body exactly if they have returned nothing and hold nothing back. -/
theorem C117_exact {c : Cfg} (hc : c.chunked = false) {b : Bytes} (hl : c.cl = b.length) (hm : b.length ≤ c.maxBody) {ps : List Bytes} (hb : ps.flatten = b) (ks : List Call)
    (ht : Tidy c { q := ps.map some ++ [none] } ks) (a : Args) (hf : a.isForm = true) (h2 : 2 < a.size) (hl2 : a.size ≤ a.limit) :
    let p := calls c { q := ps.map some ++ [none] } ks
    ∃ d, (form c a ⟨p.2, none⟩).1 = (match formFields a.maxFields d with | .fields f => .ok f | .valueError => .error .fields) ∧
      (form c a ⟨p.2, none⟩).2.st.q = [] ∧ d.length + (returned ks p.1).length + p.2.buf.length = b.length ∧
      (d = b ↔ returned ks p.1 = [] ∧ p.2.buf = []) ∧ (p.2.buf = [] → returned ks p.1 ++ d = b) := by
  have hr := ReadApi.rest_pieces ps
  rw [hb] at hr
  obtain ⟨h1, h3, _⟩ := ReadApi.calls_tidy (c := c) (b := b) ks { q := ps.map some ++ [none] }
    (.inl ⟨ps, ⟨hc, hl, hm, by dsimp only; rw [hr]; simp⟩, rfl, rfl, rfl, fun _ h => by cases h⟩) ht
  simp only [hr, List.nil_append] at h3
  revert h1 h3
  generalize calls c { q := ps.map some ++ [none] } ks = p
  intro h1 h3
  dsimp only
  obtain ⟨f1, f2, _⟩ := C117_same c a hf h2 hl2 p.2
  have key : ∃ s', call c p.2 (.body false) = (.ok (p.2.body ++ Proofs.ReadApi.rest p.2.q), s') ∧ s'.q = [] := by
    rcases h1 with ⟨ps1, ho⟩ | ho
    · obtain ⟨s1, d1, d2, d3, d4, d5, d6⟩ := ReadApi.drive_open (bound {} p.2) ps1 { raw := false } p.2 ho.plain ho.q ho.eof ⟨rfl, rfl⟩ (ReadApi.length_bound ho.q)
      refine ⟨s1, ?_, d3⟩
      simp only [call, d1]
      rw [d6, ho.q, ReadApi.rest_pieces]
    · refine ⟨p.2, ?_, ho.q⟩
      rw [FormApi.body_eof ho.eof, ho.q]
      simp [Proofs.ReadApi.rest]
  obtain ⟨s', k1, k2⟩ := key
  have hlen := congrArg List.length h3
  simp only [List.length_append] at hlen
  refine ⟨_, f2 _ (by rw [k1]), by rw [f1, k1]; exact k2, ?_, ⟨fun hd => ?_, fun hd => ?_⟩, fun hd => ?_⟩
  · simp only [List.length_append]
    omega
  · have hlen2 := congrArg List.length hd
    simp only [List.length_append] at hlen2
    exact ⟨List.length_eq_zero_iff.1 (by omega), List.length_eq_zero_iff.1 (by omega)⟩
  · rw [hd.1, hd.2] at h3
    simpa using h3
  · rw [hd] at h3
    simpa using h3

/-- **C117 (`form()` first, or after `body()`).** Then the fields are those of the body. -/
theorem C117_partial {c : Cfg} (hc : c.chunked = false) {b : Bytes} (hl : c.cl = b.length) (hm : b.length ≤ c.maxBody) {ps : List Bytes} (hb : ps.flatten = b) (a : Args) (hf : a.isForm = true)
    (h2 : 2 < a.size) (hl2 : a.size ≤ a.limit) (raws : List Bool) :
    (form c a ⟨(calls c { q := ps.map some ++ [none] } (raws.map .body)).2, none⟩).1 = match formFields a.maxFields b with | .fields f => .ok f | .valueError => .error .fields := by
  have tidy : ∀ (raws : List Bool) (s : St), s.buf = [] → ((∃ ps, ReadApi.Open c b s ps) ∨ ReadApi.Shut c b s) → Tidy c s (raws.map .body) ∧ (calls c s (raws.map .body)).2.buf = [] ∧
      returned (raws.map .body) (calls c s (raws.map .body)).1 = [] := by
    intro raws
    induction raws with
    | nil => intro s hs _; exact ⟨trivial, hs, rfl⟩
    | cons raw raws ih =>
      intro s hs ho
      rcases hx : call c s (.body raw) with ⟨r, s1⟩
      obtain ⟨k1, _, _, k4, _⟩ := ReadApi.call_tidy ho (fun _ => hs) hx
      obtain ⟨rfl, _, k5⟩ := k4 raw rfl
      obtain ⟨i1, i2, i3⟩ := ih s1 k5 k1
      refine ⟨⟨fun _ => hs, by rw [hx]; exact i1⟩, ?_, ?_⟩
      · simp only [List.map_cons, calls, hx]; exact i2
      · simp only [List.map_cons, calls, hx, returned]; exact i3
  have hr := ReadApi.rest_pieces ps
  rw [hb] at hr
  obtain ⟨t1, t2, t3⟩ := tidy raws { q := ps.map some ++ [none] } rfl (.inl ⟨ps, ⟨hc, hl, hm, by dsimp only; rw [hr]; simp⟩, rfl, rfl, rfl, fun _ h => by cases h⟩)
  obtain ⟨d, e1, _, _, e3, _⟩ := C117_exact hc hl hm hb (raws.map .body) t1 a hf h2 hl2
  rw [e1, e3.2 ⟨t3, t2⟩]

/-- **C117 (fields, partial: blank values are left out, as in C74).** A form as it is written by a browser: its items, each in its place, from
`form()` and from every later `form()`, with `body()` before it or not; and the body from `body()` after it. -/
theorem C117_fields_partial {stop : List UInt8} {items : List Spec.Params.Item} {ts : List Bytes} (h : Spec.Params.Each (Spec.Params.Item.Written stop) items ts) {c : Cfg} (hc : c.chunked = false)
    (hl : c.cl = (join b!"&" ts).length) (hm : (join b!"&" ts).length ≤ c.maxBody) {ps : List Bytes} (hb : ps.flatten = join b!"&" ts) (a : Args) (hf : a.isForm = true)
    (h2 : 2 < a.size) (hl2 : a.size ≤ a.limit) (hx : items.length ≤ a.maxFields) (raws : List Bool) (raw : Bool) :
    ∃ d x, form c a ⟨(calls c { q := ps.map some ++ [none] } (raws.map .body)).2, none⟩ = (.ok d, x) ∧ Spec.Params.Holds d items ∧ (form c a x).1 = .ok d ∧
      call c x.st (.body raw) = (.ok x.st.body, x.st) ∧ formFields a.maxFields x.st.body = .fields d := by
  obtain ⟨d, h1, h3⟩ := C74_form_partial h hx
  have e := C117_partial hc hl hm hb a hf h2 hl2 raws
  rw [h1] at e
  rcases hx : form c a ⟨(calls c { q := ps.map some ++ [none] } (raws.map .body)).2, none⟩ with ⟨r, x⟩
  rw [hx] at e
  cases e
  obtain ⟨b1, b2⟩ := C117_body hf hx raw
  refine ⟨d, x, rfl, h3, ?_, b1, b2 h2 hl2⟩
  have := C117_again c c a a ⟨(calls c { q := ps.map some ++ [none] } (raws.map .body)).2, none⟩ x.st
  rw [hx] at this
  exact (congrArg Prod.fst this)

/-- **C117 (refutation, general).** A handler that looks at the first bytes of a form that came in one piece finds no fields in it. -/
theorem C117_peek {c : Cfg} (hc : c.chunked = false) {b : Bytes} (hl : c.cl = b.length) (hm : b.length ≤ c.maxBody) {n : Nat} (h0 : n ≠ 0) (hn : n ≤ b.length) (raw : Bool) (a : Args)
    (hf : a.isForm = true) (h2 : 2 < a.size) (hl2 : a.size ≤ a.limit) :
    let p := calls c { q := [some b, none] } [.recv (some n) raw]
    p.1 = [.ok (b.take n)] ∧ (form c a ⟨p.2, none⟩).1 = .ok [] := by
  have hp : ReadApi.Plain c b { q := [some b, none] } := ⟨hc, hl, hm, by simp [Proofs.ReadApi.rest]⟩
  have e1 := ReadApi.recv_one raw hp rfl rfl rfl h0 rfl hn
  intro p
  have hp1 : p.1 = [.ok (b.take n)] := by simp only [p, calls, e1]
  have hp2 : p.2.buf = b.drop n := by simp only [p, calls, e1]
  obtain ⟨d, q1, _, q3, _⟩ := C117_exact hc hl hm (ps := [b]) (by simp) [.recv (some n) raw] ⟨fun h => absurd rfl (h n raw), trivial⟩ a hf h2 hl2
  refine ⟨hp1, ?_⟩
  have hd : d = [] := by
    rw [show calls c { q := [b].map some ++ [none] } [.recv (some n) raw] = p from rfl, hp1, hp2] at q3
    simp only [returned, List.append_nil, List.length_take, List.length_drop] at q3
    exact List.length_eq_zero_iff.1 (by omega)
  subst hd
  rw [show p = calls c { q := [b].map some ++ [none] } [.recv (some n) raw] from rfl, q1]
  rfl

/-- **C117 (limit).** A form over the limit: called first, `form()` raises, and `body()` after it still returns the whole body; called after
`body()`, it returns the empty dict without an error. -/
theorem C117_limit {c : Cfg} (hc : c.chunked = false) {b : Bytes} (hl : c.cl = b.length) (hm : b.length ≤ c.maxBody) {d : Bytes} {ps : List Bytes} (hb : (d :: ps).flatten = b) (raw : Bool) (a : Args)
    (hf : a.isForm = true) (h2 : a.limit < a.size) :
    let x := form c a ⟨{ q := (d :: ps).map some ++ [none] }, none⟩
    x.1 = .error .limit ∧ (call c x.2.st (.body raw)).1 = .ok b ∧
    (form c a ⟨(calls c { q := (d :: ps).map some ++ [none] } [.body raw]).2, none⟩).1 = .ok [] := by
  have hr := ReadApi.rest_pieces (d :: ps)
  rw [hb] at hr
  have hp : ReadApi.Plain c b { q := (d :: ps).map some ++ [none] } := ⟨hc, hl, hm, by dsimp only; rw [hr]; simp⟩
  have e1 := ReadApi.next_piece (g := {}) hp rfl (.inl rfl) ⟨rfl, rfl⟩
  intro x
  have hx : x = (.error .limit, ⟨{ q := ps.map some ++ [none], consumed := d.length, body := d }, some []⟩) := by
    show form c a _ = _
    simp only [form, hf, if_true]
    rw [show ∀ s, bound {} s = (bound {} s - 1) + 1 from fun s => by unfold bound; omega, loop, e1]
    dsimp only
    rw [if_pos h2]
    simp
  have hr' := ReadApi.rest_pieces ps
  rw [hx]
  refine ⟨rfl, ?_, ?_⟩
  · obtain ⟨s1, d1, d2, d3, d4, d5, d6⟩ := ReadApi.drive_open (c := c) (b := b) (bound {} { q := ps.map some ++ [none], consumed := d.length, body := d }) ps { raw }
      { q := ps.map some ++ [none], consumed := d.length, body := d } ⟨hc, hl, hm, by dsimp only; rw [hr', ← hb]; simp⟩ rfl rfl ⟨rfl, rfl⟩ (ReadApi.length_bound rfl)
    simp only [call, d1, d6]
    rw [← hb]; rfl
  · obtain ⟨s1, d1, d2, d3, d4, d5, d6⟩ := ReadApi.drive_open (bound {} { q := (d :: ps).map some ++ [none] }) (d :: ps) { raw } _ hp rfl rfl ⟨rfl, rfl⟩ (ReadApi.length_bound rfl)
    simp only [calls, call, d1]
    simp only [form, hf, if_true]
    rw [show ∀ s, bound {} s = (bound {} s - 1) + 1 from fun s => by unfold bound; omega, loop]
    have : next c {} s1 = (.error .stop, { started := true, over := true }, s1) := by simp [next, d4]
    rw [this]
    dsimp only
    rw [if_neg (by omega)]

/-- A request that is not a form has no fields, and `form()` reads nothing of it. -/
theorem C117_other (c : Cfg) (a : Args) (hf : a.isForm = false) (s : St) : form c a ⟨s, none⟩ = (.ok [], ⟨s, some []⟩) := by
  simp [form, hf]

/-! ## Cases -/

/-- `a=1&b=2` in two pieces: read by `form()`, by `body()` and `form()`, and by `read(2)` and `form()`; each piece alone would be parsed. -/
example :
    (form { cl := 7 } { size := 7 } ⟨{ q := [some b!"a=1&", some b!"b=2", none] }, none⟩).1 = .ok [("a".toList, ["1".toList]), ("b".toList, ["2".toList])] ∧
    (form { cl := 7 } { size := 7 } ⟨(calls { cl := 7 } { q := [some b!"a=1&", some b!"b=2", none] } [.body false]).2, none⟩).1 = .ok [("a".toList, ["1".toList]), ("b".toList, ["2".toList])] ∧
    (form { cl := 7 } { size := 7 } ⟨(calls { cl := 7 } { q := [some b!"a=1&", some b!"b=2", none] } [.recv (some 2) false]).2, none⟩).1 = .ok [("b".toList, ["2".toList])] :=
  ⟨rfl, rfl, rfl⟩

/-- **C117 refuted.** The same form in one piece, of which the handler has read two bytes. -/
theorem C117_refuted_peek :
    (calls { cl := 7 } { q := [some b!"a=1&b=2", none] } [.recv (some 2) false]).1 = [.ok b!"a="] ∧
    (form { cl := 7 } { size := 7 } ⟨(calls { cl := 7 } { q := [some b!"a=1&b=2", none] } [.recv (some 2) false]).2, none⟩).1 = .ok [] ∧
    (form { cl := 7 } { size := 7 } ⟨{ q := [some b!"a=1&b=2", none] }, none⟩).1 = .ok [("a".toList, ["1".toList]), ("b".toList, ["2".toList])] := ⟨rfl, rfl, rfl⟩

example : (form { cl := 7 } { size := 7, limit := 5 } ⟨{ q := [some b!"a=1&b=2", none] }, none⟩).1 = .error .limit ∧
    (form { cl := 7 } { size := 7, limit := 5 } ⟨(calls { cl := 7 } { q := [some b!"a=1&b=2", none] } [.body false]).2, none⟩).1 = .ok [] ∧
    (form { chunked := true } { size := 17 } ⟨{ q := [some b!"7\r\na=1&b=2\r\n0\r\n\r\n"] }, none⟩).1 = .ok [("a".toList, ["1".toList]), ("b".toList, ["2".toList])] := ⟨rfl, rfl, rfl⟩

end Verif
