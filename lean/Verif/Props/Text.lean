import Verif.Proofs.Text
/-!
# C34, C35, C44, C48
-/
namespace Verif
open Py Model.Text Spec.Text Proofs.Text

/-! ## C44 -/

/-- **C44 (safe).** The escaped text contains none of `<`, `>`, `"`, and every `&` in it starts one of the four entities. -/
theorem C44_safe (d : Bytes) :
    (60 : UInt8) ∉ htmlEscape d ∧ (62 : UInt8) ∉ htmlEscape d ∧ (34 : UInt8) ∉ htmlEscape d ∧
    ∀ a t, htmlEscape d = a ++ 38 :: t → ∃ e ∈ entities, e.1 <+: 38 :: t := by
  rw [htmlEscape_eq]
  refine ⟨?_, ?_, ?_, ?_⟩
  · simp only [List.mem_flatMap, not_exists, not_and]; intro c _; exact (esc_mem c).1
  · simp only [List.mem_flatMap, not_exists, not_and]; intro c _; exact (esc_mem c).2.1
  · simp only [List.mem_flatMap, not_exists, not_and]; intro c _; exact (esc_mem c).2.2
  · induction d with
    | nil => intro a t h; simp at h
    | cons c d ih =>
      intro a t h
      rw [List.flatMap_cons, List.append_eq_append_iff] at h
      rcases h with ⟨a', rfl, h2⟩ | ⟨c', h1, h2⟩
      · exact ih a' t h2
      · cases c' with
        | nil => exact ih [] t (by simpa using h2.symm)
        | cons x c' =>
          simp at h2
          obtain ⟨rfl, rfl⟩ := h2
          obtain ⟨⟨e, he, hee⟩, h4⟩ := esc_amp c (by rw [h1]; simp)
          have := h4 _ _ h1
          subst this
          refine ⟨e, he, ?_⟩
          rw [hee, h1]
          exact ⟨d.flatMap esc, by simp⟩

/-- **C44 (lossless).** Unescaping the four entities gives back the original bytes. -/
theorem C44_unescape (d : Bytes) : unescape (htmlEscape d) = d := by
  rw [htmlEscape_eq]
  induction d with
  | nil => rfl
  | cons c d ih => rw [List.flatMap_cons, unescape_esc, ih]

/-- **C44 (404 page).** The requested path adds no markup: the page has the same number of `<`, `>` and `"` for every path,
and it contains the path in escaped form. -/
theorem C44_page (path server : Bytes) :
    (∀ c ∈ b!"<>\"", (page404 path server).count c = (page404 [] server).count c) ∧ htmlEscape path <:+: page404 path server := by
  constructor
  · intro c hc
    have h0 : (htmlEscape path).count c = 0 := by
      rw [List.count_eq_zero]
      obtain ⟨h1, h2, h3, -⟩ := C44_safe path
      simp at hc
      rcases hc with rfl | rfl | rfl <;> assumption
    have h1 : (htmlEscape []).count c = 0 := by simp [htmlEscape, replace1]
    unfold page404
    generalize b!"<!DOCTYPE html><html lang=\"en\"><head><meta name=\"viewport\" content=\"width=device-width, initial-scale=1.0\" /><title>404 Not Found</title><style>body { max-width: 600px; margin: 0 auto; padding: 1%; font-family: sans-serif; line-height: 1.5em; }</style></head><body><h1>Not Found</h1>" = A
    generalize b!"<address title=\"Powered by Tremolo\">" ++ server ++ b!"</address></body></html>" = B
    generalize b!"<p>Unable to find handler for " = C
    generalize b!".</p><hr />" = D
    simp only [List.count_append, h0, h1]
  · unfold page404
    generalize b!"<!DOCTYPE html><html lang=\"en\"><head><meta name=\"viewport\" content=\"width=device-width, initial-scale=1.0\" /><title>404 Not Found</title><style>body { max-width: 600px; margin: 0 auto; padding: 1%; font-family: sans-serif; line-height: 1.5em; }</style></head><body><h1>Not Found</h1>" = A
    generalize b!"<address title=\"Powered by Tremolo\">" ++ server ++ b!"</address></body></html>" = B
    exact ⟨A ++ b!"<p>Unable to find handler for ", b!".</p><hr />" ++ B, by simp⟩

example : htmlEscape b!"<a href=\"x\">&amp;'" = b!"&lt;a href=&quot;x&quot;&gt;&amp;amp;'" := by decide +kernel

/-! ## C34 -/

/-- `x` is `data` with the newlines at both ends removed. -/
def StripsTo (data x : Bytes) : Prop :=
  ∃ a b, data = List.replicate a 10 ++ x ++ List.replicate b 10 ∧ x.head? ≠ some 10 ∧ x.getLast? ≠ some 10

namespace Proofs.Text

theorem dropWhile_lf (s : Bytes) : ∃ a, s = List.replicate a 10 ++ s.dropWhile (· == 10) ∧ (s.dropWhile (· == 10)).head? ≠ some 10 := by
  induction s with
  | nil => exact ⟨0, by simp⟩
  | cons c t ih =>
    by_cases hc : c = 10
    · obtain ⟨a, h1, h2⟩ := ih
      subst hc
      refine ⟨a + 1, ?_, by simpa using h2⟩
      simp only [List.replicate_succ, List.cons_append, List.dropWhile_cons, beq_self_eq_true, if_true]
      rw [← h1]
    · exact ⟨0, by simp [hc], by simp [hc]⟩

theorem stripLF_spec (data : Bytes) : StripsTo data (stripLF data) := by
  obtain ⟨a, h1, h2⟩ := dropWhile_lf data
  obtain ⟨b, h3, h4⟩ := dropWhile_lf (data.dropWhile (· == 10)).reverse
  refine ⟨a, b, ?_, ?_, ?_⟩
  · have h5 : data.dropWhile (· == 10) = stripLF data ++ List.replicate b 10 := by
      have := congrArg List.reverse h3
      rw [List.reverse_reverse, List.reverse_append, List.reverse_replicate] at this
      exact this
    rw [List.append_assoc, ← h5]; exact h1
  · have h5 : data.dropWhile (· == 10) = stripLF data ++ List.replicate b 10 := by
      have := congrArg List.reverse h3
      rw [List.reverse_reverse, List.reverse_append, List.reverse_replicate] at this
      exact this
    cases hs : stripLF data with
    | nil => simp
    | cons x t => rw [h5, hs] at h2; simpa using h2
  · unfold stripLF stripBy
    rw [List.getLast?_reverse]; exact h4

theorem stripLF_mem {data : Bytes} {c : UInt8} (h : c ∈ stripLF data) : c ∈ data := by
  obtain ⟨a, b, h1, _⟩ := stripLF_spec data
  rw [h1]; simp [h]

theorem sseField_spec {name data out : Bytes} {v : Option Bytes} (h : sseField name v data = some out) :
    out = data ++ (if v.getD [] = [] then [] else 10 :: name ++ b!": " ++ v.getD []) ∧ (10 : UInt8) ∉ v.getD [] := by
  unfold sseField at h
  split at h
  · simp at h; simp [h]
  · simp at h; simp [h]
  · rename_i v hv
    split at h
    · cases h
    · rename_i hc
      simp at h
      have : (10 : UInt8) ∉ v := by
        rw [← contains_singleton_false]; simpa using hc
      have hv' : v ≠ [] := fun e => hv e
      simp [← h, this, hv']

theorem fmtInt_nat (n : Nat) : fmtInt (n : Int) = fmtNat n := by simp [fmtInt]

end Proofs.Text

/-- **C34.** Whatever the stream contained before (any parser state between events) and whatever follows: the bytes of a
successful `send` are read by an event-stream parser as exactly one event, with the data stripped of outer newlines, that
event name (empty: the default), id and retry time.  Data and fields contain no CR; an id containing NUL is ignored by
parsers, as the grammar demands. -/
theorem C34_one_event {data : Bytes} {event id : Option Bytes} {retry : Nat} {out : Bytes}
    (h : sseSend data event id retry = some out) (hd : (13 : UInt8) ∉ data) (he : (13 : UInt8) ∉ event.getD [])
    (hi : (13 : UInt8) ∉ id.getD []) (s : ES) (hs : s.data = [] ∧ s.type = []) :
    ∃ x, StripsTo data x ∧ ∀ rest, esParse s (out ++ rest) =
      esParse { data := [], type := [], events := s.events ++ [⟨event.getD [], x⟩],
                lastId := if id.getD [] = [] ∨ (0 : UInt8) ∈ id.getD [] then s.lastId else id.getD [],
                retry := if retry = 0 then s.retry else some retry } rest := by
  refine ⟨stripLF data, stripLF_spec data, fun rest => ?_⟩
  have hrep : (if contains [10] (stripLF data) then replace1 10 b!"\ndata: " (stripLF data) else stripLF data) =
      replace1 10 b!"\ndata: " (stripLF data) := by
    split
    · rfl
    · rename_i hc
      rw [replace1_notMem (by rw [← contains_singleton_false]; simpa using hc)]
  unfold sseSend at h
  simp only [hrep] at h
  split at h
  · cases h
  · rename_i d1 h1
    obtain ⟨e1, l1⟩ := sseField_spec h1
    split at h
    · cases h
    · rename_i d2 h2
      obtain ⟨e2, l2⟩ := sseField_spec h2
      simp only [Option.some.injEq] at h
      -- the fields after the data
      let evF : Bytes := if event.getD [] = [] then [] else b!"event" ++ b!": " ++ event.getD [] ++ [10]
      let idF : Bytes := if id.getD [] = [] then [] else b!"id" ++ b!": " ++ id.getD [] ++ [10]
      let reF : Bytes := if retry = 0 then [] else b!"retry" ++ b!": " ++ fmtNat retry ++ [10]
      have hout : out ++ rest = b!"data: " ++ [] ++ replace1 10 b!"\ndata: " (stripLF data) ++ 10 ::
          (evF ++ (idF ++ (reF ++ 10 :: rest))) := by
        rw [← h, e2, e1]
        simp only [evF, idF, reF]
        by_cases c1 : event.getD [] = [] <;> by_cases c2 : id.getD [] = [] <;> by_cases c3 : retry = 0 <;>
          simp [c1, c2, c3, fmtInt_nat]
      rw [hout, esParse_data _ _ _ _ (fun h => hd (stripLF_mem h)) (by simp) (by simp)]
      have hev : ∀ (s : ES) r, esParse s (evF ++ r) = esParse (if event.getD [] = [] then s else { s with type := event.getD [] }) r := by
        intro s r
        simp only [evF]
        split
        · simp
        · have := esParse_field (s := s) (name := b!"event") (v := event.getD []) (rest := r) (by decide) (by simp) l1 he
          rw [List.append_assoc, List.singleton_append, this]; rfl
      have hid : ∀ (s : ES) r, esParse s (idF ++ r) = esParse { s with lastId := if id.getD [] = [] ∨ (0 : UInt8) ∈ id.getD [] then s.lastId else id.getD [] } r := by
        intro s r
        simp only [idF]
        split
        · rename_i hc; simp [hc]
        · rename_i hc
          have := esParse_field (s := s) (name := b!"id") (v := id.getD []) (rest := r) (by decide) (by simp) l2 hi
          rw [List.append_assoc, List.singleton_append, this]
          simp only [esField, hc, false_or]
          split
          · simp_all
          · split
            · simp_all
            · simp only [if_true]; split <;> simp_all
      have hre : ∀ (s : ES) r, esParse s (reF ++ r) = esParse { s with retry := if retry = 0 then s.retry else some retry } r := by
        intro s r
        simp only [reF]
        split
        · simp
        · have := esParse_field (s := s) (name := b!"retry") (v := fmtNat retry) (rest := r) (by decide) (by simp)
            (fmtNat_not _).1 (fmtNat_not _).2
          rw [List.append_assoc, List.singleton_append, this]
          simp [esField, fmtNat_isDigits, decNum_fmtNat]
      rw [hev, hid, hre]
      have hblank : ∀ (s : ES) r, esParse s (10 :: r) = esParse (esLine s []) r := by
        intro s r; unfold esParse; rw [esLines]; rfl
      rw [hblank]
      congr 1
      unfold esLine
      simp only [if_true]
      by_cases c1 : event.getD [] = [] <;> simp [c1, hs.1, hs.2]

/-- **C34 (refusal).** `send` fails exactly when a non-empty event name or id contains LF. -/
theorem C34_refused (data : Bytes) (event id : Option Bytes) (retry : Int) :
    sseSend data event id retry = none ↔ (10 : UInt8) ∈ event.getD [] ∨ (10 : UInt8) ∈ id.getD [] := by
  have hf : ∀ (name : Bytes) (v : Option Bytes) (d : Bytes), sseField name v d = none ↔ (10 : UInt8) ∈ v.getD [] := by
    intro name v d
    unfold sseField
    split
    · simp
    · simp
    · rename_i v hv
      simp only [Option.getD_some]
      rw [← contains_singleton]
      split <;> simp_all
  unfold sseSend
  simp only
  split
  · rename_i h; simp [(hf _ _ _).1 h]
  · rename_i d1 h1
    have n1 : ¬ (10 : UInt8) ∈ event.getD [] := by rw [← hf b!"event" event, h1]; simp
    split
    · rename_i h; simp [(hf _ _ _).1 h]
    · rename_i d2 h2
      have n2 : ¬ (10 : UInt8) ∈ id.getD [] := by rw [← hf b!"id" id, h2]; simp
      simp [n1, n2]

/-- The condition on CR is necessary: an event name containing CR injects a second field (finding). -/
theorem C34_cr_injects :
    ∃ out, sseSend b!"x" (some b!"a\rdata: evil") none 0 = some out ∧ (esParse {} out).events = [⟨b!"a", b!"x\nevil"⟩] :=
  ⟨_, rfl, by decide +kernel⟩

example : ∃ out, sseSend b!"\nl1\nl2\n" (some b!"tick") (some b!"42") 3000 = some out ∧
    esParse {} out = { lastId := b!"42", retry := some 3000, events := [⟨b!"tick", b!"l1\nl2"⟩] } :=
  ⟨_, rfl, by decide +kernel⟩

/-! ## C35 -/

/-- **C35 (encoding).** The percent-encoded form uses only letters, digits and `_.-~/%` — so no separator, quote, space or
line break — and decodes to the original. -/
theorem C35_quote (s : Bytes) : (∀ c ∈ quote s, quotedChar c) ∧ unquote (quote s) = s := by
  refine ⟨quote_chars s, ?_⟩
  induction s with
  | nil => rfl
  | cons c s ih =>
    rw [quote, List.flatMap_cons]
    split
    · rename_i h
      rw [List.singleton_append, unquote_cons (quoteSafe_ne h)]
      exact congrArg _ ih
    · rw [unquote_pct]
      exact congrArg _ ih

/-- The attributes a cookie set with these arguments should have. -/
def cookieParts (a : CookieArgs) (date : Bytes) : List Bytes :=
  [b!"expires=" ++ date, b!"max-age=" ++ fmtInt a.expires, b!"path=" ++ quote a.path] ++
  (match a.domain with | none | some [] => [] | some d => [b!"domain=" ++ quote d]) ++
  (match a.samesite with | none | some [] => [] | some d => [b!"samesite=" ++ quote d]) ++
  (if a.secure then [b!"secure"] else []) ++ (if a.httponly then [b!"httponly"] else [])

namespace Proofs.Text

theorem quote_notMem {s : Bytes} {c : UInt8} (h : ¬ quotedChar c) : c ∉ quote s := fun hc => h (quote_chars s c hc)

theorem fmtInt_notMem (n : Int) : (59 : UInt8) ∉ fmtInt n := by
  have h : ∀ n, (59 : UInt8) ∉ fmtNat n := by
    intro n h; have := fmtNat_digits n _ h; revert this; decide
  unfold fmtInt
  split <;> simp [h]

/-- Splitting at semicolons a string made of semicolon-free parts. -/
theorem split_parts : ∀ (parts : List Bytes) (first : Bytes) (n : Nat), (59 : UInt8) ∉ first → (∀ p ∈ parts, (59 : UInt8) ∉ p) →
    parts.length ≤ n → splitByte 59 n (first ++ (parts.map (fun p => b!"; " ++ p)).flatten) = first :: parts.map (32 :: ·) := by
  intro parts
  induction parts with
  | nil => intro first n h _ _; simp [HttpParser.splitByte_notMem h]
  | cons p ps ih =>
    intro first n h hp hn
    cases n with
    | zero => simp at hn
    | succ n =>
      have e : first ++ ((p :: ps).map (fun p => b!"; " ++ p)).flatten =
          first ++ 59 :: ((32 :: p) ++ (ps.map (fun p => b!"; " ++ p)).flatten) := by simp
      rw [e, HttpParser.splitByte_cons h, ih (32 :: p) n (by simp; exact hp p (by simp)) (fun q hq => hp q (by simp [hq])) (by simpa using hn)]
      rfl

end Proofs.Text

/-- **C35 (structure).** For a cookie name and expiry date without `;`, every value, path, domain, samesite and flags: if the
header is emitted, splitting it at semicolons gives exactly `name=value` followed by the intended attributes in order — no
argument can add or hide an attribute — and the line contains no LF. -/
theorem C35_cookie {a : CookieArgs} {date c : Bytes} (h : cookie a date = some c) (hn : (59 : UInt8) ∉ a.name) (hd : (59 : UInt8) ∉ date) :
    (10 : UInt8) ∉ c ∧ splitByte 59 c.length c = (a.name ++ b!"=" ++ quote a.value) :: (cookieParts a date).map (32 :: ·) := by
  unfold cookie at h
  simp only at h
  generalize hg : a.name ++ b!"=" ++ quote a.value ++ b!"; expires=" ++ date ++ b!"; max-age=" ++ fmtInt a.expires ++
    b!"; path=" ++ quote a.path ++ cookieOpt b!"domain" a.domain ++ cookieOpt b!"samesite" a.samesite ++
    (if a.secure then b!"; secure" else []) ++ (if a.httponly then b!"; httponly" else []) = g at h
  split at h
  · cases h
  · rename_i hc
    simp only [Option.some.injEq] at h
    rw [h] at hc hg
    refine ⟨by rw [← contains_singleton_false]; simpa using hc, ?_⟩
    have e : c = (a.name ++ b!"=" ++ quote a.value) ++ ((cookieParts a date).map (fun p => b!"; " ++ p)).flatten := by
      rw [← hg]
      unfold cookieParts cookieOpt
      rcases a.domain with _ | (_ | ⟨d, ds⟩) <;> rcases a.samesite with _ | (_ | ⟨d', ds'⟩) <;> cases a.secure <;> cases a.httponly <;> simp
    have hq : ∀ s, (59 : UInt8) ∉ quote s := fun s => quote_notMem (by decide)
    have hparts : ∀ p ∈ cookieParts a date, (59 : UInt8) ∉ p := by
      intro p hp
      unfold cookieParts at hp
      have hx : ∀ (k : Bytes) (v : Bytes), (59 : UInt8) ∉ k → (59 : UInt8) ∉ v → (59 : UInt8) ∉ k ++ v := by
        intro k v h1 h2; simp [h1, h2]
      simp only [List.mem_append, List.mem_cons, List.not_mem_nil, or_false] at hp
      rcases hp with (((hp | hp) | hp) | hp) | hp
      · rcases hp with rfl | rfl | rfl
        · exact hx _ _ (by decide) hd
        · exact hx _ _ (by decide) (fmtInt_notMem _)
        · exact hx _ _ (by decide) (hq _)
      · split at hp
        · cases hp
        · cases hp
        · simp at hp; rw [hp]; exact hx b!"domain=" _ (by decide) (hq _)
      · split at hp
        · cases hp
        · cases hp
        · simp at hp; rw [hp]; exact hx b!"samesite=" _ (by decide) (hq _)
      · split at hp
        · simp at hp; rw [hp]; decide
        · cases hp
      · split at hp
        · simp at hp; rw [hp]; decide
        · cases hp
    have hlen : (cookieParts a date).length ≤ c.length := by
      have : ∀ l : List Bytes, l.length ≤ ((l.map (fun p => b!"; " ++ p)).flatten).length := by
        intro l
        induction l with
        | nil => simp
        | cons p l ih => simp at ih ⊢; omega
      have h2 := this (cookieParts a date)
      rw [e, List.length_append]; omega
    conv => lhs; arg 3; rw [e]
    exact split_parts _ _ _ (by simp [hn]; exact hq _) hparts hlen

/-- **C35 (always emitted).** Unless the name contains LF (the date never does), the header is emitted. -/
theorem C35_total {a : CookieArgs} {date : Bytes} (hn : (10 : UInt8) ∉ a.name) (hd : (10 : UInt8) ∉ date) :
    (cookie a date).isSome := by
  have hq : ∀ s, (10 : UInt8) ∉ quote s := fun s => quote_notMem (by decide)
  have hi : ∀ n : Int, (10 : UInt8) ∉ fmtInt n := by
    intro n; unfold fmtInt; split <;> simp [(fmtNat_not _).1]
  have ho : ∀ k v, (10 : UInt8) ∉ k → (10 : UInt8) ∉ cookieOpt k v := by
    intro k v hk; unfold cookieOpt; split <;> simp [hk, hq]
  unfold cookie
  simp only
  rw [if_neg]
  · rfl
  · simp only [Bool.not_eq_true]
    rw [contains_singleton_false]
    simp only [List.mem_append, not_or]
    refine ⟨⟨⟨⟨⟨⟨⟨⟨⟨⟨⟨⟨hn, by decide⟩, hq _⟩, by decide⟩, hd⟩, by decide⟩, hi _⟩, by decide⟩, hq _⟩, ho _ _ (by decide)⟩, ho _ _ (by decide)⟩, ?_⟩, ?_⟩
    · split <;> decide
    · split <;> decide

example : cookie { name := b!"k", value := b!"a;b\r\n\"", path := b!"/x y", httponly := true, samesite := some b!"Lax" } b!"Thu, 01 Jan 1970 00:00:00 GMT" =
    some b!"k=a%3Bb%0D%0A%22; expires=Thu, 01 Jan 1970 00:00:00 GMT; max-age=0; path=/x%20y; samesite=Lax; httponly" := by decide +kernel

/-! ## C48 -/

/-- `y` is `x` without the whitespace at both ends. -/
def Trimmed (x y : Bytes) : Prop :=
  ∃ a b, x = a ++ y ++ b ∧ (∀ c ∈ a ++ b, isSpace c = true) ∧ (∀ c, y.head? = some c → isSpace c = false) ∧
    (∀ c, y.getLast? = some c → isSpace c = false)

namespace Proofs.Text

theorem dropWhile_space (s : Bytes) : ∃ a, s = a ++ s.dropWhile isSpace ∧ (∀ c ∈ a, isSpace c = true) ∧
    ∀ c, (s.dropWhile isSpace).head? = some c → isSpace c = false := by
  refine ⟨s.takeWhile isSpace, by rw [List.takeWhile_append_dropWhile], ?_, ?_⟩
  · induction s with
    | nil => simp
    | cons x t ih =>
      intro c hc
      by_cases hx : isSpace x = true
      · simp [hx] at hc
        rcases hc with rfl | hc
        · exact hx
        · exact ih c hc
      · simp [hx] at hc
  · induction s with
    | nil => simp
    | cons x t ih =>
      by_cases hx : isSpace x = true
      · simpa [hx] using ih
      · intro c hc; simp [hx] at hc; subst hc; simpa using hx

theorem strip_trimmed (s : Bytes) : Trimmed s (strip s) := by
  obtain ⟨a, h1, h2, h3⟩ := dropWhile_space s
  obtain ⟨b, h4, h5, h6⟩ := dropWhile_space (s.dropWhile isSpace).reverse
  have h7 : s.dropWhile isSpace = strip s ++ b.reverse := by
    have := congrArg List.reverse h4
    rw [List.reverse_reverse, List.reverse_append] at this
    exact this
  refine ⟨a, b.reverse, by rw [List.append_assoc, ← h7]; exact h1, ?_, ?_, ?_⟩
  · intro c hc
    rcases List.mem_append.1 hc with hc | hc
    · exact h2 c hc
    · exact h5 c (by simpa using hc)
  · intro c hc
    apply h3 c
    rw [h7]
    cases hs : strip s with
    | nil => rw [hs] at hc; cases hc
    | cons x t => rw [hs] at hc; exact hc
  · intro c hc
    apply h6 c
    unfold strip rstrip lstrip at hc
    rw [List.getLast?_reverse] at hc; exact hc

end Proofs.Text

/-- **C48.** With `x` the first X-Forwarded-For field without surrounding whitespace (empty if the field is missing): if `x`
is empty the peer address is reported (nothing if there is none), otherwise the part of `x` before its first comma. -/
theorem C48_ip (fields : List Bytes) (peer : Option Bytes) :
    ∃ x, Trimmed (fields.headD []) x ∧ (x = [] → ip fields peer = peer.getD []) ∧
      (x ≠ [] → (44 : UInt8) ∉ ip fields peer ∧ (x = ip fields peer ∨ ∃ t, x = ip fields peer ++ 44 :: t)) := by
  refine ⟨strip (fields.headD []), strip_trimmed _, ?_, ?_⟩
  · intro h
    unfold ip
    rw [h]
    cases peer <;> simp
  · intro h
    have hip : ip fields peer = (strip (fields.headD [])).take ((find [44] (strip (fields.headD []) ++ [44])).getD 0) := by
      unfold ip
      cases peer with
      | none => rfl
      | some p => simp only; rw [if_neg h]
    rw [hip]
    generalize strip (fields.headD []) = x
    by_cases hx : (44 : UInt8) ∈ x
    · obtain ⟨a, t, e, ha⟩ := Proofs.HttpParser.mem_split_first hx
      have hf : find [44] (x ++ [44]) = some a.length := by
        rw [e, List.append_assoc, List.cons_append]; exact find_byte_append ha
      rw [hf, e]
      simp only [Option.getD_some, List.take_left']
      exact ⟨ha, .inr ⟨t, rfl⟩⟩
    · have hf : find [44] (x ++ [44]) = some x.length := find_byte_append hx
      rw [hf]
      simp [hx]

example : ip [b!"  10.0.0.1, 10.0.0.2", b!"evil"] (some b!"127.0.0.1") = b!"10.0.0.1" ∧
    ip [b!"  "] (some b!"127.0.0.1") = b!"127.0.0.1" := by decide +kernel

end Verif
