import Verif.Proofs.Params
import Verif.Props.Text
/-!
# C74-C76: fields of query strings and forms, cookies, parameters of multipart parts
-/
namespace Verif
open Verif.Py Verif.Model.Params Verif.Spec.Params Verif.Model.HttpParser Proofs.Params

/-! ## C74 -/

/-- **C74 (query, partial: up to 100 items; blank values are left out, see the refutations).** However the items of a query
string are written, the first access to `request.query` gives for each name the non-blank values in order, and later accesses
give the same. -/
theorem C74_query_partial {stop : List UInt8} {items : List Item} {ts : List Bytes} (h : Each (Item.Written stop) items ts)
    (hm : items.length ≤ 100) {p : Params} (hp : p.query = none) :
    ∃ d p', query (join b!"&" ts) p = (.fields d, p') ∧ Holds d items ∧ query (join b!"&" ts) p' = (.fields d, p') ∧ p'.cookies = p.cookies := by
  obtain ⟨d, h1, h2⟩ := parseQs_items h hm
  by_cases he : join b!"&" ts = []
  · have : parseQs 100 (join [38] ts) = some [] := by
      have e : join [38] ts = [] := he
      rw [e]; rfl
    rw [this] at h1
    cases h1
    refine ⟨[], { p with query := some [] }, ?_, h2, ?_, rfl⟩
    · simp [query, hp, he]
    · simp [query]
  · have h1' : parseQs 100 (join b!"&" ts) = some d := h1
    refine ⟨d, { p with query := some d }, ?_, h2, ?_, rfl⟩
    · simp only [query, hp, ne_eq, he, not_false_eq_true, if_true, h1']
    · simp [query]

/-- **C74 (form, partial: up to `max_fields` items; blank values are left out).** The same for an
`application/x-www-form-urlencoded` body. -/
theorem C74_form_partial {stop : List UInt8} {items : List Item} {ts : List Bytes} (h : Each (Item.Written stop) items ts) {max : Nat}
    (hm : items.length ≤ max) : ∃ d, formFields max (join b!"&" ts) = .fields d ∧ Holds d items := by
  obtain ⟨d, h1, h2⟩ := parseQs_items h hm
  have h1' : parseQs max (join b!"&" ts) = some d := h1
  exact ⟨d, by rw [formFields, h1'], h2⟩

/-- **C74 (limit).** More items than the limit are refused with ValueError, whatever they are. -/
theorem C74_limit {stop : List UInt8} {items : List Item} {ts : List Bytes} (h : Each (Item.Written stop) items ts) {max : Nat}
    (h1 : 1 ≤ max) (hm : max < items.length) : formFields max (join b!"&" ts) = .valueError := by
  have : parseQs max (join b!"&" ts) = none := parseQs_many h hm h1
  rw [formFields, this]

/-- **C74 refuted: too many items are refused only once.** For every query string of more than 100 items the first access raises
ValueError, and every later one gives no fields at all. -/
theorem C74_refuted_limit {stop : List UInt8} {items : List Item} {ts : List Bytes} (h : Each (Item.Written stop) items ts)
    (hm : 100 < items.length) {p : Params} (hp : p.query = none) :
    ∃ p', query (join b!"&" ts) p = (.valueError, p') ∧ query (join b!"&" ts) p' = (.fields [], p') := by
  have h1 : parseQs 100 (join b!"&" ts) = none := parseQs_many h hm (by decide)
  have he : join b!"&" ts ≠ [] := fun e => by rw [e] at h1; cases h1
  refine ⟨{ p with query := some [] }, ?_, ?_⟩
  · simp only [query, hp, ne_eq, he, not_false_eq_true, if_true, h1]
  · simp [query]

/-- **C74 refuted: blank values.** `a=&b=1`: the field `a` is not there. -/
theorem C74_refuted_blank : ∃ d p, query b!"a=&b=1" {} = (.fields d, p) ∧ Dict.get d "a".toList = none ∧ Dict.get d "b".toList = some ["1".toList] :=
  ⟨_, _, rfl, by decide +kernel, by decide +kernel⟩

/-- **C74 refuted: text that is not escaped.** The UTF-8 bytes of `é` stand for two characters. -/
theorem C74_refuted_raw : ∃ d p, query (b!"a=" ++ utf8 "é".toList) {} = (.fields d, p) ∧ Dict.get d "a".toList = some ["Ã©".toList] :=
  ⟨_, _, rfl, by decide +kernel⟩

/-- `q=h%C3%a9+%26&q=2&x&=v&y=` -/
example : Each (Item.Written []) [.field "q".toList "hé &".toList, .field "q".toList "2".toList, .flag "x".toList, .field [] "v".toList, .field "y".toList []]
    [b!"q=h%C3%a9+%26", b!"q=2", b!"x", b!"=v", b!"y="] := by
  have lit : ∀ {stop : List UInt8} {x : UInt8}, x < 128 → x ∉ stop → x ≠ 37 → x ≠ 43 → Written stop [x] [x] := fun h1 h2 h3 h4 => .raw h1 h2 h3 h4 .nil
  refine .cons ⟨b!"q", b!"h%C3%a9+%26", lit (by decide) (by decide) (by decide) (by decide), ?_, rfl⟩ <| .cons ⟨b!"q", b!"2", ?_, ?_, rfl⟩ <|
    .cons ?_ <| .cons ⟨[], b!"v", .nil, ?_, rfl⟩ <| .cons ⟨b!"y", [], ?_, .nil, rfl⟩ .nil
  · have e : utf8 "hé &".toList = [104, 0xC3, 0xA9, 32, 38] := by decide +kernel
    rw [e]
    refine .raw (by decide) (by decide) (by decide) (by decide) ?_
    refine .esc (a := 67) (b := 51) (by decide) (by decide) ?_
    refine .esc (a := 97) (b := 57) (by decide) (by decide) ?_
    refine .plus ?_
    exact .esc (a := 50) (b := 54) (by decide) (by decide) .nil
  all_goals exact lit (by decide) (by decide) (by decide) (by decide)

example : query b!"q=h%C3%a9+%26&q=2&x&=v&y=" {} =
    (.fields [("q".toList, ["hé &".toList, "2".toList]), ([], ["v".toList])], { query := some [("q".toList, ["hé &".toList, "2".toList]), ([], ["v".toList])] }) := by
  decide +kernel

/-! ## C75 -/

/-- The bytes `parse_qs` and the replacement of semicolons leave alone. -/
def plain (b : Bytes) : Prop := (38 : UInt8) ∉ b ∧ (59 : UInt8) ∉ b ∧ (43 : UInt8) ∉ b ∧ (37 : UInt8) ∉ b

/-- What a client sends back for a cookie with this name and value: either any cookie-pair with plain bytes, or what it has
stored of a Set-Cookie that `set_cookie` made for that value. -/
inductive CookiePair : Bytes × Str → Bytes → Prop
  | raw {n b : Bytes} (h1 : plain n) (h2 : (61 : UInt8) ∉ n) (h3 : plain b) (h4 : b ≠ []) : CookiePair (n, latin1 b) (n ++ b!"=" ++ b)
  | set {a : Model.Text.CookieArgs} {v : Str} {date c : Bytes} (h1 : plain a.name) (h2 : (61 : UInt8) ∉ a.name) (h3 : a.value = utf8 v) (h4 : v ≠ [])
    (h5 : Model.Text.cookie a date = some c) : CookiePair (a.name, v) (stored c)

/-- The values given for `k`, in order. -/
def cookieValues (l : List (Bytes × Str)) (k : Str) : List Str := l.filterMap (fun p => if latin1 p.1 = k then some p.2 else none)

namespace Proofs.Params

theorem stored_cookie {a : Model.Text.CookieArgs} {date c : Bytes} (hn : (59 : UInt8) ∉ a.name) (h : Model.Text.cookie a date = some c) :
    stored c = a.name ++ 61 :: Model.Text.quote a.value := by
  have hq : (59 : UInt8) ∉ Model.Text.quote a.value := Proofs.Text.quote_notMem (by decide)
  have : ∃ r, c = (a.name ++ 61 :: Model.Text.quote a.value) ++ 59 :: r := by
    unfold Model.Text.cookie at h
    simp only at h
    generalize hg : a.name ++ b!"=" ++ Model.Text.quote a.value ++ b!"; expires=" ++ date ++ b!"; max-age=" ++ fmtInt a.expires ++
      b!"; path=" ++ Model.Text.quote a.path ++ Model.Text.cookieOpt b!"domain" a.domain ++ Model.Text.cookieOpt b!"samesite" a.samesite ++
      (if a.secure then b!"; secure" else []) ++ (if a.httponly then b!"; httponly" else []) = g at h
    split at h
    · cases h
    · simp only [Option.some.injEq] at h
      rw [← h, ← hg]
      exact ⟨b!" expires=" ++ date ++ b!"; max-age=" ++ fmtInt a.expires ++
        b!"; path=" ++ Model.Text.quote a.path ++ Model.Text.cookieOpt b!"domain" a.domain ++ Model.Text.cookieOpt b!"samesite" a.samesite ++
        (if a.secure then b!"; secure" else []) ++ (if a.httponly then b!"; httponly" else []), by
          simp only [List.append_assoc, List.cons_append, List.nil_append]⟩
  obtain ⟨r, rfl⟩ := this
  unfold stored
  have hx : ∀ x ∈ a.name ++ 61 :: Model.Text.quote a.value, decide (x ≠ 59) = true := by
    intro x hx
    simp only [decide_eq_true_eq]
    rintro rfl
    simp [hn, hq] at hx
  rw [List.takeWhile_append_of_pos hx]
  simp

theorem cookiePair_field {p : Bytes × Str} {t : Bytes} (h : CookiePair p t) :
    qslField t = some (latin1 p.1, p.2) ∧ (38 : UInt8) ∉ t ∧ (59 : UInt8) ∉ t := by
  cases h with
  | raw h1 h2 h3 h4 =>
    rename_i n b
    have e : n ++ b!"=" ++ b = n ++ 61 :: b := by simp
    rw [e, qslField_pair h2 h4, unquotePlus_plain h1.2.2.2 h1.2.2.1, unquotePlus_plain h3.2.2.2 h3.2.2.1]
    refine ⟨rfl, ?_, ?_⟩
    · simp [h1.1, h3.1]
    · simp [h1.2.1, h3.2.1]
  | set h1 h2 h3 h4 h5 =>
    rename_i a v date c
    have hw := quote_written (utf8 v)
    have hne : Model.Text.quote (utf8 v) ≠ [] := fun e => h4 ((utf8_nil_iff v).1 ((written_nil_iff hw).1 e))
    rw [stored_cookie h1.2.1 h5, h3, qslField_pair h2 hne, unquotePlus_plain h1.2.2.2 h1.2.2.1, unquotePlus_written hw]
    refine ⟨rfl, ?_, ?_⟩
    · simp [h1.1, written_notMem hw (c := 38) (by simp) (by decide) (by decide) (by decide)]
    · simp [h1.2.1, written_notMem hw (c := 59) (by simp) (by decide) (by decide) (by decide)]

theorem cookie_values {l : List (Bytes × Str)} {ts : List Bytes} (h : Each CookiePair l ts) (k : Str) :
    (ts.filterMap qslField).filterMap (fun p => if p.1 = k then some p.2 else none) = cookieValues l k := by
  rw [Each.filterMap h (g := fun p => some (latin1 p.1, p.2)) (fun _ _ h => (cookiePair_field h).1)]
  simp only [cookieValues, List.filterMap_filterMap]
  rfl

end Proofs.Params

/-- **C75 (partial: not the values with `%`, `+` or `&` that the program did not write itself, not blank values, up to 100
cookies).** With one Cookie header, `request.cookies` gives for each name the values in order, those that `set_cookie` has set
being the texts it was given; and it gives the same again. -/
theorem C75_one_partial {l : List (Bytes × Str)} {ts : List Bytes} (h : Each CookiePair l ts) (hm : l.length ≤ 100) {hd : HDict}
    (hh : hget hd b!"cookie" = some (.one (join b!"; " ts))) {p : Params} (hp : p.cookies = none) :
    ∃ d p', cookies hd p = (.fields d, p') ∧ (∀ k, Dict.get d k = given (cookieValues l k)) ∧
      cookies hd p' = (.fields d, p') ∧ p'.query = p.query := by
  have h38 := Each.right h (fun _ _ h => (cookiePair_field h).2.1)
  have h59 := Each.right h (fun _ _ h => (cookiePair_field h).2.2)
  obtain ⟨d, h1, h2⟩ := parseQs_join h38 (max := 100) (by rw [← Each.length h]; exact hm)
  have e := semicolons_join ts h59 []
  simp only [List.append_nil, semicolons_nil] at e
  refine ⟨d, { p with cookies := some d }, ?_, ?_, ?_, rfl⟩
  · simp only [cookies, hp, hh, cookieText, e, h1]
  · intro k
    rw [h2 k, cookie_values h k]
  · simp [cookies]

/-- **C75 (several Cookie headers, partial as above).** The cookies of all of them, in the order of the headers. -/
theorem C75_many_partial {gs : List (List (Bytes × Str))} {tss : List (List Bytes)} (h : Each (Each CookiePair) gs tss)
    (hg : ∀ g ∈ gs, g ≠ [] ∧ g.length ≤ 100) {hd : HDict}
    (hh : hget hd b!"cookie" = some (.many (tss.map (join b!"; ")))) {p : Params} (hp : p.cookies = none) :
    ∃ d p', cookies hd p = (.fields d, p') ∧ (∀ k, Dict.get d k = given (cookieValues gs.flatten k)) ∧
      cookies hd p' = (.fields d, p') ∧ p'.query = p.query := by
  have hflat : Each CookiePair gs.flatten tss.flatten := by
    clear hg hh
    induction h with
    | nil => exact .nil
    | cons h _ ih => rw [List.flatten_cons, List.flatten_cons]; exact Each.append h ih
  have hlen : gs.flatten.length ≤ 100 * tss.length ∧ ∀ g ∈ tss, g ≠ [] ∧ ∀ t ∈ g, (59 : UInt8) ∉ t := by
    clear hflat hh
    induction h with
    | nil => simp
    | cons h _ ih =>
      have h1 := hg _ (List.mem_cons_self ..)
      have h2 := ih (fun g hh => hg g (List.mem_cons_of_mem _ hh))
      have hl := Each.length h
      refine ⟨by rw [List.flatten_cons, List.length_append, List.length_cons]; omega, ?_⟩
      intro g hh
      rcases List.mem_cons.1 hh with rfl | hh
      · refine ⟨?_, Each.right h (fun _ _ h => (cookiePair_field h).2.2)⟩
        rintro rfl
        exact h1.1 (List.length_eq_zero_iff.1 hl)
      · exact h2.2 g hh
  have h38 := Each.right hflat (fun _ _ h => (cookiePair_field h).2.1)
  obtain ⟨d, h1, h2⟩ := parseQs_join h38 (max := 100 * tss.length) (by rw [← Each.length hflat]; exact hlen.1)
  have e := semicolons_groups tss hlen.2
  refine ⟨d, { p with cookies := some d }, ?_, ?_, ?_, rfl⟩
  · simp only [cookies, hp, hh, cookieText, e, List.length_map, h1]
  · intro k
    rw [h2 k, cookie_values hflat k]
  · simp [cookies]

/-- **C75 (no Cookie header).** Then there are no cookies. -/
theorem C75_none {hd : HDict} (hh : hget hd b!"cookie" = none) {p : Params} (hp : p.cookies = none) :
    ∃ p', cookies hd p = (.fields [], p') ∧ cookies hd p' = (.fields [], p') := by
  refine ⟨{ p with cookies := some [] }, by simp only [cookies, hp, hh], by simp [cookies]⟩

/-- What `request.cookies` gives for one Cookie header. -/
def cookiesOf (v : Bytes) : Got := (cookies [(b!"cookie", .one v)] {}).1

/-- **C75 refuted: values are changed.** `+` becomes a space, and what looks like an escape is decoded, although RFC 6265 gives
neither a meaning in cookies. -/
theorem C75_refuted_changed : cookiesOf b!"a=1+1; b=%41" = .fields [("a".toList, ["1 1".toList]), ("b".toList, ["A".toList])] := by decide +kernel

/-- **C75 refuted: `&` separates cookies.** One cookie with the value `1&admin=1`, which RFC 6265 allows, is two. -/
theorem C75_refuted_split : cookiesOf b!"a=1&admin=1" = .fields [("a".toList, ["1".toList]), ("admin".toList, ["1".toList])] := by decide +kernel

/-- **C75 refuted: blank values.** A cookie set to the empty text is not there. -/
theorem C75_refuted_blank : ∃ c, Model.Text.cookie { name := b!"a" } b!"Thu, 01 Jan 1970 00:00:00 GMT" = some c ∧ cookiesOf (stored c) = .fields [] :=
  ⟨_, rfl, by decide +kernel⟩

example : ∃ c, Model.Text.cookie { name := b!"k", value := utf8 "a;b é&+%".toList } b!"Thu, 01 Jan 1970 00:00:00 GMT" = some c ∧
    stored c = b!"k=a%3Bb%20%C3%A9%26%2B%25" ∧ Each CookiePair [(b!"k", "a;b é&+%".toList), (b!"s", "x=y".toList)] [stored c, b!"s=x=y"] ∧
    cookiesOf (join b!"; " [stored c, b!"s=x=y"]) = .fields [("k".toList, ["a;b é&+%".toList]), ("s".toList, ["x=y".toList])] := by
  have e : latin1 b!"x=y" = "x=y".toList := by decide
  refine ⟨_, rfl, by decide +kernel, .cons (.set (a := { name := b!"k", value := utf8 "a;b é&+%".toList }) (date := b!"Thu, 01 Jan 1970 00:00:00 GMT")
    ?_ (by decide) rfl (by decide) rfl) (.cons (e ▸ .raw (n := b!"s") (b := b!"x=y") ?_ (by decide) ?_ (by decide)) .nil), by decide +kernel⟩
  all_goals exact ⟨by decide, by decide, by decide, by decide⟩

/-! ## C76 -/

/-- Bytes of a name or file name that are read as they are. -/
def mpPlain (b : Bytes) : Prop := plain b ∧ (∀ c ∈ b, c < 128)

namespace Proofs.Params

theorem mpEscape_written : ∀ {v : Bytes}, mpPlain v → ∀ {s t : Bytes}, Written [38, 59] s t → Written [38, 59] (v ++ s) (mpEscape v ++ t) := by
  intro v
  induction v with
  | nil => intro _ s t h; exact h
  | cons c v ih =>
    intro h s t hw
    obtain ⟨⟨h1, h2, h3, h4⟩, h5⟩ := h
    simp only [List.mem_cons, not_or] at h1 h2 h3 h4
    have := ih ⟨⟨h1.2, h2.2, h3.2, h4.2⟩, fun x hx => h5 x (by simp [hx])⟩ hw
    have e : mpEscape (c :: v) ++ t = (if c = 34 then b!"%22" else if c = 13 then b!"%0D" else if c = 10 then b!"%0A" else [c]) ++ (mpEscape v ++ t) := by
      simp [mpEscape]
    rw [e, List.cons_append]
    split
    · rename_i hc; subst hc; exact .esc (a := 50) (b := 50) (by decide) (by decide) this
    split
    · rename_i hc; subst hc; exact .esc (a := 48) (b := 68) (by decide) (by decide) this
    split
    · rename_i hc; subst hc; exact .esc (a := 48) (b := 65) (by decide) (by decide) this
    exact .raw (h5 c (by simp)) (by simp; exact ⟨fun e => h1.1 e.symm, fun e => h2.1 e.symm⟩) (fun e => h4.1 e.symm) (fun e => h3.1 e.symm) this

theorem latin1_append (a b : Bytes) : latin1 (a ++ b) = latin1 a ++ latin1 b := by simp [latin1]

theorem char34 : ∀ {c : UInt8}, Char.ofNat c.toNat = '"' → c = 34 :=
  fun {c} => forall_u8 (P := fun c => Char.ofNat c.toNat = '"' → c = 34) (by decide +kernel) c

theorem dropQuote {v : Bytes} (h : v.head? ≠ some 34) (r : Str) (hr : v = [] → r.head? ≠ some '"') :
    (latin1 v ++ r).dropWhile (· == '"') = latin1 v ++ r := by
  cases v with
  | nil =>
    cases r with
    | nil => rfl
    | cons x r => have := hr rfl; simp at this; simp [latin1, this]
  | cons c v =>
    simp at h
    have : ¬ Char.ofNat c.toNat = '"' := fun e => h (char34 e)
    simp [latin1, this]

theorem stripQuotes_quoted {v : Bytes} (h1 : v.head? ≠ some 34) (h2 : v.getLast? ≠ some 34) :
    stripQuotes ('"' :: (latin1 v ++ ['"'])) = latin1 v := by
  have hrev : (latin1 v).reverse = latin1 v.reverse := by simp [latin1]
  unfold stripQuotes
  cases v with
  | nil => decide
  | cons c v =>
    have a1 : ('"' :: (latin1 (c :: v) ++ ['"'])).dropWhile (· == '"') = latin1 (c :: v) ++ ['"'] := by
      rw [List.dropWhile_cons_of_pos (by decide)]
      exact dropQuote h1 _ (by simp)
    rw [a1, List.reverse_append, List.reverse_singleton, List.singleton_append, List.dropWhile_cons_of_pos (by decide), hrev]
    have a2 := dropQuote (v := (c :: v).reverse) (by rw [List.head?_reverse]; exact h2) [] (by simp)
    simp only [List.append_nil] at a2
    rw [a2, ← hrev, List.reverse_reverse]

theorem setFold_get : ∀ (l : List (Str × Str)) (d : Dict Str Str) (k : Str),
    Dict.get (l.foldl (fun d kv => Dict.set d kv.1 kv.2) d) k = ((l.filter (fun p => p.1 == k)).getLast?.map (·.2)).or (Dict.get d k) := by
  intro l
  induction l with
  | nil => intro d k; simp
  | cons p l ih =>
    intro d k
    rw [List.foldl_cons, ih, Dict.get_set]
    by_cases e : p.1 = k
    · simp only [e, if_true, List.filter_cons, beq_self_eq_true]
      cases hf : l.filter (fun p => p.1 == k) with
      | nil => simp
      | cons q r => rw [List.getLast?_cons_cons]; cases hg : (q :: r).getLast? with
        | none => simp at hg
        | some x => simp
    · simp [e]

theorem latin1_inj : ∀ {a b : Bytes}, latin1 a = latin1 b → a = b := by
  have key : ∀ x : UInt8, (Char.ofNat x.toNat).toNat = x.toNat :=
    forall_u8 (P := fun x => (Char.ofNat x.toNat).toNat = x.toNat) (by decide +kernel)
  intro a
  induction a with
  | nil => intro b h; cases b with
    | nil => rfl
    | cons y b => simp [latin1] at h
  | cons x a ih =>
    intro b h
    cases b with
    | nil => simp [latin1] at h
    | cons y b =>
      simp only [latin1, List.map_cons, List.cons.injEq] at h
      have h1 := congrArg Char.toNat h.1
      rw [key, key] at h1
      rw [UInt8.toNat_inj.1 h1, ih (b := b) h.2]

/-- One parameter as browsers write it. -/
def paramText (p : Bytes × Bytes) : Bytes := p.1 ++ 61 :: (34 :: (mpEscape p.2 ++ [34]))

theorem dispositionText_join (params : List (Bytes × Bytes)) : dispositionText params = join b!"; " (b!"form-data" :: params.map paramText) := by
  have : ∀ (x : Bytes), x ++ params.flatMap (fun p => b!"; " ++ p.1 ++ b!"=\"" ++ mpEscape p.2 ++ b!"\"") = join b!"; " (x :: params.map paramText) := by
    induction params with
    | nil => intro x; simp [join]
    | cons p ps ih =>
      intro x
      rw [List.map_cons, join_cons_ne (by simp), ← ih (paramText p)]
      simp [paramText]
  exact this _

theorem paramText_field {p : Bytes × Bytes} (h1 : mpPlain p.1) (h2 : (61 : UInt8) ∉ p.1) (h3 : mpPlain p.2) :
    qslField (paramText p) = some (latin1 p.1, '"' :: (latin1 p.2 ++ ['"'])) ∧ (38 : UInt8) ∉ paramText p ∧ (59 : UInt8) ∉ paramText p := by
  have hw : Written [38, 59] (34 :: (p.2 ++ [34])) (34 :: (mpEscape p.2 ++ [34])) :=
    .raw (by decide) (by decide) (by decide) (by decide) (mpEscape_written h3 (.raw (by decide) (by decide) (by decide) (by decide) .nil))
  have hu : utf8 ('"' :: (latin1 p.2 ++ ['"'])) = 34 :: (p.2 ++ [34]) := by
    have := utf8_latin1 (34 :: (p.2 ++ [34])) (by
      intro x hx
      simp at hx
      rcases hx with rfl | hx | rfl
      · decide
      · exact h3.2 x hx
      · decide)
    rw [← this]
    simp [latin1]
  unfold paramText
  refine ⟨?_, ?_, ?_⟩
  · rw [qslField_pair h2 (by simp), unquotePlus_plain h1.1.2.2.2 h1.1.2.2.1]
    rw [← hu] at hw
    rw [unquotePlus_written hw]
  · have := written_notMem hw (c := 38) (by simp) (by decide) (by decide) (by decide)
    simp only [List.mem_append, List.mem_cons, not_or] at this ⊢
    exact ⟨h1.1.1, by decide, this⟩
  · have := written_notMem hw (c := 59) (by simp) (by decide) (by decide) (by decide)
    simp only [List.mem_append, List.mem_cons, not_or] at this ⊢
    exact ⟨h1.1.2.1, by decide, this⟩

end Proofs.Params

/-- **C76 (partial: ASCII without `% + & ;`, and no quotes at the ends).** If a part's Content-Disposition is written as browsers
write it, every parameter is read as it was (the last one, if there are several of that name). -/
theorem C76_partial {params : List (Bytes × Bytes)} (hl : params.length < 100)
    (h : ∀ p ∈ params, (mpPlain p.1 ∧ (61 : UInt8) ∉ p.1) ∧ mpPlain p.2 ∧ p.2.head? ≠ some 34 ∧ p.2.getLast? ≠ some 34) :
    ∃ d, disposition (dispositionText params) = some d ∧
      ∀ k : Bytes, Dict.get d (latin1 k) = ((params.filter (fun p => p.1 = k)).getLast?.map (fun p => latin1 p.2)) := by
  have hall : ∀ p ∈ params, qslField (paramText p) = some (latin1 p.1, '"' :: (latin1 p.2 ++ ['"'])) ∧ (38 : UInt8) ∉ paramText p ∧ (59 : UInt8) ∉ paramText p :=
    fun p hp => paramText_field (h p hp).1.1 (h p hp).1.2 (h p hp).2.1
  have h38 : ∀ t ∈ b!"form-data" :: params.map paramText, (38 : UInt8) ∉ t := by
    intro t ht
    rcases List.mem_cons.1 ht with rfl | ht
    · decide
    · obtain ⟨p, hp, rfl⟩ := List.mem_map.1 ht
      exact (hall p hp).2.1
  have h59 : ∀ t ∈ b!"form-data" :: params.map paramText, (59 : UInt8) ∉ t := by
    intro t ht
    rcases List.mem_cons.1 ht with rfl | ht
    · decide
    · obtain ⟨p, hp, rfl⟩ := List.mem_map.1 ht
      exact (hall p hp).2.2
  have e := semicolons_join _ h59 []
  simp only [List.append_nil, semicolons_nil] at e
  have hf : (b!"form-data" :: params.map paramText).filterMap qslField = params.map (fun p => (latin1 p.1, '"' :: (latin1 p.2 ++ ['"']))) := by
    rw [List.filterMap_cons_none (by rfl)]
    clear e h38 h59 hl
    induction params with
    | nil => rfl
    | cons p ps ih =>
      rw [List.map_cons, List.filterMap_cons_some (hall p (by simp)).1, ih (fun q hq => h q (by simp [hq])) (fun q hq => hall q (by simp [hq]))]
      rfl
  have hq := parseQsl_join h38 (max := 100) (by simp; omega)
  refine ⟨_, by rw [disposition, dispositionText_join, e, hq, hf]; rfl, ?_⟩
  intro k
  have hs : (params.map (fun p => (latin1 p.1, '"' :: (latin1 p.2 ++ ['"'])))).foldl (fun d kv => Dict.set d kv.1 (stripQuotes kv.2)) ([] : Dict Str Str) =
      (params.map (fun p => (latin1 p.1, latin1 p.2))).foldl (fun d kv => Dict.set d kv.1 kv.2) [] := by
    have : ∀ d : Dict Str Str, (params.map (fun p => (latin1 p.1, '"' :: (latin1 p.2 ++ ['"'])))).foldl (fun d kv => Dict.set d kv.1 (stripQuotes kv.2)) d =
        (params.map (fun p => (latin1 p.1, latin1 p.2))).foldl (fun d kv => Dict.set d kv.1 kv.2) d := by
      clear e h38 h59 hl hf hq hall
      induction params with
      | nil => intro d; rfl
      | cons p ps ih =>
        intro d
        simp only [List.map_cons, List.foldl_cons]
        rw [stripQuotes_quoted (h p (by simp)).2.2.1 (h p (by simp)).2.2.2, ih (fun q hq => h q (by simp [hq]))]
    exact this []
  dsimp only
  rw [hs, setFold_get]
  have hk : ∀ p : Bytes × Bytes, (latin1 p.1 == latin1 k) = decide (p.1 = k) := by
    intro p
    by_cases e : p.1 = k
    · simp [e]
    · simp [e]; exact fun h => e (latin1_inj h)
  rw [List.filter_map, List.getLast?_map]
  have hfun : ((fun p : Str × Str => p.1 == latin1 k) ∘ fun p : Bytes × Bytes => (latin1 p.1, latin1 p.2)) = fun p => decide (p.1 = k) := by
    funext p; exact hk p
  rw [hfun]
  cases (params.filter (fun p => decide (p.1 = k))).getLast? <;> simp [Dict.get]

/-- The file name that is read, if a browser has written `v`. -/
def fileNameOf (v : Bytes) : Option Str :=
  (disposition (dispositionText [(b!"name", b!"f"), (b!"filename", v)])).bind (fun d => Dict.get d "filename".toList)

/-- **C76 refuted: `+` and what looks like an escape are decoded.** -/
theorem C76_refuted_changed : fileNameOf b!"a+b.txt" = some "a b.txt".toList ∧ fileNameOf b!"100%41.txt" = some "100A.txt".toList := by decide +kernel

/-- **C76 refuted: `;` and `&` cut names off,** and what follows can be another parameter, for instance the name of the field. -/
theorem C76_refuted_cut : fileNameOf b!"a;b.txt" = some "a".toList ∧
    (disposition (dispositionText [(b!"name", b!"f"), (b!"filename", b!"x&name=admin")])).bind (fun d => Dict.get d "name".toList) = some "admin".toList := by
  decide +kernel

/-- **C76 refuted: text that is not ASCII.** Browsers write UTF-8; it is read as latin-1. -/
theorem C76_refuted_utf8 : fileNameOf (utf8 "é.txt".toList) = some "Ã©.txt".toList := by decide +kernel

/-- **C76 refuted: quotes at the ends are lost.** -/
theorem C76_refuted_quotes : fileNameOf b!"\"x\"" = some "x".toList := by decide +kernel

example : (∀ p ∈ [(b!"name", b!"f"), (b!"filename", b!"my \"new\" file\r\n.txt")],
      (mpPlain p.1 ∧ (61 : UInt8) ∉ p.1) ∧ mpPlain p.2 ∧ p.2.head? ≠ some 34 ∧ p.2.getLast? ≠ some 34) ∧
    dispositionText [(b!"name", b!"f"), (b!"filename", b!"my \"new\" file\r\n.txt")] = b!"form-data; name=\"f\"; filename=\"my %22new%22 file%0D%0A.txt\"" ∧
    fileNameOf b!"my \"new\" file\r\n.txt" = some "my \"new\" file\r\n.txt".toList := by
  refine ⟨?_, by decide +kernel, by decide +kernel⟩
  simp only [List.mem_cons, List.not_mem_nil, or_false]
  rintro p (rfl | rfl)
  · exact ⟨⟨⟨⟨by decide, by decide, by decide, by decide⟩, by decide⟩, by decide⟩, ⟨⟨by decide, by decide, by decide, by decide⟩, by decide⟩, by decide, by decide⟩
  · exact ⟨⟨⟨⟨by decide, by decide, by decide, by decide⟩, by decide⟩, by decide⟩, ⟨⟨by decide, by decide, by decide, by decide⟩, by decide⟩, by decide, by decide⟩

end Verif
