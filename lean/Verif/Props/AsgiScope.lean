import Verif.Model.AsgiScope
import Verif.Spec.AsgiScope
import Verif.Proofs.Params
import Verif.Proofs.Text
import Verif.Proofs.Sendfile
import Verif.Props.Request
/-!
# C77, C78: the scope of ASGI applications
-/
namespace Verif
open Verif.Py Verif.Model.HttpParser Verif.Model.Head Verif.Model.AsgiScope Verif.Spec.AsgiScope Verif.Spec.HttpParser Proofs.Head

namespace Proofs.AsgiScope

/-- `unquote_to_bytes` is percent-decoding, for all bytes. -/
theorem unq_eq : ∀ (k : Nat) (s : Bytes), s.length ≤ k → ∀ n, s.length ≤ n → Proofs.Params.unq n s = Spec.Text.unquote s := by
  intro k
  induction k with
  | zero =>
    intro s hs n _
    have : s = [] := List.length_eq_zero_iff.1 (by omega)
    subst this; cases n <;> rfl
  | succ k ih =>
    intro s hs n hn
    match s with
    | [] => cases n <;> rfl
    | c :: t =>
      by_cases hc : c = 37
      · subst hc
        cases n with
        | zero => simp at hn
        | succ n =>
          -- what an item that is not an escape contributes
          have bad : ∀ t : Bytes, t.length ≤ k → t.length ≤ n → (∀ a r, splitByte 37 n t = a :: r → unquoteItem a = 37 :: a) →
              Proofs.Params.unq (n + 1) (37 :: t) = 37 :: Spec.Text.unquote t := by
            intro t h1 h2 h3
            rw [← ih t h1 n h2]
            cases hsp : splitByte 37 n t with
            | nil => exact absurd hsp (Proofs.Params.splitByte_ne t n)
            | cons a r =>
              have e : splitByte 37 (n + 1) (37 :: t) = [] :: a :: r := by rw [splitByte, if_pos rfl, hsp]
              simp [Proofs.Params.unq, e, hsp, h3 a r hsp]
          match t, hs, hn with
          | [], _, _ => rw [bad [] (by simp) (by simp) (by intro a r h; cases n <;> · simp [splitByte] at h; rw [h.1]; rfl)]; rfl
          | [a], hs, hn =>
            rw [bad [a] (by simpa using hs) (by simpa using hn) ?_]
            · rfl
            · intro x r h
              by_cases ha : a = 37
              · subst ha
                cases n with
                | zero => simp at hn
                | succ n => rw [splitByte, if_pos rfl] at h; cases h; rfl
              · obtain ⟨y, r', h1, h2⟩ := Proofs.Params.splitByte_step ha n []
                have : splitByte 37 n ([] : Bytes) = [[]] := by cases n <;> rfl
                rw [this] at h1; cases h1
                rw [h2] at h; cases h; rfl
          | a :: b :: t, hs, hn =>
            simp only [List.length_cons] at hs hn
            by_cases hx : Spec.Text.isHexC a = true ∧ Spec.Text.isHexC b = true
            · rw [Proofs.Params.unq_esc hx.1 hx.2, ih t (by omega) n (by omega), Spec.Text.unquote, if_pos (by simp [hx.1, hx.2])]
            · rw [bad (a :: b :: t) (by simp; omega) (by simp; omega) ?_, Spec.Text.unquote, if_neg (by simpa using hx)]
              intro x r h
              have hd : ∀ c : UInt8, Spec.Text.isHexC c = false → hexDigit? c = none :=
                forall_u8 (P := fun c => Spec.Text.isHexC c = false → hexDigit? c = none) (by decide +kernel)
              by_cases ha : a = 37
              · subst ha
                cases n with
                | zero => simp at hn
                | succ n => rw [splitByte, if_pos rfl] at h; cases h; rfl
              · obtain ⟨y, r', h1, h2⟩ := Proofs.Params.splitByte_step ha n (b :: t)
                rw [h2] at h; cases h
                by_cases hb : b = 37
                · subst hb
                  cases n with
                  | zero => simp at hn
                  | succ n => rw [splitByte, if_pos rfl] at h1; cases h1; rfl
                · obtain ⟨z, r'', h3, h4⟩ := Proofs.Params.splitByte_step hb n t
                  rw [h4] at h1; cases h1
                  simp only [unquoteItem]
                  cases h5 : Spec.Text.isHexC a with
                  | false => rw [hd a h5]
                  | true =>
                    rw [h5] at hx
                    rw [hd b (by simpa using hx)]
                    split
                    · rename_i e1 e2; cases e2
                    · rfl
      · rw [Proofs.Params.unq_raw hc, ih t (by simp at hs; omega) n (by simp at hn; omega)]
        exact (Proofs.Text.unquote_cons hc t).symm

theorem unquoteToBytes_eq (s : Bytes) : unquoteToBytes s = Spec.Text.unquote s := unq_eq _ s (Nat.le_refl _) _ (Nat.le_refl _)

theorem latin1_utf8 : ∀ (t : Str), (∀ c ∈ t, c.toNat < 128) → latin1 (Spec.Params.utf8 t) = t := by
  have key : ∀ c : Char, c.toNat < 128 → String.utf8EncodeChar c = [UInt8.ofNat c.toNat] := by
    intro c hc
    have : c = Char.ofNat (UInt8.ofNat c.toNat).toNat := by
      rw [UInt8.toNat_ofNat', Nat.mod_eq_of_lt (by omega), Char.ofNat_toNat]
    conv => lhs; rw [this]
    exact Proofs.Params.encode_ascii (by rw [UInt8.lt_iff_toNat_lt, UInt8.toNat_ofNat', Nat.mod_eq_of_lt (by omega)]; exact hc)
  intro t
  induction t with
  | nil => intro _; rfl
  | cons c t ih =>
    intro h
    have hc := h c (by simp)
    have e : Spec.Params.utf8 (c :: t) = UInt8.ofNat c.toNat :: Spec.Params.utf8 t := by
      rw [Spec.Params.utf8, List.flatMap_cons, key c hc]; rfl
    rw [e]
    have := ih (fun d hd => h d (by simp [hd]))
    unfold latin1 at this ⊢
    rw [List.map_cons, this]
    congr 1
    rw [UInt8.toNat_ofNat', Nat.mod_eq_of_lt (by omega), Char.ofNat_toNat]

theorem replace_tokens : ∀ (l : List (Bool × Bytes)), (∀ p ∈ l, token p.2) → replace b!", " b!"," (tokensText l) = join b!"," (l.map (·.2)) := by
  have text : ∀ {t : Bytes} (rest : Bytes), (44 : UInt8) ∉ t → replace b!", " b!"," (t ++ rest) = t ++ replace b!", " b!"," rest := by
    intro t rest
    induction t with
    | nil => intro _; rfl
    | cons x t ih =>
      intro h
      simp only [List.mem_cons, not_or] at h
      have hx : x ≠ 44 := fun e => h.1 e.symm
      have := ih h.2
      unfold replace at this ⊢
      rw [List.cons_append, replaceAux, if_neg, this]
      · rfl
      · simp [List.isPrefixOf]; exact fun e => absurd e.symm hx
  have comma : ∀ rest : Bytes, replace b!", " b!"," (44 :: 32 :: rest) = 44 :: replace b!", " b!"," rest := by
    intro rest
    unfold replace
    rw [replaceAux, if_pos (by simp [List.isPrefixOf])]
    simp [replaceAux]
  have alone : ∀ rest : Bytes, rest.head? ≠ some 32 → replace b!", " b!"," (44 :: rest) = 44 :: replace b!", " b!"," rest := by
    intro rest h
    unfold replace
    rw [replaceAux, if_neg]
    cases rest with
    | nil => simp [List.isPrefixOf]
    | cons x r => simp at h; simp [List.isPrefixOf]; exact fun e => absurd e.symm h
  intro l
  induction l with
  | nil => intro _; rfl
  | cons p l ih =>
    intro h
    obtain ⟨f, t⟩ := p
    have ht := h (f, t) (by simp)
    cases l with
    | nil =>
      have := text [] ht.1
      rw [List.append_nil, show replace b!", " b!"," [] = [] from rfl, List.append_nil] at this
      simpa [tokensText, join] using this
    | cons q l =>
      obtain ⟨sp, u⟩ := q
      have hu := h (sp, u) (by simp)
      have ih := ih (fun p hp => h p (by simp [hp]))
      have e : join b!"," (((f, t) :: (sp, u) :: l).map (·.2)) = t ++ 44 :: join b!"," (((sp, u) :: l).map (·.2)) := by simp [join]
      rw [e, ← ih, tokensText]
      cases sp with
      | true =>
        have : t ++ b!"," ++ (if true = true then b!" " else []) ++ tokensText ((true, u) :: l) = t ++ 44 :: 32 :: tokensText ((true, u) :: l) := by simp
        rw [this, text _ ht.1, comma]
      | false =>
        have : t ++ b!"," ++ (if false = true then b!" " else []) ++ tokensText ((false, u) :: l) = t ++ 44 :: tokensText ((false, u) :: l) := by simp
        rw [this, text _ ht.1, alone]
        cases l with
        | nil => exact hu.2
        | cons r l =>
          obtain ⟨a, b⟩ := r
          cases u with
          | nil => simp [tokensText]
          | cons x u => simpa [tokensText] using hu.2

theorem splitList_tokens {l : List (Bool × Bytes)} (h : ∀ p ∈ l, token p.2) (hne : l ≠ []) (hl : l.length ≤ 101) : splitList (tokensText l) = l.map (·.2) := by
  rw [splitList, replace_tokens l h]
  refine Proofs.Params.splitByte_join _ 100 (by simpa using hne) ?_ (by simpa using hl)
  intro t ht
  obtain ⟨p, hp, rfl⟩ := List.mem_map.1 ht
  exact (h p hp).1

/-- What is known about an accepted request, for the scope. -/
theorem accepted {q : ReqHead} (hw : q.Wf 100 8190) (hn : q.NoReserved) (rest : Bytes) {r : Req} (h : acceptData (q.wire rest) q.text.length = .ok r) :
    r.valid = true ∧ r.method = upper q.method ∧ SplitsAt q.url r.path r.query ∧ (r.version = if q.version = b!"1.0" then b!"1.0" else b!"1.1") ∧
    r.headers = (parse (q.wire rest) q.text.length [b!"proxy"]).headers ∧
    (parse (q.wire rest) q.text.length [b!"proxy"]).list = q.pairs.filter (fun p => p.1 ≠ b!"proxy") := by
  obtain ⟨h1, h2, h3, h4, h5, h6, h7, h8⟩ := C63_request hw hn rest h
  obtain ⟨r0, hi, hid, _⟩ := accept_rest h
  refine ⟨h8, h1, ?_, ?_, ?_, ?_⟩
  · by_cases hq : (63 : UInt8) ∈ q.url
    · obtain ⟨a, b, e, ha⟩ := List.eq_append_cons_of_mem hq
      obtain ⟨e1, e2⟩ := h4 a b e ha
      rw [e1, e2]
      exact ⟨ha, .inr e⟩
    · obtain ⟨e1, e2⟩ := h3 hq
      rw [e1, e2]
      exact ⟨hq, .inl ⟨rfl, rfl⟩⟩
  · by_cases hv : q.version = b!"1.0"
    · rw [if_pos hv]; exact h6.2 hv
    · rw [if_neg hv]; exact h7 hv
  · rw [← (initReq_some hi).1]
    simp only [Req.ident, Prod.mk.injEq] at hid
    exact hid.2.2.2.2.2.2.2
  · rw [Proofs.HttpParser.parse_wf hw, (Proofs.HttpParser.finish_fields _).2.1]
    simp

theorem scheme_none {secure : Bool} {h : HDict} (hx : hget h b!"x-forwarded-proto" = none) :
    scheme secure h = some (if secure then b!"https" else b!"http") := by
  rw [scheme, hx]

end Proofs.AsgiScope
open Proofs.AsgiScope

/-! ## C77 -/

/-- A connection and a small head, for examples. -/
def exEnv : Env := { ws := true, secure := false, peer := .tuple "10.0.0.1".toList 4000 [], sock := .tuple "10.0.0.2".toList 80 [] }
def exGet (url extra : Bytes) : Bytes := b!"GET " ++ url ++ b!" HTTP/1.1\r\nHost: h\r\n" ++ extra ++ CRLF
def appOf : Model.AsgiScope.Out → Option Scope
  | .app s => some s
  | _ => none
def exScope (e : Env) (extra : Bytes) : Option Scope := (scopeOf e (exGet b!"/" extra) ((exGet b!"/" extra).length - 2)).toOption.bind appOf
def pathOf (url : Bytes) : Option Str := ((scopeOf exEnv (exGet url []) ((exGet url []).length - 2)).toOption.bind appOf).map (·.path)

/-- The parts of the scope that both types have, for a head `q`. -/
structure Common (e : Env) (q : ReqHead) (s : Scope) : Prop where
  version : s.httpVersion = if q.version = b!"1.0" then "1.0".toList else "1.1".toList
  url : SplitsAt q.url s.rawPath s.queryString
  path : ∀ t : Str, (∀ c ∈ t, c.toNat < 128) → Spec.Text.unquote s.rawPath = Spec.Params.utf8 t → s.path = t
  headers : s.headers = q.pairs.filter (fun p => p.1 ≠ b!"proxy")
  client : ∀ h p l, e.peer = .tuple h p l → s.client = some (.tuple h p [])
  unix : e.peer = .path [] → s.client = none
  server : ∀ h p, e.sock = .tuple h p [] → s.server = .tuple h p []

namespace Proofs.AsgiScope

theorem common {e : Env} {q : ReqHead} {r : Req} (a3 : SplitsAt q.url r.path r.query) (a4 : r.version = if q.version = b!"1.0" then b!"1.0" else b!"1.1")
    {l : List (Bytes × Bytes)} (a6 : l = q.pairs.filter (fun p => p.1 ≠ b!"proxy")) {ws : Bool} {m : Option Str} {sch : Str} {subs : Option (List Str)} :
    Common e q (base e l r ws m sch subs) where
  version := by show latin1 r.version = _; rw [a4]; split <;> decide
  url := a3
  path := by
    intro t ht hu
    show latin1 (unquoteToBytes r.path) = t
    change Spec.Text.unquote r.path = _ at hu
    rw [unquoteToBytes_eq, hu, latin1_utf8 t ht]
  headers := a6
  client := by intro h p l he; show Model.AsgiScope.client e.peer = _; rw [he]; rfl
  unix := by intro he; show Model.AsgiScope.client e.peer = _; rw [he]; rfl
  server := by intro h p he; exact he

end Proofs.AsgiScope

/-- When a head does not ask for a WebSocket (or none are wanted). -/
def plainHttp (e : Env) (q : ReqHead) : Prop :=
  e.ws = false ∨ valuesOf q.pairs b!"upgrade" = [] ∨ valuesOf q.pairs b!"connection" = [] ∨ valuesOf q.pairs b!"sec-websocket-key" = [] ∨
    ∃ v, valuesOf q.pairs b!"upgrade" = [v] ∧ lower v ≠ b!"websocket"

/-- **C77 (partial: no X-Forwarded-Proto; the path as text only if it is ASCII once decoded; IPv4 or unix sockets).** For every
well-formed head that is accepted and does not ask for a WebSocket, the application is called with an `http` scope: the method in
upper case, `raw_path` and `query_string` as the URL has them, `path` decoded, the fields in order with names in lower case (all but
`Proxy`), the scheme of the connection, and its addresses. -/
theorem C77_http_partial {e : Env} {q : ReqHead} (hw : q.Wf 100 8190) (hn : q.NoReserved) (rest : Bytes) {r : Req}
    (h : acceptData (q.wire rest) q.text.length = .ok r) (hp : plainHttp e q) (hx : valuesOf q.pairs b!"x-forwarded-proto" = []) :
    ∃ s, scopeOf e (q.wire rest) q.text.length = .ok (.app s) ∧ s.websocket = false ∧ s.method = some (latin1 (upper q.method)) ∧
      s.scheme = (if e.secure then "https".toList else "http".toList) ∧ s.subprotocols = none ∧ Common e q s := by
  obtain ⟨a1, a2, a3, a4, a5, a6⟩ := accepted hw hn rest h
  have hup := hget_wire hw rest b!"upgrade" (by decide) (by decide)
  have hco := hget_wire hw rest b!"connection" (by decide) (by decide)
  have hke := hget_wire hw rest b!"sec-websocket-key" (by decide) (by decide)
  have hpr := hget_wire hw rest b!"x-forwarded-proto" (by decide) (by decide)
  rw [← a5] at hup hco hke hpr
  rw [hx] at hpr
  have hs : isHandshake e.ws r.headers = some false := by
    unfold isHandshake hmem
    rw [hup, hco, hke]
    rcases hp with hp | hp | hp | hp | ⟨v, hp, hv⟩
    · rw [hp]; simp
    · rw [hp]; simp [dictVal]
    · rw [hp]; simp [dictVal]
    · rw [hp]; simp [dictVal]
    · rw [hp]
      split
      · simp [dictVal, hv]
      · rfl
  refine ⟨base e (parse (q.wire rest) q.text.length [b!"proxy"]).list r false (some (latin1 r.method)) (latin1 (if e.secure then b!"https" else b!"http")) none,
    by rw [scopeOf, h]; simp only [Except.map, headersReceived, a1, hs, scheme_none hpr, Bool.true_eq_false, if_false], rfl, by rw [← a2]; rfl, ?_, rfl, ?_⟩
  · show latin1 _ = _; cases e.secure <;> decide
  · exact common a3 a4 a6

/-- **C77 (behind a proxy).** With one X-Forwarded-Proto field, the scheme is its value without the white space around it. -/
theorem C77_forwarded {e : Env} {q : ReqHead} (hw : q.Wf 100 8190) (hn : q.NoReserved) (rest : Bytes) {s : Scope} {w v w' : Bytes}
    (h : scopeOf e (q.wire rest) q.text.length = .ok (.app s)) (hs : s.websocket = false)
    (hx : valuesOf q.pairs b!"x-forwarded-proto" = [w ++ v ++ w']) (h1 : Spec.Sendfile.Blank w) (h2 : Spec.Sendfile.Blank w') (hv : v ≠ [])
    (h3 : ∀ c, v.head? = some c → isSpace c = false) (h4 : ∀ c, v.getLast? = some c → isSpace c = false) : s.scheme = latin1 v := by
  unfold scopeOf at h
  cases ha : acceptData (q.wire rest) q.text.length with
  | error r => rw [ha] at h; cases h
  | ok r =>
    rw [ha] at h
    obtain ⟨a1, _, _, _, a5, _⟩ := accepted hw hn rest ha
    have hpr := hget_wire hw rest b!"x-forwarded-proto" (by decide) (by decide)
    rw [← a5, hx] at hpr
    have hsc : scheme e.secure r.headers = some v := by
      rw [scheme, hpr]
      simp only [dictVal]
      rw [Proofs.Sendfile.strip_pad h1 h2 hv h3 h4, if_neg hv]
    simp only [Except.map, headersReceived, a1, hsc, Bool.true_eq_false, if_false] at h
    cases hi : isHandshake e.ws r.headers with
    | none => rw [hi] at h; cases h
    | some b =>
      rw [hi] at h
      cases b with
      | false => cases h; rfl
      | true =>
        cases hg : getlist r.headers b!"sec-websocket-protocol" with
        | none => rw [hg] at h; cases h
        | some l => rw [hg] at h; cases h; cases hs

/-- Such a request. -/
example : (exScope exEnv b!"X-Forwarded-Proto:  https \r\n").map (·.scheme) = some "https".toList := by decide +kernel

/-- **C77 refuted: paths that are not ASCII.** ASGI wants them decoded as UTF-8; `/%C3%A9` is given as `/Ã©`. -/
theorem C77_refuted_utf8 : pathOf b!"/%C3%A9" = some "/Ã©".toList ∧ Spec.Text.unquote b!"/%C3%A9" = Spec.Params.utf8 "/é".toList := by decide +kernel

/-- **C77 refuted: requests to proxies.** A URL in absolute form, which servers must accept (RFC 9112, 3.2.2), is given as path. -/
theorem C77_refuted_absolute : pathOf b!"http://h/x" = some "http://h/x".toList := by decide +kernel

/-- **C77 refuted: the scheme is what the client says,** whatever it is. -/
theorem C77_refuted_scheme : (exScope exEnv b!"X-Forwarded-Proto: gopher\r\n").map (·.scheme) = some "gopher".toList := by decide +kernel

/-- **C77 refuted: a repeated X-Forwarded-Proto** makes every request fail with AttributeError. -/
theorem C77_refuted_twice : scopeOf exEnv (exGet b!"/" b!"X-Forwarded-Proto: http\r\nX-Forwarded-Proto: http\r\n") ((exGet b!"/" b!"X-Forwarded-Proto: http\r\nX-Forwarded-Proto: http\r\n").length - 2) =
    .ok .attributeError := by decide +kernel

/-- **C77 refuted: addresses.** On IPv6 `server` has four items in place of two; with a unix socket that has a name `client` is its
first two characters. -/
theorem C77_refuted_addresses : (exScope { exEnv with sock := .tuple "::1".toList 8000 [0, 0] } []).map (·.server) = some (.tuple "::1".toList 8000 [0, 0]) ∧
    (exScope { exEnv with peer := .path "/tmp/x".toList } []).map (·.client) = some (some (.path "/t".toList)) := by decide +kernel

/-- **C77 refuted: white space around values,** which is not part of them (RFC 9110, 5.5), is kept. -/
theorem C77_refuted_space : (exScope exEnv b!"X-A:  1 \r\n").map (·.headers) = some [(b!"host", b!"h"), (b!"x-a", b!" 1 ")] := by decide +kernel

/-- The hypotheses are met by the head of `Props.HttpParser`. -/
example : exHead.Wf 100 8190 ∧ plainHttp exEnv exHead ∧ valuesOf exHead.pairs b!"x-forwarded-proto" = [] ∧
    (acceptData (exHead.wire []) exHead.text.length).isOk = true :=
  ⟨exHead_wf, .inr (.inl (by decide)), by decide, by decide +kernel⟩

example : pathOf b!"/a%20b%2Fc?x=%41" = some "/a b/c".toList ∧
    (exScope exEnv b!"X-A: 1\r\nProxy: x\r\nX-a: 2\r\n").map (fun s => (s.headers, s.scheme, s.method)) =
      some ([(b!"host", b!"h"), (b!"x-a", b!"1"), (b!"x-a", b!"2")], "http".toList, some "GET".toList) := by decide +kernel

/-! ## C78 -/

/-- **C78 (partial: no X-Forwarded-Proto; tokens separated by a comma and at most one space; up to 101 of them in a field).** If WebSockets are wanted
and the head has a Connection field, a key and one Upgrade field that says `websocket`, the application is called with a
`websocket` scope, with the scheme of the connection and the subprotocols of all fields in order. -/
theorem C78_websocket_partial {e : Env} {q : ReqHead} (hw : q.Wf 100 8190) (hn : q.NoReserved) (rest : Bytes) {r : Req}
    (h : acceptData (q.wire rest) q.text.length = .ok r) (hws : e.ws = true) {u : Bytes} (hu : valuesOf q.pairs b!"upgrade" = [u]) (hu' : lower u = b!"websocket")
    (hc : valuesOf q.pairs b!"connection" ≠ []) (hk : valuesOf q.pairs b!"sec-websocket-key" ≠ []) (hx : valuesOf q.pairs b!"x-forwarded-proto" = [])
    {ls : List (List (Bool × Bytes))} (hl : valuesOf q.pairs b!"sec-websocket-protocol" = ls.map tokensText)
    (ht : ∀ l ∈ ls, l ≠ [] ∧ l.length ≤ 101 ∧ ∀ p ∈ l, token p.2) :
    ∃ s, scopeOf e (q.wire rest) q.text.length = .ok (.app s) ∧ s.websocket = true ∧ s.method = none ∧
      s.scheme = (if e.secure then "wss".toList else "ws".toList) ∧ s.subprotocols = some (ls.flatten.map (fun p => latin1 p.2)) ∧ Common e q s := by
  obtain ⟨a1, a2, a3, a4, a5, a6⟩ := accepted hw hn rest h
  have hup := hget_wire hw rest b!"upgrade" (by decide) (by decide)
  have hco := hget_wire hw rest b!"connection" (by decide) (by decide)
  have hke := hget_wire hw rest b!"sec-websocket-key" (by decide) (by decide)
  have hpr := hget_wire hw rest b!"x-forwarded-proto" (by decide) (by decide)
  have hsu := hget_wire hw rest b!"sec-websocket-protocol" (by decide) (by decide)
  rw [← a5] at hup hco hke hpr hsu
  rw [hx] at hpr
  rw [hu] at hup
  have hs : isHandshake e.ws r.headers = some true := by
    unfold isHandshake hmem
    rw [hup, hco, hke, hws, if_pos]
    · simp [dictVal, hu']
    · simp only [Bool.true_and, Bool.and_eq_true]
      exact ⟨⟨rfl, (dictVal_isSome _).2 hc⟩, (dictVal_isSome _).2 hk⟩
  have hflat : ls.flatMap (fun l => splitList (tokensText l)) = ls.flatten.map (·.2) := by
    clear hl
    induction ls with
    | nil => rfl
    | cons l ls ih =>
      have := ht l (by simp)
      rw [List.flatMap_cons, splitList_tokens this.2.2 this.1 this.2.1, ih (fun m hm => ht m (by simp [hm])), List.flatten_cons, List.map_append]
  have hg : getlist r.headers b!"sec-websocket-protocol" = some (ls.flatten.map (·.2)) := by
    rw [getlist, hsu, hl, ← hflat]
    rcases dictVal_cases (ls.map tokensText) with ⟨c1, c2⟩ | ⟨v, c1, c2⟩ | ⟨c1, c2⟩ <;> rw [c2]
    · have : ls = [] := by simpa using c1
      rw [this]; rfl
    · match ls, c1 with
      | [l], c1 => simp at c1; simp [c1]
    · simp [List.flatMap_map]
  refine ⟨base e (parse (q.wire rest) q.text.length [b!"proxy"]).list r true none
      (if (if e.secure then b!"https" else b!"http") = b!"https" then latin1 b!"wss" else latin1 b!"ws") (some ((ls.flatten.map (·.2)).map latin1)),
    by rw [scopeOf, h]; simp only [Except.map, headersReceived, a1, hs, scheme_none hpr, hg, Bool.true_eq_false, if_false], rfl, rfl, ?_, ?_, ?_⟩
  · show (if _ then _ else _) = _; cases e.secure <;> decide
  · show some (List.map latin1 (List.map _ _)) = _; rw [List.map_map]; rfl
  · exact common a3 a4 a6

/-- **C78 (type).** The scope has the type `websocket` exactly if WebSockets are wanted and the head has a Connection field, a key and
one Upgrade field that says `websocket`. -/
theorem C78_type {e : Env} {q : ReqHead} (hw : q.Wf 100 8190) (hn : q.NoReserved) (rest : Bytes) {s : Scope}
    (h : scopeOf e (q.wire rest) q.text.length = .ok (.app s)) :
    s.websocket = true ↔ e.ws = true ∧ (∃ u, valuesOf q.pairs b!"upgrade" = [u] ∧ lower u = b!"websocket") ∧
      valuesOf q.pairs b!"connection" ≠ [] ∧ valuesOf q.pairs b!"sec-websocket-key" ≠ [] := by
  unfold scopeOf at h
  cases ha : acceptData (q.wire rest) q.text.length with
  | error x => rw [ha] at h; cases h
  | ok r =>
    rw [ha] at h
    simp only [Except.map, Except.ok.injEq] at h
    obtain ⟨a1, a2, a3, a4, a5, a6⟩ := accepted hw hn rest ha
    have hup := hget_wire hw rest b!"upgrade" (by decide) (by decide)
    have hco := hget_wire hw rest b!"connection" (by decide) (by decide)
    have hke := hget_wire hw rest b!"sec-websocket-key" (by decide) (by decide)
    rw [← a5] at hup hco hke
    unfold headersReceived at h
    rw [if_neg (by rw [a1]; simp)] at h
    have hiff : isHandshake e.ws r.headers = some true ↔ e.ws = true ∧ (∃ u, valuesOf q.pairs b!"upgrade" = [u] ∧ lower u = b!"websocket") ∧
        valuesOf q.pairs b!"connection" ≠ [] ∧ valuesOf q.pairs b!"sec-websocket-key" ≠ [] := by
      unfold isHandshake hmem
      rw [hup, hco, hke, ← dictVal_isSome, ← dictVal_isSome]
      cases hw' : e.ws with
      | false => simp
      | true =>
        cases h1 : (dictVal (valuesOf q.pairs b!"connection")).isSome with
        | false => simp
        | true =>
          cases h2 : (dictVal (valuesOf q.pairs b!"sec-websocket-key")).isSome with
          | false => simp
          | true =>
            rcases dictVal_cases (valuesOf q.pairs b!"upgrade") with ⟨c1, c2⟩ | ⟨v, c1, c2⟩ | ⟨c1, c2⟩ <;> rw [c2]
            · simp [c1]
            · simp [c1]
            · simp only [Option.isSome_some, Bool.and_self, if_true, reduceCtorEq, false_iff]
              rintro ⟨-, ⟨u, hu, -⟩, -⟩
              rw [hu] at c1; simp at c1
    rw [← hiff]
    cases hh : isHandshake e.ws r.headers with
    | none => rw [hh] at h; cases h
    | some b =>
      rw [hh] at h
      cases b with
      | true =>
        simp only at h
        split at h
        · cases h; simp [base]
        · cases h
      | false =>
        simp only at h
        split at h
        · cases h; simp [base]
        · cases h

/-- The fields of a handshake. -/
def hs (upgrade connection : Bytes) : Bytes := b!"Upgrade: " ++ upgrade ++ b!"\r\nConnection: " ++ connection ++ b!"\r\nSec-WebSocket-Key: dGhlIHNhbXBsZSBub25jZQ==\r\n"

def exPostWs : Bytes := b!"POST / HTTP/1.1\r\nHost: h\r\n" ++ hs b!"websocket" b!"Upgrade" ++ CRLF

/-- **C78 refuted: what is not a handshake is taken for one** (RFC 6455, 4.2.1): a POST, and a Connection field without `Upgrade`. -/
theorem C78_refuted_loose : ((scopeOf exEnv exPostWs (exPostWs.length - 2)).toOption.bind appOf).map (·.websocket) = some true ∧
    (exScope exEnv (hs b!"websocket" b!"keep-alive")).map (·.websocket) = some true := by decide +kernel

/-- **C78 refuted: handshakes are not recognised** whose Upgrade field has several values or is repeated; the latter fail with AttributeError. -/
theorem C78_refuted_upgrade : (exScope exEnv (hs b!"websocket, x" b!"Upgrade")).map (·.websocket) = some false ∧
    scopeOf exEnv (exGet b!"/" (hs b!"websocket" b!"Upgrade" ++ b!"Upgrade: x\r\n")) ((exGet b!"/" (hs b!"websocket" b!"Upgrade" ++ b!"Upgrade: x\r\n")).length - 2) =
      .ok .attributeError := by decide +kernel

/-- **C78 refuted: white space around subprotocols** is kept, except one space after a comma. -/
theorem C78_refuted_space : (exScope exEnv (hs b!"websocket" b!"Upgrade" ++ b!"Sec-WebSocket-Protocol: a ,  b\r\n")).bind (·.subprotocols) =
    some ["a ".toList, " b".toList] := by decide +kernel

example : (exScope { exEnv with secure := true } (hs b!"WebSocket" b!"Upgrade" ++ b!"Sec-WebSocket-Protocol: a, b,c\r\nSec-WebSocket-Protocol: d\r\n")).map
    (fun s => (s.websocket, s.scheme, s.subprotocols)) = some (true, "wss".toList, some ["a".toList, "b".toList, "c".toList, "d".toList]) := by decide +kernel

example : b!"a, b,c" = tokensText [(false, b!"a"), (true, b!"b"), (false, b!"c")] ∧ ∀ p ∈ [(false, b!"a"), (true, b!"b"), (false, b!"c")], token p.2 := by
  refine ⟨by decide, ?_⟩
  simp only [List.mem_cons, List.not_mem_nil, or_false]
  rintro p (rfl | rfl | rfl) <;> exact ⟨by decide, by decide⟩

end Verif
