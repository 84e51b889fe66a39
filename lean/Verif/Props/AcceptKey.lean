import Verif.Proofs.AcceptKey
import Verif.Props.AsgiWs
import Verif.Props.NativeWs
import Verif.Props.Head
import Verif.Props.HttpParser
/-!
# C122: a handshake is answered with the key that the standard prescribes
-/
namespace Verif
open Verif.Py Verif.Model.HttpParser Verif.Model.AcceptKey Verif.Spec.AcceptKey Verif.Proofs.AcceptKey
open Verif.Spec.HttpParser (ReqHead valuesOf)

/-- **C122 (digest).** The digest of the model is the one that FIPS 180-4 defines, and no other text is. -/
theorem C122_digest {m : Bytes} (h : m.length < 2 ^ 61) (d : Bytes) : Digest m d ↔ d = sha1 m :=
  ⟨fun hd => digest_unique h hd (digest h), fun e => e ▸ digest h⟩

example := C122_digest (m := b!"abc") (by decide)
example : sha1 b!"abc" = [0xa9, 0x99, 0x3e, 0x36, 0x47, 0x06, 0x81, 0x6a, 0xba, 0x3e, 0x25, 0x71, 0x78, 0x50, 0xc2, 0x6c, 0x9c, 0xd0, 0xd8, 0x9d] ∧
    sha1 b!"abcdbcdecdefdefgefghfghighijhijkijkljklmklmnlmnomnopnopq" =
      [0x84, 0x98, 0x3e, 0x44, 0x1c, 0x3b, 0xd2, 0x6e, 0xba, 0xae, 0x4a, 0xa1, 0xf9, 0x51, 0x29, 0xe5, 0xe5, 0x46, 0x70, 0xf1] := by decide +kernel

/-- **C122 (base64).** The text of any bytes is the one that RFC 4648 defines, has four symbols for every three bytes or part of
them, and only symbols of its alphabet and `=`. -/
theorem C122_base64 (d : Bytes) : b64encode d = base64 d ∧ (base64 d).length = (d.length + 2) / 3 * 4 ∧
    ∀ x ∈ base64 d, x ∈ b!"ABCDEFGHIJKLMNOPQRSTUVWXYZabcdefghijklmnopqrstuvwxyz0123456789+/=" := by
  refine ⟨b64_eq d, by rw [← b64_eq, b64_length], fun x hx => ?_⟩
  rw [← b64_eq] at hx
  exact b64_mem d x hx

example : b64encode b!"foobar" = b!"Zm9vYmFy" ∧ b64encode b!"fooba" = b!"Zm9vYmE=" ∧ b64encode b!"foob" = b!"Zm9vYg==" ∧ b64encode [0xfb, 0xff] = b!"+/8=" := by decide +kernel

/-- **C122 (key).** For every key, exactly one text answers it: the one that is computed. -/
theorem C122_key {k : Bytes} (h : k.length < 2 ^ 60) (r : Bytes) : Answers k r ↔ r = b64encode (sha1 (k ++ magic)) := by
  have hl : (k ++ magic).length < 2 ^ 61 := by
    rw [List.length_append, show magic.length = 36 from rfl]; omega
  constructor
  · rintro ⟨d, hd, rfl⟩
    rw [(C122_digest hl d).mp hd, b64_eq]
  · rintro rfl
    exact ⟨_, digest hl, b64_eq _⟩

example : Answers b!"dGhlIHNhbXBsZSBub25jZQ==" b!"s3pPLMBiTxaQ9kYGzzhZRbK+xOo=" := (C122_key (by decide) _).mpr (by decide +kernel)

namespace AcceptKey

theorem key_wire {q : ReqHead} (hw : q.Wf 100 8190) (rest : Bytes) :
    acceptKey (parse (q.wire rest) q.text.length [b!"proxy"]).headers =
      match valuesOf q.pairs b!"sec-websocket-key" with | [v] => some (b64encode (sha1 (v ++ magic))) | _ => none := by
  have e1 : vals (q.wire rest) q.text.length b!"sec-websocket-key" = valuesOf q.pairs b!"sec-websocket-key" := by
    unfold vals
    rw [Proofs.HttpParser.parse_wf hw, (Proofs.HttpParser.finish_fields _).2.1]
    simp only [valuesOf, List.filter_filter]
    congr 1
    apply List.filter_congr
    intro x _
    by_cases hx : x.1 = b!"sec-websocket-key" <;> simp [hx]
  unfold acceptKey
  rw [hget_vals _ _ _ (by decide) (by decide), e1]
  match valuesOf q.pairs b!"sec-websocket-key" with
  | [] => rfl
  | [v] => rfl
  | _ :: _ :: _ => rfl

theorem value_length {q : ReqHead} (hw : q.Wf 100 8190) {n v : Bytes} (h : v ∈ valuesOf q.pairs n) : v.length ≤ 8190 := by
  simp only [valuesOf, ReqHead.pairs, List.mem_map, List.mem_filter] at h
  obtain ⟨p, ⟨⟨f, hf, rfl⟩, _⟩, rfl⟩ := h
  have := hw.size f hf
  simp only [Spec.HttpParser.Field.line, List.length_append] at this
  show f.value.length ≤ 8190
  omega

theorem key_safe (d : Bytes) : (10 : UInt8) ∉ b64encode (sha1 d) := fun h => absurd (b64_mem _ _ h) (by decide)

end AcceptKey
open AcceptKey

/-- **C122 (ASGI, partial).** For every head of a request with one `Sec-WebSocket-Key` field: when the application accepts, the
accept line of the head that goes out has the 28 bytes that RFC 6455 prescribes for the value of that field as it was sent. No
condition on the key is left. Missing: white space around the value (`C122_refuted_space`). -/
theorem C122_asgi_partial {q : ReqHead} (hw : q.Wf 100 8190) {rest v : Bytes} (hv : valuesOf q.pairs b!"sec-websocket-key" = [v])
    {c : Model.Response.Cfg} (hc : Spec.Response.CfgOk c) {e : Model.AsgiWs.WEnv} (he : e.key = acceptKey (parse (q.wire rest) q.text.length [b!"proxy"]).headers)
    {sub : Bytes} (hs : (10 : UInt8) ∉ sub) {l : List (Bytes × Bytes)} (hl : ∀ h ∈ l, Spec.Asgi.bad h = false ∧ Spec.Asgi.plain h = true)
    (hcl : ∀ h ∈ l, Spec.Asgi.closes h = false) (n : Nat) {w : Model.AsgiWs.W} (hf : Spec.Response.Fresh w.a.resp)
    (hka : w.a.resp.keepalive = true) (hws : w.ws = true) (hwt : w.waiting = false) :
    ∃ t lines r, (Model.AsgiWs.run c e w (List.replicate n .receive ++ [.send (.accept sub l)])).a.resp.log = [.head t [] { throttle := false }, .mark true] ∧
      Spec.Response.HeadIs t (b!"HTTP/" ++ c.version ++ b!" 101 Switching Protocols") lines ∧
      Spec.Response.named b!"sec-websocket-accept" lines = [b!"Sec-WebSocket-Accept: " ++ r] ∧ Answers v r ∧ r.length = 28 := by
  have hm : v ∈ valuesOf q.pairs b!"sec-websocket-key" := by rw [hv]; simp
  have hlen := value_length hw hm
  rw [key_wire hw, hv] at he
  obtain ⟨t, lines, w', e1, -, -, -, -, e2, e3, -, -, e4, -⟩ := C70_partial hc he (key_safe _) hs hl hcl n hf hka hws hwt
  subst e1
  exact ⟨t, lines, _, e2, e3, e4, (C122_key (by omega) _).mpr rfl, by rw [b64_length, sha1_length]⟩

/-- **C122 (native, partial).** The same for a handler of the framework that asks for the first message. -/
theorem C122_native_partial {q : ReqHead} (hw : q.Wf 100 8190) {rest v : Bytes} (hv : valuesOf q.pairs b!"sec-websocket-key" = [v])
    {c : Model.Response.Cfg} (hc : Spec.Response.CfgOk c) {e : Model.NativeWs.NEnv} (he : e.key = acceptKey (parse (q.wire rest) q.text.length [b!"proxy"]).headers)
    {s : Model.Response.St} (hf : Spec.Response.Fresh s) (hka : s.keepalive = true) (r : Model.BodyStream.Reader) :
    ∃ t lines k s', Model.NativeWs.step c e (Model.NativeWs.start c s r) .next = Model.NativeWs.step c e { resp := s', reader := r } .next ∧ s'.upgraded = true ∧
      s'.log = [.head t [] { throttle := false }, .mark true] ∧
      Spec.Response.HeadIs t (b!"HTTP/" ++ c.version ++ b!" 101 Switching Protocols") lines ∧
      Spec.Response.named b!"sec-websocket-accept" lines = [b!"Sec-WebSocket-Accept: " ++ k] ∧ Answers v k ∧ k.length = 28 := by
  have hm : v ∈ valuesOf q.pairs b!"sec-websocket-key" := by rw [hv]; simp
  have hlen := value_length hw hm
  rw [key_wire hw, hv] at he
  obtain ⟨t, lines, s', e1, e2, -, -, e3, e4, -, -, e5, -⟩ := C86_handshake hc he (key_safe _) hf hka r
  exact ⟨t, lines, _, s', e1, e2, e3, e4, e5, (C122_key (by omega) _).mpr rfl, by rw [b64_length, sha1_length]⟩

/-- **C122 (number of fields), exact.** There is a key to answer with if and only if the head has exactly one such field. -/
theorem C122_once {q : ReqHead} (hw : q.Wf 100 8190) (rest : Bytes) :
    (∃ r, acceptKey (parse (q.wire rest) q.text.length [b!"proxy"]).headers = some r) ↔ ∃ v, valuesOf q.pairs b!"sec-websocket-key" = [v] := by
  rw [key_wire hw]
  match valuesOf q.pairs b!"sec-websocket-key" with
  | [] => simp
  | [v] => simp
  | _ :: _ :: _ => simp

/-- A handshake; `tail` is written behind the key. -/
def AcceptKey.hand (tail : Bytes) : ReqHead := ⟨b!"GET", b!"/chat", b!"1.1",
  [⟨b!"Host", true, b!"x"⟩, ⟨b!"Upgrade", true, b!"websocket"⟩, ⟨b!"Connection", true, b!"Upgrade"⟩, ⟨b!"Sec-WebSocket-Key", true, b!"dGhlIHNhbXBsZSBub25jZQ==" ++ tail⟩]⟩

theorem AcceptKey.hand_wf (tail : Bytes) (h : tail = [] ∨ tail = [32]) : (hand tail).Wf 100 8190 where
  methodSp := by rcases h with rfl | rfl <;> decide
  lf := by rcases h with rfl | rfl <;> decide
  version := by show ¬ _ <:+: b!"1.1"; rw [← find_eq_none_iff']; decide
  fields := by
    intro f hf
    rcases h with rfl | rfl <;>
    · simp only [hand, List.mem_cons, List.not_mem_nil, or_false] at hf
      rcases hf with rfl | rfl | rfl | rfl <;> exact ⟨by decide, by decide, by decide, by decide, by decide, by decide⟩
  host := fun _ => ⟨⟨b!"Host", true, b!"x"⟩, by simp [hand], by decide⟩
  count := by rcases h with rfl | rfl <;> decide
  size0 := by rcases h with rfl | rfl <;> decide
  size := by rcases h with rfl | rfl <;> decide

example := C122_asgi_partial (hand_wf [] (.inl rfl)) (rest := []) (v := b!"dGhlIHNhbXBsZSBub25jZQ==") (by decide)
  (c := AsgiWs.cfg) ⟨by decide, by decide, by decide⟩ (e := { AsgiWs.env with key := _ }) rfl (sub := b!"chat") (by decide)
  (l := [(b!"X-A", b!"1")]) (by decide +kernel) (by decide +kernel) 1 (w := AsgiWs.start []) ⟨rfl, rfl, rfl, rfl, rfl, rfl⟩ rfl rfl rfl

/-- **C122, refuted.** White space behind a field value is not part of it (RFC 9110, section 5.5); the server hashes it with the
key, and the client that sent one space too many gets a text that does not answer its key. -/
theorem C122_refuted_space : ∃ r, acceptKey (parse ((hand [32]).wire []) (hand [32]).text.length [b!"proxy"]).headers = some r ∧
    ¬ Answers b!"dGhlIHNhbXBsZSBub25jZQ==" r := by
  refine ⟨_, by rw [key_wire (hand_wf [32] (.inr rfl))]; rfl, ?_⟩
  rw [C122_key (by decide)]
  decide +kernel

end Verif
