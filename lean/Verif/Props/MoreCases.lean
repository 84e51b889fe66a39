import Verif.Props.Head
import Verif.Props.App
import Verif.Props.WebSocket
import Verif.Props.AsgiWs
import Verif.Props.ErrorPage
/-!
# Cases for the theorems on heads, routing, WebSocket and error pages (C01, C07, C30 to C33, C39 to C43, C70 to C73, C98)

Each theorem is applied to concrete data that meet all its hypotheses.
-/
namespace Verif.MoreCases
open Verif Verif.Py

/-! ## Heads -/
section
open Verif.Model.HttpParser Verif.Model.Head Verif.Spec.Head Verif.Proofs.Head

/-- A head of 16 bytes up to its blank line, in pieces. -/
def segs : List Bytes := [b!"GET / HT", b!"TP/1.1\r\n\r", b!"\nrest", b!"more"]
def segs' : List Bytes := [b!"GET / HTTP/1.1\r\n\r\nre", b!"stmore"]

theorem blank : FirstBlank segs.flatten 14 := by rw [firstBlank_iff]; decide

example := C01_fragmentation (max := 8192) (by decide) blank (by decide)
example := C01_too_large (max := 15) (by decide) blank (by decide)
example := C01_independent (max := 20) (segs' := segs') (by decide) (by decide) (by decide) blank (by decide)
example := C01_independent (max := 12) (segs' := segs') (by decide) (by decide) (by decide) blank (by decide)

/-- A request with a body of ten bytes. -/
def post : Bytes := exPost b!"content-length: 10\r\nconnection: x, Close\r\n"
def twice : Bytes := exPost b!"content-length: 10\r\ntransfer-encoding: chunked\r\n"

theorem accepted : ∃ r, acceptData post (post.length - 2) = .ok r := by
  have h : (acceptData post (post.length - 2)).isOk = true := by decide +kernel
  cases e : acceptData post (post.length - 2) with
  | ok r => exact ⟨r, rfl⟩
  | error _ => rw [e] at h; exact nomatch h

example {r : Req} (h : acceptData post (post.length - 2) = .ok r) := C07_framing h (.inl (by decide +kernel))
example {r : Req} (h : acceptData post (post.length - 2) = .ok r) := C17_keepalive h

theorem initial : ∃ r, initReq (parse twice (twice.length - 2) [b!"proxy"]) = some r := Option.isSome_iff_exists.mp (by decide +kernel)

example : ∃ e, acceptData twice (twice.length - 2) = .error e ∧ (e.status = some 400 ∨ e.status = some 500) :=
  initial.elim fun _ h => C07_refused (by decide +kernel) h (.inl (by decide +kernel)) (by
    intro g
    exact g.both b!"10" (by decide +kernel) b!"chunked" (by decide +kernel) ⟨[], [], by decide +kernel⟩)
end

/-! ## WebSocket -/
section
open Verif.Model.BodyStream Verif.Model.WebSocket Verif.Spec.WebSocket Verif.Proofs.WebSocket

def key : UInt8 × UInt8 × UInt8 × UInt8 := (1, 2, 3, 4)
def bin : Frame := ⟨0x82, .short, some key, b!"hello"⟩
def txt : Frame := ⟨0x81, .medium, some key, b!"hello"⟩
def ping : Frame := ⟨0x89, .short, some key, b!"hi"⟩
def pong : Frame := ⟨0x8A, .short, none, []⟩
def cls : Frame := ⟨0x88, .short, some key, [3, 0xE9, 98]⟩
def odd : Frame := ⟨0x83, .short, none, b!"x"⟩
def big : Frame := ⟨0x82, .long, none, List.replicate 70000 7⟩
def read (f : Frame) (rest : Bytes) : Reader := ⟨⟨[f.encode.take 3, f.encode.drop 3, rest], .blocked⟩, [], false⟩

theorem inv (f : Frame) (rest : Bytes) : Inv (read f rest) := nofun
theorem remains (f : Frame) (rest : Bytes) : (read f rest).remaining = f.encode ++ rest := by
  show [] ++ ([f.encode.take 3, f.encode.drop 3, rest] : List Bytes).flatten = _
  simp [← List.append_assoc]

instance (f : Frame) : Decidable f.Fits := by unfold Frame.Fits; cases f.form <;> infer_instance
theorem bigFits : big.Fits := by
  show (List.replicate 70000 (7 : UInt8)).length < 2 ^ 64
  rw [List.length_replicate]; decide

example := C30_create b!"hello" 2 true (some key) (by decide)
example := C30_recv_binary (max := 100) (inv bin [9]) (f := bin) (by decide) nofun (remains bin [9]) (by decide)
example := C30_recv_text (max := 100) (inv txt [9]) (f := txt) (by decide) nofun (remains txt [9]) (by decide)
example := C30_roundtrip (max := 100) (inv bin [9]) b!"hello" true (some key) (by decide) (by decide) [9]
def bigR : Reader := ⟨⟨[big.prefix, [1, 2]], .blocked⟩, [], false⟩
theorem bigInv : Inv bigR := fun h => by have : false = true := h; exact absurd this (by decide)
theorem bigRead : bigR.remaining = big.prefix ++ [1, 2] := by
  show [] ++ ([big.prefix, [1, 2]] : List Bytes).flatten = _
  simp
theorem bigOver : 65535 < big.payload.length := by
  show 65535 < (List.replicate 70000 (7 : UInt8)).length
  rw [List.length_replicate]; decide
example := C31_refused_partial (max := 65535) bigInv bigFits rfl bigOver bigRead
example := C31_refused_large (max := 65535) (by decide) bigInv bigFits bigOver bigRead
example := C32_ping (max := 100) (inv ping [9]) (f := ping) (by decide) nofun (remains ping [9]) (by decide) (by decide)
example := C32_pong (max := 100) (inv pong [9]) (f := pong) (by decide) nofun (remains pong [9]) (by decide) (by decide)
example := (C32_close (max := 100) (inv cls [9]) (f := cls) (by decide) nofun (remains cls [9]) (by decide)).2 1001 [98] (by decide) (by decide)
example := C32_other (max := 100) (inv odd [9]) (f := odd) (by decide) nofun (remains odd [9]) (.inl (by decide))
example := C33_complete_partial (max := 100) (r := read bin [9]) (inv bin [9]) (by decide) rfl (by decide +kernel) (by decide +kernel)
end

/-! ## WebSocket through ASGI -/
section
open Verif.Model.BodyStream Verif.Model.WebSocket Verif.Spec.WebSocket Verif.Model.AsgiWs Verif.Spec.AsgiWs Verif.Model.Response Verif.Spec.Response Verif.Spec.Asgi
open Verif.AsgiWs

theorem wsOk : CfgOk AsgiWs.cfg := ⟨by decide, by decide, by decide⟩

example := C70_partial wsOk (e := AsgiWs.env) (key := b!"k") rfl (by decide) (sub := b!"chat") (by decide)
  (l := [(b!"X-A", b!"1"), (b!"x-a", b!"2")]) (by decide +kernel) (by decide +kernel) 2 (w := start []) ⟨rfl, rfl, rfl, rfl, rfl, rfl⟩ rfl rfl rfl

/-- An accepted session. -/
def opened (pieces : List Bytes) (out : Model.BodyStream.Out := .blocked) : W := Model.AsgiWs.run AsgiWs.cfg AsgiWs.env (start pieces out) [.receive, .send (.accept [] [])]
def items : List (Frame × Meaning) := [(txt, .text "hello"), (ping, .ping b!"hi"), (bin, .binary b!"hello"), (pong, .pong [])]
def wire : Bytes := (items.map (·.1.encode)).flatten

theorem carries : ∀ x ∈ items, Carries AsgiWs.env.max x.1 x.2 := by
  intro x hx
  rcases List.mem_cons.mp hx with rfl | hx
  · exact ⟨by decide, by decide, by decide, by decide, by decide +kernel⟩
  rcases List.mem_cons.mp hx with rfl | hx
  · exact ⟨by decide, by decide, by decide, by decide, rfl, by decide⟩
  rcases List.mem_cons.mp hx with rfl | hx
  · exact ⟨by decide, by decide, by decide, by decide, rfl, by decide⟩
  rcases List.mem_cons.mp hx with rfl | hx
  · exact ⟨by decide, by decide, by decide, by decide, rfl, by decide⟩
  · exact nomatch hx

def ops : List Op := [.receive, .send (.send [] "yo"), .receive]

example := C71_partial (c := AsgiWs.cfg) (e := AsgiWs.env) carries (w := opened [wire, [7]]) ⟨by decide +kernel, by decide +kernel, by decide +kernel⟩
  (fun h => absurd h (by decide +kernel)) (rest := [7]) (by decide +kernel) (ops := ops) (by decide) (by decide)
example := C71_close (c := AsgiWs.cfg) (e := AsgiWs.env) carries (w := opened [wire, cls.encode]) ⟨by decide +kernel, by decide +kernel, by decide +kernel⟩
  (fun h => absurd h (by decide +kernel)) (f := cls) (by decide) (by decide) (by decide) (code := 1001) (by decide) (.inr ⟨[98], by decide⟩)
  (rest := []) (by decide +kernel) (ops := ops ++ [.receive]) (by decide) (by decide)
example := C71_lost (c := AsgiWs.cfg) (e := AsgiWs.env) carries (w := opened [wire] .done) ⟨by decide +kernel, by decide +kernel, by decide +kernel⟩
  (fun h => absurd h (by decide +kernel)) (by decide +kernel) (by decide +kernel) (ops := ops ++ [.receive]) (by decide) (by decide)
example := C71_waits (c := AsgiWs.cfg) (e := AsgiWs.env) carries (w := opened [wire, bin.encode.take 4]) ⟨by decide +kernel, by decide +kernel, by decide +kernel⟩
  (fun h => absurd h (by decide +kernel)) (f := bin) (by decide) nofun (p := bin.encode.take 4) (q := bin.encode.drop 4) (by decide) (by decide)
  (by decide +kernel) (by decide +kernel) (ops := ops ++ [.receive]) (by decide) (by decide)
example := C72_wire (c := AsgiWs.cfg) (e := AsgiWs.env) (ms := [.send [1, 2] "", .send [] "yo"]) (by decide)
  (by intro m hm f hf
      rcases List.mem_cons.mp hm with rfl | hm
      · cases hf; decide
      rcases List.mem_cons.mp hm with rfl | hm
      · cases hf; decide +kernel
      · exact nomatch hm)
  (w := opened []) ⟨by decide +kernel, by decide +kernel, by decide +kernel⟩
example := C73_close_partial (c := AsgiWs.cfg) (e := AsgiWs.env) (w := opened []) ⟨by decide +kernel, by decide +kernel, by decide +kernel⟩
  (code := 3000) (by decide) [.receive, .send (.close 1000)] (by intro m hm; exact .inr ⟨1000, List.mem_singleton.mp hm⟩)
example := C73_failed (c := AsgiWs.cfg) (e := AsgiWs.env) (w := opened []) ⟨by decide +kernel, by decide +kernel, by decide +kernel⟩ .other
example := C73_failed_before wsOk (e := AsgiWs.env) (w := start []) ⟨rfl, rfl, rfl, rfl, rfl, rfl⟩ (x := .other) nofun nofun (by decide) (by decide)
example := C73_refuted_violation (c := AsgiWs.cfg) (e := AsgiWs.env) (w := opened [odd.encode]) ⟨by decide +kernel, by decide +kernel, by decide +kernel⟩
  (fun h => absurd h (by decide +kernel)) (f := odd) (by decide) (.inr (by decide)) (rest := []) (by decide +kernel)
end

/-! ## Routing -/
section
open Verif.Model.App Verif.Model.Regex Verif.Spec.App Verif.Proofs.App

def regs : List (Reg Nat Nat) := [.route b!"/blog/post" 7 [(b!"rate", 5)], .route b!"/blog/post/" 8 []]
def rx : Bytes → Bytes → Bool := fun _ _ => false
def table : Table Nat Nat := regs.foldl register (initTable 400 404 500 0 [] [])
def mws : List ((Nat × Opts Nat) × Ret) := [((10, [(b!"x", 1)]), .none), ((11, []), .none)]

example := C40_one_handler rx table 1 2 mws mws true b!"/blog/post?q" .body _ ((C40_dispatch rx table true b!"/blog/post?q" _).mpr rfl) (by decide) _ _ _ rfl
example := C41_partial rx table [.start true b!"/x", .start true b!"/blog/post", .finish 0] true b!"/blog/post" (.inl (by decide +kernel))
example := C42_request_pass rx table 1 2 mws mws true b!"/blog/post" .body (by decide)
example := C42_request_stop rx table 1 2 mws mws mws (12, []) .body true b!"/blog/post" .body (by decide) (by decide)
example := C42_response_pass 1 2 mws 7 [(b!"rate", 5)] (by decide)
example := C42_response_stop 1 2 mws mws (12, []) .body 7 [(b!"rate", 5)] (by decide) (by decide)
example := (C42_connect [(1, .falsy), (2, .falsy)] [(4, .truthy)] (by decide)).2 3 .truthy (by decide)
example := (C42_close [(1, .truthy)] [(3, .falsy), (4, .falsy)] (by decide)).2 2 .truthy (by decide)
end

/-! ## Error pages -/
section
open Verif.Model.ErrorPage Verif.Spec.ErrorPage
open Verif.Spec.Response (CfgOk)

def pcfg : Model.Response.Cfg := { date := b!"D", server := b!"S" }
instance (s : Str) : Decidable (Line s) := inferInstanceAs (Decidable (∀ ch ∈ s, ch.toNat < 256 ∧ ch ≠ '\n'))
theorem pok : CfgOk pcfg := ⟨by decide, by decide, by decide⟩
def rst : Model.Response.St := { keepalive := true, headers := some {} }
def penv : Env := {}
def denv : Env := { debug := true, trace := fun _ => ["<boom>".toList] }
def notFound : Raised := .http { code := 404, message := "Not Found".toList, args := [some "no".toList, some "page".toList] }

example := C98_page pok (env := penv) rfl (x := notFound) (.args _ "no".toList ["page".toList] rfl) (by decide +kernel) (by decide +kernel)
  (b := b!"no page") (by decide +kernel) (s := rst) rfl rfl
example := C98_private pok (env := penv) rfl "secret".toList (s := rst) rfl rfl
example := C98_classes pok (env := penv) rfl (k := (404, "Not Found".toList)) (by decide +kernel) ["no".toList] (s := rst) rfl rfl
example := C98_silent pok penv (.other none) (s := rst) rfl rfl
example : Unsayable penv (.other none) := .inl (by rintro ⟨p, h⟩; cases h)
example := C98_debug_page pok (env := denv) rfl (t := "secret".toList) (s := rst) rfl rfl
end

end Verif.MoreCases
