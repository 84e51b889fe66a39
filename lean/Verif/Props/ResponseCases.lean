import Verif.Props.ResponseEnds
import Verif.Props.Client
import Verif.Props.Prompt
import Verif.Props.Written
import Verif.Props.AsgiClient
import Verif.Props.SendfileRange
/-!
# Cases for the theorems on responses (C20 to C23, C25 to C29, C46, C65 to C67, C89, C105, C106, C118)

Each theorem is applied to one server, one application and one request that meet all its hypotheses.
-/
namespace Verif.ResponseCases
open Verif Verif.Py Verif.Model.Response Verif.Spec.Response

/-- A server (HTTP/1.1). -/
def cfg : Cfg := { date := b!"D", server := b!"S" }
def cfg10 : Cfg := { cfg with version := b!"1.0" }
def cfgHead : Cfg := { cfg with method := b!"HEAD" }
/-- A response that nothing was done with yet, on a connection that is kept. -/
def s0 : St := { keepalive := true }
/-- What a handler asks for. -/
def asks : Script := [(.setStatus 201 b!"Created", false), (.setHeader b!"X-A" b!"1", false), (.setHeader b!"X-B" b!"2\n", true), (.setContentType b!"text/plain", false)]
def mwQ : Mw := { script := [(.setHeader b!"X-Q" b!"q", false)] }
def mwR : Mw := { script := [(.setHeader b!"X-R" b!"r", false)] }
/-- A handler that returns, between a request and a response middleware. -/
def returns : App := { qms := [mwQ], rms := [mwR], handler := .coro asks (.data b!"hello") }
/-- A handler that yields. -/
def yields : App := { qms := [mwQ], rms := [mwR], handler := .gen [(asks, b!"he"), ([], []), ([], b!"llo")] [] none }
/-- A middleware that answers. -/
def answers : App := { qms := [mwQ, { script := [(.setStatus 403 b!"Forbidden", false)], ret := .data b!"no" }, mwQ], handler := .coro [] (.data b!"hello") }
/-- A handler that raises. -/
def raises : App := { qms := [mwQ], handler := .coro [(.setHeader b!"X" b!"1", false)] (.raise .other) }

theorem ok : CfgOk cfg := ⟨by decide, by decide, by decide⟩
theorem ok10 : CfgOk cfg10 := ⟨by decide, by decide, by decide⟩
theorem okHead : CfgOk cfgHead := ⟨by decide, by decide, by decide⟩
theorem fresh : Fresh s0 := ⟨rfl, rfl, rfl, rfl, rfl, rfl⟩

instance (x : Call) : Decidable (Call.Fine x) := by cases x <;> (unfold Call.Fine; infer_instance)
instance (x : Call) : Decidable (Call.Clean x) := by cases x <;> (unfold Call.Clean; infer_instance)
instance (sc : Script) : Decidable (Script.Fine sc) := inferInstanceAs (Decidable (∀ p ∈ sc, Call.Fine p.1))
instance (ms : List Mw) : Decidable (Pass ms) := inferInstanceAs (Decidable (∀ m ∈ ms, m.ret = .none))

/-- The request is served without an exception. -/
theorem served {c : Cfg} {a : App} {s : St} (h : (serve c a s).1 = .ok ()) : serve c a s = (.ok (), (serve c a s).2) := Prod.ext h rfl
theorem ran {c : Cfg} {sc : Script} {s : St} (h : (runScript c sc s).1 = .ok ()) : runScript c sc s = (.ok (), (runScript c sc s).2) := Prod.ext h rfl

/-! ## A handler that returns -/

example := C27_returned ok (a := returns) (by decide +kernel) (by decide +kernel) (by decide) (by decide) (by decide +kernel) rfl fresh (served rfl)
example := C20_returned ok (a := returns) (by decide +kernel) (by decide +kernel) (by decide) (by decide) (by decide +kernel) rfl fresh (served rfl)
  (by decide) (by decide +kernel) (by decide +kernel)
example := C21_returned ok10 (a := returns) (by decide +kernel) (by decide +kernel) (by decide) (by decide) (by decide +kernel) rfl fresh (served rfl)
  (by decide) (by decide +kernel) (by decide +kernel) (by decide +kernel)
example := C22_returned okHead (a := returns) (by decide +kernel) (by decide +kernel) (by decide) (by decide) (by decide +kernel) rfl fresh (served rfl)
  (by decide +kernel) (.inl rfl)
example := C29_returned ok (a := returns) (by decide +kernel) (by decide +kernel) (by decide) (by decide) (by decide +kernel) rfl fresh (served rfl) (by decide +kernel)
example := C89_returned ok (by decide) (a := returns) (by decide +kernel) (by decide +kernel) (by decide) (by decide) (by decide +kernel) rfl fresh (served rfl)
  (by decide) (by decide +kernel) (by decide +kernel) (.inl (by decide +kernel)) (by decide +kernel) (by decide +kernel)

/-! ## A handler that yields -/

example := C27_streamed ok (a := yields) (by decide +kernel) (by decide +kernel) (by decide) (by decide) (by decide +kernel) (by decide +kernel) (by decide) rfl fresh (served rfl)
example := C20_streamed ok (a := yields) (by decide +kernel) (by decide +kernel) (by decide) (by decide) (by decide +kernel) (by decide +kernel) (by decide) rfl fresh (served rfl)
  (by decide) (by decide +kernel) (by decide +kernel)
example := C22_streamed okHead (a := yields) (by decide +kernel) (by decide +kernel) (by decide) (by decide) (by decide +kernel) (by decide +kernel) (by decide) rfl fresh (served rfl)
  (by decide +kernel) (.inl rfl)
example := C29_streamed_partial ok (a := yields) (by decide +kernel) (by decide +kernel) (by decide) (by decide) (by decide +kernel) (by decide +kernel) (by decide) rfl fresh (served rfl)
  (by decide +kernel) (by decide +kernel) (.inl (by decide +kernel))
example := C29_upgrade ok (a := { handler := .gen [([(.setStatus 101 b!"Switching Protocols", false)], b!"x")] [] none }) (by decide) (by decide) (by decide) (by decide) (by decide +kernel)
  (by decide) (by decide) rfl fresh (served rfl) (by decide +kernel) (.inl (by decide +kernel))
example := C29_close ok (a := yields) (by decide +kernel) (by decide +kernel) (by decide) (by decide) (by decide +kernel) (by decide +kernel) (by decide) rfl
  (s := {}) ⟨rfl, rfl, rfl, rfl, rfl, rfl⟩ (served rfl) rfl
example := C89_streamed ok (by decide) (a := yields) (by decide +kernel) (by decide +kernel) (by decide) (by decide) (by decide +kernel) (by decide +kernel) (by decide) rfl fresh (served rfl)
  (by decide) (by decide +kernel) (by decide +kernel) (by decide +kernel) (by decide +kernel) (by decide +kernel)
example := C118_prompt ok (a := yields) (by decide +kernel) (by decide +kernel) (by decide) (by decide) (by decide +kernel) (by decide +kernel) (by decide) rfl fresh (served rfl)
  (by decide) rfl
example := C118_held ok (a := { yields with opt := { stream := false, bufferSize := 8 } }) (by decide +kernel) (by decide +kernel) (by decide) (by decide) (by decide +kernel) (by decide +kernel)
  (by decide) rfl fresh (served rfl) rfl (L := 64) (by
    have h : ∀ e ∈ (serve cfg { yields with opt := { stream := false, bufferSize := 8 } } s0).2.log, (match e with | .body b _ => decide (b.length ≤ 64) | _ => true) = true := by decide +kernel
    exact fun b o hb => of_decide_eq_true (h _ hb))

/-! ## A script that ends the response itself -/

example := C27_end ok fresh (sc := asks) (by decide +kernel) (ran rfl) b!"hello" true {}
example := C27_write ok fresh (sc := asks) (by decide +kernel) (ran rfl) (some b!"hello") none (o := {}) rfl
example := C21_end ok fresh (sc := asks) (by decide +kernel) (ran rfl) b!"hello" true (o := {}) (by decide)
example := C22_end okHead fresh (sc := asks) (by decide +kernel) (ran rfl) b!"hello" true {} (.inl rfl)
example := C22_write okHead fresh (sc := asks) (by decide +kernel) (ran rfl) (some b!"hello") none {} false [] (.inl rfl) (by decide +kernel)
example := C29_end ok fresh (sc := asks) (by decide +kernel) (ran rfl) b!"hello" true {}
example := C89_end ok (by decide) fresh (sc := asks) (by decide +kernel) (ran rfl) b!"hello" true (o := {}) (by decide) (by decide +kernel) (by decide +kernel) (.inl (by decide +kernel))

/-! ## A middleware that answers -/

example := C27_middleware ok (a := answers) (by decide +kernel) (pre := [mwQ]) rfl (by decide) rfl fresh (served rfl)
example := C21_middleware ok (a := answers) (by decide +kernel) (pre := [mwQ]) rfl (by decide) rfl fresh (served rfl)
example := C29_middleware ok (a := answers) (by decide +kernel) (pre := [mwQ]) rfl (by decide) rfl fresh (served rfl)
example := C89_middleware ok (by decide) (a := answers) (by decide +kernel) (pre := [mwQ]) rfl (by decide) rfl fresh (served rfl)
  (by decide +kernel) (by decide +kernel) (.inl (by decide +kernel))

/-! ## A handler that raises -/

theorem clean : App.Clean raises := ⟨by unfold Script.Clean; decide +kernel, nofun, by simp only [raises, Handler.Clean, Script.Clean]; decide +kernel, nofun⟩
theorem raised : serve cfg raises s0 = (.error .other, (serve cfg raises s0).2) := Prod.ext rfl rfl

example := C23_request_partial ok clean fresh
example := C28_error_partial ok clean (by decide) fresh raised (by decide +kernel) nofun (by decide) (by decide) (by decide)
example := C28_status_partial ok clean (by decide) (by decide) fresh raised (by decide +kernel) nofun (by decide) (by decide) (by decide)
example := C89_error ok (by decide) clean (by decide) (by decide) fresh raised (by decide +kernel) (by decide +kernel) nofun (by decide) (by decide) (by decide)
  (by decide) (by decide) (.inl (by decide))
/-- It raises when the head has been sent. -/
example := C28_sent (c := cfg) (a := { handler := .gen [([], b!"x")] [] (some .other) }) (s := s0) (e := .other) (Prod.ext rfl rfl) (by decide +kernel)
example := C28_websocket (c := cfg) (a := { handler := .coro [] (.raise (.wsServer 1011)) }) (s := s0) (e := .wsServer 1011) (Prod.ext rfl rfl) (.inl (by decide +kernel))

/-! ## A handler that writes itself (C105) -/

section
open Verif.Spec.Written Verif.Written
def sized : Script := [(.setHeader b!"Content-Length" b!"5", false)]
def writes (pre : Script) (f : Fin) : App := { qms := [mwQ], handler := .coro (scriptOf pre ⟨b!"he", none, {}⟩ [⟨b!"llo", none, {}⟩] f) .none }
theorem fits : (⟨b!"he", none, {}⟩ : Put).Fits := by intro m h; cases h
theorem putsOk : PutsOk [⟨b!"he", none, {}⟩, ⟨b!"llo", none, {}⟩] := by unfold PutsOk; decide

example := C105_options ok (a := writes asks .nothing) (by decide +kernel) (by decide) (pre := asks) (by decide +kernel) rfl fresh (served rfl) (by decide +kernel) fits
example := C105_chunked ok (by decide) (a := writes asks (.closes true)) (by decide +kernel) (by decide) (pre := asks) (f := .closes true) (by decide +kernel) rfl fresh (served rfl) fits putsOk
  (by decide +kernel) (by decide +kernel) (by decide +kernel) (by decide +kernel)
example := C105_partial ok (by decide) (a := writes asks (.ends [] true)) (by decide +kernel) (by decide) (pre := asks) (by decide +kernel) (k := true) rfl fresh (served rfl) fits putsOk
  (by decide) (by decide +kernel) (by decide +kernel) (by decide +kernel) (by decide +kernel)
example := C105_sized ok10 (by decide) (a := writes sized (.closes true)) (by decide +kernel) (by decide) (pre := sized) (f := .closes true) (by decide +kernel) rfl fresh (served rfl) fits putsOk
  (by decide +kernel) (by decide +kernel) (by decide +kernel) (by decide +kernel) (by decide +kernel) (n := 5) (by decide +kernel)
example := C105_closed ok10 (by decide) (a := writes asks (.closes true)) (by decide +kernel) (by decide) (pre := asks) (f := .closes true) (by decide +kernel) rfl fresh (served rfl) fits putsOk
  (by decide +kernel) (by decide +kernel) (by decide +kernel) (by decide +kernel) (by decide +kernel)
example := C105_bodyless okHead (by decide) (a := writes asks (.closes true)) (by decide +kernel) (by decide) (pre := asks) (f := .closes true) (by decide +kernel) rfl fresh (served rfl)
  (by decide +kernel) (by decide +kernel) (by decide +kernel) (.inr rfl) (by decide +kernel)
end

/-! ## A file (C25, C26) -/

section
open Verif.Model.Sendfile Verif.Spec.Sendfile
def file : File := ⟨b!"0123456789", b!"M"⟩
theorem usable (a : Args) (h : a = { range := a.range, ifRange := a.ifRange, ifModified := a.ifModified, boundary := a.boundary, o := { bufferSize := 4 } }) : Usable a file := by
  rw [h]; exact ⟨show 0 < 4 by decide, show SendOpts.marks { bufferSize := 4 } = true by decide, rfl, show (10 : UInt8) ∉ b!"application/octet-stream" by decide, by decide⟩
def rg (b : Bytes) : Args := { range := some (.one b), boundary := b!"bb", o := { bufferSize := 4 } }
def el (a b : Bytes) : Elem := ⟨[], .between a b, []⟩
def asksFor : Script := [(.setHeader b!"X-A" b!"1", false)]

example := C26_whole ok fresh (pre := asksFor) (by decide +kernel) (ran rfl) (a := { o := { bufferSize := 4 } }) (usable _ rfl) (.inr ⟨.inl rfl, by decide⟩) (by decide +kernel)
example := C26_head okHead fresh (pre := asksFor) (by decide +kernel) (ran rfl) (a := { o := { bufferSize := 4 } }) (usable _ rfl) (.inr ⟨.inl rfl, by decide⟩) rfl (by decide +kernel)
example := C26_current ok fresh (pre := asksFor) (by decide +kernel) (ran rfl) (a := { ifModified := some (.one b!"M") }) (f := file) ⟨.inl rfl, rfl⟩

theorem el_ok {a b : Bytes} (ha : Digits a) (hb : Digits b) : (el a b).Ok := ⟨nofun, ⟨ha, hb⟩, nofun⟩
theorem el1 : (el b!"2" b!"4").Ok := el_ok (by unfold Digits; decide) (by unfold Digits; decide)
theorem el2 : (el b!"07" b!"9").Ok := el_ok (by unfold Digits; decide) (by unfold Digits; decide)

example := C25_single ok fresh (pre := asksFor) (by decide +kernel) (ran rfl) (a := rg b!"bytes=2-4") (usable _ rfl) ⟨rfl, .inl rfl⟩ rfl (e := el b!"2" b!"4") (.inl ⟨rfl, by simp⟩) el1
  (p := (2, 4)) (by decide +kernel) (by decide)
example := C25_head okHead fresh (pre := asksFor) (by decide +kernel) (ran rfl) (a := rg b!"bytes=2-4") (usable _ rfl) ⟨rfl, .inl rfl⟩ rfl (e := el b!"2" b!"4") (.inl ⟨rfl, by simp⟩) el1
  (p := (2, 4)) (by decide +kernel) rfl
example := C25_multi ok fresh (pre := asksFor) (by decide +kernel) (ran rfl) (a := rg b!"bytes=2-4,07-9") (usable _ rfl) ⟨rfl, .inl rfl⟩ rfl (es := [el b!"2" b!"4", el b!"07" b!"9"]) (.inl ⟨rfl, by simp⟩)
  (by intro e he; simp only [List.mem_cons, List.not_mem_nil, or_false] at he; rcases he with rfl | rfl
      · exact el1
      · exact el2) (by decide) (by decide) (ps := [(2, 4), (7, 9)]) (by decide +kernel) (by decide) (by decide)
example := C25_refused ok fresh (pre := asksFor) (by decide +kernel) (ran rfl) (a := rg b!"bytes=2-99") (f := file) (usable _ rfl) ⟨rfl, .inl rfl⟩ rfl (st := (416, b!"Range Not Satisfiable")) (.inr rfl) rfl {}
  (by decide) (by decide) nofun .none
end

/-! ## An ASGI application (C46, C65, C66, C67, C106) -/

section
open Verif.Model.Asgi Verif.Spec.Asgi Verif.Proofs.Asgi Verif.Asgi Verif.AsgiClient
def appHeaders : List (Bytes × Bytes) := [(b!"X-A", b!"1"), (b!"content-type", b!"text/plain")]
theorem said : Said env200 200 b!"OK" appHeaders := said_ok (by decide +kernel)
theorem freshA : Fresh keptA.resp := ⟨rfl, rfl, rfl, rfl, rfl, rfl⟩
theorem plainly : Plainly .other := ⟨nofun, by decide, by decide, by decide⟩

example := C46_partial ok said.phrases (ready_of said) (d := b!"x") (more := true) (.inl (by decide)) [] none freshA
example := C65_partial ok said.phrases said.known said.usable (d := b!"x") (more := true) (.inl (by decide)) [] none freshA
example := C66_chunked ok rfl said.phrases (by decide) (ready_of said) (by decide +kernel) [b!"he", []] b!"llo" freshA rfl (by decide +kernel)
example := C66_raw ok10 said.phrases (by decide) (ready_of said) [b!"he", []] b!"llo" freshA (.inr (.inr ⟨rfl, by decide⟩)) (by decide +kernel)
example := C66_bodyless okHead said.phrases (ready_of said) (d := b!"x") (more := false) (.inr rfl) [] none freshA (by decide +kernel) (by decide +kernel)
example := C67_returns_partial ok said.phrases (by decide) (ready_of said) [b!"he", []] b!"llo" freshA (by decide +kernel)
example := C67_raises ok (e := env200) [.start (some 200) appHeaders] plainly (a := keptA) (by decide +kernel)
example := C106_chunked ok rfl (by decide) said (by decide +kernel) [b!"he", []] b!"llo" freshA rfl (by decide +kernel)
example := C106_sized ok (by decide) (by decide) (l := (b!"Content-Length", b!"9") :: appHeaders) (said_ok (by decide +kernel)) (by decide +kernel : _ = [(b!"Content-Length", b!"9")]) (n := 9) (by decide +kernel)
  [b!"he", []] b!"llo" freshA (by decide +kernel)
example := C106_length ok (by decide) (by decide) (l := (b!"Content-Length", b!"5") :: appHeaders) (said_ok (by decide +kernel)) (by decide +kernel : _ = [(b!"Content-Length", b!"5")])
  [b!"he", []] b!"llo" (by decide +kernel) freshA (by decide +kernel)
example := C106_closed ok10 (by decide) (by decide) said (by decide +kernel) [b!"he", []] b!"llo" freshA (.inr ⟨rfl, by decide⟩) (by decide +kernel)
example := C106_bodyless okHead (by decide) said (d := b!"x") (more := false) (.inr rfl) [] none freshA (by decide +kernel) (.inl (by decide)) (by decide)
example := C106_error ok (by decide) said.phrases (ready_of said) plainly (by decide) (by decide) (.inl (by decide)) freshA
example := C106_cut ok rfl said (by decide +kernel) (d := b!"he") (by decide) [b!"llo"] .other freshA rfl (by decide +kernel)
end

end Verif.ResponseCases
