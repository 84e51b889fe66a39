import Verif.Proofs.Dates
import Verif.Props.Download
import Verif.Model.Text
/-!
# C108: the dates in responses

The Date header (utils.py:48-50), Last-Modified and what is compared with it (http_response.py:334-335, 338-339, 466-467), and the expiry date of
a cookie (http_response.py:87-91).
-/
namespace Verif
open Verif.Py Verif.Model.Dates Verif.Spec.Dates Verif.Proofs.Dates

namespace Dates

/-- From the year 1000 to the year 9999: 1000-01-01T00:00:00Z and 9999-12-31T23:59:59Z. -/
def first : Int := -30610224000
def last : Int := 253402300799

example : (Civil.mk 1000 1 1 0 0 0).seconds = first ∧ (Civil.mk 9999 12 31 23 59 59).seconds = last := by decide +kernel

theorem year_range {t : Int} (h1 : first ≤ t) (h2 : t ≤ last) : 1000 ≤ (gmtime t).year ∧ (gmtime t).year ≤ 9999 := by
  obtain ⟨hv, _, hd⟩ := civil_spec t
  have hl := doy_lt hv
  obtain ⟨_, _, h3, _⟩ := hv
  have e : (civil t).year = (gmtime t).year := rfl
  unfold Civil.days at hd
  rw [e] at hd hl
  unfold first at h1
  unfold last at h2
  refine ⟨Int.not_lt.1 (fun hlt => ?_), Int.not_lt.1 (fun hlt => ?_)⟩
  · have hb : daysBefore ((gmtime t).year + 1) ≤ daysBefore 1000 := daysBefore_le (by omega)
    rw [daysBefore_succ, show daysBefore 1000 = -354285 by decide] at hb
    omega
  · have hb : daysBefore 10000 ≤ daysBefore (gmtime t).year := daysBefore_le (by omega)
    rw [show daysBefore 10000 = 2932897 by decide] at hb
    omega

theorem year_of {t : Int} {x : Civil} (hx : x.Valid) (hs : x.seconds = t) : x = civil t :=
  seconds_inj hx (civil_spec t).1 (hs.trans (civil_spec t).2.1.symm)

end Dates
open Dates

/-- **C108**: the date written for an instant is its IMF-fixdate, with the right day of the week; it has 29 bytes, all printable. -/
theorem C108_date {t : Int} (h1 : first ≤ t) (h2 : t ≤ last) : Denotes (httpDate t) t ∧ (httpDate t).length = 29 ∧ ∀ b ∈ httpDate t, 32 ≤ b ∧ b < 127 := by
  obtain ⟨y1, y2⟩ := year_range h1 h2
  obtain ⟨hv, hs, _⟩ := civil_spec t
  rw [httpDate_text y1 y2]
  exact ⟨⟨civil t, hv, by show 0 ≤ (gmtime t).year; omega, y2, rfl, hs⟩, text_len hv, text_clean hv⟩

/-- **C108 (read)**: conversely a text denotes one instant only, and that instant is written like it. -/
theorem C108_read {v : Bytes} {t : Int} (h : Denotes v t) : (∀ u, Denotes v u → u = t) ∧ (first ≤ t → t ≤ last → v = httpDate t) := by
  obtain ⟨x, hv, h0, h9, rfl, hs⟩ := h
  refine ⟨?_, fun h1 h2 => ?_⟩
  · rintro u ⟨y, hy, y0, y9, e, hu⟩
    have := text_inj hv hy h0 h9 y0 y9 e
    rw [← hu, ← this]; exact hs
  · obtain ⟨y1, y2⟩ := year_range h1 h2
    rw [httpDate_text y1 y2, ← year_of hv hs]

example : httpDate 784111777 = b!"Sun, 06 Nov 1994 08:49:37 GMT" ∧ httpDate 1709164800 = b!"Thu, 29 Feb 2024 00:00:00 GMT" ∧ httpDate (-1) = b!"Wed, 31 Dec 1969 23:59:59 GMT" ∧
    httpDate first = b!"Wed, 01 Jan 1000 00:00:00 GMT" ∧ httpDate last = b!"Fri, 31 Dec 9999 23:59:59 GMT" := by decide +kernel

/-- **C108 (file dates)**: the dates of two modification times are equal exactly if they lie in the same second. -/
theorem C108_same {a b : Int} (ha : first ≤ a / 1000000000 ∧ a / 1000000000 ≤ last) (hb : first ≤ b / 1000000000 ∧ b / 1000000000 ≤ last) :
    lastModified a = lastModified b ↔ a / 1000000000 = b / 1000000000 := by
  refine ⟨fun h => ?_, fun h => by unfold lastModified; rw [h]⟩
  unfold lastModified at h
  have h1 := (C108_date hb.1 hb.2).1
  rw [← h] at h1
  exact ((C108_read (C108_date ha.1 ha.2).1).1 _ h1).symm

/-- So a file that changes twice in a second keeps its date, and a copy between them counts as current. -/
theorem C108_refuted_second : ∃ a b : Int, a ≠ b ∧ lastModified a = lastModified b :=
  ⟨1700000000000000000, 1700000000999999999, by decide, by decide +kernel⟩

namespace Dates
open Verif.Spec.Client (trim)

/-- No white space at its ends. -/
theorem text_trim (x : Civil) : trim (32 :: x.text) = x.text := by
  have h1 : ∃ a l, x.text = a :: l ∧ a ≠ 32 ∧ a ≠ 9 := by
    have h1 : 0 ≤ (x.days + 3) % 7 := Int.emod_nonneg _ (by decide)
    have h2 : (x.days + 3) % 7 < 7 := Int.emod_lt_of_pos _ (by decide)
    have : ∀ k : Fin 7, ∃ a b c, [b!"Mon", b!"Tue", b!"Wed", b!"Thu", b!"Fri", b!"Sat", b!"Sun"].getD k.1 [] = [a, b, c] ∧ a ≠ 32 ∧ a ≠ 9 := by
      intro ⟨k, hk⟩
      match k, hk with
      | 0, _ => exact ⟨_, _, _, rfl, by decide, by decide⟩
      | 1, _ => exact ⟨_, _, _, rfl, by decide, by decide⟩
      | 2, _ => exact ⟨_, _, _, rfl, by decide, by decide⟩
      | 3, _ => exact ⟨_, _, _, rfl, by decide, by decide⟩
      | 4, _ => exact ⟨_, _, _, rfl, by decide, by decide⟩
      | 5, _ => exact ⟨_, _, _, rfl, by decide, by decide⟩
      | 6, _ => exact ⟨_, _, _, rfl, by decide, by decide⟩
    obtain ⟨a, b, c, e, ha⟩ := this ⟨((x.days + 3) % 7).toNat, by omega⟩
    have e : dayName x.days = [a, b, c] := e
    unfold Civil.text
    rw [e]
    simp only [List.append_assoc, List.cons_append]
    exact ⟨a, _, rfl, ha⟩
  have h2 : ∃ l, x.text = l ++ [84] := by
    unfold Civil.text
    exact ⟨_, (List.append_assoc (_ : Bytes) b!" GM" [84]).symm⟩
  obtain ⟨a, l, e1, a1, a2⟩ := h1
  obtain ⟨l', e2⟩ := h2
  unfold trim
  have hd : (32 :: x.text).dropWhile (fun b => decide (b = 32 ∨ b = 9)) = x.text := by
    rw [e1]; simp [a1, a2]
  rw [hd, e2]
  simp

end Dates

/-- **C108 (as a header value)**: what `Download.Given` asks of the date of a file: no line feed, and no white space at its ends. -/
theorem C108_clean {ns : Int} (hn : first ≤ ns / 1000000000 ∧ ns / 1000000000 ≤ last) :
    (10 : UInt8) ∉ lastModified ns ∧ Verif.Spec.Client.trim (32 :: lastModified ns) = lastModified ns := by
  refine ⟨fun hx => ?_, ?_⟩
  · have := ((C108_date hn.1 hn.2).2.2 _ hx).1
    revert this; decide
  · unfold lastModified
    obtain ⟨y1, y2⟩ := year_range hn.1 hn.2
    rw [httpDate_text y1 y2]
    exact text_trim _

open Verif.Model.HttpParser Verif.Model.Response Verif.Model.Sendfile Verif.Spec.Client Verif.Spec.HttpParser in
/-- **C108 (Last-Modified)**: a client that asks with If-Modified-Since gets 304 if the date it gives is that of the second in which the file was
modified, and the whole file if it is another one; then Last-Modified denotes that second. -/
theorem C108_modified {c : Cfg} {s s1 : St} {pre : Script} {a : Args} {f : File} {h : Option Bytes} {r : ReqHead} {mx mls : Nat} {ns : Int}
    (hf : f.mdate = lastModified ns) (hn : first ≤ ns / 1000000000 ∧ ns / 1000000000 ≤ last)
    (g : Download.Given c s s1 pre a f h r mx mls) (rest : Bytes) (err : ErrHandler)
    (hr : valuesOf r.pairs b!"range" = [] ∨ r.version ≠ b!"1.1") (hm : r.method ≠ b!"HEAD") {v : Bytes} {t : Int}
    (hv : valuesOf r.pairs b!"if-modified-since" = [v]) (ht : Denotes v t) :
    ∃ x, Delimited r.method (Download.answer c pre (Download.argsOf a r rest mx mls) f h err s) x ∧
      if t = ns / 1000000000 then x.status = 304 ∧ x.body = []
      else x.status = 200 ∧ x.body = f.content ∧ ∃ d, values b!"last-modified" x.fields = [d] ∧ Denotes d (ns / 1000000000) := by
  have d1 := (C108_date hn.1 hn.2).1
  by_cases he : t = ns / 1000000000
  · subst he
    have hvd : v = f.mdate := by rw [hf]; exact (C108_read ht).2 hn.1 hn.2
    obtain ⟨x, x1, x2, x3⟩ := C100_current g rest err hr (by rw [hv, hvd])
    exact ⟨x, x1, by rw [if_pos rfl]; exact ⟨x2, x3⟩⟩
  · obtain ⟨x, x1, x2, x3, _, x5⟩ := C100_whole g rest err (.inr ⟨hr, fun hx => he (by
      rw [hv] at hx
      have hvd : v = httpDate (ns / 1000000000) := by simpa [hf, lastModified] using hx
      rw [hvd] at ht
      exact (C108_read d1).1 _ ht)⟩) hm
    exact ⟨x, x1, by rw [if_neg he]; exact ⟨x2, x3, f.mdate, x5, by rw [hf]; exact d1⟩⟩

/-- The file of the examples of C100 (whose `Given` is `Download.exGiven`), modified at 10:00:00.123456789 on 17 November 2026. -/
example : Download.exFile.mdate = lastModified 1794909600123456789 ∧ first ≤ (1794909600123456789 : Int) / 1000000000 ∧ (1794909600123456789 : Int) / 1000000000 ≤ last ∧
    Denotes b!"Tue, 17 Nov 2026 10:00:00 GMT" 1794909600 ∧ Denotes b!"Tue, 17 Nov 2026 10:00:01 GMT" 1794909601 :=
  ⟨by decide +kernel, by decide, by decide, ⟨⟨2026, 11, 17, 10, 0, 0⟩, by unfold Civil.Valid; decide, by decide, by decide, by decide +kernel, by decide +kernel⟩,
    ⟨2026, 11, 17, 10, 0, 1⟩, by unfold Civil.Valid; decide, by decide, by decide, by decide +kernel, by decide +kernel⟩
/-- A date later than the file's is not compared as one: RFC 9110 (13.1.3) asks for 304, the file is sent. -/
theorem C108_refuted_later : (Download.exRead b!"GET" [(b!"If-Modified-Since", b!"Tue, 17 Nov 2026 10:00:00 GMT")]).map (fun p => p.1.status) = some 304 ∧
    (Download.exRead b!"GET" [(b!"If-Modified-Since", b!"Tue, 17 Nov 2026 10:00:01 GMT")]).map (fun p => p.1.status) = some 200 := by decide +kernel

/-- **C108 (cookies)**: the expiry date of a cookie is as far from now (in whole seconds) as its Max-Age says. -/
theorem C108_cookie {now expires : Int} {d : Bytes} (h : expiry now expires = some d) (h1 : first ≤ now / 1000000 + expires) :
    Denotes d (now / 1000000 + expires) ∧ now / 1000000 + expires ≤ last := by
  unfold expiry at h
  dsimp only at h
  split at h
  · rename_i hy
    cases h
    rw [show (now + expires * 1000000) / 1000000 = now / 1000000 + expires by omega] at hy ⊢
    have hl : now / 1000000 + expires ≤ last := by
      obtain ⟨hv, _, hd⟩ := civil_spec (now / 1000000 + expires)
      have hl := doy_lt hv
      have e : (civil (now / 1000000 + expires)).year = (gmtime (now / 1000000 + expires)).year := rfl
      unfold Civil.days at hd
      rw [e] at hd hl
      have hb : daysBefore ((gmtime (now / 1000000 + expires)).year + 1) ≤ daysBefore 10000 := daysBefore_le (by omega)
      rw [daysBefore_succ, show daysBefore 10000 = 2932897 by decide] at hb
      unfold last
      omega
    exact ⟨(C108_date h1 hl).1, hl⟩
  · cases h

/-- It is set whenever the date exists. -/
theorem C108_cookie_set {now expires : Int} (h1 : first ≤ now / 1000000 + expires) (h2 : now / 1000000 + expires ≤ last) : (expiry now expires).isSome = true := by
  unfold expiry
  dsimp only
  rw [show (now + expires * 1000000) / 1000000 = now / 1000000 + expires by omega]
  obtain ⟨y1, y2⟩ := year_range h1 h2
  rw [if_pos ⟨by omega, y2⟩]; rfl

example : expiry 1700000000123456 3600 = some b!"Tue, 14 Nov 2023 23:13:20 GMT" := by decide +kernel

/-- Outside these years there is no such date: a file dated 10000-01-01 or 0999-12-31 gets a text that is no IMF-fixdate. -/
theorem C108_refuted_years : (∀ t, ¬ Denotes (httpDate (last + 1)) t) ∧ ∀ t, ¬ Denotes (httpDate (first - 1)) t := by
  constructor
  · rintro t ⟨x, hv, _, _, e, _⟩
    have := text_len hv
    rw [← e] at this
    revert this; decide +kernel
  · rintro t ⟨x, hv, _, _, e, _⟩
    have := text_len hv
    rw [← e] at this
    revert this; decide +kernel

end Verif
