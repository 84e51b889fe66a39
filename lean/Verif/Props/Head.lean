import Verif.Proofs.Head
import Verif.Props.HttpParser
/-!
# C01, C02, C07, C17: collecting a head and deciding what to do with it
-/
namespace Verif
open Verif.Py Verif.Model.HttpParser Verif.Model.Head Verif.Spec.Head Verif.Proofs.Head

/-! ## C01 -/

/-- **C01 (all histories).** After any non-empty segments, exactly one of three things is the case, and which one is a
function of the bytes at segment boundaries alone:
still waiting, and no blank line so far;
started exactly once, in the segment that completes the first blank line, with all bytes received so far and the
position of that blank line, later segments going to the body;
aborted, by the first segment after which the head is known not to fit. -/
theorem C01_outcome (max : Nat) (segs : List Bytes) (hne : ∀ s ∈ segs, s ≠ []) :
    Outcome max segs (recvAll max segs) := outcome max segs hne

/-- **C01 (fragmentation).** A head that fits (its blank line, up to the last byte but one, within
`client_max_header_size`) is accepted under every fragmentation: handling starts once, in the segment that completes
the first blank line and not before, with all bytes received so far and the position of the blank line. -/
theorem C01_fragmentation {max n : Nat} {segs : List Bytes} (hne : ∀ s ∈ segs, s ≠ [])
    (hb : FirstBlank segs.flatten n) (hfit : n + 3 ≤ max) :
    ∃ pre s post, segs = pre ++ s :: post ∧ NoBlank pre.flatten ∧ FirstBlank (pre ++ [s]).flatten n ∧
      (recvAll max segs).aborted = false ∧
      (recvAll max segs).outs = pre.map (fun _ => .wait) ++ .start (pre ++ [s]).flatten (n + 2) :: post.map .body := by
  have key : ∀ (pre : List Bytes) (s : Bytes) (post : List Bytes), segs = pre ++ s :: post →
      segs.flatten = (pre ++ [s]).flatten ++ post.flatten := by rintro pre s post rfl; simp
  rcases outcome max segs hne with ⟨h1, h2, h3, h4, h5⟩ | ⟨pre, x, post, m, h, h1, h2, h3, h4, h5, h6, h7⟩ |
      ⟨pre, x, post, h, h2, h3, h4, h5, h6⟩
  · rw [firstBlank_iff] at hb; rw [noBlank_iff, hb] at h4; cases h4
  · have : m = n := by
      rw [firstBlank_iff] at hb h6
      have := find_append (t := post.flatten) h6
      rw [← key _ _ _ h, hb] at this
      cases this; rfl
    subst this
    exact ⟨pre, x, post, h, h4, h6, h2, h3⟩
  · exfalso
    rw [firstBlank_iff] at hb
    rcases h6 with ⟨m, h6, h7⟩ | ⟨h6, h7⟩
    · rw [firstBlank_iff] at h6
      have := find_append (t := post.flatten) h6
      rw [← key _ _ _ h, hb] at this
      cases this; omega
    · rw [noBlank_iff] at h6
      rw [key _ _ _ h] at hb
      rw [find_of_append hb (by show n + 4 ≤ _; omega)] at h6
      cases h6

/-- **C01 (too large).** A head that does not fit is refused under every fragmentation: handling never starts and the
connection is aborted. -/
theorem C01_too_large {max n : Nat} {segs : List Bytes} (hne : ∀ s ∈ segs, s ≠ [])
    (hb : FirstBlank segs.flatten n) (hbig : max < n + 2) :
    (recvAll max segs).aborted = true ∧ ∀ d hs, .start d hs ∉ (recvAll max segs).outs := by
  rcases outcome max segs hne with ⟨h1, h2, h3, h4, h5⟩ | ⟨pre, x, post, m, h, h1, h2, h3, h4, h5, h6, h7⟩ |
      ⟨pre, x, post, h, h2, h3, h4, h5, h6⟩
  · rw [firstBlank_iff] at hb; rw [noBlank_iff, hb] at h4; cases h4
  · rw [firstBlank_iff] at hb h6
    have := find_append (t := post.flatten) h6
    rw [show (pre ++ [x]).flatten ++ post.flatten = segs.flatten by rw [h]; simp, hb] at this
    cases this; omega
  · exact ⟨h2, by intro d hs hm; rw [h3] at hm; simp at hm⟩

/-- **C01 (same outcome as one segment).** Unless the blank line starts exactly two bytes before the limit, every
fragmentation of the same bytes is accepted or refused alike. -/
theorem C01_independent {max n : Nat} {segs segs' : List Bytes} (hne : ∀ s ∈ segs, s ≠ []) (hne' : ∀ s ∈ segs', s ≠ [])
    (hsame : segs.flatten = segs'.flatten) (hb : FirstBlank segs.flatten n) (hq : n + 2 ≠ max) :
    (recvAll max segs).aborted = (recvAll max segs').aborted ∧
    ((∃ d, .start d (n + 2) ∈ (recvAll max segs).outs) ↔ ∃ d, .start d (n + 2) ∈ (recvAll max segs').outs) := by
  have hb' := hb
  rw [hsame] at hb'
  by_cases h : n + 3 ≤ max
  · obtain ⟨p, s, q, _, _, _, ha, ho⟩ := C01_fragmentation hne hb h
    obtain ⟨p', s', q', _, _, _, ha', ho'⟩ := C01_fragmentation hne' hb' h
    rw [ha, ha', ho, ho']
    exact ⟨rfl, ⟨fun _ => ⟨_, List.mem_append_right _ List.mem_cons_self⟩, fun _ => ⟨_, List.mem_append_right _ List.mem_cons_self⟩⟩⟩
  · obtain ⟨ha, ho⟩ := C01_too_large (max := max) hne hb (by omega)
    obtain ⟨ha', ho'⟩ := C01_too_large (max := max) hne' hb' (by omega)
    rw [ha, ha']
    exact ⟨rfl, ⟨fun ⟨d, hd⟩ => absurd hd (ho _ _), fun ⟨d, hd⟩ => absurd hd (ho' _ _)⟩⟩

/-- The excluded boundary is real: with limit 6 and a blank line at 4, one segment is accepted while a cut before the
last byte of the blank line is refused. -/
theorem C01_boundary : (recvAll 6 [b!"abcd\r\n\r\n"]).outs = [.start b!"abcd\r\n\r\n" 6] ∧
    (recvAll 6 [b!"abcd\r\n\r", b!"\n"]).outs = [.abort] := by decide

example : FirstBlank [b!"GET / HT", b!"TP/1.1\r\n\r", b!"\nrest", b!"more"].flatten 14 ∧ 14 + 3 ≤ 8192 ∧
    (recvAll 8192 [b!"GET / HT", b!"TP/1.1\r\n\r", b!"\nrest", b!"more"]).outs =
      [.wait, .wait, .start b!"GET / HTTP/1.1\r\n\r\nrest" 16, .body b!"more"] :=
  ⟨by rw [firstBlank_iff]; decide, by decide, by decide⟩

/-! ## C02 -/

/-- **C02.** For every history of segments (empty ones included): while a head is being collected at most
`client_max_header_size` bytes are buffered; handling is started only for a head whose size, up to its first blank
line, is within the limit; and a connection that has received more than the limit without a start is aborted. -/
theorem C02_bounded (max : Nat) (segs : List Bytes) :
    let c := recvAll max segs
    (∀ b, c.hb = some b → c.aborted = false → b.length ≤ max ∧ b = segs.flatten) ∧
    (∀ d hs, .start d hs ∈ c.outs → hs ≤ max ∧ FirstBlank d (hs - 2) ∧ 2 ≤ hs ∧ d <+: segs.flatten) ∧
    (max < segs.flatten.length → c.aborted = true ∨ ∃ d hs, .start d hs ∈ c.outs) := by
  -- empty segments change nothing but the log
  have key : ∀ segs : List Bytes, (recvAll max segs).hb = (recvAll max (segs.filter (· ≠ []))).hb ∧
      (recvAll max segs).aborted = (recvAll max (segs.filter (· ≠ []))).aborted ∧
      (∀ d hs, .start d hs ∈ (recvAll max segs).outs ↔ .start d hs ∈ (recvAll max (segs.filter (· ≠ []))).outs) := by
    intro segs
    induction segs using snocInd with
    | h0 => exact ⟨rfl, rfl, fun _ _ => Iff.rfl⟩
    | h1 segs s ih =>
      obtain ⟨i1, i2, i3⟩ := ih
      by_cases hs : s = []
      · subst hs
        rw [recvAll_snoc, List.filter_append, show List.filter (fun x => decide (x ≠ [])) [([] : Bytes)] = [] from rfl, List.append_nil]
        unfold recv
        cases ha : (recvAll max segs).aborted with
        | true => rw [← i2, ← i1, ha]; exact ⟨rfl, by simp [ha], i3⟩
        | false =>
          rw [← i2, ← i1, ha]
          refine ⟨rfl, rfl, fun d h => ?_⟩
          rw [← i3]
          simp [dataReceived]
      · rw [recvAll_snoc, List.filter_append, show List.filter (fun x => decide (x ≠ [])) [s] = [s] by simp [hs], recvAll_snoc]
        unfold recv
        rw [← i2]
        cases ha : (recvAll max segs).aborted with
        | true => rw [if_pos rfl, if_pos rfl]; exact ⟨i1, i2, i3⟩
        | false =>
          rw [← i1]
          refine ⟨rfl, rfl, fun d h => ?_⟩
          simp [i3]
  have hfl : ∀ segs : List Bytes, (segs.filter (· ≠ [])).flatten = segs.flatten := by
    intro segs
    induction segs with
    | nil => rfl
    | cons s t ih =>
      by_cases hs : s = []
      · subst hs; simpa using ih
      · rw [List.filter_cons_of_pos (by simpa using hs)]; simpa using ih
  intro c
  obtain ⟨k1, k2, k3⟩ := key segs
  have o := outcome max (segs.filter (· ≠ [])) (by intro s hs; simpa using (List.mem_filter.1 hs).2)
  rw [← hfl segs]
  show (∀ b, (recvAll max segs).hb = some b → (recvAll max segs).aborted = false → _) ∧
    (∀ d hs, .start d hs ∈ (recvAll max segs).outs → _) ∧ (_ → (recvAll max segs).aborted = true ∨ ∃ d hs, .start d hs ∈ (recvAll max segs).outs)
  simp only [k1, k2, k3]
  generalize hg : segs.filter (· ≠ []) = gs at o
  rcases o with ⟨h1, h2, h3, h4, h5⟩ | ⟨pre, x, post, m, h, h1, h2, h3, h4, h5, h6, h7⟩ |
      ⟨pre, x, post, h, h2, h3, h4, h5, h6⟩
  · refine ⟨?_, ?_, ?_⟩
    · intro b hb _; rw [h1] at hb; cases hb; exact ⟨h5, rfl⟩
    · intro d hs hm; rw [h3] at hm; simp at hm
    · intro hl; omega
  · refine ⟨?_, ?_, ?_⟩
    · intro b hb _; rw [h1] at hb; cases hb
    · intro d hs hm
      rw [h3] at hm
      simp only [List.mem_append, List.mem_map, List.mem_cons] at hm
      rcases hm with ⟨_, _, e⟩ | e | ⟨_, _, e⟩
      · cases e
      · cases e
        exact ⟨h7, by simpa using h6, by omega, ⟨post.flatten, by rw [h]; simp⟩⟩
      · cases e
    · intro _; right; exact ⟨_, _, by rw [h3]; exact List.mem_append_right _ List.mem_cons_self⟩
  · refine ⟨?_, ?_, ?_⟩
    · intro b _ ha; rw [h2] at ha; cases ha
    · intro d hs hm; rw [h3] at hm; simp at hm
    · intro _; exact .inl h2

example : (recvAll 8 [b!"abcd", [], b!"efgh"]).hb = some b!"abcdefgh" ∧
    (recvAll 8 [b!"abcd", [], b!"efgh", b!"i"]).aborted = true := by decide

/-! ## C07 -/

/-- The values of all fields called `name` in the head, as the application sees them in its field list. -/
abbrev vals (data : Bytes) (hs : Nat) (name : Bytes) : List Bytes :=
  Spec.HttpParser.valuesOf (parse data hs [b!"proxy"]).list name

/-- What an acceptable body framing is, in terms of the field values: Content-Length at most once and canonical,
Transfer-Encoding at most once, not Content-Length together with chunked; HTTP/1.0 has a Content-Length and no
Transfer-Encoding. -/
structure GoodFraming (version : Bytes) (cl te : List Bytes) : Prop where
  length : cl = [] ∨ ∃ v, cl = [v] ∧ Canonical v
  encoding : te = [] ∨ ∃ t, te = [t]
  both : ∀ v ∈ cl, ∀ t ∈ te, ¬ b!"chunked" <:+: lower t
  old : version = b!"1.0" → cl ≠ [] ∧ te = []

theorem hget_vals (data : Bytes) (hs : Nat) (k : Bytes) (hk : k ∉ pseudo) (hp : k ≠ b!"proxy") :
    hget (parse data hs [b!"proxy"]).headers k = dictVal (vals data hs k) :=
  parse_dict data hs hk (by simpa using hp)

theorem dictVal_cases (vs : List Bytes) : (vs = [] ∧ dictVal vs = none) ∨ (∃ v, vs = [v] ∧ dictVal vs = some (.one v)) ∨
    (2 ≤ vs.length ∧ dictVal vs = some (.many vs)) := by
  match vs with
  | [] => exact .inl ⟨rfl, rfl⟩
  | [v] => exact .inr (.inl ⟨v, rfl, rfl⟩)
  | a :: b :: t => exact .inr (.inr ⟨by simp, rfl⟩)

/-- The request attributes the later checks do not touch. -/
structure Same (a b : Req) : Prop where
  headers : a.headers = b.headers
  version : a.version = b.version
  keep : a.httpKeepalive = b.httpKeepalive
  method : a.method = b.method
  url : a.url = b.url

theorem Same.trans {a b c : Req} (h : Same a b) (h' : Same b c) : Same a c :=
  ⟨h.headers.trans h'.headers, h.version.trans h'.version, h.keep.trans h'.keep, h.method.trans h'.method, h.url.trans h'.url⟩

theorem setContentType_same (r : Req) : Same (setContentType r) r ∧
    (setContentType r).transferEncoding = r.transferEncoding ∧ (setContentType r).contentLength = r.contentLength := by
  unfold setContentType; split <;> exact ⟨⟨rfl, rfl, rfl, rfl, rfl⟩, rfl, rfl⟩

theorem setTransferEncoding_iff {r r' : Req} {te : List Bytes} (hte : hget r.headers b!"transfer-encoding" = dictVal te) :
    setTransferEncoding r = .ok r' ↔ (te = [] ∧ r' = r) ∨
      ∃ t, te = [t] ∧ r.version ≠ b!"1.0" ∧ r' = { r with transferEncoding := lower t } := by
  unfold setTransferEncoding
  rw [hte]
  rcases dictVal_cases te with ⟨e, h⟩ | ⟨t, e, h⟩ | ⟨e, h⟩ <;> rw [h]
  · simp [e, eq_comm]
  · subst e
    simp only
    split
    · simp_all
    · rename_i hv
      simp [hv, eq_comm]
  · simp only
    have n1 : te ≠ [] := by rintro rfl; simp at e
    have n2 : ∀ t, te ≠ [t] := by rintro t rfl; simp at e
    split <;> simp [n1, n2]

theorem setContentLength_iff {r r' : Req} {cl : List Bytes} (hcl : hget r.headers b!"content-length" = dictVal cl) :
    setContentLength r = .ok r' ↔ (cl = [] ∧ r.version ≠ b!"1.0" ∧ r' = r) ∨
      ∃ v, cl = [v] ∧ Canonical v ∧ ¬ b!"chunked" <:+: r.transferEncoding ∧ r' = { r with contentLength := valueOf v } := by
  unfold setContentLength
  rw [hcl]
  rcases dictVal_cases cl with ⟨e, h⟩ | ⟨v, e, h⟩ | ⟨e, h⟩ <;> rw [h]
  · simp only
    split <;> simp_all [eq_comm]
  · subst e
    simp only
    constructor
    · intro hh
      right
      refine ⟨v, rfl, ?_⟩
      cases hi : intDec (b!"+" ++ v) with
      | none => rw [hi] at hh; cases hh
      | some i =>
        rw [hi] at hh
        obtain ⟨n, rfl⟩ := Proofs.Numeral.intDec_plus_nonneg hi
        simp only [Proofs.Numeral.fmtInt_natCast] at hh
        split at hh
        · cases hh
        · rename_i hc
          have hc : fmtNat n = v ∧ ¬ contains b!"chunked" r.transferEncoding = true := by
            constructor
            · exact Decidable.byContradiction (fun h => hc (.inl h))
            · exact fun h => hc (.inr h)
          obtain ⟨rfl, hch⟩ := hc
          rw [contains_iff] at hch
          cases hh
          exact ⟨Proofs.Numeral.canonical_fmtNat n, hch, by rw [Proofs.Numeral.valueOf_fmtNat]⟩
    · rintro (⟨e, _⟩ | ⟨w, e, hc, hch, rfl⟩)
      · cases e
      · cases e
        have : intDec (b!"+" ++ v) = some (valueOf v : Int) := by
          have := intDec_plus_fmtNat (valueOf v)
          rwa [Proofs.Numeral.fmtNat_valueOf hc] at this
        rw [this]
        simp only [Proofs.Numeral.fmtInt_natCast, Proofs.Numeral.fmtNat_valueOf hc]
        rw [if_neg]
        rintro (h | h)
        · exact h rfl
        · exact hch (contains_iff.1 h)
  · simp only
    have n1 : cl ≠ [] := by rintro rfl; simp at e
    have n2 : ∀ t, cl ≠ [t] := by rintro t rfl; simp at e
    simp [n1, n2]

theorem setContinue_same {r r' : Req} (h : setContinue r = .ok r') : Same r' r ∧
    r'.transferEncoding = r.transferEncoding ∧ r'.contentLength = r.contentLength := by
  unfold setContinue at h
  split at h
  · cases h; split <;> exact ⟨⟨rfl, rfl, rfl, rfl, rfl⟩, rfl, rfl⟩
  · cases h
  · cases h; exact ⟨⟨rfl, rfl, rfl, rfl, rfl⟩, rfl, rfl⟩

theorem setContinue_ok {r : Req} {ex : List Bytes} (hex : hget r.headers b!"expect" = dictVal ex) :
    (∃ r', setContinue r = .ok r') ↔ ex.length ≤ 1 := by
  unfold setContinue
  rw [hex]
  rcases dictVal_cases ex with ⟨e, h⟩ | ⟨v, e, h⟩ | ⟨e, h⟩ <;> rw [h]
  · simp [e]
  · simp [e]
  · simp; omega

theorem setKeepalive_iff {r r' : Req} {conn : List Bytes} (hc : hget r.headers b!"connection" = dictVal conn)
    (h0 : r.httpKeepalive = false) :
    setKeepalive r = .ok r' ↔ (conn = [] ∧ r' = { r with httpKeepalive := decide (r.version = b!"1.1") }) ∨
      ∃ v, conn = [v] ∧ r' = { r with httpKeepalive := decide (b!"close" ∉ options v) } := by
  have hr : r = { r with httpKeepalive := false } := by rw [← h0]
  unfold setKeepalive
  rw [hc]
  rcases dictVal_cases conn with ⟨e, h⟩ | ⟨v, e, h⟩ | ⟨e, h⟩ <;> rw [h]
  · subst e
    simp only
    split
    · rename_i hv; simp [hv, eq_comm]
    · rename_i hv
      rw [decide_eq_false hv, ← hr]; simp [eq_comm]
  · subst e
    simp only
    split
    · rename_i hv
      rw [close_iff] at hv
      have : decide (b!"close" ∉ options v) = false := by simpa using hv
      constructor
      · intro e; cases e; exact .inr ⟨v, rfl, by rw [this, ← hr]⟩
      · rintro (⟨e, _⟩ | ⟨w, e, rfl⟩)
        · cases e
        · cases e; rw [this, ← hr]
    · rename_i hv
      rw [close_iff] at hv
      have : decide (b!"close" ∉ options v) = true := by simpa using hv
      constructor
      · intro e; cases e; exact .inr ⟨v, rfl, by rw [this]⟩
      · rintro (⟨e, _⟩ | ⟨w, e, rfl⟩)
        · cases e
        · cases e; rw [this]
  · have n1 : conn ≠ [] := by rintro rfl; simp at e
    have n2 : ∀ t, conn ≠ [t] := by rintro t rfl; simp at e
    simp [n1, n2]

theorem initReq_some {p : Parsed} {r : Req} (h : initReq p = some r) : r.headers = p.headers ∧ r.httpKeepalive = false ∧
    r.transferEncoding = b!"none" ∧ r.contentLength = -1 ∧
    r.version = (if getversion p = some (.one b!"1.0") then b!"1.0" else b!"1.1") := by
  unfold initReq at h
  split at h
  · cases h; exact ⟨rfl, rfl, rfl, rfl, rfl⟩
  · cases h

/-- All a head must satisfy to be handled, and what the handler then sees. -/
theorem accept_iff {data : Bytes} {hs : Nat} {r : Req} : acceptData data hs = .ok r →
    ∃ r0, (parse data hs [b!"proxy"]).isRequest = true ∧ initReq (parse data hs [b!"proxy"]) = some r0 ∧
      r.version = r0.version ∧ r.headers = r0.headers ∧ r.method = r0.method ∧ r.url = r0.url ∧
      ((vals data hs b!"connection" = [] ∧ r.httpKeepalive = decide (r.version = b!"1.1")) ∨
        ∃ v, vals data hs b!"connection" = [v] ∧ r.httpKeepalive = decide (b!"close" ∉ options v)) ∧
      ((vals data hs b!"content-length" = [] ∧ vals data hs b!"transfer-encoding" = [] ∧ r.contentLength = -1) ∨
        GoodFraming r.version (vals data hs b!"content-length") (vals data hs b!"transfer-encoding") ∧
        (∀ v, vals data hs b!"content-length" = [v] → r.contentLength = valueOf v) ∧
        (vals data hs b!"content-length" = [] → r.contentLength = -1) ∧
        (∀ t, vals data hs b!"transfer-encoding" = [t] → r.transferEncoding = lower t)) := by
  intro h
  unfold acceptData accept at h
  generalize hp : parse data hs [b!"proxy"] = p at h
  have hv := fun k hk hx => hget_vals data hs k hk hx
  rw [hp] at hv
  have hcl := hv b!"content-length" (by decide) (by decide)
  have hte := hv b!"transfer-encoding" (by decide) (by decide)
  have hco := hv b!"connection" (by decide) (by decide)
  generalize hCL : vals data hs b!"content-length" = cl at hcl
  generalize hTE : vals data hs b!"transfer-encoding" = te at hte
  generalize hCO : vals data hs b!"connection" = co at hco
  cases hreq : p.isRequest with
  | false => rw [hreq] at h; cases h
  | true =>
    rw [hreq] at h
    simp only [Bool.not_true, Bool.false_eq_true, if_false] at h
    cases hi : initReq p with
    | none => rw [hi] at h; cases h
    | some r0 =>
      rw [hi] at h
      obtain ⟨i1, i2, i3, i4, i5⟩ := initReq_some hi
      refine ⟨r0, rfl, rfl, ?_⟩
      simp only at h
      cases hk : setKeepalive r0 with
      | error e => rw [hk] at h; cases h
      | ok r1 =>
        rw [hk] at h
        have hk' := (setKeepalive_iff (by rw [i1]; exact hco) i2).1 hk
        have s1 : r1.headers = r0.headers ∧ r1.version = r0.version ∧ r1.method = r0.method ∧ r1.url = r0.url ∧
            r1.transferEncoding = r0.transferEncoding ∧ r1.contentLength = r0.contentLength := by
          rcases hk' with ⟨_, rfl⟩ | ⟨v, _, rfl⟩ <;> exact ⟨rfl, rfl, rfl, rfl, rfl, rfl⟩
        have hkeep : (co = [] ∧ r1.httpKeepalive = decide (r1.version = b!"1.1")) ∨
            ∃ v, co = [v] ∧ r1.httpKeepalive = decide (b!"close" ∉ options v) := by
          rcases hk' with ⟨e, rfl⟩ | ⟨v, e, rfl⟩
          · exact .inl ⟨e, rfl⟩
          · exact .inr ⟨v, e, rfl⟩
        have hb : r1.hasBody = (cl ≠ [] ∨ te ≠ []) := by
          unfold Req.hasBody hmem
          rw [s1.1, i1, hcl, hte]
          rcases dictVal_cases cl with ⟨e, h⟩ | ⟨v, e, h⟩ | ⟨e, h⟩ <;>
          rcases dictVal_cases te with ⟨e', h'⟩ | ⟨v', e', h'⟩ | ⟨e', h'⟩ <;> rw [h, h'] <;> simp_all <;>
          (try (intro e; subst e; simp_all)) <;> (try (left; intro e; subst e; simp_all)) <;> (try (intro _ e; subst e; simp_all))
        simp only [bind, Except.bind, hb] at h
        by_cases hbody : cl ≠ [] ∨ te ≠ []
        · rw [if_pos hbody] at h
          have sc := setContentType_same r1
          cases ht : setTransferEncoding (setContentType r1) with
          | error e => rw [ht] at h; cases h
          | ok r2 =>
            rw [ht] at h
            simp only at h
            cases hl : setContentLength r2 with
            | error e => rw [hl] at h; cases h
            | ok r3 =>
              rw [hl] at h
              simp only at h
              have hs4 := setContinue_same h
              have ht' := (setTransferEncoding_iff (by rw [sc.1.headers, s1.1, i1]; exact hte)).1 ht
              have s2 : Same r2 r1 ∧ r2.contentLength = r1.contentLength := by
                rcases ht' with ⟨_, rfl⟩ | ⟨t, _, _, rfl⟩
                · exact ⟨sc.1, sc.2.2⟩
                · exact ⟨⟨sc.1.1, sc.1.2, sc.1.3, sc.1.4, sc.1.5⟩, sc.2.2⟩
              have hl' := (setContentLength_iff (by rw [s2.1.headers, s1.1, i1]; exact hcl)).1 hl
              have s3 : Same r3 r2 ∧ r3.transferEncoding = r2.transferEncoding := by
                rcases hl' with ⟨_, _, rfl⟩ | ⟨v, _, _, _, rfl⟩ <;> exact ⟨⟨rfl, rfl, rfl, rfl, rfl⟩, rfl⟩
              have st := hs4.1.trans (s3.1.trans s2.1)
              refine ⟨st.version.trans s1.2.1, st.headers.trans s1.1, st.method.trans s1.2.2.1, st.url.trans s1.2.2.2.1, ?_, .inr ?_⟩
              · rw [st.keep, st.version]; exact hkeep
              · refine ⟨⟨?_, ?_, ?_, ?_⟩, ?_, ?_, ?_⟩
                · rcases hl' with ⟨e, _⟩ | ⟨v, e, hc, _⟩
                  · exact .inl e
                  · exact .inr ⟨v, e, hc⟩
                · rcases ht' with ⟨e, _⟩ | ⟨t, e, _⟩
                  · exact .inl e
                  · exact .inr ⟨t, e⟩
                · intro v hv' t ht2
                  rcases hl' with ⟨e, _⟩ | ⟨w, e, hc, hch, _⟩
                  · rw [e] at hv'; cases hv'
                  · rcases ht' with ⟨e', _⟩ | ⟨t', e', _, rfl⟩
                    · rw [e'] at ht2; cases ht2
                    · rw [e'] at ht2; cases List.mem_singleton.1 ht2
                      exact hch
                · intro hver
                  rw [st.version] at hver
                  constructor
                  · intro e
                    rcases hl' with ⟨_, hn, _⟩ | ⟨w, e', _⟩
                    · apply hn; rw [s2.1.version, hver]
                    · rw [e] at e'; cases e'
                  · rcases ht' with ⟨e', _⟩ | ⟨t', e', hn, _⟩
                    · exact e'
                    · exact absurd (sc.1.version.trans hver) hn
                · intro v e
                  rw [hs4.2.2]
                  rcases hl' with ⟨e', _⟩ | ⟨w, e', _, _, rfl⟩
                  · rw [e] at e'; cases e'
                  · rw [e] at e'; cases e'; rfl
                · intro e
                  rw [hs4.2.2]
                  rcases hl' with ⟨_, _, rfl⟩ | ⟨w, e', _⟩
                  · rw [s2.2, s1.2.2.2.2.2, i4]
                  · rw [e] at e'; cases e'
                · intro t e
                  rw [hs4.2.1, s3.2]
                  rcases ht' with ⟨e', _⟩ | ⟨w, e', _, rfl⟩
                  · rw [e] at e'; cases e'
                  · rw [e] at e'; cases e'; rfl
        · rw [if_neg hbody] at h
          cases h
          have : cl = [] ∧ te = [] := by
            constructor
            · exact Decidable.byContradiction (fun h => hbody (.inl h))
            · exact Decidable.byContradiction (fun h => hbody (.inr h))
          exact ⟨s1.2.1, s1.1, s1.2.2.1, s1.2.2.2.1, hkeep, .inl ⟨this.1, this.2, by rw [s1.2.2.2.2.2, i4]⟩⟩

/-- **C07 (accepted only if unambiguous).** For every byte string: if a handler is started for a request with a body
(it has a Content-Length or a Transfer-Encoding field), then its framing is good, and the handler's view of the body
length and of the transfer encoding is what the fields say. -/
theorem C07_framing {data : Bytes} {hs : Nat} {r : Req} (h : acceptData data hs = .ok r)
    (hb : vals data hs b!"content-length" ≠ [] ∨ vals data hs b!"transfer-encoding" ≠ []) :
    GoodFraming r.version (vals data hs b!"content-length") (vals data hs b!"transfer-encoding") ∧
    (∀ v, vals data hs b!"content-length" = [v] → r.contentLength = valueOf v) ∧
    (vals data hs b!"content-length" = [] → r.contentLength = -1) ∧
    (∀ t, vals data hs b!"transfer-encoding" = [t] → r.transferEncoding = lower t) := by
  obtain ⟨r0, _, _, _, _, _, _, _, h1 | h1⟩ := accept_iff h
  · rcases hb with hb | hb
    · exact absurd h1.1 hb
    · exact absurd h1.2.1 hb
  · exact h1

theorem setKeepalive_err {r : Req} {e : Refusal} (h : setKeepalive r = .error e) : e.status = some 400 ∨ e.status = some 500 := by
  unfold setKeepalive at h
  repeat' split at h
  all_goals first | cases h; done | (cases h; simp [Refusal.status])

theorem setTransferEncoding_err {r : Req} {e : Refusal} (h : setTransferEncoding r = .error e) :
    e.status = some 400 ∨ e.status = some 500 := by
  unfold setTransferEncoding at h
  repeat' split at h
  all_goals first | cases h; done | (cases h; simp [Refusal.status])

theorem setContentLength_err {r : Req} {e : Refusal} (h : setContentLength r = .error e) :
    e.status = some 400 ∨ e.status = some 500 := by
  unfold setContentLength at h
  repeat' split at h
  all_goals first | cases h; done | (cases h; simp [Refusal.status])

theorem setContinue_err {r : Req} {e : Refusal} (h : setContinue r = .error e) :
    e.status = some 400 ∨ e.status = some 500 := by
  unfold setContinue at h
  repeat' split at h
  all_goals first | cases h; done | (cases h; simp [Refusal.status])

/-- **C07 (refused otherwise).** A request with a body whose framing is not good never reaches a handler; if its start
line could be read it is answered with 400 or 500. -/
theorem C07_refused {data : Bytes} {hs : Nat} {r0 : Req} (hreq : (parse data hs [b!"proxy"]).isRequest = true)
    (hi : initReq (parse data hs [b!"proxy"]) = some r0)
    (hb : vals data hs b!"content-length" ≠ [] ∨ vals data hs b!"transfer-encoding" ≠ [])
    (hbad : ¬ GoodFraming r0.version (vals data hs b!"content-length") (vals data hs b!"transfer-encoding")) :
    ∃ e, acceptData data hs = .error e ∧ (e.status = some 400 ∨ e.status = some 500) := by
  cases h : acceptData data hs with
  | ok r =>
    obtain ⟨r1, _, hi', hv, _⟩ := accept_iff h
    have := (C07_framing h hb).1
    rw [hi] at hi'; cases hi'
    rw [hv] at this
    exact absurd this hbad
  | error e =>
    refine ⟨e, rfl, ?_⟩
    unfold acceptData accept at h
    rw [hreq, hi] at h
    simp only [Bool.not_true, Bool.false_eq_true, if_false] at h
    cases hk : setKeepalive r0 with
    | error e' => rw [hk] at h; cases h; exact setKeepalive_err hk
    | ok r1 =>
      rw [hk] at h
      simp only [bind, Except.bind] at h
      split at h
      · cases ht : setTransferEncoding (setContentType r1) with
        | error e' => rw [ht] at h; cases h; exact setTransferEncoding_err ht
        | ok r2 =>
          rw [ht] at h
          simp only at h
          cases hl : setContentLength r2 with
          | error e' => rw [hl] at h; cases h; exact setContentLength_err hl
          | ok r3 => rw [hl] at h; exact setContinue_err h
      · cases h

/-- **C07 (good requests are not refused).** With good framing (or without a body), at most one Connection field, and
at most one Expect field if there is a body, the request is handled. -/
theorem C07_accepts {data : Bytes} {hs : Nat} {r0 : Req} (hreq : (parse data hs [b!"proxy"]).isRequest = true)
    (hi : initReq (parse data hs [b!"proxy"]) = some r0)
    (hg : (vals data hs b!"content-length" = [] ∧ vals data hs b!"transfer-encoding" = []) ∨
      GoodFraming r0.version (vals data hs b!"content-length") (vals data hs b!"transfer-encoding") ∧
      (vals data hs b!"expect").length ≤ 1)
    (hc : (vals data hs b!"connection").length ≤ 1) :
    ∃ r, acceptData data hs = .ok r := by
  unfold acceptData accept
  rw [hreq, hi]
  obtain ⟨i1, i2, i3, i4, i5⟩ := initReq_some hi
  generalize hp : parse data hs [b!"proxy"] = p at i1
  have hv := fun k hk hx => hget_vals data hs k hk hx
  rw [hp] at hv
  have hcl := hv b!"content-length" (by decide) (by decide)
  have hte := hv b!"transfer-encoding" (by decide) (by decide)
  have hco := hv b!"connection" (by decide) (by decide)
  have hexp := hv b!"expect" (by decide) (by decide)
  generalize vals data hs b!"content-length" = cl at hcl hg
  generalize vals data hs b!"transfer-encoding" = te at hte hg
  generalize vals data hs b!"connection" = co at hco hc
  generalize vals data hs b!"expect" = ex at hexp hg
  simp only [Bool.not_true, Bool.false_eq_true, if_false]
  have hk : ∃ r1, setKeepalive r0 = .ok r1 ∧ Same { r1 with httpKeepalive := r0.httpKeepalive } r0 ∧ r1.transferEncoding = r0.transferEncoding := by
    match co, hc with
    | [], _ => exact ⟨_, (setKeepalive_iff (by rw [i1]; exact hco) i2).2 (.inl ⟨rfl, rfl⟩), ⟨rfl, rfl, rfl, rfl, rfl⟩, rfl⟩
    | [v], _ => exact ⟨_, (setKeepalive_iff (by rw [i1]; exact hco) i2).2 (.inr ⟨v, rfl, rfl⟩), ⟨rfl, rfl, rfl, rfl, rfl⟩, rfl⟩
  obtain ⟨r1, hk, s1, te1⟩ := hk
  have s1h : r1.headers = r0.headers := s1.headers
  have s1v : r1.version = r0.version := s1.version
  rw [hk]
  simp only [bind, Except.bind]
  by_cases hb : r1.hasBody = true
  · rw [if_pos hb]
    rcases hg with ⟨e1, e2⟩ | ⟨⟨g1, g2, g3, g4⟩, gex⟩
    · exfalso
      unfold Req.hasBody hmem at hb
      rw [s1h, i1, hcl, hte, e1, e2] at hb
      cases hb
    · have sc := setContentType_same r1
      have ht : ∃ r2, setTransferEncoding (setContentType r1) = .ok r2 ∧ Same r2 r1 ∧
          (te = [] → r2.transferEncoding = b!"none") ∧ (∀ t, te = [t] → r2.transferEncoding = lower t) := by
        have hte' : hget (setContentType r1).headers b!"transfer-encoding" = dictVal te := by
          rw [sc.1.headers, s1h, i1]; exact hte
        rcases g2 with e | ⟨t, e⟩
        · exact ⟨_, (setTransferEncoding_iff hte').2 (.inl ⟨e, rfl⟩), sc.1, fun _ => by rw [sc.2.1, te1, i3],
            by intro t h; rw [e] at h; cases h⟩
        · refine ⟨_, (setTransferEncoding_iff hte').2 (.inr ⟨t, e, ?_, rfl⟩), ⟨sc.1.1, sc.1.2, sc.1.3, sc.1.4, sc.1.5⟩,
            (by intro h; rw [e] at h; cases h), (by intro t' h; rw [e] at h; cases h; rfl)⟩
          rw [sc.1.version, s1v]
          intro h10
          have := (g4 h10).2
          rw [e] at this; cases this
      obtain ⟨r2, ht, s2, t1, t2⟩ := ht
      rw [ht]
      simp only
      have hl : ∃ r3, setContentLength r2 = .ok r3 ∧ Same r3 r2 := by
        have hcl' : hget r2.headers b!"content-length" = dictVal cl := by rw [s2.headers, s1h, i1]; exact hcl
        rcases g1 with e | ⟨v, e, hcan⟩
        · refine ⟨_, (setContentLength_iff hcl').2 (.inl ⟨e, ?_, rfl⟩), ⟨rfl, rfl, rfl, rfl, rfl⟩⟩
          rw [s2.version, s1v]
          intro h10
          exact (g4 h10).1 e
        · refine ⟨_, (setContentLength_iff hcl').2 (.inr ⟨v, e, hcan, ?_, rfl⟩), ⟨rfl, rfl, rfl, rfl, rfl⟩⟩
          rcases g2 with e' | ⟨t, e'⟩
          · rw [t1 e', ← contains_iff]; decide
          · rw [t2 t e']; exact g3 v (by simp [e]) t (by simp [e'])
      obtain ⟨r3, hl, s3⟩ := hl
      rw [hl]
      simp only
      exact (setContinue_ok (by rw [s3.headers, s2.headers, s1h, i1]; exact hexp)).2 gex
  · rw [if_neg hb]; exact ⟨_, rfl⟩

/-- A chunked POST and its ambiguous variants. -/
def exPost (extra : Bytes) : Bytes := b!"POST / HTTP/1.1\r\nhost: x\r\n" ++ extra ++ b!"\r\n"
def exRun (extra : Bytes) : Except Refusal Req := acceptData (exPost extra) ((exPost extra).length - 2)

example : (exRun b!"content-length: 10\r\n").isOk = true ∧
    vals (exPost b!"content-length: 10\r\n") 46 b!"content-length" = [b!"10"] := by decide +kernel
example : exRun b!"content-length: 010\r\n" = .error .badRequest ∧
    exRun b!"content-length: 1\r\ncontent-length: 1\r\n" = .error .typeError ∧
    exRun b!"content-length: -1\r\n" = .error .valueError ∧
    exRun b!"transfer-encoding: chunked\r\ncontent-length: 1\r\n" = .error .badRequest := by decide +kernel

/-! ## C17 -/

/-- **C17.** For every head that is handled: the connection may be reused iff there is a Connection field whose options
do not include `close`, or there is none and the request is treated as HTTP/1.1 (the version is anything but 1.0).
(A repeated Connection field is refused with 500 before any handler runs.) -/
theorem C17_keepalive {data : Bytes} {hs : Nat} {r : Req} (h : acceptData data hs = .ok r) :
    (r.httpKeepalive = true ↔
      (∃ v, vals data hs b!"connection" = [v] ∧ b!"close" ∉ options v) ∨
      (vals data hs b!"connection" = [] ∧ getversion (parse data hs [b!"proxy"]) ≠ some (.one b!"1.0"))) ∧
    (vals data hs b!"connection").length ≤ 1 := by
  obtain ⟨r0, _, hi, hv, _, _, _, h1, _⟩ := accept_iff h
  have hver := (initReq_some hi).2.2.2.2
  rcases h1 with ⟨e, hk⟩ | ⟨v, e, hk⟩
  · rw [hk, e, hv, hver]
    split <;> simp_all
  · rw [hk, e]
    simp

/-- **C17 (on the wire).** The same for the bytes a client sends: any well-formed head, in terms of its own fields. -/
theorem C17_wire {q : Spec.HttpParser.ReqHead} (hw : q.Wf 100 8190) (hn : q.NoReserved) (rest : Bytes) {r : Req}
    (h : acceptData (q.wire rest) q.text.length = .ok r) :
    r.httpKeepalive = true ↔
      (∃ v, Spec.HttpParser.valuesOf q.pairs b!"connection" = [v] ∧ b!"close" ∉ options v) ∨
      (Spec.HttpParser.valuesOf q.pairs b!"connection" = [] ∧ q.version ≠ b!"1.0") := by
  have e1 : vals (q.wire rest) q.text.length b!"connection" = Spec.HttpParser.valuesOf q.pairs b!"connection" := by
    unfold vals
    rw [Proofs.HttpParser.parse_wf hw, (Proofs.HttpParser.finish_fields _).2.1]
    simp only [Spec.HttpParser.valuesOf, List.filter_filter]
    congr 1
    apply List.filter_congr
    intro x _
    by_cases hx : x.1 = b!"connection" <;> simp [hx]
  have e2 : getversion (parse (q.wire rest) q.text.length [b!"proxy"]) = some (.one q.version) := by
    have h0 : Spec.HttpParser.valuesOf q.pairs kVersion = [] := by
      rw [Proofs.HttpParser.valuesOf_eq_nil]
      intro x hx e
      obtain ⟨f, hf, rfl⟩ := List.mem_map.1 hx
      exact hn f hf (by rw [show lower f.name = kVersion from e]; decide)
    unfold getversion
    rw [Proofs.HttpParser.parse_wf hw, Proofs.HttpParser.finish_hget _ _ (by decide), Proofs.HttpParser.hget_fold,
      (Proofs.HttpParser.hget_lineDict _ _ _ _).2.2.1, h0]
    rfl
  rw [(C17_keepalive h).1, e1, e2]
  simp

example : ((exRun b!"connection: foo , CLOSE\r\n").map (·.httpKeepalive)) = .ok false ∧
    ((exRun b!"connection: closed\r\n").map (·.httpKeepalive)) = .ok true ∧
    ((exRun b!"").map (·.httpKeepalive)) = .ok true := by decide +kernel

end Verif
