import Verif.Props.Head
/-!
# C18 (which requests expect 100-continue) and C63 (the request object)
-/
namespace Verif
open Verif.Py Verif.Model.HttpParser Verif.Model.Head Verif.Spec.Head Verif.Proofs.Head

/-- The attributes fixed by the constructor. -/
def Model.Head.Req.ident (r : Req) := (r.method, r.url, r.path, r.query, r.host, r.version, r.valid, r.headers)

theorem ident_keep {r r' : Req} (h : setKeepalive r = .ok r') : r'.ident = r.ident ∧ r'.contentType = r.contentType ∧ r'.httpContinue = r.httpContinue := by
  unfold setKeepalive at h
  split at h
  · split at h <;> cases h <;> exact ⟨rfl, rfl, rfl⟩
  · cases h
  · cases h; split <;> exact ⟨rfl, rfl, rfl⟩

theorem ident_te {r r' : Req} (h : setTransferEncoding r = .ok r') : r'.ident = r.ident ∧ r'.contentType = r.contentType ∧ r'.httpContinue = r.httpContinue := by
  unfold setTransferEncoding at h
  split at h
  · cases h; exact ⟨rfl, rfl, rfl⟩
  · split at h
    · cases h
    · split at h <;> cases h
      exact ⟨rfl, rfl, rfl⟩

theorem ident_cl {r r' : Req} (h : setContentLength r = .ok r') : r'.ident = r.ident ∧ r'.contentType = r.contentType ∧ r'.httpContinue = r.httpContinue := by
  unfold setContentLength at h
  split at h
  · split at h
    · cases h
    · split at h <;> cases h
      exact ⟨rfl, rfl, rfl⟩
  · cases h
  · split at h <;> cases h
    exact ⟨rfl, rfl, rfl⟩

theorem setContentType_eq (r : Req) : (setContentType r).ident = r.ident ∧ (setContentType r).httpContinue = r.httpContinue ∧
    (setContentType r).contentType = (hget r.headers b!"content-type").getD r.contentType := by
  unfold setContentType
  split
  · rename_i h; rw [h]; exact ⟨rfl, rfl, rfl⟩
  · rename_i h; rw [h]; exact ⟨rfl, rfl, rfl⟩

theorem setContinue_eq {r r' : Req} {ex : List Bytes} (hex : hget r.headers b!"expect" = dictVal ex) (h : setContinue r = .ok r') (h0 : r.httpContinue = false) :
    r'.ident = r.ident ∧ r'.contentType = r.contentType ∧ (r'.httpContinue = true ↔ ∃ v, ex = [v] ∧ lower v = b!"100-continue") := by
  unfold setContinue at h
  rw [hex] at h
  rcases dictVal_cases ex with ⟨e, hd⟩ | ⟨v, e, hd⟩ | ⟨e, hd⟩ <;> rw [hd] at h
  · cases h; exact ⟨rfl, rfl, by rw [h0, e]; simp⟩
  · simp only [Except.ok.injEq] at h
    subst h
    rw [e]
    split
    · rename_i hv; exact ⟨rfl, rfl, by simp [hv]⟩
    · rename_i hv; exact ⟨rfl, rfl, by simp [hv, h0]⟩
  · cases h

/-- Everything about an accepted request besides framing and keep-alive. -/
theorem accept_rest {data : Bytes} {hs : Nat} {r : Req} (h : acceptData data hs = .ok r) :
    ∃ r0, initReq (parse data hs [b!"proxy"]) = some r0 ∧ r.ident = r0.ident ∧
      (r.hasBody = true → r.contentType = (hget r0.headers b!"content-type").getD (.one b!"application/octet-stream")) ∧
      (r.hasBody = false → r.contentType = .one b!"application/octet-stream") ∧
      (r.httpContinue = true ↔ r.hasBody = true ∧ ∃ v, vals data hs b!"expect" = [v] ∧ lower v = b!"100-continue") := by
  unfold acceptData accept at h
  have hv := hget_vals data hs b!"expect" (by decide) (by decide)
  generalize parse data hs [b!"proxy"] = p at h hv
  generalize vals data hs b!"expect" = ex at hv
  split at h
  · cases h
  · cases hi : initReq p with
    | none => rw [hi] at h; cases h
    | some r0 =>
      rw [hi] at h
      have hh : r0.headers = p.headers := (initReq_some hi).1
      have h0 : r0.httpContinue = false ∧ r0.contentType = .one b!"application/octet-stream" := by
        unfold initReq at hi
        split at hi
        · cases hi; exact ⟨rfl, rfl⟩
        · cases hi
      refine ⟨r0, rfl, ?_⟩
      simp only at h
      cases hk : setKeepalive r0 with
      | error e => rw [hk] at h; cases h
      | ok r1 =>
        rw [hk] at h
        simp only [bind, Except.bind] at h
        obtain ⟨k1, k2, k3⟩ := ident_keep hk
        have hdr : ∀ {a b : Req}, a.ident = b.ident → a.headers = b.headers := by
          intro a b h; simp only [Req.ident, Prod.mk.injEq] at h; exact h.2.2.2.2.2.2.2
        have hbody : ∀ {a b : Req}, a.ident = b.ident → a.hasBody = b.hasBody := by
          intro a b h; unfold Req.hasBody; rw [hdr h]
        split at h
        · rename_i hb
          obtain ⟨c1, c2, c3⟩ := setContentType_eq r1
          cases ht : setTransferEncoding (setContentType r1) with
          | error e => rw [ht] at h; cases h
          | ok r2 =>
            rw [ht] at h
            simp only at h
            obtain ⟨t1, t2, t3⟩ := ident_te ht
            cases hl : setContentLength r2 with
            | error e => rw [hl] at h; cases h
            | ok r3 =>
              rw [hl] at h
              simp only at h
              obtain ⟨l1, l2, l3⟩ := ident_cl hl
              have i3 : r3.ident = r0.ident := l1.trans (t1.trans (c1.trans k1))
              obtain ⟨e1, e2, e3⟩ := setContinue_eq (ex := ex) (by rw [hdr i3, hh]; exact hv) h (by rw [l3, t3, c2, k3]; exact h0.1)
              have i4 := e1.trans i3
              have hb4 : r.hasBody = true := by rw [hbody (i4.trans k1.symm)]; exact hb
              refine ⟨i4, fun _ => ?_, fun hf => ?_, ?_⟩
              · rw [e2, l2, t2, c3, k2, h0.2, hdr k1]
              · rw [hb4] at hf; cases hf
              · rw [e3, hb4]; simp
        · rename_i hb
          cases h
          refine ⟨k1, fun hf => absurd hf hb, fun _ => by rw [k2, h0.2], ?_⟩
          rw [k3, h0.1]
          simp [hb]

theorem dictVal_isSome (l : List Bytes) : (dictVal l).isSome = true ↔ l ≠ [] := by
  rcases dictVal_cases l with ⟨e, h⟩ | ⟨v, e, h⟩ | ⟨e, h⟩ <;> rw [h]
  · simp [e]
  · simp [e]
  · have : l ≠ [] := by rintro rfl; simp at e
    simp [this]

theorem hasBody_iff {data : Bytes} {hs : Nat} {r : Req} (h : acceptData data hs = .ok r) :
    r.hasBody = true ↔ vals data hs b!"content-length" ≠ [] ∨ vals data hs b!"transfer-encoding" ≠ [] := by
  obtain ⟨r0, hi, hid, _⟩ := accept_rest h
  have hh : r.headers = (parse data hs [b!"proxy"]).headers := by
    rw [← (initReq_some hi).1]
    simp only [Req.ident, Prod.mk.injEq] at hid
    exact hid.2.2.2.2.2.2.2
  unfold Req.hasBody hmem
  rw [hh, hget_vals data hs b!"content-length" (by decide) (by decide), hget_vals data hs b!"transfer-encoding" (by decide) (by decide)]
  rw [Bool.or_eq_true, dictVal_isSome, dictVal_isSome]

/-- **C18 (which requests).** A handled request expects 100-continue exactly when it has a body (a Content-Length or
Transfer-Encoding field) and its one Expect field says `100-continue`, in any case. -/
theorem C18_expect {data : Bytes} {hs : Nat} {r : Req} (h : acceptData data hs = .ok r) :
    r.httpContinue = true ↔ (vals data hs b!"content-length" ≠ [] ∨ vals data hs b!"transfer-encoding" ≠ []) ∧
      ∃ v, vals data hs b!"expect" = [v] ∧ lower v = b!"100-continue" := by
  obtain ⟨_, _, _, _, _, h1⟩ := accept_rest h
  rw [h1, hasBody_iff h]

example : ((exRun b!"content-length: 3\r\nexpect: 100-Continue\r\n").map (·.httpContinue)) = .ok true ∧
    ((exRun b!"expect: 100-continue\r\n").map (·.httpContinue)) = .ok false := by decide +kernel

theorem partition1_q (path query : Bytes) (hq : (63 : UInt8) ∉ path) :
    partition1 63 path = (path, false, []) ∧ partition1 63 (path ++ 63 :: query) = (path, true, query) := by
  induction path with
  | nil => exact ⟨rfl, by simp [partition1]⟩
  | cons x t ih =>
    simp at hq
    have := ih hq.2
    simp [partition1, Ne.symm hq.1, this.1, this.2]

/-- The dictionary value of a field that does not collide with the parser's own keys, on the wire. -/
theorem hget_wire {q : Spec.HttpParser.ReqHead} (hw : q.Wf 100 8190) (rest : Bytes) (k : Bytes) (hk : k ∉ Spec.HttpParser.reserved) (hh : k ≠ b!"host") :
    hget (parse (q.wire rest) q.text.length [b!"proxy"]).headers k = dictVal (Spec.HttpParser.valuesOf q.pairs k) := by
  rw [Proofs.HttpParser.parse_wf hw, Proofs.HttpParser.finish_hget _ _ hh, Proofs.HttpParser.hget_fold, (Proofs.HttpParser.hget_lineDict _ _ _ _).2.2.2.2 k hk, Proofs.HttpParser.fold_none]
  rfl

theorem hget_wire_line {q : Spec.HttpParser.ReqHead} (hw : q.Wf 100 8190) (hn : q.NoReserved) (rest : Bytes) :
    hget (parse (q.wire rest) q.text.length [b!"proxy"]).headers kMethod = some (.one q.method) ∧
    hget (parse (q.wire rest) q.text.length [b!"proxy"]).headers kUrl = some (.one q.url) ∧
    hget (parse (q.wire rest) q.text.length [b!"proxy"]).headers kVersion = some (.one q.version) ∧
    (parse (q.wire rest) q.text.length [b!"proxy"]).validReq = true := by
  have hv : ∀ k ∈ Spec.HttpParser.reserved, Spec.HttpParser.valuesOf q.pairs k = [] := by
    intro k hk
    rw [Proofs.HttpParser.valuesOf_eq_nil]
    intro x hx e
    obtain ⟨f, hf, rfl⟩ := List.mem_map.1 hx
    exact hn f hf (by rw [show lower f.name = k from e]; exact hk)
  obtain ⟨d1, d2, d3, _, _⟩ := Proofs.HttpParser.hget_lineDict q.line q.method q.url q.version
  refine ⟨?_, ?_, ?_, ?_⟩
  · rw [Proofs.HttpParser.parse_wf hw, Proofs.HttpParser.finish_hget _ _ (by decide), Proofs.HttpParser.hget_fold, d1, hv _ (by decide)]; rfl
  · rw [Proofs.HttpParser.parse_wf hw, Proofs.HttpParser.finish_hget _ _ (by decide), Proofs.HttpParser.hget_fold, d2, hv _ (by decide)]; rfl
  · rw [Proofs.HttpParser.parse_wf hw, Proofs.HttpParser.finish_hget _ _ (by decide), Proofs.HttpParser.hget_fold, d3, hv _ (by decide)]; rfl
  · rw [Proofs.HttpParser.parse_wf hw, Proofs.HttpParser.finish_valid]
    simp only [Bool.true_and, Bool.not_eq_true', Bool.and_eq_false_imp, Bool.not_eq_true']
    intro hm
    rw [Proofs.HttpParser.hget_fold, d3, hv _ (by decide)]
    simp only [List.foldl_nil]
    by_cases hver : q.version = b!"1.1"
    · rw [Proofs.HttpParser.hmem_host.2 (hw.host hver)] at hm; cases hm
    · simpa using hver

theorem hget_wire_host {q : Spec.HttpParser.ReqHead} (hw : q.Wf 100 8190) (rest : Bytes) :
    hget (parse (q.wire rest) q.text.length [b!"proxy"]).headers kHost =
      some ((dictVal (Spec.HttpParser.valuesOf q.pairs b!"host")).getD (.one [])) := by
  rw [Proofs.HttpParser.parse_wf hw]
  have key : ∀ P : Parsed, P.isRequest = true → hget (finish P).headers kHost = some ((hget P.headers kHost).getD (.one [])) := by
    intro P hP
    unfold finish hmem
    cases hh : hget P.headers kHost with
    | none => simp [hP, Proofs.HttpParser.hget_hset]
    | some v => simp [hP, hh]
  rw [key _ rfl]
  congr 2
  rw [Proofs.HttpParser.hget_fold, (Proofs.HttpParser.hget_lineDict _ _ _ _).2.2.2.2 b!"host" (by decide), Proofs.HttpParser.fold_none]
  rfl

theorem hostOf_dictVal (l : List Bytes) : (dictVal l).elim none (fun v => hostOf (some v)) = l.head? := by
  rcases dictVal_cases l with ⟨e, h⟩ | ⟨v, e, h⟩ | ⟨e, h⟩ <;> rw [h]
  · simp [e]
  · simp [e, hostOf]
  · simp [hostOf]

/-- **C63.** For every well-formed head a client sends that leads to a handler: the method is the client's in upper case; the URL
is the client's, the path what precedes its first `?` and the query string what follows it; the host is the first
X-Forwarded-Host value, or the first Host value if there is none, or empty; the version is `1.0` for 1.0 and `1.1` for
anything else; and the request counts as valid. -/
theorem C63_request {q : Spec.HttpParser.ReqHead} (hw : q.Wf 100 8190) (hn : q.NoReserved) (rest : Bytes) {r : Req}
    (h : acceptData (q.wire rest) q.text.length = .ok r) :
    r.method = upper q.method ∧ r.url = q.url ∧
    ((63 : UInt8) ∉ q.url → r.path = q.url ∧ r.query = []) ∧
    (∀ a b, q.url = a ++ 63 :: b → (63 : UInt8) ∉ a → r.path = a ∧ r.query = b) ∧
    r.host = ((Spec.HttpParser.valuesOf q.pairs b!"x-forwarded-host" ++ Spec.HttpParser.valuesOf q.pairs b!"host").head?).or (some []) ∧
    (r.version = b!"1.0" ↔ q.version = b!"1.0") ∧ (q.version ≠ b!"1.0" → r.version = b!"1.1") ∧ r.valid = true := by
  obtain ⟨r0, hi, hid, _⟩ := accept_rest h
  obtain ⟨h1, h2, h3, h4⟩ := hget_wire_line hw hn rest
  have hx := hget_wire hw rest b!"x-forwarded-host" (by decide) (by decide)
  have hh := hget_wire_host hw rest
  generalize parse (q.wire rest) q.text.length [b!"proxy"] = p at *
  simp only [initReq, getmethod, geturl, getversion, h1, h2, h3, Option.some.injEq] at hi
  subst hi
  simp only [Req.ident, Prod.mk.injEq] at hid
  obtain ⟨i1, i2, i3, i4, i5, i6, i7, i8⟩ := hid
  have hhost : hostOf (gethost p) = ((Spec.HttpParser.valuesOf q.pairs b!"x-forwarded-host" ++ Spec.HttpParser.valuesOf q.pairs b!"host").head?).or (some []) := by
    unfold gethost
    rw [hx, hh]
    rcases dictVal_cases (Spec.HttpParser.valuesOf q.pairs b!"x-forwarded-host") with ⟨e, hd⟩ | ⟨v, e, hd⟩ | ⟨e, hd⟩ <;> rw [hd]
    · rw [e]
      simp only [List.nil_append]
      rcases dictVal_cases (Spec.HttpParser.valuesOf q.pairs b!"host") with ⟨e, hd⟩ | ⟨v, e, hd⟩ | ⟨e, hd⟩ <;> rw [hd]
      · rw [e]; rfl
      · rw [e]; rfl
      · generalize Spec.HttpParser.valuesOf q.pairs b!"host" = l at e
        match l, e with
        | a :: b :: t, _ => rfl
    · rw [e]; rfl
    · generalize Spec.HttpParser.valuesOf q.pairs b!"x-forwarded-host" = l at e
      match l, e with
      | a :: b :: t, _ => rfl
  refine ⟨i1, i2, fun hq => ?_, fun a b e ha => ?_, i5.trans hhost, ?_, ?_, i7.trans h4⟩
  · have := (partition1_q q.url [] hq).1
    rw [i3, i4, this]; exact ⟨rfl, rfl⟩
  · have := (partition1_q a b ha).2
    rw [i3, i4, e, this]; exact ⟨rfl, rfl⟩
  · rw [i6]
    by_cases hv : q.version = b!"1.0"
    · simp [hv]
    · simp [hv]
  · intro hv
    rw [i6]; simp [hv]

/-- **C63 (content type).** A request with a body has the content type of its Content-Type field, or
`application/octet-stream` without one. -/
theorem C63_content_type {q : Spec.HttpParser.ReqHead} (hw : q.Wf 100 8190) (rest : Bytes) {r : Req}
    (h : acceptData (q.wire rest) q.text.length = .ok r) (hb : r.hasBody = true) :
    (Spec.HttpParser.valuesOf q.pairs b!"content-type" = [] → r.contentType = .one b!"application/octet-stream") ∧
    ∀ v, Spec.HttpParser.valuesOf q.pairs b!"content-type" = [v] → r.contentType = .one v := by
  obtain ⟨r0, hi, _, hc, _⟩ := accept_rest h
  have hx := hget_wire hw rest b!"content-type" (by decide) (by decide)
  rw [hc hb, (initReq_some hi).1, hx]
  constructor
  · intro e; rw [e]; rfl
  · intro v e; rw [e]; rfl

/-- A head meeting the hypotheses, and what becomes of it. -/
example : (exRun b!"X-Forwarded-Host: a\r\nX-Forwarded-Host: b\r\n").map (fun r => (r.host, r.path)) = .ok (some b!"a", b!"/") := by decide +kernel

end Verif
