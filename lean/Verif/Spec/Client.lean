import Verif.Spec.Body
import Verif.Spec.Head
/-!
# An HTTP/1.x client that reads responses (RFC 9112, sections 2.2, 4, 6.3 and 7.1), independent of the server's model

It knows the method of its request; it decides where a response ends from what the head says, and from nothing else.
-/
namespace Verif.Spec.Client
open Verif.Py

/-- What comes before the first CRLF, and what comes behind it. -/
def readLine : Bytes → Option (Bytes × Bytes)
  | [] => none
  | [_] => none
  | a :: b :: r => if a = 13 ∧ b = 10 then some ([], r) else (readLine (b :: r)).map (fun p => (a :: p.1, p.2))

/-- Lines up to an empty line, and what comes behind that (at most `n` lines). -/
def readLines : Nat → Bytes → Option (List Bytes × Bytes)
  | 0, _ => none
  | n + 1, s =>
    match readLine s with
    | none => none
    | some ([], r) => some ([], r)
    | some (b :: l, r) => (readLines n r).map (fun p => ((b :: l) :: p.1, p.2))

/-- Without spaces and tabs at the ends. -/
def trim (s : Bytes) : Bytes :=
  ((s.dropWhile (fun b => b = 32 ∨ b = 9)).reverse.dropWhile (fun b => b = 32 ∨ b = 9)).reverse

/-- The values of the header `k` (lower case). -/
def values (k : Bytes) (ls : List Bytes) : List Bytes :=
  (ls.filter (fun x => lower (x.takeWhile (· ≠ 58)) = k)).map (fun x => trim ((x.dropWhile (· ≠ 58)).drop 1))

def isDigit (b : UInt8) : Bool := 48 ≤ b && b ≤ 57

/-- The status code: three digits between the first two spaces of the status line. -/
def statusOf (first : Bytes) : Option Nat :=
  match first.dropWhile (· ≠ 32) with
  | _ :: a :: b :: c :: d :: _ => if isDigit a && isDigit b && isDigit c && d == 32 then some (Spec.Head.valueOf [a, b, c]) else none
  | _ => none

def isHexB (c : UInt8) : Bool := (48 ≤ c && c ≤ 57) || (97 ≤ c && c ≤ 102) || (65 ≤ c && c ≤ 70)
/-- A chunk size: one or more hexadecimal digits. -/
def chunkSize (s : Bytes) : Option Nat := if s ≠ [] ∧ s.all isHexB then some (Spec.Body.hexNum s) else none

/-- A chunked body: chunks up to one of size zero, then trailers up to an empty line. -/
def readChunks : Nat → Bytes → Option (Bytes × Bytes)
  | 0, _ => none
  | f + 1, s =>
    match readLine s with
    | none => none
    | some (l, r) =>
      match chunkSize (l.takeWhile (· ≠ 59)) with
      | none => none
      | some 0 => (readLines f r).map (fun p => ([], p.2))
      | some (n + 1) =>
        if r.length < n + 1 then none
        else match r.drop (n + 1) with
          | 13 :: 10 :: r' => (readChunks f r').map (fun p => (r.take (n + 1) ++ p.1, p.2))
          | _ => none

/-- A Content-Length: one or more digits. -/
def lengthOf (v : Bytes) : Option Nat := if v ≠ [] ∧ v.all isDigit then some (Spec.Head.valueOf v) else none

structure Resp where
  status : Nat
  fields : List Bytes
  body : Bytes
deriving DecidableEq, Repr

/-- The body by RFC 9112, 6.3: none for HEAD, 1xx, 204 and 304; else chunked if Transfer-Encoding says so; else as many bytes as
Content-Length says; else, if the connection was closed, everything. -/
def readBody (closed : Bool) (method : Bytes) (st : Nat) (ls : List Bytes) (r : Bytes) : Option (Bytes × Bytes) :=
  if method = b!"HEAD" ∨ st < 200 ∨ st = 204 ∨ st = 304 then some ([], r)
  else match values b!"transfer-encoding" ls with
    | [v] => if lower v = b!"chunked" then readChunks (r.length + 1) r else none
    | _ :: _ :: _ => none
    | [] =>
      match values b!"content-length" ls with
      | [] => if closed then some (r, []) else none
      | [v] =>
        match lengthOf v with
        | some n => if r.length < n then none else some (r.take n, r.drop n)
        | none => none
      | _ :: _ :: _ => none

/-- Reads one response from the front of `s`; `closed`: nothing comes behind `s`. -/
def readResponse (closed : Bool) (method s : Bytes) : Option (Resp × Bytes) :=
  match readLines (s.length + 1) s with
  | some (first :: ls, r) =>
    match statusOf first with
    | some st => (readBody closed method st ls r).map (fun p => (⟨st, ls, p.1⟩, p.2))
    | none => none
  | _ => none

/-- Reads the responses to requests with these methods. -/
def readAll (closed : Bool) : List Bytes → Bytes → Option (List Resp × Bytes)
  | [], s => some ([], s)
  | m :: ms, s =>
    match readResponse closed m s with
    | some (r, s') => (readAll closed ms s').map (fun p => (r :: p.1, p.2))
    | none => none

/-- The client reads `r` from the bytes `bs`, whatever follows them. -/
def Delimited (method bs : Bytes) (r : Resp) : Prop := ∀ closed tail, readResponse closed method (bs ++ tail) = some (r, tail)

/-- The client reads `r` from the bytes `bs` when the connection is closed behind them. -/
def Final (method bs : Bytes) (r : Resp) : Prop := readResponse true method bs = some (r, [])

theorem Delimited.final {m bs : Bytes} {r : Resp} (h : Delimited m bs r) : Final m bs r := by
  have := h true []; rwa [List.append_nil] at this

/-- Delimited responses one behind the other are read one by one. -/
theorem readAll_flatten {closed : Bool} : ∀ {l : List (Bytes × Bytes × Resp)}, (∀ x ∈ l, Delimited x.1 x.2.1 x.2.2) → ∀ (ms : List Bytes) (tail : Bytes),
    readAll closed (l.map (·.1) ++ ms) ((l.map (·.2.1)).flatten ++ tail) = (readAll closed ms tail).map (fun p => (l.map (·.2.2) ++ p.1, p.2))
  | [], _, ms, tail => by
    simp only [List.map_nil, List.nil_append, List.flatten_nil]
    cases readAll closed ms tail <;> rfl
  | x :: l, h, ms, tail => by
    have hx := h x (by simp)
    simp only [List.map_cons, List.cons_append, List.flatten_cons, List.append_assoc, readAll]
    rw [hx closed _]
    dsimp only
    rw [readAll_flatten (fun y hy => h y (by simp [hy])) ms tail]
    cases readAll closed ms tail <;> rfl

/-- Reads responses up to the first that is not interim (RFC 9110, 15.2: a client reads 1xx responses and waits on; 101 is the
last one of HTTP). At most `n` responses. -/
def readFinal (closed : Bool) (method : Bytes) : Nat → Bytes → Option (Resp × Bytes)
  | 0, _ => none
  | n + 1, s =>
    match readResponse closed method s with
    | some (r, s') => if r.status < 200 ∧ r.status ≠ 101 then readFinal closed method n s' else some (r, s')
    | none => none

/-- Reads the answer to a request. -/
def readAnswer (closed : Bool) (method s : Bytes) : Option (Resp × Bytes) := readFinal closed method (s.length + 1) s

/-- Reads the answers to requests with these methods. -/
def readAnswers (closed : Bool) : List Bytes → Bytes → Option (List Resp × Bytes)
  | [], s => some ([], s)
  | m :: ms, s =>
    match readAnswer closed m s with
    | some (r, s') => (readAnswers closed ms s').map (fun p => (r :: p.1, p.2))
    | none => none

/-- The client reads the answer `r` from the bytes `bs`, whatever follows them. -/
def Answers (method bs : Bytes) (r : Resp) : Prop := ∀ closed tail, readAnswer closed method (bs ++ tail) = some (r, tail)

theorem readAnswers_flatten {closed : Bool} : ∀ {l : List (Bytes × Bytes × Resp)}, (∀ x ∈ l, Answers x.1 x.2.1 x.2.2) → ∀ (ms : List Bytes) (tail : Bytes),
    readAnswers closed (l.map (·.1) ++ ms) ((l.map (·.2.1)).flatten ++ tail) = (readAnswers closed ms tail).map (fun p => (l.map (·.2.2) ++ p.1, p.2))
  | [], _, ms, tail => by
    simp only [List.map_nil, List.nil_append, List.flatten_nil]
    cases readAnswers closed ms tail <;> rfl
  | x :: l, h, ms, tail => by
    have hx := h x (by simp)
    simp only [List.map_cons, List.cons_append, List.flatten_cons, List.append_assoc, readAnswers]
    rw [hx closed _]
    dsimp only
    rw [readAnswers_flatten (fun y hy => h y (by simp [hy])) ms tail]
    cases readAnswers closed ms tail <;> rfl

theorem readFinal_mono {closed : Bool} {m : Bytes} : ∀ {n : Nat} {s : Bytes} {x : Resp × Bytes}, readFinal closed m n s = some x → ∀ k, n ≤ k → readFinal closed m k s = some x
  | 0, _, _, h, _, _ => by cases h
  | n + 1, s, x, h, k, hk => by
    obtain ⟨k, rfl⟩ : ∃ k', k = k' + 1 := ⟨k - 1, by omega⟩
    rw [readFinal] at h ⊢
    split at h
    · split at h
      · next hc => rw [if_pos hc]; exact readFinal_mono h k (by omega)
      · next hc => rw [if_neg hc]; exact h
    · cases h

/-- A delimited response that is not interim is an answer. -/
theorem Delimited.answers {m bs : Bytes} {r : Resp} (h : Delimited m bs r) (hs : 200 ≤ r.status) : Answers m bs r := by
  intro closed tail
  unfold readAnswer
  rw [readFinal, h closed tail]
  dsimp only
  rw [if_neg (by omega)]

/-- An interim response before it changes nothing. -/
theorem Answers.interim {m b0 bs : Bytes} {i r : Resp} (h0 : Delimited m b0 i) (hi : i.status < 200 ∧ i.status ≠ 101) (h : Answers m bs r) : Answers m (b0 ++ bs) r := by
  intro closed tail
  have hne : 0 < b0.length := by
    cases b0 with
    | nil => have := h0 false []; cases this
    | cons a t => simp
  unfold readAnswer
  rw [List.append_assoc, readFinal, h0 closed _]
  dsimp only
  rw [if_pos hi]
  exact readFinal_mono (h closed tail) _ (by simp; omega)

/-- The answer behind a response `100 Continue`, and one without it. -/
example : readAnswers false [b!"POST", b!"GET"]
    b!"HTTP/1.1 100 Continue\r\n\r\nHTTP/1.1 200 OK\r\nContent-Length: 2\r\n\r\nhiHTTP/1.1 404 Not Found\r\nContent-Length: 1\r\n\r\nx" =
    some ([⟨200, [b!"Content-Length: 2"], b!"hi"⟩, ⟨404, [b!"Content-Length: 1"], b!"x"⟩], []) := by decide +kernel

/-- Two responses, the first chunked with an extension and a trailer, the second with a length; then one that lasts until the end. -/
example : readAll true [b!"GET", b!"GET", b!"HEAD", b!"GET"]
    b!"HTTP/1.1 200 OK\r\nTransfer-encoding:  Chunked \r\n\r\n3;x=y\r\nabc\r\n0\r\nT: 1\r\n\r\nHTTP/1.1 404 Not Found\r\nContent-Length: 2\r\n\r\nhiHTTP/1.1 200 OK\r\nContent-Length: 2\r\n\r\nHTTP/1.0 200 OK\r\n\r\nrest" =
    some ([⟨200, [b!"Transfer-encoding:  Chunked "], b!"abc"⟩, ⟨404, [b!"Content-Length: 2"], b!"hi"⟩, ⟨200, [b!"Content-Length: 2"], []⟩, ⟨200, [], b!"rest"⟩], []) := by decide +kernel

end Verif.Spec.Client
