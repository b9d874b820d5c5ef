import Verif.HttpResponse.Model
import Verif.HttpResponse.Spec
/-
Property theorems for HTTP responses (C35).
-/
namespace Cio.HttpResponse
open Rfc7230 (cutLine cutHeader field fields number digit statusCode read Response)

/-! ### Reading lines -/

theorem cutLine_ok (l r : Bytes) (h : 13 ∉ l) : cutLine (l ++ 13 :: 10 :: r) = some (l, r) := by
  induction l with
  | nil => simp [cutLine]
  | cons a l ih =>
    have ha : ¬a = 13 := fun e => h (by simp [e])
    have hl : 13 ∉ l := fun e => h (by simp [e])
    cases l with
    | nil => simp [cutLine, ha]
    | cons b l =>
      have := ih hl
      simp only [List.cons_append] at this ⊢
      rw [cutLine, this]
      simp [ha]

theorem cutHeader_ok (ls : List Bytes) (body : Bytes) (h : ∀ l ∈ ls, 13 ∉ l ∧ l ≠ []) (n : Nat) (hn : ls.length < n) :
    cutHeader n ((ls.map (· ++ CRLF)).flatten ++ (CRLF ++ body)) = some (ls, body) := by
  induction ls generalizing n with
  | nil =>
    match n, hn with
    | n + 1, _ => simp [cutHeader, show CRLF = [13, 10] by decide, cutLine]
  | cons l ls ih =>
    match n, hn with
    | n + 1, hn =>
      have hl := h l (by simp)
      have e : ((l :: ls).map (· ++ CRLF)).flatten ++ (CRLF ++ body) =
          l ++ 13 :: 10 :: ((ls.map (· ++ CRLF)).flatten ++ (CRLF ++ body)) := by
        simp [show CRLF = [13, 10] by decide]
      rw [e, cutHeader, cutLine_ok l _ hl.1]
      have := ih (fun x hx => h x (by simp [hx])) n (by simpa using hn)
      match l, hl.2 with
      | a :: l, _ =>
        show (cutHeader n _).map _ = _
        rw [this]; rfl

/-- A header field as it has to look: `name: value`. -/
def line (f : Bytes × Bytes) : Bytes := f.1 ++ str ": " ++ f.2

/-- Names and values that can stand in a header: no colon or line break in a name, no line break in a value, no leading space. -/
def Proper (f : Bytes × Bytes) : Prop :=
  f.1 ≠ [] ∧ 58 ∉ f.1 ∧ 13 ∉ f.1 ∧ 13 ∉ f.2 ∧ f.2.head? ≠ some 32

instance (f : Bytes × Bytes) : Decidable (Proper f) := by unfold Proper; infer_instance

theorem dropWhile_name (n v : Bytes) (h : 58 ∉ n) : (n ++ 58 :: v).dropWhile (· ≠ 58) = 58 :: v ∧ (n ++ 58 :: v).takeWhile (· ≠ 58) = n := by
  induction n with
  | nil => simp
  | cons a n ih =>
    have ha : ¬a = 58 := fun e => h (by simp [e])
    have := ih (fun e => h (by simp [e]))
    simp only [ne_eq, decide_not] at this ⊢
    simp [ha, this]

theorem field_ok (f : Bytes × Bytes) (h : Proper f) : field (line f) = some f := by
  obtain ⟨n, v⟩ := f
  obtain ⟨h1, h2, _, _, h5⟩ := h
  simp only at h1 h2 h5
  have e : line (n, v) = n ++ 58 :: 32 :: v := by simp [line, show str ": " = [58, 32] by decide]
  obtain ⟨g1, g2⟩ := dropWhile_name n (32 :: v) h2
  have h0 : (n ++ 58 :: 32 :: v).head? ≠ some 58 := by
    match n, h1 with
    | a :: n, _ => simp at h2 ⊢; exact fun e => h2.1 e.symm
  rw [field, e, g1]
  simp only [h0, if_false, g2]
  match v, h5 with
  | [], _ => rfl
  | a :: v, h5 =>
    have : ¬a = 32 := by simpa using h5
    simp [this]

theorem fields_ok (fs : List (Bytes × Bytes)) (h : ∀ f ∈ fs, Proper f) : fields (fs.map line) = some fs := by
  induction fs with
  | nil => rfl
  | cons f fs ih =>
    rw [List.map_cons, fields, field_ok f (h f (by simp)), ih (fun x hx => h x (by simp [hx]))]

theorem line_proper (f : Bytes × Bytes) (h : Proper f) : 13 ∉ line f ∧ line f ≠ [] := by
  obtain ⟨n, v⟩ := f
  obtain ⟨h1, _, h3, h4, _⟩ := h
  simp only at h1 h3 h4
  constructor
  · simp [line, show str ": " = [58, 32] by decide, h3, h4]
  · simp [line, h1]

/-! ### Numbers -/

theorem digit_ok (d : Nat) (h : d < 10) : digit (48 + d.toUInt8) = some d := by
  have : ∀ d : Fin 10, digit (48 + d.val.toUInt8) = some d.val := by decide
  exact this ⟨d, h⟩

theorem digit_ne (d : Nat) (h : d < 10) : (48 + d.toUInt8) ≠ 13 ∧ (48 + d.toUInt8) ≠ 32 ∧ (48 + d.toUInt8) ≠ 0 ∧ (48 + d.toUInt8) ≠ 10 := by
  have : ∀ d : Fin 10, (48 + d.val.toUInt8) ≠ 13 ∧ (48 + d.val.toUInt8) ≠ 32 ∧ (48 + d.val.toUInt8) ≠ 0 ∧ (48 + d.val.toUInt8) ≠ 10 := by decide
  exact this ⟨d, h⟩

theorem dec_ne_nil (n : Nat) : dec n ≠ [] := by
  rw [dec]; split <;> simp

theorem number_append (l : Bytes) (b : UInt8) (x d : Nat) (hl : number l = some x) (hb : digit b = some d) :
    number (l ++ [b]) = some (10 * x + d) := by
  cases l with
  | nil => simp [number] at hl
  | cons a l =>
    rw [number] at hl
    rw [List.cons_append, number, ← List.cons_append, List.foldl_append, hl]
    simp [hb]
    all_goals simp

/-- The digits printed are those of the number. -/
theorem number_dec (n : Nat) : number (dec n) = some n := by
  induction n using Nat.strongRecOn with
  | _ n ih =>
    rw [dec]
    split
    · rename_i h
      have := digit_ok n h
      simp [number, this]
    · rename_i h
      have h1 := ih (n / 10) (by omega)
      rw [number_append _ _ _ _ h1 (digit_ok (n % 10) (by omega))]
      congr 1; omega

theorem dec_mem (n : Nat) (b : UInt8) (h : b ∈ dec n) : b ≠ 13 ∧ b ≠ 32 ∧ b ≠ 0 ∧ b ≠ 10 := by
  induction n using Nat.strongRecOn with
  | _ n ih =>
    rw [dec] at h
    split at h
    · rename_i h1
      simp at h; subst h; exact digit_ne n h1
    · rename_i h1
      simp only [List.mem_append, List.mem_singleton] at h
      rcases h with h | h
      · exact ih (n / 10) (by omega) h
      · subst h; exact digit_ne _ (by omega)

theorem dec_length (n k : Nat) : (dec n).length ≤ k + 1 ↔ n < 10 ^ (k + 1) := by
  induction k generalizing n with
  | zero =>
    rw [dec]; split
    · simp; omega
    · rename_i h
      have := List.length_pos_iff.mpr (dec_ne_nil (n / 10))
      simp only [List.length_append, List.length_singleton, Nat.zero_add, Nat.pow_one]; omega
  | succ k ih =>
    rw [dec]; split
    · rename_i h
      have : 10 ^ 1 ≤ 10 ^ (k + 1 + 1) := Nat.pow_le_pow_right (by omega) (by omega)
      simp; omega
    · have := ih (n / 10)
      have e : 10 ^ (k + 1 + 1) = 10 ^ (k + 1) * 10 := rfl
      simp only [List.length_append, List.length_singleton]
      omega

/-! ### Chains -/

theorem wire_append (a b : List Elem) : wire (a ++ b) = (wire a).bind (fun x => (wire b).map (fun y => x ++ y)) := by
  induction a with
  | nil => simp [wire]
  | cons e a ih =>
    simp only [List.cons_append, wire, ih]
    split
    · cases wire a with
      | none => rfl
      | some x => cases wire b with
        | none => rfl
        | some y => simp
    · rfl

theorem wire_str (s : Bytes) : wire [strElem s] = some s := by
  simp [wire, strElem]

theorem wire_length (es : List Elem) (w : Bytes) (h : wire es = some w) : w.length = (es.map Elem.len).sum := by
  induction es generalizing w with
  | nil => simp [wire] at h; subst h; rfl
  | cons e es ih =>
    simp only [wire] at h
    split at h
    · rename_i h1
      cases h2 : wire es with
      | none => rw [h2] at h; cases h
      | some x =>
        rw [h2] at h; simp at h; subst h
        simp [ih x h2, Nat.min_eq_left h1]
    · cases h

/-- The status a response carries. -/
def code : Status → Nat
  | .switchingProtocols => 101
  | .ok => 200
  | .badRequest => 400
  | .notFound => 404
  | .timeout => 408
  | .internalServerError => 500
  | .other n => n

/-- Statuses in the enumeration of the API. -/
def Listed : Status → Prop
  | .other _ => False
  | _ => True

/-- The response announces that the connection stays open. -/
def keepOpen (c : Client) (st : Status) : Bool :=
  c.shouldKeepalive && !c.closeImmediately && st ≠ .badRequest && st ≠ .timeout && st ≠ .internalServerError

/-- The fields a response must have, for a body of `n` bytes. -/
def expectedFields (s : Server) (c : Client) (st : Status) (user : List (Bytes × Bytes)) (keepalive : Bytes × Bytes) (n : Nat) :
    List (Bytes × Bytes) :=
  [(str "Server", str "cio http/" ++ s.version)] ++ user ++ [(str "Content-Length", dec n)] ++
    (if st = .switchingProtocols then [(str "Connection", str "Upgrade")]
     else if keepOpen c st then [keepalive, (str "Connection", str "keep-alive")]
     else [(str "Connection", str "close")])

/-- What a proper client hands over as header lines: the elements queued with `add_response_header` are, together, complete header lines. -/
def UserHeaders (c : Client) (user : List (Bytes × Bytes)) : Prop :=
  wire c.responseWbh = some ((user.map (fun f => line f ++ CRLF)).flatten) ∧ ∀ f ∈ user, Proper f

/-- The element with the `Content-Length` line. -/
def contentElem (buf : Bytes) (n : Nat) : Elem :=
  { mem := (snprintf buf 29 (str "Content-Length: " ++ dec n ++ CRLF)).2, len := (str "Content-Length: " ++ dec n ++ CRLF).length }

theorem contentLength_elem (buf : Bytes) (n : Nat) (hn : n < 10 ^ 10) :
    wire [contentElem buf n] = some (line (str "Content-Length", dec n) ++ CRLF) := by
  have hl := (dec_length n 9).mpr hn
  have e : str "Content-Length: " ++ dec n ++ CRLF = line (str "Content-Length", dec n) ++ CRLF := by
    have : str "Content-Length: " = str "Content-Length" ++ str ": " := by decide
    rw [this]; simp [line]
  rw [← e, contentElem]
  have hlen : (str "Content-Length: " ++ dec n ++ CRLF).length ≤ 28 := by
    have h1 : (str "Content-Length: ").length = 16 := by decide
    have h2 : CRLF.length = 2 := by decide
    simp only [List.length_append, h1, h2]; omega
  generalize str "Content-Length: " ++ dec n ++ CRLF = t at hlen
  have ht : t.take 28 = t := List.take_of_length_le hlen
  simp [wire, snprintf, ht]

theorem status_ok (version : Bytes) (st : Status) (hst : Listed st) : ∃ l0, statusCode l0 = some (code st) ∧ 13 ∉ l0 ∧ l0 ≠ [] ∧
    statusLine version st = l0 ++ CRLF ++ line (str "Server", str "cio http/" ++ version) ++ CRLF := by
  have key : ∀ (a l0 : Bytes), a = l0 ++ CRLF ++ str "Server: cio http/" → a ++ version ++ CRLF =
      l0 ++ CRLF ++ line (str "Server", str "cio http/" ++ version) ++ CRLF := by
    intro a l0 h
    have : str "Server: cio http/" = str "Server" ++ str ": " ++ str "cio http/" := by decide
    rw [h, this]; simp [line]
  cases st with
  | other n => exact hst.elim
  | switchingProtocols => exact ⟨str "HTTP/1.1 101 Switching Protocols", by decide, by decide, by decide, key _ _ (by decide)⟩
  | ok => exact ⟨str "HTTP/1.1 200 OK", by decide, by decide, by decide, key _ _ (by decide)⟩
  | badRequest => exact ⟨str "HTTP/1.1 400 Bad Request", by decide, by decide, by decide, key _ _ (by decide)⟩
  | notFound => exact ⟨str "HTTP/1.1 404 Not Found", by decide, by decide, by decide, key _ _ (by decide)⟩
  | timeout => exact ⟨str "HTTP/1.1 408 Request Timeout", by decide, by decide, by decide, key _ _ (by decide)⟩
  | internalServerError => exact ⟨str "HTTP/1.1 500 Internal Server Error", by decide, by decide, by decide, key _ _ (by decide)⟩

/-- A header made of proper fields is read back. -/
theorem read_ok (l0 : Bytes) (st : Nat) (fs : List (Bytes × Bytes)) (body : Bytes) (h0 : statusCode l0 = some st) (h1 : 13 ∉ l0) (h2 : l0 ≠ [])
    (hf : ∀ f ∈ fs, Proper f) :
    read (l0 ++ CRLF ++ (fs.map (fun f => line f ++ CRLF)).flatten ++ CRLF ++ body) = some { status := st, fields := fs, body := body } := by
  have e : l0 ++ CRLF ++ (fs.map (fun f => line f ++ CRLF)).flatten ++ CRLF ++ body =
      (((l0 :: fs.map line).map (· ++ CRLF)).flatten ++ (CRLF ++ body)) := by
    simp only [List.map_cons, List.map_map, List.flatten_cons, List.append_assoc]; rfl
  have hlen : ∀ ls : List Bytes, ls.length ≤ ((ls.map (· ++ CRLF)).flatten).length := by
    intro ls
    induction ls with
    | nil => simp
    | cons l ls ih =>
      have : CRLF.length = 2 := by decide
      simp only [List.map_cons, List.flatten_cons, List.length_append, List.length_cons, this]; omega
  rw [Rfc7230.read, e, cutHeader_ok]
  · simp only [h0, fields_ok fs hf]
  · intro l hl
    simp only [List.mem_cons, List.mem_map] at hl
    rcases hl with rfl | ⟨f, hf1, rfl⟩
    · exact ⟨h1, h2⟩
    · exact line_proper f (hf f hf1)
  · have := hlen (l0 :: fs.map line)
    simp only [List.length_append] at this ⊢; omega

/-- The elements between the `Content-Length` line and the empty line. -/
def tailElems (s : Server) (c : Client) (st : Status) : List Elem :=
  if st = .switchingProtocols then [strElem (str "Connection: Upgrade\r\n")]
  else if keepOpen c st then [strElem s.keepaliveHeader, strElem (str "Connection: keep-alive\r\n")]
  else [strElem (str "Connection: close\r\n")]

/-- **C35**: whatever status of the API, whatever complete header lines the user added and whatever body (of less than 10^10 bytes, see
`content_length_*` below), a response that is sent is a well-formed HTTP/1.1 message that states the status asked for, contains the user's
fields, states the length of the body in decimal, whether the connection is kept open, and then carries the body. -/
theorem response_wellformed_partial (s : Server) (c : Client) (st : Status) (body : Option (List Elem)) (flushErr : Err)
    (user : List (Bytes × Bytes)) (keepalive : Bytes × Bytes) (content : Bytes)
    (hst : Listed st) (hw : c.responseWritten = false) (hu : UserHeaders c user)
    (hver : 13 ∉ s.version)
    (hka : s.keepaliveHeader = line keepalive ++ CRLF) (hkp : Proper keepalive)
    (hbody : wire (body.getD []) = some content) (hlen : content.length < 10 ^ 10) :
    ∃ chain w, (writeResponse s c st body true flushErr).sent = some chain ∧ wire chain = some w ∧
      read w = some { status := code st, fields := expectedFields s c st user keepalive content.length, body := content } ∧
      number (dec content.length) = some content.length ∧
      closesAfterwards (writeResponse s c st body true flushErr).client = !keepOpen c st ∧
      (writeResponse s c st body true flushErr).err = flushErr ∧ (writeResponse s c st body true flushErr).client.responseWritten = true ∧
      (writeResponse s c st body true flushErr).closed = false := by
  obtain ⟨l0, g1, g2, g3, g4⟩ := status_ok s.version st hst
  have htot : (match body with | some b => totalSize b | none => 0) = content.length := by
    cases body with
    | none => simp [wire] at hbody; subst hbody; rfl
    | some b =>
      have := wire_length b content hbody
      show (b.map Elem.len).sum % 2 ^ 64 = _
      rw [← this]; exact Nat.mod_eq_of_lt (by omega)
  have he := contentLength_elem c.contentLengthBuffer content.length hlen
  have hproper : ∀ f ∈ expectedFields s c st user keepalive content.length, Proper f := by
    intro f hf
    have hs : Proper (str "Server", str "cio http/" ++ s.version) := by
      refine ⟨(by decide : str "Server" ≠ []), (by decide : 58 ∉ str "Server"), (by decide : 13 ∉ str "Server"), ?_, (by simp [show str "cio http/" = [99, 105, 111, 32, 104, 116, 116, 112, 47] by decide])⟩
      simp only [List.mem_append]; exact fun h => h.elim (by decide) hver
    have hc : Proper (str "Content-Length", dec content.length) := by
      refine ⟨(by decide : str "Content-Length" ≠ []), (by decide : 58 ∉ str "Content-Length"), (by decide : 13 ∉ str "Content-Length"), fun h => (dec_mem _ _ h).1 rfl, fun h => ?_⟩
      have : (32 : UInt8) ∈ dec content.length := List.mem_of_head? h
      exact (dec_mem _ _ this).2.1 rfl
    simp only [expectedFields, List.mem_append, List.mem_singleton] at hf
    rcases hf with ((rfl | hf) | rfl) | hf
    · exact hs
    · exact hu.2 f hf
    · exact hc
    · split at hf
      · simp at hf; subst hf; decide
      · split at hf
        · simp at hf; rcases hf with rfl | rfl
          · exact hkp
          · decide
        · simp at hf; subst hf; decide
  have hread := read_ok l0 (code st) (expectedFields s c st user keepalive content.length) content g1 g2 g3 hproper
  have hsent : (writeResponse s c st body true flushErr).sent = some ([strElem (statusLine s.version st)] ++ c.responseWbh ++
      [contentElem c.contentLengthBuffer content.length] ++ tailElems s c st ++ [strElem CRLF] ++ body.getD []) ∧
      closesAfterwards (writeResponse s c st body true flushErr).client = !keepOpen c st ∧
      (writeResponse s c st body true flushErr).err = flushErr ∧ (writeResponse s c st body true flushErr).client.responseWritten = true ∧
      (writeResponse s c st body true flushErr).closed = false := by
    cases body with
    | none =>
      simp only at htot
      cases st <;> cases hk : c.shouldKeepalive <;> cases hc : c.closeImmediately <;>
        simp [writeResponse, hw, ← htot, startResponseHeader, endResponseHeader, addResponseHeader, addContentLength,
          CONTENT_LENGTH_BUFFER_LENGTH, tailElems, keepOpen, hk, hc, closesAfterwards, contentElem, snprintf] <;> exact hst.elim
    | some b =>
      simp only at htot
      cases st <;> cases hk : c.shouldKeepalive <;> cases hc : c.closeImmediately <;>
        simp [writeResponse, hw, htot, startResponseHeader, endResponseHeader, addResponseHeader, addContentLength,
          CONTENT_LENGTH_BUFFER_LENGTH, tailElems, keepOpen, hk, hc, closesAfterwards, contentElem, snprintf] <;> exact hst.elim
  refine ⟨_, _, hsent.1, ?_, hread, number_dec _, hsent.2⟩
  have ht : wire (tailElems s c st) = some ((((if st = .switchingProtocols then [(str "Connection", str "Upgrade")]
     else if keepOpen c st then [keepalive, (str "Connection", str "keep-alive")]
     else [(str "Connection", str "close")]) : List (Bytes × Bytes)).map (fun f => line f ++ CRLF)).flatten) := by
    unfold tailElems
    split
    · rw [wire_str]; decide
    · split
      · have h1 : [strElem s.keepaliveHeader, strElem (str "Connection: keep-alive\r\n")] =
            [strElem s.keepaliveHeader] ++ [strElem (str "Connection: keep-alive\r\n")] := rfl
        have h2 : str "Connection: keep-alive\r\n" = line (str "Connection", str "keep-alive") ++ CRLF := by decide
        rw [h1, wire_append, wire_str, wire_str, h2, hka]; simp
      · rw [wire_str]; decide
  simp only [wire_append, wire_str, hu.1, he, ht, hbody, Option.bind_some, Option.map_some, g4]
  simp [expectedFields]

/-- The hypotheses are met, and the reader understands the result: a 200 response with one field of the user and a body of five bytes. -/
example : ((writeResponse { version := str "0.0.1", keepaliveHeader := str "Keep-Alive: timeout=5\r\n" }
      (addResponseHeader (newClient (List.replicate 30 7)) (strElem (str "Content-Type: text/plain\r\n"))) .ok
      (some [strElem (str "hel"), strElem (str "lo")]) true SUCCESS).sent.bind wire).bind Rfc7230.read =
    some { status := 200
           fields := [(str "Server", str "cio http/0.0.1"), (str "Content-Type", str "text/plain"), (str "Content-Length", str "5"),
             (str "Keep-Alive", str "timeout=5"), (str "Connection", str "keep-alive")]
           body := str "hello" } := by decide +kernel

example : UserHeaders (addResponseHeader (newClient (List.replicate 30 7)) (strElem (str "Content-Type: text/plain\r\n")))
    [(str "Content-Type", str "text/plain")] := by
  constructor <;> decide +kernel

/-- **C35**/**C26**: a second response to the same request is refused and changes nothing. -/
theorem second_response_refused (s : Server) (c : Client) (st : Status) (body : Option (List Elem)) (armed : Bool) (flushErr : Err)
    (h : c.responseWritten = true) : writeResponse s c st body armed flushErr =
      { err := OPERATION_NOT_PERMITTED, client := c, sent := none, closed := false } := by
  simp [writeResponse, h]

/-- If the response timer cannot be armed nothing is sent, the user's header lines are as before and the connection is closed; the call
nevertheless reports success. -/
theorem arming_failed (s : Server) (c : Client) (st : Status) (body : Option (List Elem)) (flushErr : Err) (h : c.responseWritten = false) :
    (writeResponse s c st body false flushErr).sent = none ∧ (writeResponse s c st body false flushErr).closed = true ∧
    (writeResponse s c st body false flushErr).client.responseWbh = c.responseWbh ∧ (writeResponse s c st body false flushErr).err = SUCCESS := by
  simp [writeResponse, h]

/-- **C35**: a response written after the header of the request was read tells the truth about the connection.  If the request asks for the connection to be kept
(`keep`), neither the server nor an earlier error decided otherwise and the status is none of 400, 408 and 500, the connection goes on behind the response;
otherwise it is closed behind the response; it is not closed before. -/
theorem keepalive_truthful (s : Server) (c : Client) (keep : Bool) (st : Status) (body : Option (List Elem)) (flushErr : Err)
    (hf : c.responseFired = false) (hw : c.responseWritten = false) :
    (onHeadersComplete c keep).2 = false ∧
    (writeResponse s (onHeadersComplete c keep).1 st body true flushErr).closed = false ∧
    (closesAfterwards (writeResponse s (onHeadersComplete c keep).1 st body true flushErr).client = false ↔
      keep = true ∧ c.closeImmediately = false ∧ st ≠ .badRequest ∧ st ≠ .timeout ∧ st ≠ .internalServerError) := by
  refine ⟨by simp [onHeadersComplete, hf], ?_, ?_⟩
  · simp [writeResponse, onHeadersComplete, hw]
  · cases body <;> cases st <;> cases keep <;> cases hc : c.closeImmediately <;>
      simp [writeResponse, onHeadersComplete, hw, closesAfterwards, startResponseHeader, endResponseHeader, addResponseHeader, addContentLength, hc]

/-- **C35**: after an early response the connection is closed as soon as the header has been read if the request asks for that, and only then. -/
theorem early_response_closes (c : Client) (keep : Bool) (hf : c.responseFired = true) : (onHeadersComplete c keep).2 = !keep := by
  simp [onHeadersComplete, hf]

/-! ### Where the code falls short -/

theorem cl_len (n : Nat) : (str "Content-Length: " ++ dec n ++ CRLF).length = (dec n).length + 18 := by
  have h1 : (str "Content-Length: ").length = 16 := by decide
  have h2 : CRLF.length = 2 := by decide
  simp only [List.length_append, h1, h2]; omega

/-- **C35** is false for bodies of 10^10 to 10^11 - 1 bytes: the buffer is one byte short, the line sent ends in CR NUL instead of CR LF, and
no reader can see where the header ends. -/
theorem content_length_garbled (buf : Bytes) (n : Nat) (h1 : 10 ^ 10 ≤ n) (h2 : n < 10 ^ 11) :
    wire [contentElem buf n] = some (str "Content-Length: " ++ dec n ++ [13, 0]) := by
  have hd : (dec n).length = 11 := by
    have a := dec_length n 9
    have b := (dec_length n 10).mpr h2
    omega
  have hl := cl_len n
  have e : str "Content-Length: " ++ dec n ++ CRLF = (str "Content-Length: " ++ dec n ++ [13]) ++ [10] := by
    simp [show CRLF = [13, 10] by decide]
  rw [contentElem, e]; rw [e] at hl
  have hl2 : (str "Content-Length: " ++ dec n ++ [13]).length = 28 := by
    rw [List.length_append] at hl; simp only [List.length_singleton] at hl; omega
  have e2 : str "Content-Length: " ++ dec n ++ [13, 0] = (str "Content-Length: " ++ dec n ++ [13]) ++ [0] := by simp
  rw [e2]
  generalize str "Content-Length: " ++ dec n ++ [13] = t at hl2
  have ht : (t ++ [10]).take 28 = t := by rw [List.take_append_of_le_length (by omega)]; exact List.take_of_length_le (by omega)
  have h3 : (snprintf buf 29 (t ++ [10])).2 = (t ++ [0]) ++ buf.drop 29 := by simp [snprintf, ht, hl2]
  have h4 : (t ++ [10] : Bytes).length = (t ++ [0] : Bytes).length := by simp
  rw [h3, h4, wire, if_pos (by simp), List.take_append_of_le_length (Nat.le_refl _), List.take_of_length_le (Nat.le_refl _)]
  simp [wire]

/-- Bodies of 10^12 bytes and more make the server send memory behind the 30 bytes of the buffer. -/
theorem content_length_overread (buf : Bytes) (hb : buf.length = 30) (n : Nat) (h1 : 10 ^ 12 ≤ n) : wire [contentElem buf n] = none := by
  have hd : 13 ≤ (dec n).length := by
    have a := dec_length n 11
    omega
  have hl := cl_len n
  rw [contentElem]
  generalize str "Content-Length: " ++ dec n ++ CRLF = t at hl
  simp [wire, snprintf, hb]
  omega

example : wire [contentElem (List.replicate 30 7) 12345678901] = some (str "Content-Length: 12345678901\r\x00") := by decide +kernel

/-- The header states that the connection is kept open although it is closed: a response written before the header fields of the request were
read (for example the 404 for an unknown location) always says `keep-alive`; if the request then turns out to ask for the connection to be
closed, it is closed. -/
theorem keepalive_announced_then_closed (s : Server) (garbage : Bytes) (st : Status) (hst : st = .ok ∨ st = .notFound) :
    ∃ chain, (writeResponse s (newClient garbage) st none true SUCCESS).sent = some chain ∧
      (chain.any (fun e => decide (e.mem.take e.len = str "Connection: keep-alive\r\n"))) = true ∧
      (onHeadersComplete (writeResponse s (newClient garbage) st none true SUCCESS).client false).2 = true := by
  have hk : decide ((strElem (str "Connection: keep-alive\r\n")).mem.take (strElem (str "Connection: keep-alive\r\n")).len =
      str "Connection: keep-alive\r\n") = true := by decide
  rcases hst with rfl | rfl
  all_goals
    refine ⟨_, rfl, ?_, rfl⟩
    rw [List.any_eq_true]
    refine ⟨strElem (str "Connection: keep-alive\r\n"), ?_, hk⟩
    simp [startResponseHeader, endResponseHeader, addResponseHeader, addContentLength, newClient]

/-- Every 101 response carries a `Content-Length` field, which RFC 7230, section 3.3.2 forbids. -/
theorem switching_has_content_length (s : Server) (c : Client) (user : List (Bytes × Bytes)) (keepalive : Bytes × Bytes) :
    (str "Content-Length", str "0") ∈ expectedFields s c .switchingProtocols user keepalive 0 := by
  have : dec 0 = str "0" := by decide +kernel
  simp [expectedFields, this]

/-! ### The keep-alive header -/

theorem takeWhile_text (t r : Bytes) (h : (0 : UInt8) ∉ t) : (t ++ 0 :: r).takeWhile (· ≠ 0) = t := by
  induction t with
  | nil => simp
  | cons a t ih =>
    have ha : ¬a = 0 := fun e => h (by simp [e])
    have := ih (fun e => h (by simp [e]))
    simp only [ne_eq, decide_not] at this ⊢
    simp [ha, this]

/-- **C35**: the server can be initialised exactly if the seconds of the header timeout (as the code computes them) have at most nine digits; the
header then is a proper field that states them in decimal. -/
theorem keepalive_header (ns : Nat) :
    initKeepalive ns = if ns / 1000000000 % 2 ^ 32 < 10 ^ 9 then
        some (line (str "Keep-Alive", str "timeout=" ++ dec (ns / 1000000000 % 2 ^ 32)) ++ CRLF)
      else none := by
  rw [initKeepalive]
  generalize ns / 1000000000 % 2 ^ 32 = k
  have e : str "Keep-Alive: timeout=" ++ dec k ++ CRLF = line (str "Keep-Alive", str "timeout=" ++ dec k) ++ CRLF := by
    have : str "Keep-Alive: timeout=" = str "Keep-Alive" ++ str ": " ++ str "timeout=" := by decide
    rw [this]; simp [line]
  have hl : (str "Keep-Alive: timeout=" ++ dec k ++ CRLF).length = (dec k).length + 22 := by
    have h1 : (str "Keep-Alive: timeout=").length = 20 := by decide
    have h2 : CRLF.length = 2 := by decide
    simp only [List.length_append, h1, h2]; omega
  have hz : (0 : UInt8) ∉ str "Keep-Alive: timeout=" ++ dec k ++ CRLF := by
    simp only [List.mem_append, not_or]
    exact ⟨⟨(by decide), fun h => (dec_mem k 0 h).2.2.1 rfl⟩, (by decide)⟩
  have hd := dec_length k 8
  rw [← e]
  generalize str "Keep-Alive: timeout=" ++ dec k ++ CRLF = t at hl hz
  by_cases hk : k < 10 ^ 9
  · have : t.length ≤ 31 := by have := hd.mpr hk; omega
    have ht : t.take 32 = t := List.take_of_length_le (by omega)
    have hs : snprintf (List.replicate KEEPALIVE_MAX_LENGTH 0) KEEPALIVE_MAX_LENGTH t =
        (t.length, t ++ 0 :: (List.replicate 33 0).drop (min t.length 32 + 1)) := by
      rw [snprintf, if_neg (by decide)]; simp only [KEEPALIVE_MAX_LENGTH, Nat.reduceSub, ht]
    rw [if_pos hk, hs]
    show (if t.length ≥ 32 then none else some _) = _
    rw [if_neg (by omega), takeWhile_text _ _ hz]
  · have : ¬(dec k).length ≤ 9 := fun h => hk (hd.mp h)
    rw [if_neg hk]
    show (if t.length ≥ 32 then none else some _) = _
    rw [if_pos (by omega)]

/-- Below 2^32 seconds these are the whole seconds of the timeout. -/
theorem keepalive_seconds_partial (ns : Nat) (h : ns < 10 ^ 9 * 10 ^ 9) :
    ∃ v, initKeepalive ns = some (line (str "Keep-Alive", str "timeout=" ++ v) ++ CRLF) ∧ number v = some (ns / 10 ^ 9) ∧
      Proper (str "Keep-Alive", str "timeout=" ++ v) := by
  have hk : ns / 1000000000 % 2 ^ 32 = ns / 10 ^ 9 := Nat.mod_eq_of_lt (by omega)
  refine ⟨dec (ns / 10 ^ 9), ?_, number_dec _, (by decide : str "Keep-Alive" ≠ []), (by decide : 58 ∉ str "Keep-Alive"),
    (by decide : 13 ∉ str "Keep-Alive"), ?_, ?_⟩
  · rw [keepalive_header, hk, if_pos (by omega)]
  · simp only [List.mem_append, not_or]; exact ⟨(by decide), fun h => (dec_mem _ _ h).1 rfl⟩
  · simp [show str "timeout=" = [116, 105, 109, 101, 111, 117, 116, 61] by decide]

/-- Longer timeouts are cut to 32 bits: with a timeout of 2^32 seconds the server tells its clients that it closes after 0 seconds. -/
theorem keepalive_wraps : initKeepalive (2 ^ 32 * 10 ^ 9) = some (str "Keep-Alive: timeout=0\r\n") := by decide +kernel

example : initKeepalive 5500000000 = some (str "Keep-Alive: timeout=5\r\n") := by decide +kernel

end Cio.HttpResponse
