import Verif.WsClose.Model
import Verif.WsRoundTrip.Props
import Verif.WsRecv.Close
/-
C46: a close frame carries the status code and the reason it was asked for, and the peer understands it.
-/
namespace Cio.WsClose
open Masking (Mem Mask chainBytes bytesAt)
open WsSend WsRecv

/-- RFC 6455 section 5.5.1: the body of a close frame with this status code and reason; a control frame has room for 123 bytes of reason. -/
def closeBody (status : Nat) (reason : List UInt8) : List UInt8 := UInt8.ofNat (status / 256) :: UInt8.ofNat status :: reason.take 123

/-- The text of a NUL terminated string (everything before the NUL), and of no string. -/
def textOf : Option (List UInt8) → List UInt8
  | none => []
  | some s => s.takeWhile (· ≠ 0)

/-- A pointer a caller may pass: NULL, or a NUL terminated string. -/
def CString : Option (List UInt8) → Prop
  | none => True
  | some s => 0 ∈ s

theorem beBytes_two (v : Nat) : Endian.beBytes 2 v = [UInt8.ofNat (v / 256), UInt8.ofNat v] := by
  have h (n : Nat) : UInt8.ofNat (n % 256) = UInt8.ofNat n := UInt8.toNat.inj (by simp)
  rw [Endian.beBytes_eq]; simp [Endian.leBytes, h]

theorem code_bytes (o : Endian.Order) (status : Nat) :
    Endian.toMem o 2 (Endian.htobe o 2 (status % 2 ^ 16)) = [UInt8.ofNat (status / 256), UInt8.ofNat status] := by
  rw [Endian.htobe_memory, show (2 : Nat) ^ 16 = 256 ^ 2 from rfl, beBytes_mod, beBytes_two]

theorem getElem_bytesAt (mem : Mem) (a n i : Nat) (h : i < (bytesAt mem a n).length) : (bytesAt mem a n)[i] = mem (a + i) := by
  simp [bytesAt]

/-- The buffer after both copies. -/
theorem bytes_written (mem : Mem) (a : Nat) (c0 c1 : UInt8) (r : List UInt8) (hr : r.length ≤ 123) :
    ∃ mem', ((copyTo mem a bufferSize 0 [c0, c1]).bind fun m => copyTo m a bufferSize 2 r) = some mem' ∧ bytesAt mem' a (2 + r.length) = c0 :: c1 :: r ∧
      ∀ x, ¬ (a ≤ x ∧ x < a + 125) → mem' x = mem x := by
  refine ⟨fun x => if a + 2 ≤ x ∧ x < a + 2 + r.length then r.getD (x - (a + 2)) 0 else
      if a + 0 ≤ x ∧ x < a + 0 + [c0, c1].length then [c0, c1].getD (x - (a + 0)) 0 else mem x, ?_, ?_, ?_⟩
  · rw [copyTo, if_pos (by simp [bufferSize]), Option.bind_some, copyTo, if_pos (by simp [bufferSize]; omega)]
  · apply List.ext_getElem
    · simp [bytesAt]; omega
    · intro i h1 h2
      rw [getElem_bytesAt]
      have h3 : i < 2 + r.length := by simpa [bytesAt] using h1
      match i, h3 with
      | 0, _ => simp
      | 1, _ => simp
      | i + 2, h3 =>
        have h4 : i < r.length := by omega
        rw [if_pos ⟨by omega, by omega⟩, show a + (i + 2) - (a + 2) = i by omega]
        simp [h4]
  · intro x hx
    simp only [List.length_cons, List.length_nil]
    rw [if_neg (by omega), if_neg (by omega)]

/-- `prepare_close_job` puts the status code and the reason into its buffer, and nothing beyond it. -/
theorem prepareClose_body (o : Endian.Order) (mem : Mem) (a status : Nat) (reason : Option (List UInt8)) (n : Nat) (hn : n ≤ (reason.getD []).length) :
    ∃ mem', prepareClose o mem a status reason n = some (mem', (closeBody status ((reason.getD []).take n)).length) ∧
      bytesAt mem' a (closeBody status ((reason.getD []).take n)).length = closeBody status ((reason.getD []).take n) ∧
      ∀ x, ¬ (a ≤ x ∧ x < a + 125) → mem' x = mem x := by
  cases reason with
  | none =>
    obtain ⟨mem', h1, h2, h3⟩ := bytes_written mem a (UInt8.ofNat (status / 256)) (UInt8.ofNat status) [] (by simp)
    refine ⟨mem', ?_, ?_, h3⟩
    · have h4 : ∀ m, copyTo m a bufferSize 2 [] = some m := by
        intro m
        rw [copyTo, if_pos (by simp [bufferSize])]
        congr 1
        funext x
        rw [if_neg (by simp)]
      simp only [prepareClose, code_bytes]
      rw [show (fun m => copyTo m a bufferSize 2 ([] : List UInt8)) = some from funext h4, Option.bind_fun_some] at h1
      rw [h1]
      simp [closeBody]
    · simpa [closeBody] using h2
  | some r =>
    have hn' : n ≤ r.length := hn
    have e : r.take (min n 123) = (r.take n).take 123 := by rw [List.take_take, Nat.min_comm]
    obtain ⟨mem', h1, h2, h3⟩ := bytes_written mem a (UInt8.ofNat (status / 256)) (UInt8.ofNat status) (r.take (min n 123)) (by simp)
    have hl : (r.take (min n 123)).length = min n 123 := by rw [List.length_take]; omega
    refine ⟨mem', ?_, ?_, h3⟩
    · have hb : bufferSize - 2 = 123 := rfl
      have hrd : readFrom r (min n 123) = some (r.take (min n 123)) := by rw [readFrom, if_pos (by omega)]
      rw [prepareClose]
      simp only [code_bytes, hb, hrd, Option.bind_eq_bind, Option.bind_some]
      have : (closeBody status (Option.getD (some r) [] |>.take n)).length = 2 + min n 123 := by
        simp only [Option.getD_some, closeBody, List.length_cons, ← e, hl]; omega
      rw [this]
      have h1' := congrArg (fun x => x.map fun m : Mem => (m, 2 + min n 123)) h1
      simp only [Option.map_some] at h1'
      rw [← h1']
      cases copyTo mem a bufferSize 0 [UInt8.ofNat (status / 256), UInt8.ofNat status] with
      | none => rfl
      | some m =>
        simp only [Option.bind_some]
        cases copyTo m a bufferSize 2 (r.take (min n 123)) <;> rfl
    · have : (closeBody status (Option.getD (some r) [] |>.take n)).length = 2 + (r.take (min n 123)).length := by
        simp only [Option.getD_some, closeBody, List.length_cons, ← e]; omega
      rw [this, h2]
      simp [closeBody, e]

theorem takeWhile_prefix (s : List UInt8) : s.take (s.takeWhile (· ≠ 0)).length = s.takeWhile (· ≠ 0) := by
  have h := List.takeWhile_append_dropWhile (p := (· ≠ 0)) (l := s)
  generalize s.takeWhile (· ≠ 0) = t at h ⊢
  conv => lhs; rw [← h]
  simp

theorem sendClose_frame (o : Endian.Order) (isServer : Bool) (hdr : List UInt8) (hh : hdr.length = 14) (saved : Mask) (rng : Random.Rng) (a : Nat)
    (mem : Mem) (body : List UInt8) (hb : bytesAt mem a body.length = body) (hl : body.length ≤ 125) :
    ∃ f : Frame, sendClose o isServer hdr saved rng a (some (mem, body.length)) = some f.wire ∧ f.Encoded (!isServer) ∧ f.fin = true ∧ f.opcode = 8 ∧ f.payload = body := by
  have hc : chainBytes mem [(a, body.length)] = body := by simpa [chainBytes] using hb
  obtain ⟨r, more, h1, h2, f, h3, h4, h5, h6, h7⟩ := WsRoundTrip.sendFrame_frame o isServer rng
    { type := .close, fin := true, hdr := hdr, mem := mem, saved := saved, chain := [(a, body.length)] }
    ⟨hh, by simp [Masking.Separate], by simp, by simp only [WsRoundTrip.Out1.payload, hc]; simp; omega, by simp⟩
  simp only [WsRoundTrip.Out1.payload, hc, List.flatMap_nil, List.append_nil] at h1 h7
  have : more = [] := by
    cases isServer <;> simp [WsRoundTrip.wireMore] at h2 <;> exact h2
  subst this
  refine ⟨f, ?_, h4, h5, h6, h7⟩
  simp only [sendClose, Option.bind_eq_bind, Option.bind_some, h1]
  rw [h3]; simp

/-- C46: `cio_websocket_close` (and an error of the library) sends one close frame, well-formed for the role, whose body is the status code in network
byte order followed by the reason, of which at most 123 bytes; it writes only into its own buffer and reads no further than the end of the string. -/
theorem close_on_wire (o : Endian.Order) (isServer : Bool) (hdr : List UInt8) (hh : hdr.length = 14) (saved : Mask) (rng : Random.Rng) (mem : Mem) (a status : Nat)
    (reason : Option (List UInt8)) (hr : CString reason) :
    ∃ f : Frame, userClose o isServer hdr saved rng mem a status reason = some f.wire ∧ f.Encoded (!isServer) ∧ f.fin = true ∧ f.opcode = 8 ∧
      f.payload = closeBody status (textOf reason) := by
  have hlen : (closeBody status (textOf reason)).length ≤ 125 := by simp [closeBody]
  suffices h : ∃ mem', prepareCloseString o mem a status reason = some (mem', (closeBody status (textOf reason)).length) ∧
      bytesAt mem' a (closeBody status (textOf reason)).length = closeBody status (textOf reason) by
    obtain ⟨mem', h1, h2⟩ := h
    obtain ⟨f, hf⟩ := sendClose_frame o isServer hdr hh saved rng a mem' _ h2 hlen
    exact ⟨f, by rw [userClose, h1]; exact hf.1, hf.2⟩
  cases reason with
  | none =>
    obtain ⟨mem', h1, h2, -⟩ := prepareClose_body o mem a status none 0 (by simp)
    exact ⟨mem', h1, h2⟩
  | some s =>
    have hs : (0 : UInt8) ∈ s := hr
    obtain ⟨mem', h1, h2, -⟩ := prepareClose_body o mem a status (some s) (s.takeWhile (· ≠ 0)).length
      (by simpa using (List.takeWhile_sublist (p := (· ≠ 0)) (l := s)).length_le)
    rw [Option.getD_some, takeWhile_prefix] at h1 h2
    refine ⟨mem', ?_, h2⟩
    simp only [prepareCloseString, strlen, if_pos hs]
    exact h1

/-- The answer to a close frame carries the status code and the reason that were received. -/
theorem reply_on_wire (o : Endian.Order) (isServer : Bool) (hdr : List UInt8) (hh : hdr.length = 14) (saved : Mask) (rng : Random.Rng) (mem : Mem) (a status : Nat)
    (reason : List UInt8) (hr : reason.length ≤ 123) :
    ∃ f : Frame, replyClose o isServer hdr saved rng mem a status reason = some f.wire ∧ f.Encoded (!isServer) ∧ f.fin = true ∧ f.opcode = 8 ∧
      f.payload = closeBody status reason := by
  have hlen : (closeBody status reason).length ≤ 125 := by simp [closeBody]
  suffices h : ∃ mem', prepareClose o mem a status (if reason.length > 0 then some reason else none) reason.length = some (mem', (closeBody status reason).length) ∧
      bytesAt mem' a (closeBody status reason).length = closeBody status reason by
    obtain ⟨mem', h1, h2⟩ := h
    obtain ⟨f, hf⟩ := sendClose_frame o isServer hdr hh saved rng a mem' _ h2 hlen
    exact ⟨f, by rw [replyClose, h1]; exact hf.1, hf.2⟩
  have hg : (if reason.length > 0 then some reason else none).getD [] = reason := by
    cases reason <;> simp
  obtain ⟨mem', h1, h2, -⟩ := prepareClose_body o mem a status (if reason.length > 0 then some reason else none) reason.length (by rw [hg])
  rw [hg, List.take_length] at h1 h2
  exact ⟨mem', h1, h2⟩

/-- The status code a peer reads in the body. -/
theorem code_read (status : Nat) : (UInt8.ofNat (status / 256)).toNat * 256 + (UInt8.ofNat status).toNat = status % 65536 := by
  simp only [UInt8.toNat_ofNat']
  omega

/-- C46: exactly which close bodies RFC 6455 allows are sent: the code as a 16 bit number must be legal, and the reason well-formed behind its cut. -/
theorem close_body_ok_iff (status : Nat) (reason : List UInt8) :
    CloseBodyOk (closeBody status reason) ↔ LegalCode (status % 65536) ∧ Utf8.WellFormed (reason.take 123) := by
  constructor
  · rintro (h | ⟨b0, b1, r, h, hl, hw⟩)
    · simp [closeBody] at h
    · simp only [closeBody, List.cons.injEq] at h
      obtain ⟨rfl, rfl, rfl⟩ := h
      exact ⟨by rw [← code_read]; exact hl, hw⟩
  · rintro ⟨hl, hw⟩
    exact .inr ⟨_, _, _, rfl, by rw [code_read]; exact hl, hw⟩

/-- C46, the full claim about a user's close: legal code, well-formed reason, then the frame sent is legal. -/
def CloseLegal : Prop := ∀ status reason, LegalCode status → Utf8.WellFormed reason → CloseBodyOk (closeBody status reason)

/-- C46, partial: for reasons of at most 123 bytes.  Missing: longer ones, which are cut at 123 bytes whatever the character there (`reason_cut_in_character`). -/
theorem close_legal_partial (status : Nat) (reason : List UInt8) (hc : LegalCode status) (hw : Utf8.WellFormed reason) (hl : reason.length ≤ 123) :
    CloseBodyOk (closeBody status reason) := by
  rw [close_body_ok_iff, List.take_of_length_le hl, Nat.mod_eq_of_lt (by unfold LegalCode at hc; omega)]
  exact ⟨hc, hw⟩

/-- A reason the receiver's check understands: none, or one that ends with two ASCII characters (see C22 for the check). -/
def Plain (reason : List UInt8) : Prop := reason = [] ∨ ∃ pre x y, reason = pre ++ [x, y] ∧ x.toNat < 128 ∧ y.toNat < 128

theorem accepted (sc : Bool) (o : Endian.Order) (a status : Nat) (reason : List UInt8) (hc : LegalCode status) (hw : Utf8.WellFormed reason)
    (hl : reason.length ≤ 123) (hp : Plain reason) :
    handleClose sc o a (closeBody status reason) = .control 8 (closeBody status reason) :: if sc then [.closed] else [.closeReply status reason] := by
  have h := (close_handled_partial sc o a (closeBody status reason) (by
    rcases hp with rfl | ⟨pre, x, y, rfl, hx, hy⟩
    · left; simp [closeBody]
    · right
      rw [closeBody, List.take_of_length_le hl]
      exact ⟨_ :: _ :: pre, x, y, rfl, by simp, hx, hy⟩)).1 (close_legal_partial status reason hc hw hl)
  rw [h, closeBody, List.take_of_length_le hl, closeAnswer, code_read, Nat.mod_eq_of_lt (by unfold LegalCode at hc; omega)]

/-- C46: the closing handshake of two endpoints, however the transport cuts the bytes.  One side, having sent the frames `fs`, closes with a status code and
a reason; the other side's application gets the frames and is told the code and the reason; it answers, behind the frames `gs` it sent before, with the same
code and reason; the first side is told so and closes.  Partial: the status code is legal, the reason well-formed, of at most 123 bytes and empty or with two
ASCII characters at its end (the receiver's check is wrong for others, C22), and no text messages are in `fs` and `gs` (C18, C20 for these). -/
theorem closing_handshake_partial (o o' : Endian.Order) (server : Bool) (u u' : Utf8.State) (hdr hdr' : List UInt8) (hh : hdr.length = 14) (hh' : hdr'.length = 14)
    (saved saved' : Mask) (rng rng' : Random.Rng) (mem mem' : Mem) (a a' status : Nat) (reason : Option (List UInt8)) (hr : CString reason)
    (hc : LegalCode status) (hw : Utf8.WellFormed (textOf reason)) (hl : (textOf reason).length ≤ 123) (hp : Plain (textOf reason))
    (fs gs : List Frame) (hfs : Legal (!server) 0 fs) (hgs : Legal server 0 gs) (hft : NoTextFrames 0 fs) (hgt : NoTextFrames 0 gs) :
    ∃ close answer, userClose o server hdr saved rng mem a status reason = some close ∧
      replyClose o' (!server) hdr' saved' rng' mem' a' status (textOf reason) = some answer ∧
      (∀ pieces, streamOf pieces = fs.flatMap Frame.wire ++ close →
        seen (outsOf o' (!server) false u' pieces) =
          shownAll 0 fs ++ [.other (.control 8 (closeBody status (textOf reason))), .other (.closeReply status (textOf reason))]) ∧
      ∀ pieces, streamOf pieces = gs.flatMap Frame.wire ++ answer →
        seen (outsOf o server true u pieces) = shownAll 0 gs ++ [.other (.control 8 (closeBody status (textOf reason))), .other .closed] := by
  obtain ⟨f, f1, f2, f3, f4, f5⟩ := close_on_wire o server hdr hh saved rng mem a status reason hr
  obtain ⟨g, g1, g2, g3, g4, g5⟩ := reply_on_wire o' (!server) hdr' hh' saved' rng' mem' a' status (textOf reason) hl
  rw [Bool.not_not] at g2
  have hlen : (closeBody status (textOf reason)).length ≤ 125 := by simp [closeBody]
  refine ⟨f.wire, g.wire, f1, g1, ?_, ?_⟩
  · intro pieces hpc
    rw [close_frame_ends_reading o' (!server) false u' fs hfs f f2 f4 f3 (by rw [f5]; exact hlen) [] pieces (by rw [List.append_nil]; exact hpc) (.inl hft), f5,
      accepted _ _ _ _ _ hc hw hl hp]
    rfl
  · intro pieces hpc
    rw [close_frame_ends_reading o server true u gs hgs g g2 g4 g3 (by rw [g5]; exact hlen) [] pieces (by rw [List.append_nil]; exact hpc) (.inl hgt), g5,
      accepted _ _ _ _ _ hc hw hl hp]
    rfl

/-- The bytes of an ASCII string literal of the source (without the NUL at its end). -/
def literal (s : String) : List UInt8 := s.toList.map fun c => UInt8.ofNat c.toNat

theorem wf_of_ascii (l : List UInt8) (h : ∀ x ∈ l, x.toNat < 128) : Utf8.WellFormed l := by
  induction l with
  | nil => exact Utf8.wf_nil
  | cons x l ih =>
    have hx := h x (by simp)
    have : Utf8.encode x.toNat = [x] := by unfold Utf8.encode; rw [if_pos (by omega)]; simp
    have h2 := Utf8.wf_cons (c := x.toNat) ⟨by omega, by omega⟩ (ih fun y hy => h y (by simp [hy]))
    rw [this] at h2
    exact h2

theorem plain_of_ascii (l : List UInt8) (h : ∀ x ∈ l, x.toNat < 128) (hl : 2 ≤ l.length) : Plain l := by
  right
  have e : l = l.take (l.length - 2) ++ l.drop (l.length - 2) := (List.take_append_drop _ _).symm
  have hd : (l.drop (l.length - 2)).length = 2 := by simp; omega
  match h2 : l.drop (l.length - 2), hd with
  | [x, y], _ =>
    rw [h2] at e
    exact ⟨_, x, y, e, h x (by rw [e]; simp), h y (by rw [e]; simp)⟩

theorem own_closes_table : ∀ c ∈ ownCloses, LegalCode c.1 ∧ (∀ x ∈ literal c.2, x.toNat < 128 ∧ x ≠ 0) ∧ 2 ≤ (literal c.2).length ∧ (literal c.2).length ≤ 123 := by
  decide +kernel

/-- The text contains the word. -/
def mentions (w t : String) : Bool := (List.range (t.toList.length + 1)).any fun i => w.toList.isPrefixOf (t.toList.drop i)

/-- C46: the status codes with which the library fails a connection fit the reasons it gives (RFC 6455 section 7.4.1): 1007 for text that is not UTF-8, 1009 for
frames that are too large, 1000 for the end of the stream, 1011 for errors of its own reading and writing, 1002 for everything else. -/
theorem own_closes_codes : ∀ c ∈ ownCloses, c.1 =
    if mentions "utf8" c.2 then 1007
    else if mentions "to large" c.2 then 1009
    else if mentions "closed by other peer" c.2 then 1000
    else if mentions "error while" c.2 ∨ mentions "ould not" c.2 ∨ mentions "not written" c.2 then 1011
    else 1002 := by decide +kernel

theorem takeWhile_literal (l r : List UInt8) (h : ∀ x ∈ l, x ≠ 0) : (l ++ 0 :: r).takeWhile (· ≠ 0) = l := by
  induction l with
  | nil => simp
  | cons x l ih =>
    have := h x (by simp)
    simp only [List.cons_append]
    rw [List.takeWhile_cons_of_pos (by simpa using this), ih fun y hy => h y (by simp [hy])]

/-- C46: what the library itself sends when it fails a connection is a legal close frame with the code and the uncut text of its error, and a peer that
is this library accepts it: it reports it and answers with the same (or closes if it had begun to close). -/
theorem own_closes_understood (c : Nat × String) (hc : c ∈ ownCloses) (junk : List UInt8) (o o' : Endian.Order) (isServer sc : Bool) (hdr : List UInt8)
    (hh : hdr.length = 14) (saved : Mask) (rng : Random.Rng) (mem : Mem) (a a' : Nat) :
    ∃ f : Frame, userClose o isServer hdr saved rng mem a c.1 (some (literal c.2 ++ 0 :: junk)) = some f.wire ∧ f.Encoded (!isServer) ∧ f.fin = true ∧
      f.opcode = 8 ∧ f.payload = UInt8.ofNat (c.1 / 256) :: UInt8.ofNat c.1 :: literal c.2 ∧ CloseBodyOk f.payload ∧
      handleClose sc o' a' f.payload = .control 8 f.payload :: if sc then [.closed] else [.closeReply c.1 (literal c.2)] := by
  obtain ⟨h1, h2, h3, h4⟩ := own_closes_table c hc
  have ha : ∀ x ∈ literal c.2, x.toNat < 128 := fun x hx => (h2 x hx).1
  obtain ⟨f, f1, f2, f3, f4, f5⟩ := close_on_wire o isServer hdr hh saved rng mem a c.1 (some (literal c.2 ++ 0 :: junk)) (by simp [CString])
  have ht : textOf (some (literal c.2 ++ 0 :: junk)) = literal c.2 := takeWhile_literal _ _ fun x hx => (h2 x hx).2
  rw [ht] at f5
  refine ⟨f, f1, f2, f3, f4, ?_, ?_, ?_⟩
  · rw [f5, closeBody, List.take_of_length_le h4]
  · rw [f5]; exact close_legal_partial _ _ h1 (wf_of_ascii _ ha) h4
  · rw [f5]; exact accepted sc o' a' c.1 _ h1 (wf_of_ascii _ ha) h4 (plain_of_ascii _ ha h3)

/-- C46 is false of the code: a longer reason is cut at 123 bytes even if that is inside a character: 122 letters and an e with acute accent. -/
theorem reason_cut_in_character : Utf8.WellFormed (List.replicate 122 0x61 ++ [0xC3, 0xA9]) ∧ ¬ CloseBodyOk (closeBody 1000 (List.replicate 122 0x61 ++ [0xC3, 0xA9])) := by
  constructor
  · rw [← Utf8.run_zero_iff]; decide +kernel
  · rw [close_body_ok_iff, ← Utf8.run_zero_iff]; decide +kernel
theorem close_not_legal : ¬ CloseLegal := fun h => reason_cut_in_character.2 (h 1000 _ (by decide) reason_cut_in_character.1)

/-- The status code is not checked when a close frame is sent: an illegal one goes out as it is (taken as a 16 bit number), and the peer fails the connection. -/
theorem illegal_code_sent (sc : Bool) (o : Endian.Order) (a status : Nat) (reason : List UInt8) (h : ¬ LegalCode (status % 65536)) :
    ¬ CloseBodyOk (closeBody status reason) ∧ handleClose sc o a (closeBody status reason) = [.fail 1002] := by
  refine ⟨fun hb => h ((close_body_ok_iff _ _).mp hb).1, ?_⟩
  exact (close_status_codes sc o a).2.2.1 _ _ _ (by rw [code_read]; exact h)

/-- C46: the codes that are offered and arrive. -/
theorem offered_codes_sent : offered.filter (fun c => decide (LegalCode (c % 65536))) = [1000, 1001, 1002, 1003, 1007, 1008, 1009, 1010, 1011] := by decide

/-- Of the status codes the library offers to its users, it refuses these four when it receives them. -/
theorem offered_codes_refused : offered.filter (fun c => !decide (LegalCode (c % 65536))) = [1005, 1012, 1013, 1015] := by decide

/-- A reason of one character is sent as it is, and makes the peer read out of bounds (C22). -/
theorem one_character_reason (sc : Bool) (o : Endian.Order) (a : Nat) (c : UInt8) : handleClose sc o a (closeBody 1000 [c]) = [.ub] := by
  exact one_byte_reason_undefined sc o a _ _ _ (by rw [code_read]; decide)

/-- Non-vacuity: status 1001, reason "bye". -/
example : CString (some [98, 121, 101, 0]) ∧ textOf (some [98, 121, 101, 0]) = [98, 121, 101] ∧ Plain [98, 121, 101] ∧ closeBody 1001 [98, 121, 101] = [3, 233, 98, 121, 101] :=
  ⟨by simp [CString], by decide, .inr ⟨[98], 121, 101, rfl, by decide, by decide⟩, by decide⟩
example : (userClose .little true (List.replicate 14 0) (toMask []) ⟨1, 1⟩ (fun _ => 0) 1000 1001 (some [98, 121, 101, 0])) =
    some [0x88, 5, 3, 233, 98, 121, 101] := by decide +kernel

end Cio.WsClose
