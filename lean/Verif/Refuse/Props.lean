import Verif.Refuse.Model
/-
C36: invalid calls are refused, without side effects.
-/
namespace Cio.Refuse

/- ### Specification: what a caller has to provide -/

/-- The pointers that must not be null: whether each of them is present. -/
def required : Call → List Bool
  | .readBufferInit rb data _ => [rb.isSome, data.isSome]
  | .bsInit bs stream => [bs.isSome, stream.isSome]
  | .readAtLeast bs buffer _ handler => [bs.isSome, buffer.isSome, handler.isSome]
  | .readUntil bs buffer delim handler => [bs.isSome, buffer.isSome, delim.isSome, handler.isSome]
  | .readAtMost bs buffer _ handler => [bs.isSome, buffer.isSome, handler.isSome]
  | .bsClose bs => [bs.isSome]
  | .bsWrite bs buffer handler => [bs.isSome, buffer.isSome, handler.isSome]
  | .locationInit location path handler => [location.isSome, path.isSome, handler.isSome]
  | .serverInit server loop config => [server.isSome, loop.isSome, config.isSome]
  | .registerLocation server location => [server.isSome, location.isSome]
  | .wsInit ws onConnect => [ws.isSome, onConnect.isSome]
  | .wsClose ws handler | .wsRead ws handler | .wsWrite ws handler => [ws.isSome, handler.isSome]
  | .wsPing ws _ handler | .wsPong ws _ handler => [ws.isSome, handler.isSome]
  | .wsLocationInit handler onConnect free => [handler.isSome, onConnect.isSome, free.isSome]
  | .bind socket endpoint => [socket.isSome, endpoint.isSome]
  | .socketInit socket loop => [socket.isSome, loop.isSome]
  | .socketClose socket => [socket.isSome]
  | .connect socket endpoint => [socket.isSome, endpoint.isSome]
  | .streamRead stream buffer handler | .streamWrite stream buffer handler => [stream.isSome, buffer.isSome, handler.isSome]
  | .uartInit port loop => [port.isSome, loop.isSome]
  | .uartClose port => [port.isSome]
  | .udsAddress address path => [address.isSome, path.isSome]
  | .inetAddress address data _ => [address.isSome, data.isSome]
  | .inetSocketAddress address inet => [address.isSome, inet.isSome]

/-- The other arguments are in range (if the pointers are present). -/
def InRange : Call → Prop
  | .readBufferInit _ _ size => 0 < size
  | .serverInit _ _ (some c) =>
    c.allocClient.isSome = true ∧ c.freeClient.isSome = true ∧ 0 < c.headerTimeout ∧ 0 < c.bodyTimeout ∧ 0 < c.responseTimeout
  | .wsPing _ (some payload) _ | .wsPong _ (some payload) _ => payload.sum ≤ 125
  | .bind _ (some e) | .connect _ (some e) => e.unspec = false
  | .udsAddress _ (some (0 :: rest)) => rest.length < 108
  | .udsAddress _ (some p) => p.length < 108
  | .inetAddress _ _ length => length = 4 ∨ length = 16
  | _ => True

/-- The call is valid. -/
def Valid (c : Call) : Prop := (∀ b ∈ required c, b = true) ∧ InRange c

/-- A read of more than fits into the buffer. -/
def TooLong : Call → Prop
  | .readAtLeast _ (some b) num _ => b.size < num
  | _ => False

/-- The object is busy with a call of the same kind. -/
def Busy : Call → Prop
  | .wsClose (some ws) _ => ws.close = true
  | .wsWrite (some ws) _ => ws.message = true
  | .wsPing (some ws) _ _ => ws.ping = true
  | .wsPong (some ws) _ _ => ws.pong = true
  | _ => False

/-- The only entry point that acts before it has checked everything. -/
def Late : Call → Prop
  | .wsLocationInit handler onConnect free => handler.isSome = true ∧ free.isSome = true ∧ onConnect = none
  | _ => False

/-- C36: an invalid call is refused with CIO_INVALID_ARGUMENT; nothing is written and nothing is called. -/
theorem invalid_refused_partial (c : Call) (w : List Eff) (h : ¬ Valid c) (hl : ¬ Late c) : exec c w = some (.invalidArgument, w) := by
  cases c with
  | wsPing ws payload handler =>
    cases ws <;> cases handler <;> cases payload <;> simp_all [exec, refuse, isNull, pingOrPong, act, Valid, required, InRange, inLimit]
  | wsPong ws payload handler =>
    cases ws <;> cases handler <;> cases payload <;> simp_all [exec, refuse, isNull, pingOrPong, act, Valid, required, InRange, inLimit]
  | serverInit server loop config =>
    cases server <;> cases loop <;> cases config <;> simp_all [exec, refuse, isNull, orC, act, field, Valid, required, InRange]
    next val =>
    obtain ⟨al, fr, a, b, d⟩ := val
    cases al <;> cases fr <;> cases a <;> cases b <;> cases d <;> simp_all
  | udsAddress address path =>
    cases address <;> cases path <;> simp_all [exec, refuse, isNull, orC, act, field, Valid, required, InRange, pathTooLong]
    next path => cases path with
      | nil => simp_all
      | cons x l => 
        by_cases hx : x = 0
        · subst hx; simp_all [Nat.lt_iff_add_one_le]
        · simp_all [Nat.lt_iff_add_one_le]
  | readBufferInit rb data size => cases rb <;> cases data <;> cases size <;> simp_all [exec, refuse, isNull, orC, act, Valid, required, InRange]
  | inetAddress address data length =>
    cases address <;> cases data <;> simp_all [exec, refuse, isNull, orC, act, Valid, required, InRange]
    have : (length != 4 && length != 16) = true := by simp [h]
    rw [this]
  | bind socket endpoint =>
    cases socket <;> cases endpoint <;> simp_all [exec, refuse, isNull, orC, act, field, Valid, required, InRange]
  | connect socket endpoint =>
    cases socket <;> cases endpoint <;> simp_all [exec, refuse, isNull, orC, act, field, Valid, required, InRange]
  | wsLocationInit handler onConnect free =>
    cases handler <;> cases onConnect <;> cases free <;> simp_all [exec, refuse, isNull, orC, act, wsInit, Valid, required, InRange, Late]
  | readUntil bs buffer delim handler =>
    cases bs <;> cases buffer <;> cases delim <;> cases handler <;> simp_all [exec, refuse, isNull, orC, act, Valid, required, InRange]
  | readAtLeast bs buffer num handler =>
    cases bs <;> cases buffer <;> cases handler <;> simp_all [exec, refuse, isNull, orC, act, Valid, required, InRange]
  | readAtMost bs buffer num handler =>
    cases bs <;> cases buffer <;> cases handler <;> simp_all [exec, refuse, isNull, orC, act, Valid, required, InRange]
  | bsClose a | socketClose a | uartClose a => cases a <;> simp_all [exec, refuse, isNull, orC, act, Valid, required, InRange]
  | bsWrite a b d | locationInit a b d | streamRead a b d | streamWrite a b d =>
    cases a <;> cases b <;> cases d <;> simp_all [exec, refuse, isNull, orC, act, Valid, required, InRange]
  | wsInit a b | bsInit a b | registerLocation a b | wsClose a b | wsRead a b | wsWrite a b | socketInit a b | uartInit a b | inetSocketAddress a b =>
    cases a <;> cases b <;> simp_all [exec, refuse, isNull, orC, act, wsInit, Valid, required, InRange]

/-- C36: a valid call is carried out unless the object is busy or the buffer too small; then it is refused, nothing is written and nothing is called. -/
theorem valid_carried_out (c : Call) (w : List Eff) (h : Valid c) :
    (Busy c → exec c w = some (.notPermitted, w)) ∧ (TooLong c → exec c w = some (.messageTooLong, w)) ∧
    (¬ Busy c → ¬ TooLong c → ∃ w', exec c w = some (.success, .acted :: w')) := by
  cases c with
  | wsPing ws payload handler =>
    cases ws <;> cases handler <;> cases payload <;> simp_all [exec, refuse, isNull, pingOrPong, act, Valid, required, InRange, inLimit, Busy, TooLong]
    next val =>
    have : decide (125 < val.sum) = false := by simp [h]
    simp only [this]
    constructor <;> simp
  | wsPong ws payload handler =>
    cases ws <;> cases handler <;> cases payload <;> simp_all [exec, refuse, isNull, pingOrPong, act, Valid, required, InRange, inLimit, Busy, TooLong]
    next val =>
    have : decide (125 < val.sum) = false := by simp [h]
    simp only [this]
    constructor <;> simp
  | serverInit server loop config =>
    cases server <;> cases loop <;> cases config <;> simp_all [exec, refuse, isNull, orC, act, field, Valid, required, InRange, Busy, TooLong]
    next val =>
    obtain ⟨al, fr, a, b, d⟩ := val
    cases al <;> cases fr <;> cases a <;> cases b <;> cases d <;> simp_all
  | udsAddress address path =>
    cases address <;> cases path <;> simp_all [exec, refuse, isNull, orC, act, field, Valid, required, InRange, pathTooLong, Busy, TooLong]
    next path => cases path with
      | nil => simp_all
      | cons x l => 
        by_cases hx : x = 0
        · subst hx; simp_all; split <;> simp_all <;> omega
        · simp_all; split <;> simp_all <;> omega
  | readBufferInit rb data size => cases rb <;> cases data <;> cases size <;> simp_all [exec, refuse, isNull, orC, act, Valid, required, InRange, Busy, TooLong]
  | inetAddress address data length =>
    cases address <;> cases data <;> simp_all [exec, refuse, isNull, orC, act, Valid, required, InRange, Busy, TooLong]
    rcases h with h | h <;> simp [h]
  | bind socket endpoint =>
    cases socket <;> cases endpoint <;> simp_all [exec, refuse, isNull, orC, act, field, Valid, required, InRange, Busy, TooLong]
  | connect socket endpoint =>
    cases socket <;> cases endpoint <;> simp_all [exec, refuse, isNull, orC, act, field, Valid, required, InRange, Busy, TooLong]
  | wsLocationInit handler onConnect free =>
    cases handler <;> cases onConnect <;> cases free <;> simp_all [exec, refuse, isNull, orC, act, wsInit, Valid, required, InRange, Busy, TooLong]
  | readUntil bs buffer delim handler =>
    cases bs <;> cases buffer <;> cases delim <;> cases handler <;> simp_all [exec, refuse, isNull, orC, act, Valid, required, InRange, Busy, TooLong]
  | readAtLeast bs buffer num handler =>
    cases bs <;> cases buffer <;> cases handler <;> simp_all [exec, refuse, isNull, orC, act, field, Valid, required, InRange, Busy, TooLong]
    intro h
    split <;> simp_all
    omega
  | readAtMost bs buffer num handler =>
    cases bs <;> cases buffer <;> cases handler <;> simp_all [exec, refuse, isNull, orC, act, Valid, required, InRange, Busy, TooLong]
  | bsClose a | socketClose a | uartClose a => cases a <;> simp_all [exec, refuse, isNull, orC, act, Valid, required, InRange, Busy, TooLong]
  | bsWrite a b d | locationInit a b d | streamRead a b d | streamWrite a b d =>
    cases a <;> cases b <;> cases d <;> simp_all [exec, refuse, isNull, orC, act, Valid, required, InRange, Busy, TooLong]
  | wsInit a b | bsInit a b | registerLocation a b | wsClose a b | wsRead a b | wsWrite a b | socketInit a b | uartInit a b | inetSocketAddress a b =>
    cases a <;> cases b <;> simp_all [exec, refuse, isNull, orC, act, wsInit, field, Valid, required, InRange, Busy, TooLong]

/-- C36, negation: a WebSocket location handler without `on_connect` is refused after the handler has been written, websocket_location_handler.c 412-438. -/
theorem late_check (c : Call) (w : List Eff) (h : Late c) : exec c w = some (.invalidArgument, .acted :: w) := by
  cases c with
  | wsLocationInit handler onConnect free =>
    cases handler <;> cases onConnect <;> cases free <;> simp_all [exec, refuse, isNull, orC, act, wsInit, Late]
  | _ => simp [Late] at h

/-- C36: no check reads through a null pointer, whatever the arguments are. -/
theorem checks_defined (c : Call) (w : List Eff) : exec c w ≠ none := by
  by_cases hl : Late c
  · rw [late_check c w hl]; simp
  · by_cases hv : Valid c
    · obtain ⟨h1, h2, h3⟩ := valid_carried_out c w hv
      by_cases hb : Busy c
      · rw [h1 hb]; simp
      · by_cases ht : TooLong c
        · rw [h2 ht]; simp
        · obtain ⟨w', hw⟩ := h3 hb ht
          rw [hw]; simp
    · rw [invalid_refused_partial c w hv hl]; simp

/-- Cases that meet the hypotheses. -/
example : ¬ Valid (.readUntil (some ()) (some ⟨10⟩) none (some ())) ∧ ¬ Late (.readUntil (some ()) (some ⟨10⟩) none (some ())) := by
  simp [Valid, required, Late]

example : ¬ Valid (.serverInit (some ()) (some ()) (some ⟨some (), some (), 1, 0, 1⟩)) := by simp [Valid, required, InRange]

example : ¬ Valid (.wsPing (some ⟨false, false, false, false⟩) (some [100, 26]) (some ())) := by simp [Valid, required, InRange]

example : Valid (.wsPing (some ⟨false, true, false, false⟩) (some [100, 25]) (some ())) ∧ Busy (.wsPing (some ⟨false, true, false, false⟩) (some [100, 25]) (some ())) := by
  simp [Valid, required, InRange, Busy]

example : Valid (.readAtLeast (some ()) (some ⟨10⟩) 11 (some ())) ∧ TooLong (.readAtLeast (some ()) (some ⟨10⟩) 11 (some ())) := by
  simp [Valid, required, InRange, TooLong]

example : Late (.wsLocationInit (some ()) none (some ())) := by simp [Late]

end Cio.Refuse
