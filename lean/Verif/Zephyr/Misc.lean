import Verif.Zephyr.AcceptModel
/-
Small functions of the Zephyr port: /repo/lib/src/platform/zephyr/random.c, socket_utils.c, and the functions of server_socket.c that
do not support an option.
-/
namespace Cio.Zephyr.Misc

/-- `cio_entropy_get_bytes`, random.c 37-44: the content of the buffer `old` afterwards and the returned code.  `driver n` is what
`entropy_get_entropy` does when asked for `n` bytes: the bytes, or an error; its result is ignored. -/
def entropyGetBytes (driver : BitVec 16 → Except Err (List UInt8)) (old : List UInt8) (numBytes : BitVec 64) : List UInt8 × Err :=
  match driver (numBytes.truncate 16) with
  | .ok b => (b ++ old.drop b.length, SUCCESS)
  | .error _ => (old, SUCCESS)

/-- A driver that does what it is asked for. -/
def Honest (driver : BitVec 16 → Except Err (List UInt8)) : Prop := ∀ n, ∃ b, driver n = .ok b ∧ b.length = n.toNat

/-- C52: fewer than 65536 bytes of entropy are written completely when the driver does not fail, and nothing behind them is touched. -/
theorem entropy_complete_partial {driver : BitVec 16 → Except Err (List UInt8)} (hd : Honest driver) (old : List UInt8) (numBytes : BitVec 64)
    (hn : numBytes.toNat < 65536) : ∃ b, b.length = numBytes.toNat ∧ driver (numBytes.truncate 16) = .ok b ∧
      entropyGetBytes driver old numBytes = (b ++ old.drop numBytes.toNat, SUCCESS) := by
  obtain ⟨b, h1, h2⟩ := hd (numBytes.truncate 16)
  have hl : b.length = numBytes.toNat := by
    rw [h2]
    show (numBytes.setWidth 16).toNat = _
    rw [BitVec.toNat_setWidth]
    omega
  refine ⟨b, hl, h1, ?_⟩
  unfold entropyGetBytes
  rw [h1]
  dsimp only
  rw [hl]

example : Honest fun n => .ok (List.replicate n.toNat 7) := fun n => ⟨_, rfl, by simp⟩

/-- C52 fails for 65536 bytes: success is reported, but nothing was written. -/
theorem entropy_truncated {driver : BitVec 16 → Except Err (List UInt8)} (hd : Honest driver) (old : List UInt8) :
    entropyGetBytes driver old 65536#64 = (old, SUCCESS) := by
  obtain ⟨b, h1, h2⟩ := hd ((65536#64).truncate 16)
  have hb : b = [] := by
    rw [show ((65536#64).truncate 16).toNat = 0 from rfl] at h2
    exact List.eq_nil_of_length_eq_zero h2
  unfold entropyGetBytes
  rw [h1, hb]
  rfl

/-- C52 fails when the driver fails: success is reported, the buffer is as it was. -/
theorem entropy_failure_hidden (e : Err) (old : List UInt8) (numBytes : BitVec 64) :
    entropyGetBytes (fun _ => .error e) old numBytes = (old, SUCCESS) := rfl

/-- C52: a socket of no address family is refused, and a failure of the network stack is passed on; nothing else fails. -/
theorem socket_create_result (family : Nat) (get : Err) :
    Accept.socketCreate family get < 0 ↔ family = 0 ∨ get < 0 := by
  unfold Accept.socketCreate
  by_cases h : family = 0
  · simp [h, INVALID_ARGUMENT]
  · rw [if_neg h]
    by_cases hg : get < 0
    · simp [hg]
    · simp [hg, h]

end Cio.Zephyr.Misc
