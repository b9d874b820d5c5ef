import Verif.Common
import Verif.Endian.Props
/-
Small functions of the Linux and Windows ports: entropy (C60) and, for Windows, byte order (C09).
-/
namespace Cio.Entropy

/-! ### Model -/

/-- EIO on Linux. -/
def IO_ERROR : Err := -5

/-- `cio_entropy_get_bytes` of Linux, /repo/lib/src/platform/linux/random.c 36-44: the content of the buffer `old` afterwards and the returned
code.  `source n` is what getentropy(3) does when asked for `n` bytes. -/
def linux (source : BitVec 64 → Except Err (List UInt8)) (old : List UInt8) (numBytes : BitVec 64) : List UInt8 × Err :=
  match source numBytes with
  | .error e => (old, e)
  | .ok b => (b ++ old.drop b.length, SUCCESS)

/-- `cio_entropy_get_bytes` of Windows, /repo/lib/src/platform/windows/random.c 42-50.  `source n` is what BCryptGenRandom does when asked for
`n` bytes; the number is cut to 32 bits by the cast to ULONG. -/
def windows (source : BitVec 32 → Except Err (List UInt8)) (old : List UInt8) (numBytes : BitVec 64) : List UInt8 × Err :=
  match source (numBytes.setWidth 32) with
  | .error _ => (old, INVALID_ARGUMENT)
  | .ok b => (b ++ old.drop b.length, SUCCESS)

/-! ### Specification -/

/-- A source gives as many bytes as it was asked for, or an error. -/
def Honest {w : Nat} (source : BitVec w → Except Err (List UInt8)) : Prop :=
  ∀ n, (∃ b, source n = .ok b ∧ b.length = n.toNat) ∨ ∃ e, e ≠ SUCCESS ∧ source n = .error e

/-- All `n` bytes of the buffer come from the source (asked once) and nothing behind them is touched. -/
def Filled {w : Nat} (source : BitVec w → Except Err (List UInt8)) (old new : List UInt8) (n : Nat) : Prop :=
  ∃ k b, source k = .ok b ∧ b.length = n ∧ new = b ++ old.drop n

/-! ### Theorems -/

/-- C60, Linux: for every length, success means that all bytes asked for come from the source; otherwise the buffer is unchanged and the
source's error is returned. -/
theorem linux_complete {source : BitVec 64 → Except Err (List UInt8)} (hd : Honest source) (old : List UInt8) (n : BitVec 64) :
    ((linux source old n).2 = SUCCESS → Filled source old (linux source old n).1 n.toNat) ∧
    ((linux source old n).2 ≠ SUCCESS → (linux source old n).1 = old ∧ source n = .error (linux source old n).2) ∧
    ((linux source old n).2 = SUCCESS ↔ ∃ b, source n = .ok b) := by
  rcases hd n with ⟨b, hb, hl⟩ | ⟨e, he, hb⟩
  · have h : linux source old n = (b ++ old.drop b.length, SUCCESS) := by unfold linux; rw [hb]
    rw [h]
    exact ⟨fun _ => ⟨n, b, hb, hl, by rw [hl]⟩, fun x => absurd rfl x, fun _ => ⟨b, hb⟩, fun _ => rfl⟩
  · have h : linux source old n = (old, e) := by unfold linux; rw [hb]
    rw [h]
    exact ⟨fun x => absurd x he, fun _ => ⟨rfl, hb⟩, fun x => absurd x he, fun ⟨b, hx⟩ => by rw [hb] at hx; cases hx⟩

/-- C60, Windows, below 4 GiB: success means that all bytes asked for come from the source; otherwise the buffer is unchanged and an error is
returned. -/
theorem windows_complete_partial {source : BitVec 32 → Except Err (List UInt8)} (hd : Honest source) (old : List UInt8) (n : BitVec 64)
    (hn : n.toNat < 4294967296) :
    ((windows source old n).2 = SUCCESS → Filled source old (windows source old n).1 n.toNat) ∧
    ((windows source old n).2 ≠ SUCCESS → (windows source old n).1 = old ∧ ∃ e, source (n.setWidth 32) = .error e) ∧
    ((windows source old n).2 = SUCCESS ↔ ∃ b, source (n.setWidth 32) = .ok b) := by
  have hw : (n.setWidth 32).toNat = n.toNat := by rw [BitVec.toNat_setWidth]; exact Nat.mod_eq_of_lt hn
  rcases hd (n.setWidth 32) with ⟨b, hb, hl⟩ | ⟨e, he, hb⟩
  · have h : windows source old n = (b ++ old.drop b.length, SUCCESS) := by unfold windows; rw [hb]
    rw [h]
    rw [hw] at hl
    exact ⟨fun _ => ⟨_, b, hb, hl, by rw [hl]⟩, fun x => absurd rfl x, fun _ => ⟨b, hb⟩, fun _ => rfl⟩
  · have h : windows source old n = (old, INVALID_ARGUMENT) := by unfold windows; rw [hb]
    rw [h]
    have hne : INVALID_ARGUMENT ≠ SUCCESS := by decide
    exact ⟨fun x => absurd x hne, fun _ => ⟨rfl, e, hb⟩, fun x => absurd x hne, fun ⟨b, hx⟩ => by rw [hb] at hx; cases hx⟩

/-- C60 fails on Windows for 4 GiB: success is reported and nothing was written. -/
theorem windows_truncated {source : BitVec 32 → Except Err (List UInt8)} (hd : Honest source) (old : List UInt8) (hok : ∃ b, source 0#32 = .ok b) :
    windows source old 4294967296#64 = (old, SUCCESS) := by
  have h0 : (4294967296#64).setWidth 32 = 0#32 := by decide
  unfold windows
  rw [h0]
  obtain ⟨b, hb⟩ := hok
  rcases hd 0#32 with ⟨b', hb', hl⟩ | ⟨e, he, hb'⟩
  · rw [hb']
    have : b' = [] := List.length_eq_zero_iff.mp hl
    subst this; rfl
  · rw [hb] at hb'; cases hb'

/-- getentropy(3): at most 256 bytes. -/
def getentropy (pool : Nat → UInt8) (n : BitVec 64) : Except Err (List UInt8) :=
  if n.toNat ≤ 256 then .ok ((List.range n.toNat).map pool) else .error IO_ERROR

/-- The hypothesis is met: getentropy is such a source; sixteen bytes are delivered, 257 are refused. -/
theorem getentropy_honest (pool : Nat → UInt8) : Honest (getentropy pool) := by
  intro n
  unfold getentropy
  by_cases h : n.toNat ≤ 256
  · rw [if_pos h]; exact .inl ⟨_, rfl, by simp⟩
  · rw [if_neg h]; exact .inr ⟨_, by decide, rfl⟩

example : linux (getentropy UInt8.ofNat) [9, 9, 9, 9] 3#64 = ([0, 1, 2, 9], SUCCESS) ∧ linux (getentropy UInt8.ofNat) [9] 257#64 = ([9], IO_ERROR) := by decide

example : Honest (w := 32) (fun n => .ok (List.replicate n.toNat 7)) := fun n => .inl ⟨_, rfl, by simp⟩

end Cio.Entropy

namespace Cio.Windows.Endian

open Cio.Endian

/-- `cio_htobe16/32/64`, /repo/lib/src/platform/windows/endian.c 50-63, on little-endian hosts (the branch for big-endian hosts uses undeclared
names and does not compile). -/
def htobe (n v : Nat) : Nat := bswap n v
/-- `cio_be16/32/64toh`, endian.c 35-48. -/
def betoh (n v : Nat) : Nat := bswap n v
/-- `cio_htole16/32/64`, endian.c 80-93. -/
def htole (_ v : Nat) : Nat := v
/-- `cio_le16/32/64toh`, endian.c 65-78. -/
def letoh (_ v : Nat) : Nat := v

/-- C09 on Windows: in memory, the converted value is the big-endian (little-endian) byte sequence of the number. -/
theorem memory (n v : Nat) : toMem .little n (htobe n v) = beBytes n v ∧ toMem .little n (htole n v) = (beBytes n v).reverse :=
  ⟨htobe_memory .little n v, htole_memory .little n v⟩

/-- C09 on Windows: the conversions invert each other, and reading big-endian bytes gives the number they denote. -/
theorem inverse (n v : Nat) (h : v < 256 ^ n) :
    betoh n (htobe n v) = v ∧ htobe n (betoh n v) = v ∧ letoh n (htole n v) = v ∧ htole n (letoh n v) = v ∧ betoh n (ofMem .little (beBytes n v)) = v :=
  ⟨betoh_htobe .little n v h, htobe_betoh .little n v h, rfl, rfl, betoh_of_memory .little n v h⟩

example : toMem .little 4 (htobe 4 0x12345678) = [0x12, 0x34, 0x56, 0x78] ∧ (0x12345678 < 256 ^ 4) := by decide +kernel

end Cio.Windows.Endian
