import Verif.Base64.Lemmas
/-
Property theorems for the base64 encoder (C05).
-/
namespace Cio.Base64

/-- C05: the encoder never reads outside its table, and a text is what it writes for `bs` exactly if the strict RFC 4648
decoder maps that text to `bs`. -/
theorem b64_encode_correct (bs : List UInt8) :
    ∃ text, encode bs = some text ∧ ∀ t, decode t = some bs ↔ t = text := by
  refine ⟨enc bs, encode_eq bs, fun t => ⟨fun h => (enc_decode t bs h).symm, ?_⟩⟩
  rintro rfl
  exact decode_enc bs

/-- C05: exactly `4 * ceil(n / 3)` characters are written. -/
theorem b64_encode_length (bs : List UInt8) :
    (encode bs).map List.length = some (4 * ((bs.length + 2) / 3)) := by
  rw [encode_eq]; simp [enc_length]

/-- C05: different inputs give different encodings. -/
theorem b64_encode_injective (a b : List UInt8) (h : encode a = encode b) : a = b := by
  rw [encode_eq, encode_eq, Option.some.injEq] at h
  have := decode_enc a
  rw [h, decode_enc b] at this
  exact (Option.some.inj this).symm

/-- Non-vacuity (RFC 4648 test vectors). -/
example : (encode [0x66, 0x6f, 0x6f, 0x62]).map String.ofList = some "Zm9vYg==" := by decide +kernel
example : decode "Zm9vYmE=".toList = some [0x66, 0x6f, 0x6f, 0x62, 0x61] := by decide +kernel

end Cio.Base64
