import Verif.Sha1.Lemmas
/-
C06: `sha1_reset`, `sha1_input`* and `sha1_result` compute SHA-1 of the concatenation of the pieces.
-/
namespace Cio.Sha1

attribute [local irreducible] process processBlock Fips.compress zeroFill put poke padMessage padBytes padLength digestBytes

/-- The first `sha1_result` of a context that holds `m`. -/
theorem result_rep (ctx : Ctx) (m : List UInt8) (h : Rep ctx m) :
    ∃ ctx', result ctx = some (SHA_SUCCESS, some (Fips.sha1 m), ctx') ∧ ctx'.computed = true ∧ ctx'.corrupted = 0 ∧
      digestBytes ctx'.hash = Fips.sha1 m := by
  obtain ⟨c, h1, h2, h3, h4⟩ := padMessage_rep ctx m h
  have hd : digestBytes c.hash = Fips.sha1 m := by rw [digestBytes_eq, h2, Fips.sha1]
  unfold result
  have hc0 : ¬ (ctx.corrupted ≠ 0) := fun hh => hh h.corrupted
  rw [if_neg hc0, h.computed, h1]
  simp only [Bool.false_eq_true, if_false, Option.bind_eq_bind, Option.bind_some, Option.pure_def]
  rw [hd]
  exact ⟨_, rfl, rfl, h4, hd⟩

/-- **C06**.  For every message of fewer than 2^64 bits, however it is cut into pieces, and whatever the context contained before the
reset: every `sha1_input` succeeds, no byte outside of the context's block is touched (the model never ends in `none`), and `sha1_result`
writes the FIPS 180-4 digest of the concatenation. -/
theorem sha1_correct (ctx : Ctx) (hblk : ctx.block.length = 64) (pieces : List (List UInt8))
    (hlen : 8 * pieces.flatten.length < 2 ^ 64) :
    ∃ ctx1 ctx2, inputs (reset ctx) pieces = some (List.replicate pieces.length SHA_SUCCESS, ctx1) ∧
      result ctx1 = some (SHA_SUCCESS, some (Fips.sha1 pieces.flatten), ctx2) := by
  obtain ⟨c1, h1, h2⟩ := inputs_rep pieces (reset ctx) [] (rep_reset ctx hblk) (by simpa using hlen)
  rw [List.nil_append] at h2
  obtain ⟨c2, h3, _⟩ := result_rep c1 _ h2
  exact ⟨c1, c2, h1, h3⟩

/-- **C06**, histories: once a digest was computed, asking again yields the same digest and leaves the context as it is; feeding more data
without a reset is refused with `SHA_STATE_ERROR` and from then on no digest is delivered any more. -/
theorem sha1_after_result (ctx : Ctx) (hblk : ctx.block.length = 64) (pieces : List (List UInt8))
    (hlen : 8 * pieces.flatten.length < 2 ^ 64) :
    ∃ ctx1 ctx2, inputs (reset ctx) pieces = some (List.replicate pieces.length SHA_SUCCESS, ctx1) ∧
      result ctx1 = some (SHA_SUCCESS, some (Fips.sha1 pieces.flatten), ctx2) ∧
      result ctx2 = some (SHA_SUCCESS, some (Fips.sha1 pieces.flatten), ctx2) ∧
      ∀ more, more ≠ [] → ∃ ctx3, input ctx2 more = some (SHA_STATE_ERROR, ctx3) ∧
        result ctx3 = some (SHA_STATE_ERROR, none, ctx3) := by
  obtain ⟨c1, h1, h2⟩ := inputs_rep pieces (reset ctx) [] (rep_reset ctx hblk) (by simpa using hlen)
  rw [List.nil_append] at h2
  obtain ⟨c2, h3, h4, h5, h6⟩ := result_rep c1 _ h2
  refine ⟨c1, c2, h1, h3, ?_, ?_⟩
  · unfold result
    rw [if_neg (fun hh => hh h5), h4, if_pos rfl, h6]
  · intro more hm
    have hl : ¬ more.length = 0 := fun hh => hm (List.length_eq_zero_iff.mp hh)
    refine ⟨{ c2 with corrupted := SHA_STATE_ERROR }, ?_, ?_⟩
    · unfold input
      rw [if_neg hl, h4, if_pos rfl]
    · unfold result
      rw [if_pos (show SHA_STATE_ERROR ≠ 0 by decide)]

/-- A context of uninitialised memory. -/
def garbage : Ctx := ⟨⟨1, 2, 3, 4, 5⟩, 7, 9, 55, List.replicate 64 0xAA, true, 3⟩

/-- The hypotheses hold e.g. for "abc" in two pieces. -/
example : garbage.block.length = 64 ∧ 8 * ([[97, 98], [99]] : List (List UInt8)).flatten.length < 2 ^ 64 := by
  constructor
  · rw [garbage, List.length_replicate]
  · decide

end Cio.Sha1
