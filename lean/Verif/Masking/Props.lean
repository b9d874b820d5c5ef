import Verif.Masking.Lemmas
/-
Property theorems for masking (C03, C04).
-/
namespace Cio.Masking

/-- C03: `cio_websocket_mask` XORs byte `i` of the buffer with octet `i mod 4` of the key and changes no other byte
of memory, at every address and for every length. -/
theorem websocket_mask_correct (mem : Mem) (buffer length : Nat) (mask : Mask) (x : Nat) :
    websocketMask mem buffer length mask x =
      if buffer ≤ x ∧ x < buffer + length then mem x ^^^ mask ⟨(x - buffer) % 4, Nat.mod_lt _ (by decide)⟩
      else mem x :=
  websocketMask_spec mem buffer length mask x

/-- C03: the same on the contents of the buffer. -/
theorem websocket_mask_bytes (mem : Mem) (buffer length : Nat) (mask : Mask) :
    bytesAt (websocketMask mem buffer length mask) buffer length = xorFrom mask 0 (bytesAt mem buffer length) :=
  bytesAt_masked mem buffer length mask

/-- C03: masking twice with the same key restores the memory. -/
theorem websocket_mask_involutive (mem : Mem) (buffer length : Nat) (mask : Mask) :
    websocketMask (websocketMask mem buffer length mask) buffer length mask = mem := by
  funext x
  rw [websocketMask_spec, websocketMask_spec]
  split
  · rw [UInt8.xor_assoc, UInt8.xor_self, UInt8.xor_zero]
  · rfl

/-- C03: unmasking at a different address, e.g. at the receiver, gives the original bytes. -/
theorem websocket_mask_unmask (mem mem2 : Mem) (a b length : Nat) (mask : Mask)
    (hcopy : bytesAt mem2 b length = bytesAt (websocketMask mem a length mask) a length) :
    bytesAt (websocketMask mem2 b length mask) b length = bytesAt mem a length := by
  rw [websocket_mask_bytes, hcopy, websocket_mask_bytes, xorFrom_involutive]

/-- `cio_websocket_correct_mask` turns the key for offset 0 into the key for offset `n`, so that a payload can be
masked or unmasked piecewise. -/
theorem correct_mask_correct (mask : Mask) (n : Nat) (bs : List UInt8) :
    xorFrom (correctMask mask n) 0 bs = xorFrom mask n bs := by
  apply xorFrom_congr
  intro i
  rw [correctMask_spec, key_rotate]; apply key_add4; omega

/-- C04 (one chunk): a chain of separate buffers is masked like the concatenated payload; memory outside the chain is
untouched.  In particular the in-place rotation of the key stays within its four bytes. -/
theorem mask_write_buffer_correct (mem : Mem) (mask : Mask) (chain : List (Nat × Nat)) (hs : Separate chain) :
    ∃ mem' mask', maskWriteBuffer mem mask chain = some (mem', mask') ∧
      chainBytes mem' chain = xorFrom mask 0 (chainBytes mem chain) ∧
      (∀ bs, xorFrom mask' 0 bs = xorFrom mask (totalSize chain) bs) ∧
      (∀ x, ¬ Covers chain x → mem' x = mem x) := by
  obtain ⟨mem', mask', h1, h2, h3, h4⟩ := maskWriteBuffer_spec chain mem mask hs
  refine ⟨mem', mask', h1, h2, ?_, h4⟩
  intro bs
  apply xorFrom_congr
  intro i
  rw [h3, key_rotate]; apply key_add4; omega

/-- C04, full claim for a frame sent in chunks: for separate buffers and a first chunk that is shorter than the announced
frame, all chunks together are masked like the whole payload. -/
def ChunksMaskedAsWhole : Prop :=
  ∀ (mem : Mem) (mask saved : Mask) (frameLength : Nat) (first : List (Nat × Nat)) (rest : List (List (Nat × Nat))),
    Separate (first ++ rest.flatten) → totalSize first < frameLength →
    ∃ mem', sendChunks mem mask saved frameLength first rest = some mem' ∧
      chainBytes mem' (first ++ rest.flatten) = xorFrom mask 0 (chainBytes mem (first ++ rest.flatten))

/-- C04 (partial): the full claim holds when every continuation chunk except the last one is a multiple of four bytes
long - in particular for every frame sent in two chunks.  Missing: other lengths, for which the claim is false
(`chunks_not_masked_as_whole`), because websocket.c 168-170 advances the saved key twice. -/
theorem chunks_masked_as_whole_partial (mem : Mem) (mask saved : Mask) (frameLength : Nat) (first : List (Nat × Nat))
    (rest : List (List (Nat × Nat))) (hs : Separate (first ++ rest.flatten)) (hl : totalSize first < frameLength)
    (h4 : ∀ c ∈ rest.dropLast, totalSize c % 4 = 0) :
    ∃ mem', sendChunks mem mask saved frameLength first rest = some mem' ∧
      chainBytes mem' (first ++ rest.flatten) = xorFrom mask 0 (chainBytes mem (first ++ rest.flatten)) := by
  obtain ⟨hf, hr, hdis⟩ := separate_append hs
  obtain ⟨mem1, mask1, a1, a2, a3, a4⟩ := maskWriteBuffer_spec first mem mask hf
  obtain ⟨mem2, saved2, b1, b2, b3⟩ := sendContinuations_spec rest mem1 mask mask1 (totalSize first) a3 hr h4
  refine ⟨mem2, ?_, ?_⟩
  · simp [sendChunks, sendFirstMask, a1, hl, b1]
  · rw [chainBytes_append, chainBytes_append, xorFrom_append, b2, chainBytes_length, Nat.zero_add]
    congr 1
    · rw [← a2]
      exact chainBytes_congr _ _ _ (fun x hx => b3 x (hdis x hx))
    · congr 1
      exact chainBytes_congr _ _ _ (fun x hx => a4 x (fun hc => hdis x hc hx))

/-- The key 1, 2, 3, 4 and three one-byte chunks. -/
def cexMask : Mask := fun i => UInt8.ofNat (i.val + 1)

/-- The full claim of C04 is false of the code: with key 01 02 03 04 a three byte frame of zeros sent in three chunks of one
byte leaves as 01 02 04 instead of 01 02 03. -/
theorem chunks_not_masked_as_whole : ¬ ChunksMaskedAsWhole := by
  intro h
  obtain ⟨mem', h1, h2⟩ := h (fun _ => 0) cexMask cexMask 3 [(0, 1)] [[(1, 1)], [(2, 1)]]
    (by
      simp only [Separate, List.flatten_cons, List.flatten_nil, List.append_nil, List.singleton_append,
        List.pairwise_cons, Disjoint]
      refine ⟨?_, ?_, ?_, List.Pairwise.nil⟩ <;> intro q hq <;> simp at hq
      · rcases hq with rfl | rfl <;> intro x <;> simp <;> omega
      · subst hq; intro x; simp; omega)
    (by decide)
  have e : (sendChunks (fun _ => 0) cexMask cexMask 3 [(0, 1)] [[(1, 1)], [(2, 1)]]).map
      (fun m => chainBytes m [(0, 1), (1, 1), (2, 1)]) = some [1, 2, 4] := by decide +kernel
  rw [h1] at e
  simp only [Option.map_some, Option.some.injEq] at e
  simp only [List.flatten_cons, List.flatten_nil, List.append_nil, List.singleton_append] at h2
  rw [e] at h2
  revert h2
  decide +kernel

/-- Non-vacuity: a chain of two separate buffers of odd length at odd addresses. -/
example : Separate [(3, 13), (21, 9)] ∧ totalSize [(3, 13), (21, 9)] = 22 := by
  refine ⟨?_, rfl⟩
  simp only [Separate, List.pairwise_cons, Disjoint]
  refine ⟨?_, ?_, List.Pairwise.nil⟩ <;> intro q hq <;> simp at hq
  subst hq; intro x; simp; omega

/-- Non-vacuity of `chunks_masked_as_whole_partial`: chunks of 3, 4 and 5 bytes of a 12 byte frame. -/
example : Separate ([(0, 3)] ++ [[(3, 4)], [(7, 5)]].flatten) ∧ totalSize [(0, 3)] < 12 ∧
    ∀ c ∈ [[(3, 4)], [(7, 5)]].dropLast, totalSize c % 4 = 0 := by
  refine ⟨?_, by decide, by decide⟩
  simp only [Separate, List.flatten_cons, List.flatten_nil, List.append_nil, List.singleton_append,
    List.pairwise_cons, Disjoint]
  refine ⟨?_, ?_, ?_, List.Pairwise.nil⟩ <;> intro q hq <;> simp at hq
  · rcases hq with rfl | rfl <;> intro x <;> simp <;> omega
  · subst hq; intro x; simp; omega

/-- Non-vacuity: an unaligned buffer of 12 bytes is really changed, its neighbours are not. -/
example : (bytesAt (websocketMask (fun _ => 0) 5 12 cexMask) 4 14) = [0, 1, 2, 3, 4, 1, 2, 3, 4, 1, 2, 3, 4, 0] := by
  decide +kernel

end Cio.Masking
