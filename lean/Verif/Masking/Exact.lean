import Verif.Masking.Props
/-
C04: what exactly leaves a client that sends a frame in several chunks, and when exactly that is the masked payload.
-/
namespace Cio.Masking

/-- Continuation chunks as the code masks them: behind each chunk the key is advanced by twice its length (websocket.c 113 and 170). -/
def contSent (mask : Mask) (off : Nat) : List (List UInt8) → List UInt8
  | [] => []
  | c :: cs => xorFrom mask off c ++ contSent mask (off + 2 * c.length) cs

theorem sendContinuations_exact (rest : List (List (Nat × Nat))) (mem : Mem) (mask saved : Mask) (off : Nat)
    (hsaved : saved = fun j => key mask (j.val + off)) (hs : Separate rest.flatten) :
    ∃ mem' saved', sendContinuations mem saved rest = some (mem', saved') ∧
      chainBytes mem' rest.flatten = contSent mask off (rest.map (chainBytes mem)) ∧
      (∀ x, ¬ Covers rest.flatten x → mem' x = mem x) := by
  induction rest generalizing mem saved off with
  | nil => exact ⟨mem, saved, rfl, rfl, fun _ _ => rfl⟩
  | cons c cs ih =>
    rw [List.flatten_cons] at hs
    obtain ⟨hsc, hscs, hdis⟩ := separate_append hs
    obtain ⟨mem1, mask1, a1, a2, a3, a4⟩ := maskWriteBuffer_spec c mem saved hsc
    have hstep : sendContinuationMask mem saved c = some (mem1, correctMask mask1 (totalSize c)) := by
      simp [sendContinuationMask, a1]
    have e0 : xorFrom saved 0 (chainBytes mem c) = xorFrom mask off (chainBytes mem c) := by
      apply xorFrom_congr
      intro i
      rw [hsaved, key_rotate]; apply key_add4; omega
    have e1 : ∀ d ∈ cs, chainBytes mem1 d = chainBytes mem d := by
      intro d hd
      apply chainBytes_congr
      intro x hx
      refine a4 x (fun hc => hdis x hc ?_)
      obtain ⟨p, hp, hx⟩ := hx
      exact ⟨p, List.mem_flatten.mpr ⟨d, hd, hp⟩, hx⟩
    obtain ⟨mem2, saved2, b1, b2, b3⟩ := ih mem1 (correctMask mask1 (totalSize c)) (off + 2 * totalSize c)
      (by
        rw [correctMask_spec, a3, hsaved]
        funext j
        rw [key_rotate, key_rotate]; apply key_add4; omega)
      hscs
    refine ⟨mem2, saved2, by simp only [sendContinuations, hstep]; exact b1, ?_, ?_⟩
    · rw [List.flatten_cons, chainBytes_append, b2, List.map_cons, contSent, chainBytes_length, List.map_congr_left e1]
      congr 1
      rw [← e0, ← a2]
      apply chainBytes_congr
      intro x hx
      exact b3 x (hdis x hx)
    · intro x hx
      rw [List.flatten_cons, covers_append, not_or] at hx
      rw [b3 x hx.2, a4 x hx.1]

/-- C04, exactly: the first chunk of a frame leaves masked as it should be; the key for each further chunk has been advanced by twice the lengths of the
further chunks before it. -/
theorem chunks_sent_exactly (mem : Mem) (mask saved : Mask) (frameLength : Nat) (first : List (Nat × Nat))
    (rest : List (List (Nat × Nat))) (hs : Separate (first ++ rest.flatten)) (hl : totalSize first < frameLength) :
    ∃ mem', sendChunks mem mask saved frameLength first rest = some mem' ∧
      chainBytes mem' (first ++ rest.flatten) = xorFrom mask 0 (chainBytes mem first) ++ contSent mask (totalSize first) (rest.map (chainBytes mem)) := by
  obtain ⟨hf, hr, hdis⟩ := separate_append hs
  obtain ⟨mem1, mask1, a1, a2, a3, a4⟩ := maskWriteBuffer_spec first mem mask hf
  obtain ⟨mem2, saved2, b1, b2, b3⟩ := sendContinuations_exact rest mem1 mask mask1 (totalSize first) a3 hr
  refine ⟨mem2, ?_, ?_⟩
  · simp [sendChunks, sendFirstMask, a1, hl, b1]
  · have e1 : ∀ d ∈ rest, chainBytes mem1 d = chainBytes mem d := by
      intro d hd
      apply chainBytes_congr
      intro x hx
      refine a4 x (fun hc => hdis x hc ?_)
      obtain ⟨p, hp, hx⟩ := hx
      exact ⟨p, List.mem_flatten.mpr ⟨d, hd, hp⟩, hx⟩
    rw [chainBytes_append, b2, List.map_congr_left e1]
    congr 1
    rw [← a2]
    exact chainBytes_congr _ _ _ (fun x hx => b3 x (hdis x hx))

/-- The four octets of the key differ. -/
def Distinct (mask : Mask) : Prop := ∀ i j, mask i = mask j → i = j

theorem key_inj {mask : Mask} (hd : Distinct mask) (a b : Nat) : key mask a = key mask b ↔ a % 4 = b % 4 := by
  constructor
  · intro h
    exact Fin.mk.inj (hd _ _ h)
  · intro h
    unfold key
    simp only [h]

theorem xorFrom_eq_iff {mask : Mask} (hd : Distinct mask) (a b : Nat) (d : List UInt8) : xorFrom mask a d = xorFrom mask b d ↔ d = [] ∨ a % 4 = b % 4 := by
  constructor
  · intro h
    cases d with
    | nil => exact .inl rfl
    | cons x d =>
      right
      rw [xorFrom, xorFrom] at h
      injection h with h1 h2
      exact (key_inj hd a b).mp ((UInt8.xor_right_inj x).mp h1)
  · rintro (rfl | h)
    · rfl
    · apply xorFrom_congr
      intro i
      apply key_add4; omega

theorem contSent_iff {mask : Mask} (hd : Distinct mask) (a b : Nat) (ds : List (List UInt8)) :
    contSent mask a ds = xorFrom mask b ds.flatten ↔
      ∀ pre c post, ds = pre ++ c :: post → c ≠ [] → (a + 2 * pre.flatten.length) % 4 = (b + pre.flatten.length) % 4 := by
  induction ds generalizing a b with
  | nil =>
    refine ⟨fun _ pre c post h => ?_, fun _ => rfl⟩
    have := congrArg List.length h
    simp at this
  | cons d ds ih =>
    rw [contSent, List.flatten_cons, xorFrom_append]
    have hlen : (xorFrom mask a d).length = (xorFrom mask b d).length := by rw [xorFrom_length, xorFrom_length]
    constructor
    · intro h pre c post he hc
      obtain ⟨h1, h2⟩ := List.append_inj h hlen
      cases pre with
      | nil =>
        injection he with e1 e2
        subst e1
        simpa using ((xorFrom_eq_iff hd a b d).mp h1).resolve_left hc
      | cons p pre =>
        injection he with e1 e2
        subst e1
        have := (ih _ _).mp h2 pre c post e2 hc
        rw [List.flatten_cons, List.length_append]
        omega
    · intro h
      congr 1
      · rw [xorFrom_eq_iff hd]
        by_cases hn : d = []
        · exact .inl hn
        · right
          simpa using h [] d ds rfl hn
      · rw [ih]
        intro pre c post he hc
        have := h (d :: pre) c post (by rw [he]; rfl) hc
        rw [List.flatten_cons, List.length_append] at this
        omega

/-- C04: with a key of four different octets a frame sent in chunks leaves masked like the whole payload if and only if the further chunks that come before a
non-empty further chunk have together a length that is a multiple of four. -/
theorem chunks_masked_as_whole_iff (mem : Mem) (mask saved : Mask) (frameLength : Nat) (first : List (Nat × Nat))
    (rest : List (List (Nat × Nat))) (hs : Separate (first ++ rest.flatten)) (hl : totalSize first < frameLength) (hd : Distinct mask) :
    (∃ mem', sendChunks mem mask saved frameLength first rest = some mem' ∧
      chainBytes mem' (first ++ rest.flatten) = xorFrom mask 0 (chainBytes mem (first ++ rest.flatten))) ↔
      ∀ pre c post, rest = pre ++ c :: post → totalSize c ≠ 0 → totalSize pre.flatten % 4 = 0 := by
  obtain ⟨mem', h1, h2⟩ := chunks_sent_exactly mem mask saved frameLength first rest hs hl
  have hfl : ∀ l : List (List (Nat × Nat)), (l.map (chainBytes mem)).flatten = chainBytes mem l.flatten := by
    intro l
    induction l with
    | nil => rfl
    | cons x l ih => rw [List.map_cons, List.flatten_cons, ih, List.flatten_cons, chainBytes_append]
  have key : chainBytes mem' (first ++ rest.flatten) = xorFrom mask 0 (chainBytes mem (first ++ rest.flatten)) ↔
      ∀ pre c post, rest = pre ++ c :: post → totalSize c ≠ 0 → totalSize pre.flatten % 4 = 0 := by
    rw [h2, chainBytes_append, xorFrom_append, chainBytes_length, Nat.zero_add, List.append_cancel_left_eq, ← hfl, contSent_iff hd]
    constructor
    · intro h pre c post he hc
      have := h (pre.map (chainBytes mem)) (chainBytes mem c) (post.map (chainBytes mem)) (by rw [he]; simp)
        (fun hn => hc (by rw [← chainBytes_length mem c, hn]; rfl))
      rw [hfl, chainBytes_length] at this
      omega
    · intro h pre c post he hc
      obtain ⟨pre', y, e1, e2, e3⟩ := List.map_eq_append_iff.mp he
      obtain ⟨c', post', e4, e5, e6⟩ := List.map_eq_cons_iff.mp e3
      subst e4 e2 e5
      have := h pre' c' post' e1 (fun hn => hc (List.eq_nil_of_length_eq_zero (by rw [chainBytes_length]; exact hn)))
      rw [hfl, chainBytes_length]
      omega
  constructor
  · rintro ⟨m, k1, k2⟩
    rw [h1] at k1
    injection k1 with k1
    subst k1
    exact key.mp k2
  · intro h
    exact ⟨mem', h1, key.mpr h⟩

/-- Non-vacuity: a key of different octets; further chunks of 4 and then 3 bytes are fine, of 3 and then 4 bytes are not. -/
example : Distinct cexMask := by unfold Distinct cexMask; decide
example : (∀ pre c post, [[(1, 4)], [(5, 3)]] = pre ++ c :: post → totalSize c ≠ 0 → totalSize pre.flatten % 4 = 0) ∧
    ¬ ∀ pre c post, [[(1, 3)], [(4, 4)]] = pre ++ c :: post → totalSize c ≠ 0 → totalSize pre.flatten % 4 = 0 := by
  constructor
  · intro pre c post h _
    match pre, h with
    | [], _ => rfl
    | [p], h => injection h with h1 h2; subst h1; rfl
    | p :: q :: r, h =>
      have := congrArg List.length h
      simp at this
  · intro h
    exact absurd (h [[(1, 3)]] [(4, 4)] [] rfl (by decide)) (by decide)

end Cio.Masking
