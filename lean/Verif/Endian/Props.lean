import Verif.Endian.Model
/-
Property theorems for byte order conversion (C09).
-/
namespace Cio.Endian

theorem leBytes_length (n v : Nat) : (leBytes n v).length = n := by
  induction n generalizing v with
  | zero => rfl
  | succ n ih => simp [leBytes, ih]

theorem ofLe_leBytes (n v : Nat) (h : v < 256 ^ n) : ofLe (leBytes n v) = v := by
  induction n generalizing v with
  | zero => simp at h; subst h; rfl
  | succ n ih =>
    simp only [leBytes, ofLe]
    rw [ih (v / 256) (by rw [Nat.pow_succ] at h; omega)]
    simp; omega

theorem leBytes_ofLe (bs : List UInt8) : leBytes bs.length (ofLe bs) = bs := by
  induction bs with
  | nil => rfl
  | cons b bs ih =>
    have hb := b.toNat_lt
    simp only [List.length_cons, leBytes, ofLe]
    congr 1
    · apply UInt8.toNat_inj.mp; simp
    · rw [show (b.toNat + 256 * ofLe bs) / 256 = ofLe bs by omega, ih]

theorem ofLe_lt (bs : List UInt8) : ofLe bs < 256 ^ bs.length := by
  induction bs with
  | nil => simp [ofLe]
  | cons b bs ih =>
    have hb := b.toNat_lt
    simp only [ofLe, List.length_cons, Nat.pow_succ]
    omega

/-- Big-endian (network order) bytes of a number: most significant first (specification). -/
def beBytes (n v : Nat) : List UInt8 := (List.range n).map (fun i => UInt8.ofNat (v / 256 ^ (n - 1 - i) % 256))

theorem leBytes_eq (n v : Nat) : leBytes n v = (List.range n).map (fun i => UInt8.ofNat (v / 256 ^ i % 256)) := by
  induction n generalizing v with
  | zero => rfl
  | succ n ih =>
    rw [leBytes, ih, List.range_succ_eq_map, List.map_cons, List.map_map]
    congr 1
    · simp
    · apply List.map_congr_left
      intro i _
      simp only [Function.comp, Nat.pow_succ]
      rw [Nat.div_div_eq_div_mul, Nat.mul_comm 256]

theorem beBytes_eq (n v : Nat) : beBytes n v = (leBytes n v).reverse := by
  rw [leBytes_eq, beBytes]
  apply List.ext_getElem
  · simp
  · intro i h1 h2
    simp

theorem leBytes_bswap (n v : Nat) : leBytes n (bswap n v) = (leBytes n v).reverse := by
  have := leBytes_ofLe (leBytes n v).reverse
  simpa [leBytes_length, bswap] using this

/-- C09: in memory, the converted value is the big-endian byte sequence of the number, on either kind of host. -/
theorem htobe_memory (o : Order) (n v : Nat) : toMem o n (htobe o n v) = beBytes n v := by
  cases o with
  | little => simp [toMem, htobe, leBytes_bswap, beBytes_eq]
  | big => simp [toMem, htobe, beBytes_eq]

/-- C09: in memory, the value converted to little endian is the little-endian byte sequence. -/
theorem htole_memory (o : Order) (n v : Nat) : toMem o n (htole o n v) = (beBytes n v).reverse := by
  cases o with
  | little => simp [toMem, htole, beBytes_eq]
  | big => simp [toMem, htole, leBytes_bswap, beBytes_eq]

theorem bswap_bswap (n v : Nat) (h : v < 256 ^ n) : bswap n (bswap n v) = v := by
  conv => lhs; unfold bswap
  rw [show ofLe (leBytes n v).reverse = bswap n v from rfl, leBytes_bswap, List.reverse_reverse, ofLe_leBytes n v h]

/-- C09: the conversions invert each other for every value of the type. -/
theorem betoh_htobe (o : Order) (n v : Nat) (h : v < 256 ^ n) : betoh o n (htobe o n v) = v := by
  cases o <;> simp [betoh, htobe, bswap_bswap n v h]
theorem htobe_betoh (o : Order) (n v : Nat) (h : v < 256 ^ n) : htobe o n (betoh o n v) = v := by
  cases o <;> simp [betoh, htobe, bswap_bswap n v h]
theorem letoh_htole (o : Order) (n v : Nat) (h : v < 256 ^ n) : letoh o n (htole o n v) = v := by
  cases o <;> simp [letoh, htole, bswap_bswap n v h]
theorem htole_letoh (o : Order) (n v : Nat) (h : v < 256 ^ n) : htole o n (letoh o n v) = v := by
  cases o <;> simp [letoh, htole, bswap_bswap n v h]

/-- C09: reading big-endian bytes from memory gives the number they denote. -/
theorem betoh_of_memory (o : Order) (n v : Nat) (h : v < 256 ^ n) : betoh o n (ofMem o (beBytes n v)) = v := by
  cases o with
  | little =>
    simp only [betoh, ofMem, beBytes_eq]
    exact bswap_bswap n v h
  | big => simp [betoh, ofMem, beBytes_eq, ofLe_leBytes n v h]

/-- Non-vacuity: 0x1234 and 0x0102030405060708. -/
example : toMem .little 2 (htobe .little 2 0x1234) = [0x12, 0x34] ∧ toMem .big 8 (htobe .big 8 0x0102030405060708) =
    [1, 2, 3, 4, 5, 6, 7, 8] ∧ (0x0102030405060708 < 256 ^ 8) := by decide +kernel

end Cio.Endian
