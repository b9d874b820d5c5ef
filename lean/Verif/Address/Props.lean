import Verif.Address.Model
/-
Property theorems for addresses (C37).
-/
namespace Cio.Address

/-! ### Specification: how the operating system understands an address (unix(7), ip(7), ipv6(7)) -/

inductive Endpoint where
  | file (path : Bytes)                      -- a path name in the file system
  | abstract (name : Bytes)                  -- a name in the abstract name space
  | inet (addr : Bytes) (port : Nat)
  | inet6 (addr : Bytes) (port flow scope : Nat)
  deriving DecidableEq, Repr

def beNat (b : Bytes) : Nat := b.foldl (fun n x => 256 * n + x.toNat) 0
def leNat (b : Bytes) : Nat := b.foldr (fun x n => x.toNat + 256 * n) 0

/-- `addr` are the `len` bytes that are passed to bind(2) or connect(2). -/
def understand (addr : Bytes) : Option Endpoint :=
  match leNat (addr.take 2) with
  | 1 =>
    match addr.drop 2 with
    | [] => none
    | b :: l => if b = 0 then some (.abstract l) else some (.file ((b :: l).takeWhile (· != 0)))
  | 2 => if addr.length = 16 then some (.inet ((addr.drop 4).take 4) (beNat ((addr.drop 2).take 2))) else none
  | 10 =>
    if addr.length = 28 then
      some (.inet6 ((addr.drop 8).take 16) (beNat ((addr.drop 2).take 2)) (beNat ((addr.drop 4).take 4)) (leNat ((addr.drop 24).take 4)))
    else none
  | _ => none

/-! ### Lemmas -/

theorem strlen_spec {name junk : Bytes} (h : ∀ b ∈ name, b ≠ 0) : strlen (name ++ 0 :: junk) = some name.length := by
  induction name with
  | nil => rfl
  | cons b l ih =>
    have hb : b ≠ 0 := h b (by simp)
    show (if b = 0 then some 0 else (strlen (l ++ 0 :: junk)).map (· + 1)) = _
    rw [if_neg hb, ih (fun x hx => h x (by simp [hx]))]
    rfl

theorem strlen_none {name : Bytes} (h : ∀ b ∈ name, b ≠ 0) : strlen name = none := by
  induction name with
  | nil => rfl
  | cons b l ih =>
    have hb : b ≠ 0 := h b (by simp)
    show (if b = 0 then some 0 else (strlen l).map (· + 1)) = _
    rw [if_neg hb, ih (fun x hx => h x (by simp [hx]))]
    rfl

theorem takeWhile_ne (name junk : Bytes) (h : ∀ b ∈ name, b ≠ 0) : (name ++ 0 :: junk).takeWhile (· != 0) = name := by
  induction name with
  | nil => rfl
  | cons b l ih =>
    have hb : b ≠ 0 := h b (by simp)
    simp [List.takeWhile_cons, hb]
    exact ih (fun x hx => h x (by simp [hx]))

/-- What `initUds` stores. -/
theorem initUds_store (a : SockAddr) (ha : a.sa.length = unionSize) (path : Bytes) (k : Nat) (h2 : udsPathLength path = some k)
    (h3 : k ≤ sunPathSize) (h4 : k ≤ path.length) :
    initUds (some a) (some path) = some (SUCCESS, some ⟨[1, 0] ++ path.take k ++ List.replicate (108 - k) 0 ++ a.sa.drop 110, 2 + k⟩) := by
  have h3' : k ≤ 108 := h3
  have ha' : a.sa.length = 112 := ha
  unfold initUds
  simp only [h2, Option.bind_eq_bind, Option.bind_some]
  rw [if_neg (by omega)]
  have hlen : (path.take k).length = k := by rw [List.length_take]; omega
  have e1 : write a.sa 0 (List.replicate sockaddrUnSize 0) = some (List.replicate 110 0 ++ a.sa.drop 110) := by
    unfold write sockaddrUnSize
    rw [if_pos (by rw [List.length_replicate]; omega)]
    simp
  have e2 : write (List.replicate 110 0 ++ a.sa.drop 110) 0 (host16 AF_UNIX) = some ([1, 0] ++ List.replicate 108 0 ++ a.sa.drop 110) := by
    unfold write
    have : (host16 AF_UNIX).length = 2 := rfl
    rw [if_pos (by rw [this, List.length_append, List.length_replicate]; omega), this]
    show some ([] ++ [1, 0] ++ _) = _
    rw [show List.replicate 110 (0 : UInt8) = [0, 0] ++ List.replicate 108 0 from rfl, List.append_assoc]
    rfl
  have e3 : read path k = some (path.take k) := by unfold read; rw [if_pos h4]
  have e4 : write ([1, 0] ++ List.replicate 108 0 ++ a.sa.drop 110) sunPathOffset (path.take k) =
      some ([1, 0] ++ path.take k ++ List.replicate (108 - k) 0 ++ a.sa.drop 110) := by
    unfold write sunPathOffset
    rw [hlen, if_pos (by simp; omega)]
    congr 1
    rw [show ([1, 0] : Bytes) ++ List.replicate 108 0 ++ a.sa.drop 110 = [1, 0] ++ (List.replicate 108 0 ++ a.sa.drop 110) from rfl]
    rw [List.append_assoc, List.append_assoc, List.append_assoc]
    congr 1
    congr 1
    rw [show 2 + k = ([1, 0] : Bytes).length + k from rfl, List.drop_length_add_append]
    rw [List.drop_append, List.drop_replicate]
    congr 1
    simp only [List.length_replicate]
    rw [show k - 108 = 0 by omega, List.drop_zero]
  rw [e1]
  simp only [Option.bind_some, e2, e3, e4]
  rfl

theorem drop2 (l : Bytes) : ([1, 0] ++ l : Bytes).drop 2 = l := rfl
theorem take2 (l : Bytes) : leNat (([1, 0] ++ l : Bytes).take 2) = 1 := rfl

/-! ### C37: Unix addresses -/

/-- C37: a path name of at least one and at most 107 characters is accepted and understood by the operating system as exactly this path name;
longer ones are refused and the address is left alone.  `mem` is the object that contains the string, with whatever follows it. -/
theorem uds_file (a : SockAddr) (ha : a.sa.length = unionSize) (name junk : Bytes) (hne : name ≠ []) (h0 : ∀ b ∈ name, b ≠ 0) :
    (name.length ≤ 107 → ∃ a', initUds (some a) (some (name ++ 0 :: junk)) = some (SUCCESS, some a') ∧
      understand (a'.sa.take a'.len) = some (.file name) ∧ a'.sa.length = unionSize ∧ isStandardUds a' = some true) ∧
    (107 < name.length → initUds (some a) (some (name ++ 0 :: junk)) = some (INVALID_ARGUMENT, some a)) := by
  cases name with
  | nil => exact absurd rfl hne
  | cons b l =>
    have hb : b ≠ 0 := h0 b (by simp)
    have hs : udsPathLength (b :: l ++ 0 :: junk) = some ((b :: l).length + 1) := by
      show (if b = 0 then (strlen (l ++ 0 :: junk)).map (· + 1) else (strlen (b :: l ++ 0 :: junk)).map (· + 1)) = _
      rw [if_neg hb, strlen_spec h0]; rfl
    constructor
    · intro hle
      have hst := initUds_store a ha (b :: l ++ 0 :: junk) ((b :: l).length + 1) hs (by unfold sunPathSize; omega) (by simp)
      have htake : (b :: l ++ 0 :: junk).take ((b :: l).length + 1) = b :: l ++ [0] := by
        rw [List.take_length_add_append]; rfl
      rw [htake] at hst
      refine ⟨_, hst, ?_, ?_, ?_⟩
      · show understand (([1, 0] ++ (b :: l ++ [0]) ++ _ ++ _ : Bytes).take (2 + ((b :: l).length + 1))) = _
        have : ([1, 0] ++ (b :: l ++ [0]) ++ List.replicate (108 - ((b :: l).length + 1)) 0 ++ List.drop 110 a.sa : Bytes).take (2 + ((b :: l).length + 1)) =
            [1, 0] ++ (b :: l ++ [0]) := by
          rw [List.append_assoc]
          rw [List.take_append_of_le_length (by simp; omega), List.take_of_length_le (by simp; omega)]
        rw [this]
        unfold understand
        rw [take2, drop2]
        show (if b = 0 then _ else some (Endpoint.file ((b :: l ++ [0]).takeWhile (· != 0)))) = _
        rw [if_neg hb, takeWhile_ne _ _ h0]
      · have ha' : a.sa.length = 112 := ha
        simp only [List.length_append, List.length_drop, ha', List.length_replicate, unionSize]
        simp at hle ⊢
        omega
      · unfold isStandardUds getFamily read
        simp [AF_UNIX, hb]
    · intro hgt
      unfold initUds
      simp only [hs, Option.bind_eq_bind, Option.bind_some]
      rw [if_pos (by unfold sunPathSize; omega)]

/-- C37: a name in the abstract name space (a zero byte followed by the name) of at most 107 characters is accepted and understood by the
operating system as exactly this name; longer ones are refused. -/
theorem uds_abstract (a : SockAddr) (ha : a.sa.length = unionSize) (name junk : Bytes) (h0 : ∀ b ∈ name, b ≠ 0) :
    (name.length ≤ 107 → ∃ a', initUds (some a) (some (0 :: name ++ 0 :: junk)) = some (SUCCESS, some a') ∧
      understand (a'.sa.take a'.len) = some (.abstract name) ∧ a'.sa.length = unionSize ∧ isStandardUds a' = some false) ∧
    (107 < name.length → initUds (some a) (some (0 :: name ++ 0 :: junk)) = some (INVALID_ARGUMENT, some a)) := by
  have hs : udsPathLength (0 :: name ++ 0 :: junk) = some (name.length + 1) := by
    show (strlen (name ++ 0 :: junk)).map _ = _
    rw [strlen_spec h0]; rfl
  constructor
  · intro hle
    have hst := initUds_store a ha (0 :: name ++ 0 :: junk) (name.length + 1) hs (by unfold sunPathSize; omega) (by simp)
    have htake : (0 :: name ++ 0 :: junk).take (name.length + 1) = 0 :: name := by
      show (0 :: (name ++ 0 :: junk)).take (name.length + 1) = _
      rw [List.take_succ_cons, List.take_left]
    rw [htake] at hst
    refine ⟨_, hst, ?_, ?_, ?_⟩
    · show understand (([1, 0] ++ (0 :: name) ++ _ ++ _ : Bytes).take (2 + (name.length + 1))) = _
      have : ([1, 0] ++ (0 :: name) ++ List.replicate (108 - (name.length + 1)) 0 ++ List.drop 110 a.sa : Bytes).take (2 + (name.length + 1)) =
          [1, 0] ++ (0 :: name) := by
        rw [List.append_assoc]
        rw [List.take_append_of_le_length (by simp; omega), List.take_of_length_le (by simp; omega)]
      rw [this]
      rfl
    · have ha' : a.sa.length = 112 := ha
      simp only [List.length_append, List.length_drop, ha', List.length_replicate, unionSize]
      simp at hle ⊢
      omega
    · unfold isStandardUds getFamily read
      simp [AF_UNIX]
  · intro hgt
    unfold initUds
    simp only [hs, Option.bind_eq_bind, Option.bind_some]
    rw [if_pos (by unfold sunPathSize; omega)]

/-- The empty string is taken for an abstract name: the function reads behind the end of the string (`none`: outside of the object) … -/
theorem uds_empty_string_overread (a : SockAddr) : initUds (some a) (some [0]) = none := rfl

/-- … and if there happens to be readable memory behind it, uses what it finds there as name. -/
theorem uds_empty_string_picks_up_junk (a : SockAddr) (ha : a.sa.length = unionSize) : ∃ a',
    initUds (some a) (some [0, 120, 121, 0]) = some (SUCCESS, some a') ∧ understand (a'.sa.take a'.len) = some (.abstract [120, 121]) := by
  obtain ⟨a', h1, h2, _, _⟩ := (uds_abstract a ha [120, 121] [] (by decide)).1 (by decide)
  exact ⟨a', h1, h2⟩

/-- Null pointers are refused. -/
theorem uds_null (a : Option SockAddr) (p : Option Bytes) (h : a = none ∨ p = none) : initUds a p = some (INVALID_ARGUMENT, a) := by
  rcases h with h | h
  · subst h; cases p <;> rfl
  · subst h; cases a <;> rfl

/-! ### C37: inet addresses -/

/-- C37: an inet address is accepted exactly with 4 or 16 bytes, and these bytes are stored unchanged. -/
theorem inet_exact (a : InetAddr) (ha : a.bytes.length = 16) (src : Bytes) :
    (src.length = 4 → ∃ a', initInet (some a) (some src) src.length = some (SUCCESS, some a') ∧ a'.family = AF_INET ∧ a'.bytes.take 4 = src ∧ a'.bytes.length = 16) ∧
    (src.length = 16 → ∃ a', initInet (some a) (some src) src.length = some (SUCCESS, some a') ∧ a'.family = AF_INET6 ∧ a'.bytes = src) ∧
    (src.length ≠ 4 → src.length ≠ 16 → initInet (some a) (some src) src.length = some (INVALID_ARGUMENT, some a)) := by
  refine ⟨?_, ?_, ?_⟩
  · intro h
    refine ⟨{ family := AF_INET, bytes := src ++ a.bytes.drop 4 }, ?_, rfl, ?_, ?_⟩
    · unfold initInet
      simp only
      rw [if_neg (by omega), if_pos h]
      unfold read write
      simp [h, ha]
      rw [← h]; exact List.take_length
    · show (src ++ _).take 4 = src
      rw [← h, List.take_left]
    · simp [h, ha]
  · intro h
    refine ⟨{ family := AF_INET6, bytes := src }, ?_, rfl, rfl⟩
    unfold initInet
    simp only
    rw [if_neg (by omega), if_neg (by omega)]
    unfold read write
    have ht : List.take 16 src = src := by rw [← h]; exact List.take_length
    have hd : List.drop 16 a.bytes = [] := by rw [← ha]; exact List.drop_length
    simp [h, ha, ht, hd]
  · intro h1 h2
    unfold initInet
    simp only
    rw [if_pos ⟨h1, h2⟩]

example : ∃ a', initInet (some any4) (some [127, 0, 0, 1]) 4 = some (SUCCESS, some a') ∧ a'.bytes.take 4 = [127, 0, 0, 1] := ⟨_, rfl, by decide⟩

/-- A list of a known length, spelled out. -/
theorem list4 {l : Bytes} (h : l.length = 4) : ∃ a b c d, l = [a, b, c, d] := by
  match l, h with
  | [a, b, c, d], _ => exact ⟨a, b, c, d, rfl⟩

theorem be16_nat (port : Nat) (h : port < 65536) : beNat (be16 port) = port := by
  unfold be16 beNat
  simp only [List.foldl_cons, List.foldl_nil]
  rw [UInt8.toNat_ofNat', UInt8.toNat_ofNat']
  omega

/-- Writing at an offset, as a splice. -/
theorem write_splice (p q r src : Bytes) (h : src.length = q.length) : write (p ++ q ++ r) p.length src = some (p ++ src ++ r) := by
  unfold write
  rw [if_pos (by simp; omega)]
  congr 1
  have e1 : (p ++ q ++ r).take p.length = p := by rw [List.append_assoc, List.take_left]
  have e2 : (p ++ q ++ r).drop (p.length + src.length) = r := by rw [h, ← List.length_append, List.drop_left]
  rw [e1, e2]

/-- C37: an inet socket address is understood by the operating system as exactly the address and port it was made of; addresses of another family
are refused; the rest of the object is left alone. -/
theorem inet_socket_address (a : SockAddr) (ha : a.sa.length = unionSize) (inet : InetAddr) (hi : inet.bytes.length = 16) (port : Nat) (hp : port < 65536) :
    (inet.family = AF_INET → ∃ a', initInetSock (some a) (some inet) port = some (SUCCESS, some a') ∧
      understand (a'.sa.take a'.len) = some (.inet (inet.bytes.take 4) port) ∧ getFamily a' = some AF_INET ∧ a'.sa.drop a'.len = a.sa.drop a'.len ∧
      a'.sa.length = unionSize) ∧
    (inet.family = AF_INET6 → ∃ a', initInetSock (some a) (some inet) port = some (SUCCESS, some a') ∧
      understand (a'.sa.take a'.len) = some (.inet6 inet.bytes port 0 0) ∧ getFamily a' = some AF_INET6 ∧ a'.sa.drop a'.len = a.sa.drop a'.len ∧
      a'.sa.length = unionSize) ∧
    (inet.family ≠ AF_INET → inet.family ≠ AF_INET6 → initInetSock (some a) (some inet) port = some (ADDRESS_FAMILY_NOT_SUPPORTED, some a)) := by
  have ha' : a.sa.length = 112 := ha
  have hport : (be16 port).length = 2 := rfl
  refine ⟨?_, ?_, ?_⟩
  · intro hf
    have h4 : (inet.bytes.take 4).length = 4 := by rw [List.length_take]; omega
    obtain ⟨b0, b1, b2, b3, hb⟩ := list4 h4
    have e0 : write a.sa 0 (List.replicate 16 0) = some (List.replicate 16 0 ++ a.sa.drop 16) := by
      unfold write
      rw [if_pos (by rw [List.length_replicate]; omega)]
      simp
    have e1 : read inet.bytes 4 = some [b0, b1, b2, b3] := by unfold read; rw [if_pos (by omega), hb]
    have e2 : write (List.replicate 16 0 ++ a.sa.drop 16) 4 [b0, b1, b2, b3] = some ([0, 0, 0, 0] ++ [b0, b1, b2, b3] ++ (List.replicate 8 0 ++ a.sa.drop 16)) :=
      write_splice [0, 0, 0, 0] [0, 0, 0, 0] (List.replicate 8 0 ++ a.sa.drop 16) [b0, b1, b2, b3] rfl
    have e3 : write ([0, 0, 0, 0] ++ [b0, b1, b2, b3] ++ (List.replicate 8 0 ++ a.sa.drop 16)) 2 (be16 port) =
        some ([0, 0] ++ be16 port ++ ([b0, b1, b2, b3] ++ (List.replicate 8 0 ++ a.sa.drop 16))) :=
      write_splice [0, 0] [0, 0] ([b0, b1, b2, b3] ++ (List.replicate 8 0 ++ a.sa.drop 16)) (be16 port) rfl
    have e4 : write ([0, 0] ++ be16 port ++ ([b0, b1, b2, b3] ++ (List.replicate 8 0 ++ a.sa.drop 16))) 0 (host16 inet.family) =
        some ([] ++ [2, 0] ++ (be16 port ++ ([b0, b1, b2, b3] ++ (List.replicate 8 0 ++ a.sa.drop 16)))) := by
      rw [hf]
      exact write_splice [] [0, 0] (be16 port ++ ([b0, b1, b2, b3] ++ (List.replicate 8 0 ++ a.sa.drop 16))) [2, 0] rfl
    refine ⟨⟨[] ++ [2, 0] ++ (be16 port ++ ([b0, b1, b2, b3] ++ (List.replicate 8 0 ++ a.sa.drop 16))), 16⟩, ?_, ?_, ?_, ?_, ?_⟩
    · unfold initInetSock
      simp only
      rw [if_neg (by rw [hf]; simp), if_pos hf, e0, e1]
      simp only [Option.bind_eq_bind, Option.bind_some, e2, e3, e4]
    · rw [hb]
      show some (Endpoint.inet [b0, b1, b2, b3] (beNat (be16 port))) = _
      rw [be16_nat port hp]
    · rfl
    · rfl
    · simp [be16, ha', unionSize]
  · intro hf
    have e0 : write a.sa 0 (List.replicate 28 0) = some (List.replicate 28 0 ++ a.sa.drop 28) := by
      unfold write
      rw [if_pos (by rw [List.length_replicate]; omega)]
      simp
    have e1 : read inet.bytes 16 = some inet.bytes := by
      unfold read; rw [if_pos (by omega), ← hi, List.take_length]
    have e2 : write (List.replicate 28 0 ++ a.sa.drop 28) 8 inet.bytes = some (List.replicate 8 0 ++ inet.bytes ++ ([0, 0, 0, 0] ++ a.sa.drop 28)) :=
      write_splice (List.replicate 8 0) (List.replicate 16 0) ([0, 0, 0, 0] ++ a.sa.drop 28) inet.bytes (by rw [hi]; rfl)
    have e3 : write (List.replicate 8 0 ++ inet.bytes ++ ([0, 0, 0, 0] ++ a.sa.drop 28)) 2 (be16 port) =
        some ([0, 0] ++ be16 port ++ ([0, 0, 0, 0] ++ (inet.bytes ++ ([0, 0, 0, 0] ++ a.sa.drop 28)))) := by
      rw [List.append_assoc]
      exact write_splice [0, 0] [0, 0] ([0, 0, 0, 0] ++ (inet.bytes ++ ([0, 0, 0, 0] ++ a.sa.drop 28))) (be16 port) rfl
    have e4 : write ([0, 0] ++ be16 port ++ ([0, 0, 0, 0] ++ (inet.bytes ++ ([0, 0, 0, 0] ++ a.sa.drop 28)))) 0 (host16 inet.family) =
        some ([] ++ [10, 0] ++ (be16 port ++ ([0, 0, 0, 0] ++ (inet.bytes ++ ([0, 0, 0, 0] ++ a.sa.drop 28))))) := by
      rw [hf]
      exact write_splice [] [0, 0] (be16 port ++ ([0, 0, 0, 0] ++ (inet.bytes ++ ([0, 0, 0, 0] ++ a.sa.drop 28)))) [10, 0] rfl
    refine ⟨⟨[] ++ [10, 0] ++ (be16 port ++ ([0, 0, 0, 0] ++ (inet.bytes ++ ([0, 0, 0, 0] ++ a.sa.drop 28)))), 28⟩, ?_, ?_, ?_, ?_, ?_⟩
    · unfold initInetSock
      simp only
      rw [if_neg (by rw [hf]; simp), if_neg (by rw [hf]; decide), e0, e1]
      simp only [Option.bind_eq_bind, Option.bind_some, e2, e3, e4]
    · have ht : ([] ++ [10, 0] ++ (be16 port ++ ([0, 0, 0, 0] ++ (inet.bytes ++ ([0, 0, 0, 0] ++ a.sa.drop 28)))) : Bytes).take 28 =
          [10, 0] ++ be16 port ++ [0, 0, 0, 0] ++ inet.bytes ++ [0, 0, 0, 0] := by
        have : ([] ++ [10, 0] ++ (be16 port ++ ([0, 0, 0, 0] ++ (inet.bytes ++ ([0, 0, 0, 0] ++ a.sa.drop 28)))) : Bytes) =
          ([10, 0] ++ be16 port ++ [0, 0, 0, 0] ++ inet.bytes ++ [0, 0, 0, 0]) ++ a.sa.drop 28 := by simp
        rw [this]
        have hl : ([10, 0] ++ be16 port ++ [0, 0, 0, 0] ++ inet.bytes ++ [0, 0, 0, 0] : Bytes).length = 28 := by simp [hport, hi]
        rw [← hl, List.take_left]
      show understand (List.take 28 _) = _
      rw [ht]
      have hl : ([10, 0] ++ be16 port ++ [0, 0, 0, 0] ++ inet.bytes ++ [0, 0, 0, 0] : Bytes).length = 28 := by simp [hport, hi]
      have h8 : ([10, 0] ++ be16 port ++ [0, 0, 0, 0] ++ inet.bytes ++ [0, 0, 0, 0] : Bytes).drop 8 = inet.bytes ++ [0, 0, 0, 0] := rfl
      have h24 : ([10, 0] ++ be16 port ++ [0, 0, 0, 0] ++ inet.bytes ++ [0, 0, 0, 0] : Bytes).drop 24 = [0, 0, 0, 0] := by
        have h24' : ([10, 0] ++ be16 port ++ [0, 0, 0, 0] ++ inet.bytes : Bytes).length = 24 := by simp [hport, hi]
        rw [← h24', List.drop_left]
      show (if ([10, 0] ++ be16 port ++ [0, 0, 0, 0] ++ inet.bytes ++ [0, 0, 0, 0] : Bytes).length = 28 then
        some (Endpoint.inet6 ((([10, 0] ++ be16 port ++ [0, 0, 0, 0] ++ inet.bytes ++ [0, 0, 0, 0] : Bytes).drop 8).take 16) (beNat (be16 port)) 0
          (leNat ((([10, 0] ++ be16 port ++ [0, 0, 0, 0] ++ inet.bytes ++ [0, 0, 0, 0] : Bytes).drop 24).take 4))) else none) = _
      rw [if_pos hl, h8, h24, be16_nat port hp, ← hi, List.take_left]
      rfl
    · rfl
    · have : ([] ++ [10, 0] ++ (be16 port ++ ([0, 0, 0, 0] ++ (inet.bytes ++ ([0, 0, 0, 0] ++ a.sa.drop 28)))) : Bytes) =
          ([10, 0] ++ be16 port ++ [0, 0, 0, 0] ++ inet.bytes ++ [0, 0, 0, 0]) ++ a.sa.drop 28 := by simp
      have hl : ([10, 0] ++ be16 port ++ [0, 0, 0, 0] ++ inet.bytes ++ [0, 0, 0, 0] : Bytes).length = 28 := by simp [hport, hi]
      show List.drop 28 _ = List.drop 28 a.sa
      rw [this]
      conv => lhs; rw [← hl, List.drop_left, hl]
    · simp [be16, ha', hi, unionSize]
  · intro h1 h2
    unfold initInetSock
    simp only
    rw [if_pos ⟨h1, h2⟩]

/-- The "any" addresses are the all-zero ones. -/
theorem inet_not_uds (a : SockAddr) (h : getFamily a = some AF_INET ∨ getFamily a = some AF_INET6) : isStandardUds a = some false := by
  rcases h with h | h <;> (unfold isStandardUds; rw [h]; rfl)

/-- C37: the address of an internet endpoint is not taken for that of a Unix domain socket with a file (which would be deleted when the server is closed). -/
theorem inet_is_no_file (a : SockAddr) (ha : a.sa.length = unionSize) (inet : InetAddr) (hi : inet.bytes.length = 16) (port : Nat) (hp : port < 65536)
    (hf : inet.family = AF_INET ∨ inet.family = AF_INET6) :
    ∃ a', initInetSock (some a) (some inet) port = some (SUCCESS, some a') ∧ isStandardUds a' = some false := by
  obtain ⟨h1, h2, -⟩ := inet_socket_address a ha inet hi port hp
  rcases hf with hf | hf
  · obtain ⟨a', e1, -, e3, -⟩ := h1 hf
    exact ⟨a', e1, inet_not_uds a' (.inl e3)⟩
  · obtain ⟨a', e1, -, e3, -⟩ := h2 hf
    exact ⟨a', e1, inet_not_uds a' (.inr e3)⟩

theorem any_is_zero : any4.bytes.take 4 = [0, 0, 0, 0] ∧ any6.bytes = List.replicate 16 0 ∧ any4.family = AF_INET ∧ any6.family = AF_INET6 :=
  ⟨rfl, rfl, rfl, rfl⟩

example : ∃ a', initInetSock (some ⟨List.replicate 112 0xff, 0⟩) (some any6) 0x1f90 = some (SUCCESS, some a') ∧
    understand (a'.sa.take a'.len) = some (.inet6 (List.replicate 16 0) 8080 0 0) := ⟨_, rfl, by decide⟩

/-- C37 for path names.  Partial: the empty string is missing; the code reads past its end (`uds_empty_string_overread`). -/
theorem uds_file_partial (a : SockAddr) (ha : a.sa.length = unionSize) (name junk : Bytes) (hne : name ≠ []) (h0 : ∀ b ∈ name, b ≠ 0) :
    (name.length ≤ 107 → ∃ a', initUds (some a) (some (name ++ 0 :: junk)) = some (SUCCESS, some a') ∧
      understand (a'.sa.take a'.len) = some (.file name) ∧ a'.sa.length = unionSize ∧ isStandardUds a' = some true) ∧
    (107 < name.length → initUds (some a) (some (name ++ 0 :: junk)) = some (INVALID_ARGUMENT, some a)) := uds_file a ha name junk hne h0

end Cio.Address
