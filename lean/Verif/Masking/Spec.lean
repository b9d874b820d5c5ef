import Verif.Masking.Model
/-
Specification of masking, RFC 6455 section 5.3:
  transformed-octet-i = original-octet-i XOR masking-key-octet-(i MOD 4).
-/
namespace Cio.Masking

/-- Octet `i` of the masking key for payload octet `i`. -/
def key (mask : Mask) (i : Nat) : UInt8 := mask ⟨i % 4, Nat.mod_lt _ (by decide)⟩

/-- The masked form of a payload of which `off` octets came before. -/
def xorFrom (mask : Mask) (off : Nat) : List UInt8 → List UInt8
  | [] => []
  | b :: bs => (b ^^^ key mask off) :: xorFrom mask (off + 1) bs

/-- The `n` bytes at address `a`. -/
def bytesAt (mem : Mem) (a n : Nat) : List UInt8 := (List.range n).map (fun i => mem (a + i))

/-- The bytes of a chain of (address, length) pieces. -/
def chainBytes (mem : Mem) (chain : List (Nat × Nat)) : List UInt8 :=
  chain.flatMap (fun p => bytesAt mem p.1 p.2)

/-- Two pieces do not share a byte. -/
def Disjoint (p q : Nat × Nat) : Prop := ∀ x, ¬ (p.1 ≤ x ∧ x < p.1 + p.2 ∧ q.1 ≤ x ∧ x < q.1 + q.2)

/-- All pieces of the chain are separate pieces of memory. -/
def Separate (chain : List (Nat × Nat)) : Prop := chain.Pairwise Disjoint

/-- `x` lies in one of the pieces. -/
def Covers (chain : List (Nat × Nat)) (x : Nat) : Prop := ∃ p ∈ chain, p.1 ≤ x ∧ x < p.1 + p.2

end Cio.Masking
