/-!
# Common vocabulary

Bytes, wrap-around and a handful of bit-twiddling lemmas shared by all models.
-/

namespace Verif

/-- `char`/`u8` (platform/ply-platform/Core: `typedef unsigned char u8`).  Views and strings are
modelled as `List Byte`. -/
abbrev Byte := UInt8

/-- Store into a `u32`: the value modulo `2^32` (C++ unsigned wrap-around). -/
def u32 (n : Nat) : Nat := n % 2 ^ 32

/-- Store into a `u64`: the value modulo `2^64`. -/
def u64 (n : Nat) : Nat := n % 2 ^ 64

theorem u32_of_lt {n : Nat} (h : n < 2 ^ 32) : u32 n = n := Nat.mod_eq_of_lt h
theorem u64_of_lt {n : Nat} (h : n < 2 ^ 64) : u64 n = n := Nat.mod_eq_of_lt h
theorem u32_lt (n : Nat) : u32 n < 2 ^ 32 := Nat.mod_lt _ (by decide)
theorem u64_lt (n : Nat) : u64 n < 2 ^ 64 := Nat.mod_lt _ (by decide)

theorem and_mask (x k : Nat) : x &&& (2 ^ k - 1) = x % 2 ^ k := Nat.and_two_pow_sub_one_eq_mod x k

theorem and_127 (x : Nat) : x &&& 127 = x % 128 := and_mask x 7
theorem and_63 (x : Nat) : x &&& 63 = x % 64 := and_mask x 6
theorem and_31 (x : Nat) : x &&& 31 = x % 32 := and_mask x 5
theorem and_15 (x : Nat) : x &&& 15 = x % 16 := and_mask x 4
theorem and_7 (x : Nat) : x &&& 7 = x % 8 := and_mask x 3
theorem and_3 (x : Nat) : x &&& 3 = x % 4 := and_mask x 2
theorem and_255 (x : Nat) : x &&& 255 = x % 256 := and_mask x 8
theorem and_1023 (x : Nat) : x &&& 1023 = x % 1024 := and_mask x 10

/-- `(a << k) | b` is `a * 2^k + b` when `b` fits in `k` bits. -/
theorem shl_or (a b k : Nat) (h : b < 2 ^ k) : (a <<< k) ||| b = a * 2 ^ k + b := by
  rw [Nat.shiftLeft_eq, Nat.mul_comm]
  exact (Nat.two_pow_add_eq_or_of_lt h a).symm

theorem byte_lt (b : Byte) : b.toNat < 256 := b.toNat_lt

theorem toNat_ofNat_byte {n : Nat} (h : n < 256) : (UInt8.ofNat n).toNat = n := by
  simpa using UInt8.toNat_ofNat_of_lt' (by simpa using h)

theorem byte_ext {a b : Byte} (h : a.toNat = b.toNat) : a = b := UInt8.toNat_inj.mp h

/-- A statement about all bytes can be settled by looking at the 256 of them. -/
theorem forall_byte {p : Byte → Prop} (h : ∀ n < 256, p (UInt8.ofNat n)) (b : Byte) : p b := by
  have := h b.toNat (byte_lt b)
  simpa using this

end Verif
