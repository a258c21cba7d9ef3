/-
SHA-256 as defined by FIPS 180-4, for messages of whole bytes.
-/
namespace Verif.Sha.Fips

/-- Section 4.1.2. -/
def Ch (x y z : BitVec 32) : BitVec 32 := (x &&& y) ^^^ (~~~x &&& z)
def Maj (x y z : BitVec 32) : BitVec 32 := (x &&& y) ^^^ (x &&& z) ^^^ (y &&& z)
def Sigma0 (x : BitVec 32) : BitVec 32 := x.rotateRight 2 ^^^ x.rotateRight 13 ^^^ x.rotateRight 22
def Sigma1 (x : BitVec 32) : BitVec 32 := x.rotateRight 6 ^^^ x.rotateRight 11 ^^^ x.rotateRight 25
def sig0 (x : BitVec 32) : BitVec 32 := x.rotateRight 7 ^^^ x.rotateRight 18 ^^^ (x >>> 3)
def sig1 (x : BitVec 32) : BitVec 32 := x.rotateRight 17 ^^^ x.rotateRight 19 ^^^ (x >>> 10)

/-- The first 64 prime numbers. -/
def primes : List Nat := [
  2, 3, 5, 7, 11, 13, 17, 19, 23, 29, 31, 37, 41, 43, 47, 53, 59, 61, 67, 71, 73, 79, 83, 89,
  97, 101, 103, 107, 109, 113, 127, 131, 137, 139, 149, 151, 157, 163, 167, 173, 179, 181,
  191, 193, 197, 199, 211, 223, 227, 229, 233, 239, 241, 251, 257, 263, 269, 271, 277, 281,
  283, 293, 307, 311]

/-- `k` is the first 32 bits of the fractional part of the cube root of `p`: with
`n = ⌊2^32 p^(1/3)⌋`, `k` is `n` modulo `2^32`. -/
def CubeRootBits (p : Nat) (k : BitVec 32) : Prop :=
  ∃ n : Nat, n ^ 3 ≤ p * 2 ^ 96 ∧ p * 2 ^ 96 < (n + 1) ^ 3 ∧ k = BitVec.ofNat 32 n

/-- `k` is the first 32 bits of the fractional part of the square root of `p`. -/
def SquareRootBits (p : Nat) (k : BitVec 32) : Prop :=
  ∃ n : Nat, n ^ 2 ≤ p * 2 ^ 64 ∧ p * 2 ^ 64 < (n + 1) ^ 2 ∧ k = BitVec.ofNat 32 n

/-- The working variables. -/
structure Vars where
  (a b c d e f g h : BitVec 32)

/-- Word `t` of a block of 64 bytes, most significant byte first (section 5.2.1). -/
def M (block : List (BitVec 8)) (t : Nat) : BitVec 32 :=
  block.getD (4 * t) 0 ++ block.getD (4 * t + 1) 0 ++ block.getD (4 * t + 2) 0 ++
    block.getD (4 * t + 3) 0

/-- Message schedule, section 6.2.2 step 1. -/
def W (block : List (BitVec 8)) (t : Nat) : BitVec 32 :=
  if t < 16 then M block t
  else sig1 (W block (t - 2)) + W block (t - 7) + sig0 (W block (t - 15)) + W block (t - 16)
termination_by t

/-- Section 6.2.2 step 3, for the constants `K`. -/
def step (K : Nat → BitVec 32) (block : List (BitVec 8)) (v : Vars) (t : Nat) : Vars :=
  let T1 := v.h + Sigma1 v.e + Ch v.e v.f v.g + K t + W block t
  let T2 := Sigma0 v.a + Maj v.a v.b v.c
  { h := v.g, g := v.f, f := v.e, e := v.d + T1, d := v.c, c := v.b, b := v.a, a := T1 + T2 }

/-- Section 6.2.2 steps 2 to 4: `H^(i)` from `H^(i-1)`. -/
def compress (K : Nat → BitVec 32) (H : Vars) (block : List (BitVec 8)) : Vars :=
  let v := (List.range 64).foldl (step K block) H
  ⟨H.a + v.a, H.b + v.b, H.c + v.c, H.d + v.d, H.e + v.e, H.f + v.f, H.g + v.g, H.h + v.h⟩

/-- Number of zero bytes such that message, the byte 0x80, the zeros and 8 bytes of length
fill whole blocks (section 5.1.1: `k ≡ 448 - 1 - l mod 512`, in bytes). -/
def zeros (len : Nat) : Nat := (119 - len % 64) % 64

/-- Byte number `i` of `n` written with `k` bytes, most significant byte first. -/
def bigEndian (k n : Nat) : List (BitVec 8) :=
  (List.range k).map fun i => BitVec.ofNat 8 (n / 256 ^ (k - 1 - i))

/-- Section 5.1.1: the padded message. -/
def pad (m : List (BitVec 8)) : List (BitVec 8) :=
  m ++ [0x80] ++ List.replicate (zeros m.length) 0 ++ bigEndian 8 (8 * m.length % 2 ^ 64)

/-- Cut into blocks of 64 bytes. -/
def blocks : Nat → List (BitVec 8) → List (List (BitVec 8))
  | 0, _ => []
  | n + 1, m => m.take 64 :: blocks n (m.drop 64)

/-- Section 6.2: the digest of a message, for the constants `K` and the initial value `H0`. -/
def hash (K : Nat → BitVec 32) (H0 : Vars) (m : List (BitVec 8)) : List (BitVec 8) :=
  let p := pad m
  let H := (blocks (p.length / 64) p).foldl (compress K) H0
  [H.a, H.b, H.c, H.d, H.e, H.f, H.g, H.h].flatMap fun x => bigEndian 4 x.toNat

end Verif.Sha.Fips
