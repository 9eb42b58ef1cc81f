import Verif.Base
/-
GB/T 32905-2016 (SM3), written from the standard and independent of the model:
indexed words instead of loops over arrays, one round function with FF_j / GG_j / T_j.
-/
namespace MCrypto.Sm3Spec
open MCrypto

abbrev Word := BitVec 32
/-- a ⋘ k -/
def rotl (x : Word) (k : Nat) : Word := x.rotateLeft (k % 32)

/-- 4.2 constants T_j -/
def T (j : Nat) : Word := if j < 16 then 0x79CC4519#32 else 0x7A879D8A#32
/-- 4.3 boolean functions -/
def FF (j : Nat) (x y z : Word) : Word :=
  if j < 16 then x ^^^ y ^^^ z else (x &&& y) ||| (x &&& z) ||| (y &&& z)
def GG (j : Nat) (x y z : Word) : Word :=
  if j < 16 then x ^^^ y ^^^ z else (x &&& y) ||| (~~~x &&& z)
/-- 4.4 permutations -/
def P0 (x : Word) : Word := x ^^^ rotl x 9 ^^^ rotl x 17
def P1 (x : Word) : Word := x ^^^ rotl x 15 ^^^ rotl x 23

/-- A register of eight words A..H as a function of the index 0..7. -/
abbrev Reg := Fin 8 → Word

/-- 4.1 initial value -/
def IV : Reg := fun i =>
  match i with
  | 0 => 0x7380166f#32 | 1 => 0x4914b2b9#32 | 2 => 0x172442d7#32 | 3 => 0xda8a0600#32
  | 4 => 0xa96f30bc#32 | 5 => 0x163138aa#32 | 6 => 0xe38dee4d#32 | 7 => 0xb0fb0e4e#32

/-- 5.2 the number of zero bytes after the 0x80 byte: the least k with l + 1 + k ≡ 56 (mod 64). -/
def zeros (l : Nat) : Nat := (119 - l % 64) % 64

/-- 5.2 padding of a byte message: 0x80, zeros, 64-bit big-endian bit length.
The standard defines it for bit lengths below 2^64, i.e. fewer than 2^61 bytes. -/
def pad (m : Bytes) : Bytes :=
  m ++ 0x80 :: List.replicate (zeros m.length) 0 ++ beBytes 8 (8 * m.length)

/-- The i-th 32-bit big-endian word of a block. -/
def blockWord (B : Bytes) (i : Nat) : Word := BitVec.ofNat 32 (ofBytes ((B.drop (4 * i)).take 4))

/-- 5.3.2 message expansion: W_0 .. W_67 -/
def Wexp (B : Bytes) (j : Nat) : Word :=
  if j < 16 then blockWord B j
  else P1 (Wexp B (j - 16) ^^^ Wexp B (j - 9) ^^^ rotl (Wexp B (j - 3)) 15)
    ^^^ rotl (Wexp B (j - 13)) 7 ^^^ Wexp B (j - 6)
termination_by j
decreasing_by all_goals omega

/-- W'_j -/
def W' (B : Bytes) (j : Nat) : Word := Wexp B j ^^^ Wexp B (j + 4)

/-- 5.3.3 the registers after j rounds of the compression function. -/
def rounds (B : Bytes) (V : Reg) : Nat → Reg
  | 0 => V
  | j + 1 =>
    let R := rounds B V j
    let SS1 := rotl (rotl (R 0) 12 + R 4 + rotl (T j) j) 7
    let SS2 := SS1 ^^^ rotl (R 0) 12
    let TT1 := FF j (R 0) (R 1) (R 2) + R 3 + SS2 + W' B j
    let TT2 := GG j (R 4) (R 5) (R 6) + R 7 + SS1 + Wexp B j
    fun i => match i with
      | 0 => TT1
      | 1 => R 0
      | 2 => rotl (R 1) 9
      | 3 => R 2
      | 4 => P0 TT2
      | 5 => R 4
      | 6 => rotl (R 5) 19
      | 7 => R 6

/-- CF(V, B) -/
def CF (V : Reg) (B : Bytes) : Reg := fun i => rounds B V 64 i ^^^ V i

/-- The i-th 64-byte block of the padded message. -/
def blockAt (m : Bytes) (i : Nat) : Bytes := (m.drop (64 * i)).take 64

/-- 5.3.1 iteration: V^(i) -/
def iter (m : Bytes) : Nat → Reg
  | 0 => IV
  | i + 1 => CF (iter m i) (blockAt m i)

/-- 5.4 the digest: the eight words of V^(n) in order, big-endian. -/
def sm3 (m : Bytes) : Bytes :=
  let m' := pad m
  let Vn := iter m' (m'.length / 64)
  (List.finRange 8).flatMap fun i => beBytes 4 (Vn i).toNat

end MCrypto.Sm3Spec
