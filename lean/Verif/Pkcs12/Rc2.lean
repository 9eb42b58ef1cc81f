import Verif.Base
/-
Model of /repo/pkcs12/rc2.go (all of it).
-/
namespace MCrypto.Rc2
open MCrypto

/-- `uint16` -/
abbrev W := BitVec 16

/-- rc2.go:36-53 -/
def piTable : List UInt8 := [
  0xd9, 0x78, 0xf9, 0xc4, 0x19, 0xdd, 0xb5, 0xed, 0x28, 0xe9, 0xfd, 0x79, 0x4a, 0xa0, 0xd8, 0x9d,
  0xc6, 0x7e, 0x37, 0x83, 0x2b, 0x76, 0x53, 0x8e, 0x62, 0x4c, 0x64, 0x88, 0x44, 0x8b, 0xfb, 0xa2,
  0x17, 0x9a, 0x59, 0xf5, 0x87, 0xb3, 0x4f, 0x13, 0x61, 0x45, 0x6d, 0x8d, 0x09, 0x81, 0x7d, 0x32,
  0xbd, 0x8f, 0x40, 0xeb, 0x86, 0xb7, 0x7b, 0x0b, 0xf0, 0x95, 0x21, 0x22, 0x5c, 0x6b, 0x4e, 0x82,
  0x54, 0xd6, 0x65, 0x93, 0xce, 0x60, 0xb2, 0x1c, 0x73, 0x56, 0xc0, 0x14, 0xa7, 0x8c, 0xf1, 0xdc,
  0x12, 0x75, 0xca, 0x1f, 0x3b, 0xbe, 0xe4, 0xd1, 0x42, 0x3d, 0xd4, 0x30, 0xa3, 0x3c, 0xb6, 0x26,
  0x6f, 0xbf, 0x0e, 0xda, 0x46, 0x69, 0x07, 0x57, 0x27, 0xf2, 0x1d, 0x9b, 0xbc, 0x94, 0x43, 0x03,
  0xf8, 0x11, 0xc7, 0xf6, 0x90, 0xef, 0x3e, 0xe7, 0x06, 0xc3, 0xd5, 0x2f, 0xc8, 0x66, 0x1e, 0xd7,
  0x08, 0xe8, 0xea, 0xde, 0x80, 0x52, 0xee, 0xf7, 0x84, 0xaa, 0x72, 0xac, 0x35, 0x4d, 0x6a, 0x2a,
  0x96, 0x1a, 0xd2, 0x71, 0x5a, 0x15, 0x49, 0x74, 0x4b, 0x9f, 0xd0, 0x5e, 0x04, 0x18, 0xa4, 0xec,
  0xc2, 0xe0, 0x41, 0x6e, 0x0f, 0x51, 0xcb, 0xcc, 0x24, 0x91, 0xaf, 0x50, 0xa1, 0xf4, 0x70, 0x39,
  0x99, 0x7c, 0x3a, 0x85, 0x23, 0xb8, 0xb4, 0x7a, 0xfc, 0x02, 0x36, 0x5b, 0x25, 0x55, 0x97, 0x31,
  0x2d, 0x5d, 0xfa, 0x98, 0xe3, 0x8a, 0x92, 0xae, 0x05, 0xdf, 0x29, 0x10, 0x67, 0x6c, 0xba, 0xc9,
  0xd3, 0x00, 0xe6, 0xcf, 0xe1, 0x9e, 0xa8, 0x2c, 0x63, 0x16, 0x01, 0x3f, 0x58, 0xe2, 0x89, 0xa9,
  0x0d, 0x38, 0x34, 0x1b, 0xab, 0x33, 0xff, 0xb0, 0xbb, 0x48, 0x0c, 0x5f, 0xb9, 0xb1, 0xcd, 0x2e,
  0xc5, 0xf3, 0xdb, 0x47, 0xe5, 0xa5, 0x9c, 0x77, 0x0a, 0xa6, 0x20, 0x68, 0xfe, 0x7f, 0xc1, 0xad]

/-- `piTable[b]` with a byte index: always in range (256 entries). -/
def pi (b : UInt8) : UInt8 := piTable.getD b.toNat 0

/-- Go slice read `l[i]` with its bounds check. -/
def idx (l : Bytes) (i : Int) : Res UInt8 :=
  if 0 ≤ i ∧ i < l.length then .ok (l.getD i.toNat 0) else .panic

/-- Go slice write `l[i] = b` with its bounds check. -/
def setIdx (l : Bytes) (i : Int) (b : UInt8) : Res Bytes :=
  if 0 ≤ i ∧ i < l.length then .ok (l.set i.toNat b) else .panic

/-- `copy(make([]byte, 128), key)`, rc2.go:57-58. -/
def initL (key : Bytes) : Bytes := (key ++ List.replicate 128 0).take 128

/-- rc2.go:64-66, `for i := len(key); i < 128; i++`; `n` is the number of iterations left. -/
def fwdLoop (t : Nat) : Nat → Nat → Bytes → Res Bytes
  | 0, _, l => .ok l
  | n + 1, i, l => do
    let a ← idx l ((i : Int) - 1)
    let b ← idx l (((i - t) % 256 : Nat) : Int)
    let l' ← setIdx l i (pi (a + b))
    fwdLoop t n (i + 1) l'

/-- rc2.go:70-72, `for i := 127 - t8; i >= 0; i--`; the first argument is `i + 1`. -/
def bwdLoop (t8 : Int) : Nat → Bytes → Res Bytes
  | 0, l => .ok l
  | i + 1, l => do
    let a ← idx l ((i : Int) + 1)
    let b ← idx l ((i : Int) + t8)
    let l' ← setIdx l i (pi (a ^^^ b))
    bwdLoop t8 i l'

/-- rc2.go:62: `byte(255 % uint(1<<(8+uint(t1)-8*uint(t8))))`. The shift count is a 64-bit unsigned
value; a shift by 64 or more gives 0 and the remainder by 0 panics. -/
def tmOf (t1 t8 : Int) : Res UInt8 :=
  let sh : Nat := ((8 + t1 - 8 * t8) % (2 ^ 64 : Int)).toNat
  if sh < 64 then .ok (UInt8.ofNat (255 % 2 ^ sh)) else .panic

/-- rc2.go:76-78: `uint16(l[2*i]) + uint16(l[2*i+1])*256`. -/
def wordOf (l : Bytes) (i : Nat) : W :=
  BitVec.ofNat 16 (l.getD (2 * i) 0).toNat + BitVec.ofNat 16 (l.getD (2 * i + 1) 0).toNat * 256#16

/-- rc2.go:55-81. `t1` is any Go `int`; `/` truncates. -/
def expandKey (key : Bytes) (t1 : Int) : Res (List W) := do
  let l := initL key
  let t := key.length
  let t8 : Int := Int.tdiv (t1 + 7) 8
  let tm ← tmOf t1 t8
  let l ← fwdLoop t (128 - t) t l
  let x ← idx l (128 - t8)
  let l ← setIdx l (128 - t8) (pi (x &&& tm))
  let l ← bwdLoop t8 (128 - t8).toNat l
  .ok ((List.range 64).map (wordOf l))

/-- rc2.go:27-32. The cipher object is its expanded key; `New` never returns an error. -/
def new (key : Bytes) (t1 : Int) : Res (List W) := expandKey key t1

/-- rc2.go:83-85 -/
def rotl16 (x : W) (b : Nat) : W := (x >>> (16 - b)) ||| (x <<< b)

/-- The four working registers. -/
structure S where
  r0 : W
  r1 : W
  r2 : W
  r3 : W
  deriving DecidableEq, Repr

/-- `c.k[i]` (the array has 64 entries and every index used is below 64). -/
def kGet (k : List W) (i : Nat) : W := k.getD i 0

/-- rc2.go:97-115, one pass of the mixing loop (it advances `j` by 4). -/
def mixRound (k : List W) (j : Nat) (s : S) : S :=
  let r0 := rotl16 (s.r0 + kGet k j + (s.r3 &&& s.r2) + (~~~s.r3 &&& s.r1)) 1
  let r1 := rotl16 (s.r1 + kGet k (j + 1) + (r0 &&& s.r3) + (~~~r0 &&& s.r2)) 2
  let r2 := rotl16 (s.r2 + kGet k (j + 2) + (r1 &&& r0) + (~~~r1 &&& s.r3)) 3
  let r3 := rotl16 (s.r3 + kGet k (j + 3) + (r2 &&& r1) + (~~~r2 &&& r0)) 5
  ⟨r0, r1, r2, r3⟩

/-- `for j <= bound { … }` (rc2.go:96, 124, 153): returns the final `j` and registers. The first
argument bounds the number of passes; `j` grows by 4, so 64 are never used up. -/
def mixWhile (k : List W) (bound : Nat) : Nat → Nat → S → Nat × S
  | 0, j, s => (j, s)
  | n + 1, j, s => if j ≤ bound then mixWhile k bound n (j + 4) (mixRound k j s) else (j, s)

/-- rc2.go:119-122 and 148-151 -/
def mash (k : List W) (s : S) : S :=
  let r0 := s.r0 + kGet k (s.r3 &&& 63#16).toNat
  let r1 := s.r1 + kGet k (r0 &&& 63#16).toNat
  let r2 := s.r2 + kGet k (r1 &&& 63#16).toNat
  let r3 := s.r3 + kGet k (r2 &&& 63#16).toNat
  ⟨r0, r1, r2, r3⟩

/-- rc2.go:94-174 -/
def encS (k : List W) (s : S) : S :=
  let (j, s) := mixWhile k 16 64 0 s
  let s := mash k s
  let (j, s) := mixWhile k 40 64 j s
  let s := mash k s
  let (_, s) := mixWhile k 60 64 j s
  s

/-- rc2.go:192-210, one pass of the unmixing loop (it lowers `j` by 4). -/
def unmixRound (k : List W) (j : Nat) (s : S) : S :=
  let r3 := rotl16 s.r3 (16 - 5) - kGet k j - (s.r2 &&& s.r1) - (~~~s.r2 &&& s.r0)
  let r2 := rotl16 s.r2 (16 - 3) - kGet k (j - 1) - (s.r1 &&& s.r0) - (~~~s.r1 &&& r3)
  let r1 := rotl16 s.r1 (16 - 2) - kGet k (j - 2) - (s.r0 &&& r3) - (~~~s.r0 &&& r2)
  let r0 := rotl16 s.r0 (16 - 1) - kGet k (j - 3) - (r3 &&& r2) - (~~~r3 &&& r1)
  ⟨r0, r1, r2, r3⟩

/-- `for j >= bound { … }` (rc2.go:191, 218, 246); `j` is a Go `int` and ends at -1. -/
def unmixWhile (k : List W) (bound : Int) : Nat → Int → S → Int × S
  | 0, j, s => (j, s)
  | n + 1, j, s => if bound ≤ j then unmixWhile k bound n (j - 4) (unmixRound k j.toNat s) else (j, s)

/-- rc2.go:213-216 and 241-244 -/
def unmash (k : List W) (s : S) : S :=
  let r3 := s.r3 - kGet k (s.r2 &&& 63#16).toNat
  let r2 := s.r2 - kGet k (s.r1 &&& 63#16).toNat
  let r1 := s.r1 - kGet k (s.r0 &&& 63#16).toNat
  let r0 := s.r0 - kGet k (r3 &&& 63#16).toNat
  ⟨r0, r1, r2, r3⟩

/-- rc2.go:189-268 -/
def decS (k : List W) (s : S) : S :=
  let (j, s) := unmixWhile k 44 64 63 s
  let s := unmash k s
  let (j, s) := unmixWhile k 20 64 j s
  let s := unmash k s
  let (_, s) := unmixWhile k 0 64 j s
  s

/-- `binary.LittleEndian.Uint16(src[i:])`, rc2.go:89-92. -/
def loadW (b : Bytes) (i : Nat) : W :=
  BitVec.ofNat 16 (b.getD i 0).toNat ||| BitVec.ofNat 16 (b.getD (i + 1) 0).toNat <<< 8

/-- `binary.LittleEndian.PutUint16`, rc2.go:176-179. -/
def storeW (w : W) : Bytes := [UInt8.ofNat w.toNat, UInt8.ofNat (w >>> 8).toNat]

def loadS (b : Bytes) : S := ⟨loadW b 0, loadW b 2, loadW b 4, loadW b 6⟩
def storeS (s : S) : Bytes := storeW s.r0 ++ storeW s.r1 ++ storeW s.r2 ++ storeW s.r3

/-- rc2.go:87-180. `src` shorter than 8 bytes panics (slice bounds); the first 8 bytes are used. The
destination is the returned 8 bytes (a shorter `dst` panics, not modelled: callers pass 8). -/
def encrypt (k : List W) (src : Bytes) : Res Bytes :=
  if src.length < 8 then .panic else .ok (storeS (encS k (loadS src)))

/-- rc2.go:182-274 -/
def decrypt (k : List W) (src : Bytes) : Res Bytes :=
  if src.length < 8 then .panic else .ok (storeS (decS k (loadS src)))

end MCrypto.Rc2
