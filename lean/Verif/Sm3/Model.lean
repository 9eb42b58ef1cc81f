import Verif.Base
/-
Model of /repo/sm3/sm3.go (all of it).
-/
namespace MCrypto.Sm3
open MCrypto

/-- `uint32` -/
abbrev W := BitVec 32

/-- The eight chaining words `h [8]uint32` (sm3.go:28). -/
structure V where
  a : W
  b : W
  c : W
  d : W
  e : W
  f : W
  g : W
  h : W
  deriving DecidableEq, Repr

/-- sm3.go:17-24 -/
def initV : V :=
  ⟨0x7380166F#32, 0x4914B2B9#32, 0x172442D7#32, 0xDA8A0600#32,
   0xA96F30BC#32, 0x163138AA#32, 0xE38DEE4D#32, 0xB0FB0E4E#32⟩

/-- sm3.go:27-32. `x` is the 64-byte buffer, `nx` its fill, `len` the wrapping byte counter. -/
structure Digest where
  h : V
  x : Bytes
  nx : Nat
  len : UInt64
  deriving DecidableEq, Repr

/-- sm3.go:120 -/
def p1 (x : W) : W := x ^^^ x.rotateLeft 15 ^^^ x.rotateLeft 23

/-- `w[i]` (sm3.go:124); always in range in the model's uses. -/
def wGet (w : List W) (i : Nat) : W := w.getD i 0

/-- sm3.go:132-135: `w[i]` for i < 16, big-endian load of four bytes of the block. -/
def load (p : Bytes) (i : Nat) : W :=
  let j := i * 4
  let byte := fun k => (BitVec.ofNat 32 (p.getD k 0).toNat)
  byte j <<< 24 ||| byte (j + 1) <<< 16 ||| byte (j + 2) <<< 8 ||| byte (j + 3)

/-- sm3.go:138-140: one step of the expansion loop (writes `w[i]`, here appended). -/
def expandStep (w : List W) (i : Nat) : List W :=
  w ++ [p1 (wGet w (i - 16) ^^^ wGet w (i - 9) ^^^ (wGet w (i - 3)).rotateLeft 15)
    ^^^ (wGet w (i - 13)).rotateLeft 7 ^^^ wGet w (i - 6)]

/-- sm3.go:131-140: all 68 words. The array `w` is overwritten completely for each block, so the
model builds a fresh one. -/
def expand (p : Bytes) : List W :=
  (List.range' 16 52).foldl expandStep ((List.range 16).map (load p))

/-- sm3.go:146-160, body of the first round loop. -/
def roundA (w : List W) (s : V) (i : Nat) : V :=
  let ss1 := (s.a.rotateLeft 12 + s.e + (0x79CC4519#32).rotateLeft i).rotateLeft 7
  let ss2 := ss1 ^^^ s.a.rotateLeft 12
  let wi := wGet w i ^^^ wGet w (i + 4)
  let tt1 := (s.a ^^^ s.b ^^^ s.c) + s.d + ss2 + wi
  let tt2 := (s.e ^^^ s.f ^^^ s.g) + s.h + ss1 + wGet w i
  ⟨tt1, s.a, s.b.rotateLeft 9, s.c,
   tt2 ^^^ tt2.rotateLeft 9 ^^^ tt2.rotateLeft 17, s.e, s.f.rotateLeft 19, s.g⟩

/-- sm3.go:162-176, body of the second round loop. -/
def roundB (w : List W) (s : V) (i : Nat) : V :=
  let ss1 := (s.a.rotateLeft 12 + s.e + (0x7a879d8a#32).rotateLeft i).rotateLeft 7
  let ss2 := ss1 ^^^ s.a.rotateLeft 12
  let wi := wGet w i ^^^ wGet w (i + 4)
  let tt1 := ((s.a &&& s.b) ||| (s.a &&& s.c) ||| (s.b &&& s.c)) + s.d + ss2 + wi
  let tt2 := ((s.e &&& s.f) ||| (~~~s.e &&& s.g)) + s.h + ss1 + wGet w i
  ⟨tt1, s.a, s.b.rotateLeft 9, s.c,
   tt2 ^^^ tt2.rotateLeft 9 ^^^ tt2.rotateLeft 17, s.e, s.f.rotateLeft 19, s.g⟩

/-- sm3.go:144-185: one 64-byte block. -/
def compress (v : V) (p : Bytes) : V :=
  let w := expand p
  let s := (List.range 16).foldl (roundA w) v
  let s := (List.range' 16 48).foldl (roundB w) s
  ⟨v.a ^^^ s.a, v.b ^^^ s.b, v.c ^^^ s.c, v.d ^^^ s.d,
   v.e ^^^ s.e, v.f ^^^ s.f, v.g ^^^ s.g, v.h ^^^ s.h⟩

/-- sm3.go:129-188: the loop `for len(p) >= chunk`, run `n` times. -/
def blockN : Nat → V → Bytes → V
  | 0, v, _ => v
  | n + 1, v, p => blockN n (compress v (p.take 64)) (p.drop 64)

/-- sm3.go:122-191: `block`; the loop runs `len(p)/64` times. -/
def block (v : V) (p : Bytes) : V := blockN (p.length / 64) v p

/-- sm3.go:34-45: `Reset` keeps the buffer contents. -/
def Digest.reset (d : Digest) : Digest := { d with h := initV, nx := 0, len := 0 }

/-- sm3.go:47-51: `New` (a zeroed digest, then `Reset`). -/
def new : Digest :=
  Digest.reset ⟨⟨0, 0, 0, 0, 0, 0, 0, 0⟩, List.replicate 64 0, 0, 0⟩

/-- sm3.go:60-68: top up a partially filled buffer; returns the digest and the rest of `p`. -/
def Digest.writeHead (d : Digest) (p : Bytes) : Digest × Bytes :=
  if d.nx > 0 then
    let n := min (64 - d.nx) p.length
    let x := d.x.take d.nx ++ p.take n ++ d.x.drop (d.nx + n)
    let nx := d.nx + n
    if nx = 64 then ({ d with x := x, h := block d.h x, nx := 0 }, p.drop n)
    else ({ d with x := x, nx := nx }, p.drop n)
  else (d, p)

/-- sm3.go:69-73: whole blocks directly from the input. `len(p) &^ 63` is `len(p)/64*64`. -/
def Digest.writeBlocks (d : Digest) (p : Bytes) : Digest × Bytes :=
  if p.length ≥ 64 then
    let n := p.length / 64 * 64
    ({ d with h := block d.h (p.take n) }, p.drop n)
  else (d, p)

/-- sm3.go:74-76: keep the remainder. -/
def Digest.writeTail (d : Digest) (p : Bytes) : Digest :=
  if p.length > 0 then { d with x := p.take 64 ++ d.x.drop (min 64 p.length), nx := min 64 p.length }
  else d

/-- sm3.go:57-78: `Write`, new state. -/
def Digest.write (d : Digest) (p : Bytes) : Digest :=
  let d := { d with len := d.len + UInt64.ofNat p.length }
  let r := d.writeHead p
  let r := r.1.writeBlocks r.2
  r.1.writeTail r.2

/-- sm3.go:57-58: the values returned by `Write`: `nn = len(p)` and a nil error. -/
def Digest.writeRet (_ : Digest) (p : Bytes) : Nat × Option String := (p.length, none)

/-- sm3.go:109-116 -/
def V.bytes (v : V) : Bytes :=
  beBytes 4 v.a.toNat ++ beBytes 4 v.b.toNat ++ beBytes 4 v.c.toNat ++ beBytes 4 v.d.toNat ++
  beBytes 4 v.e.toNat ++ beBytes 4 v.f.toNat ++ beBytes 4 v.g.toNat ++ beBytes 4 v.h.toNat

/-- sm3.go:90-96: the padding slice of `tmp` chosen from the byte counter. -/
def padding (len : UInt64) : Bytes :=
  let tmp : Bytes := 0x80 :: List.replicate 63 0
  if (len % 64).toNat < 56 then tmp.take (56 - (len % 64).toNat)
  -- in range: `64+56-len%64` is at most 64 here
  else tmp.take (64 + 56 - (len % 64).toNat)

/-- sm3.go:87-118: `checkSum`, with the explicit panic. -/
def Digest.checkSum (d : Digest) : Res Bytes :=
  let len := d.len
  let d := d.write (padding len)
  let d := d.write (beBytes 8 (len <<< 3).toNat)
  if d.nx ≠ 0 then .panic else .ok d.h.bytes

/-- sm3.go:80-85: `Sum(in)`; works on a copy, so there is no new state. -/
def Digest.sum (d : Digest) (inp : Bytes) : Res Bytes := do
  let hash ← d.checkSum
  pure (inp ++ hash)

/-- sm3.go:193-198: package function `Sum` (`var d digest; d.Reset()` is the state of `New`). -/
def sumR (data : Bytes) : Res Bytes := (new.write data).checkSum

/-- The operations of a `hash.Hash` on an SM3 digest, as a caller can issue them. -/
inductive Op where
  | write (p : Bytes)
  | sum (inp : Bytes)
  | reset
  deriving Repr

/-- What the caller observes for each operation. -/
inductive Out where
  | wrote (n : Nat) (err : Option String)
  | summed (r : Res Bytes)
  | unit
  deriving DecidableEq, Repr

/-- One call on the live digest. -/
def step (d : Digest) : Op → Digest × Out
  | .write p => (d.write p, .wrote (d.writeRet p).1 (d.writeRet p).2)
  | .sum inp => (d, .summed (d.sum inp))
  | .reset => (d.reset, .unit)

/-- A whole history of calls, with everything the caller observed. -/
def run (d : Digest) : List Op → Digest × List Out
  | [] => (d, [])
  | op :: ops =>
    let r := step d op
    let rs := run r.1 ops
    (rs.1, r.2 :: rs.2)

end MCrypto.Sm3
