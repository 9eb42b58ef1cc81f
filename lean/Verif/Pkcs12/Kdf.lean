import Verif.Utf
/-
Model of /repo/pkcs12/pbkdf.go and /repo/pkcs12/bmp-string.go (all of both).
The hash is a parameter, as in the code (`hash func([]byte) []byte`).
-/
namespace MCrypto.P12
open MCrypto

/-- `bytes.Repeat(b, n)` -/
def repeatBytes (b : Bytes) (n : Nat) : Bytes := (List.replicate n b).flatten

/-- pbkdf.go:25-31. `v ≥ 1` (a zero `v` divides by zero; the callers pass 64). -/
def fillWithRepeats (pattern : Bytes) (v : Nat) : Bytes :=
  if pattern.length = 0 then []
  else
    let outputLen := v * ((pattern.length + v - 1) / v)
    (repeatBytes pattern ((outputLen + pattern.length - 1) / pattern.length)).take outputLen

/-- pbkdf.go:110-114: `Ai := hash(append(D, I...))` and `for j := 1; j < r; j++ { Ai = hash(Ai) }`;
`r` is a Go `int`, for `r ≤ 1` the loop body does not run. -/
def hashIter (hash : Bytes → Bytes) (r : Int) (x : Bytes) : Bytes :=
  (List.range (r - 1).toNat).foldl (fun a _ => hash a) (hash x)

/-- pbkdf.go:119-122: `for len(B) < v { B = append(B, Ai[:]...) }; B = B[:v]`. The counter bounds the
iterations: `v` are enough since a hash value is not empty (an empty one would loop for ever in Go). -/
def fillB (Ai : Bytes) (v : Nat) : Nat → Bytes → Bytes
  | 0, B => B.take v
  | n + 1, B => if B.length < v then fillB Ai v n (B ++ Ai) else B.take v

/-- pbkdf.go:133-153, body of the loop over `j` for one block `I[j*v : (j+1)*v]`: `Ij + B + 1`
written back in `v` bytes: cut at the left when longer, zero padded when shorter. -/
def addBlock (v : Nat) (Bbi : Nat) (blk : Bytes) : Bytes :=
  let Ijb := toBytes (ofBytes blk + Bbi + 1)
  let Ijb := if Ijb.length > v then Ijb.drop (Ijb.length - v) else Ijb
  if Ijb.length < v then List.replicate (v - Ijb.length) 0 ++ Ijb else Ijb

/-- pbkdf.go:132-154: the loop `for j := 0; j < len(I)/v; j++`; the counter is `len(I)/v - j`. -/
def addBlocks (v : Nat) (Bbi : Nat) : Nat → Bytes → Bytes
  | 0, I => I
  | n + 1, I => addBlock v Bbi (I.take v) ++ addBlocks v Bbi n (I.drop v)

/-- `copy(A[i*20:], Ai)` pbkdf.go:114. -/
def copyAt (A : Bytes) (off : Nat) (src : Bytes) : Bytes :=
  A.take off ++ (src.take (A.length - off) ++ (A.drop off).drop src.length)

/-- pbkdf.go:107-158: the loop over `i`; `n` iterations are left, `i = c - n`. -/
def kdfLoop (hash : Bytes → Bytes) (v : Nat) (D : Bytes) (r : Int) (c : Nat) :
    Nat → Bytes → Bytes → Bytes
  | 0, _, A => A
  | n + 1, I, A =>
    let i := c - (n + 1)
    let Ai := hashIter hash r (D ++ I)
    let A := copyAt A (i * 20) Ai
    if i < c - 1 then
      let B := fillB Ai v v []
      kdfLoop hash v D r c n (addBlocks v (ofBytes B) (I.length / v) I) A
    else kdfLoop hash v D r c n I A

/-- pbkdf.go:33-163. `A[:size]` panics when `size > c*20`. -/
def pbkdf (hash : Bytes → Bytes) (u v : Nat) (salt password : Bytes) (r : Int) (ID : UInt8) (size : Nat) :
    Res Bytes :=
  let D := List.replicate v ID
  let S := fillWithRepeats salt v
  let P := fillWithRepeats password v
  let I := S ++ P
  let c := (size + u - 1) / u
  let A := kdfLoop hash v D r c c I (List.replicate (c * 20) 0)
  if size ≤ A.length then .ok (A.take size) else .panic

/-! ## bmp-string.go -/

/-- bmp-string.go:23-28, the loop over the runes of the string. -/
def bmpLoop : List Nat → Bytes → Res Bytes
  | [], ret => .ok (ret ++ [0, 0])
  | r :: rs, ret =>
    if (Utf.encodeRune16 r).1 ≠ 0xFFFD then
      .err "go-pkcs12: string contains characters that cannot be encoded in UCS-2"
    else bmpLoop rs (ret ++ [UInt8.ofNat (r / 256), UInt8.ofNat (r % 256)])

/-- bmp-string.go:13-31. The Go string is its bytes; `range` decodes UTF-8. -/
def bmpString (s : Bytes) : Res Bytes := bmpLoop (Utf.runes s) []

/-- bmp-string.go:43-47: the 16-bit units (the length is even here). -/
def bmpUnits : Bytes → List Nat
  | a :: b :: t => (a.toNat * 256 + b.toNat) :: bmpUnits t
  | _ => []

/-- bmp-string.go:33-50 -/
def decodeBMPString (b : Bytes) : Res Bytes :=
  if b.length % 2 ≠ 0 then .err "go-pkcs12: odd-length BMP string"
  else
    let l := b.length
    let b := if 2 ≤ l ∧ b.getD (l - 1) 0 = 0 ∧ b.getD (l - 2) 0 = 0 then b.take (l - 2) else b
    .ok (Utf.ofRunes (Utf.decode16 (bmpUnits b)))

end MCrypto.P12
