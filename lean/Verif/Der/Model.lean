import Verif.Base
/-
Model of golang.org/x/crypto/cryptobyte (v0.18) as used by /repo: `String.ReadASN1`,
`ReadAnyASN1`, `ReadASN1Integer(*big.Int)`, `Builder.AddASN1`, `AddASN1BigInt`.
This is a dependency of /repo, modelled from its published source; see DESIGN.md (trusted base).
-/
namespace MCrypto.Der
open MCrypto

/-- cryptobyte/asn1 tags used by /repo. -/
abbrev Tag := UInt8
def tagBOOLEAN : Tag := 0x01
def tagINTEGER : Tag := 0x02
def tagBITSTRING : Tag := 0x03
def tagOCTETSTRING : Tag := 0x04
def tagNULL : Tag := 0x05
def tagOID : Tag := 0x06
def tagSEQUENCE : Tag := 0x30
def tagSET : Tag := 0x31

/-- Minimal DER length octets. (`Builder.flushChild`, ASN.1 branch.) -/
def lenOctets (n : Nat) : Bytes :=
  if n ≤ 0x7f then [UInt8.ofNat n] else UInt8.ofNat (0x80 + byteLen n) :: toBytes n

/-- Tag, length and contents. -/
def tlv (tag : Tag) (body : Bytes) : Bytes := tag :: (lenOctets body.length ++ body)

/-- `Builder.AddASN1(tag, ...)`: fails for high tag numbers and contents longer than 0xfffffffe bytes. -/
def addASN1 (tag : Tag) (body : Bytes) : Option Bytes :=
  if tag &&& 0x1f = 0x1f then none
  else if body.length > 0xfffffffe then none
  else some (tlv tag body)

/-- `String.readASN1` with the header skipped: tag, contents, rest of the input.
`int` is 64 bits wide. -/
def readAny (s : Bytes) : Option (Tag × Bytes × Bytes) :=
  match s with
  | tag :: lenByte :: r =>
    if tag &&& 0x1f = 0x1f then none
    else if lenByte &&& 0x80 = 0 then
      let n := lenByte.toNat
      if n ≤ r.length then some (tag, r.take n, r.drop n) else none
    else
      let lenLen := (lenByte &&& 0x7f).toNat
      if lenLen = 0 ∨ lenLen > 4 ∨ r.length < lenLen then none
      else
        let len32 := ofBytes (r.take lenLen)
        if len32 < 128 then none
        else if len32 / 256 ^ (lenLen - 1) = 0 then none
        else if 2 + lenLen + len32 ≥ 2 ^ 32 then none
        else
          let r' := r.drop lenLen
          if len32 ≤ r'.length then some (tag, r'.take len32, r'.drop len32) else none
  | _ => none

/-- `String.ReadASN1(&out, tag)`: contents and rest. -/
def readASN1 (tag : Tag) (s : Bytes) : Option (Bytes × Bytes) :=
  match readAny s with
  | some (t, body, rest) => if t = tag then some (body, rest) else none
  | none => none

/-- Contents octets written by `Builder.AddASN1BigInt`. -/
def encInt (n : Int) : Bytes :=
  if n < 0 then
    let b := (toBytes (-n - 1).toNat).map (fun x => x ^^^ 0xff)
    if b.length = 0 ∨ b.headD 0 &&& 0x80 = 0 then 0xff :: b else b
  else if n = 0 then [0]
  else
    let b := toBytes n.toNat
    if b.headD 0 &&& 0x80 ≠ 0 then 0 :: b else b

/-- `checkASN1Integer`: non-empty and minimal. -/
def checkInt : Bytes → Bool
  | [] => false
  | [_] => true
  | a :: b :: _ => !((a == 0 && b &&& 0x80 == 0) || (a == 0xff && b &&& 0x80 == 0x80))

/-- Value of the contents octets, as in `readASN1BigInt`. -/
def decInt (b : Bytes) : Option Int :=
  if checkInt b then
    if b.headD 0 &&& 0x80 = 0x80 then
      some (-((ofBytes (b.map fun x => ~~~x) : Int) + 1))
    else some (ofBytes b)
  else none

/-- `String.ReadASN1Integer(*big.Int)`. -/
def readInt (s : Bytes) : Option (Int × Bytes) :=
  match readASN1 tagINTEGER s with
  | some (body, rest) =>
    match decInt body with
    | some n => some (n, rest)
    | none => none
  | none => none

end MCrypto.Der
