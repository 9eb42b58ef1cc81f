import Verif.Der.Model
/-
Model of Go's `encoding/asn1` as used by /repo: `Unmarshal` and `Marshal` on the Go types that occur in
/repo (int, *big.Int, []byte, OID, BIT STRING, bool, RawValue, structs, slices) with the field
parameters `optional`, `explicit`, `tag:n`, `set`, `default:n`. This is a dependency of /repo, modelled
from its published source (Go 1.18+, 64-bit `int`); see DESIGN.md (trusted base).

The parser of the code works on a buffer and an offset; every decision depends only on the bytes from the
offset on, so the model takes that suffix and returns the remaining suffix. Error texts are dropped:
`none` is "an error was returned".
-/
namespace MCrypto.Asn1
open MCrypto

/-- `tagAndLength` -/
structure Hdr where
  cls : Nat
  compound : Bool
  tag : Nat
  len : Nat
  deriving DecidableEq, Repr

/-- `parseBase128Int`; `shifted` counts the octets read, `acc` is `ret64`. -/
def parse128 (shifted acc : Nat) : Bytes → Option (Nat × Bytes)
  | [] => none
  | b :: r =>
    if shifted = 5 then none
    else if shifted = 0 ∧ b.toNat = 0x80 then none
    else
      let acc' := acc * 128 + b.toNat % 128
      if b.toNat < 128 then
        if acc' > 2147483647 then none else some (acc', r)
      else parse128 (shifted + 1) acc' r

/-- The loop over the long-form length octets of `parseTagAndLength`; `n` octets are left. -/
def parseLen : Nat → Nat → Bytes → Option (Nat × Bytes)
  | 0, acc, r => some (acc, r)
  | _ + 1, _, [] => none
  | n + 1, acc, b :: r =>
    if acc ≥ 2 ^ 23 then none
    else
      let acc' := acc * 256 + b.toNat
      if acc' = 0 then none else parseLen n acc' r

/-- The tag number: low five bits, or base 128 for 31. -/
def parseTagNo (b : UInt8) (r : Bytes) : Option (Nat × Bytes) :=
  if b.toNat % 32 = 31 then
    match parse128 0 0 r with
    | some (t, r') => if t < 31 then none else some (t, r')
    | none => none
  else some (b.toNat % 32, r)

/-- The length octets. -/
def parseLength : Bytes → Option (Nat × Bytes)
  | [] => none
  | b :: r =>
    if b.toNat < 128 then some (b.toNat, r)
    else if b.toNat = 128 then none
    else match parseLen (b.toNat - 128) 0 r with
      | some (l, r') => if l < 128 then none else some (l, r')
      | none => none

/-- `parseTagAndLength`: header and what follows it. -/
def parseHdr : Bytes → Option (Hdr × Bytes)
  | [] => none
  | b :: r =>
    match parseTagNo b r with
    | none => none
    | some (tag, r') =>
      match parseLength r' with
      | none => none
      | some (len, r'') => some (⟨b.toNat / 64, decide (b.toNat / 32 % 2 = 1), tag, len⟩, r'')

/-- `appendBase128Int`: `l` septets of `n`, the last one without the continuation bit. -/
def enc128 : Nat → Nat → Bytes
  | 0, _ => []
  | 1, n => [UInt8.ofNat (n % 128)]
  | l + 2, n => UInt8.ofNat (128 + n / 128 ^ (l + 1) % 128) :: enc128 (l + 1) n

/-- `base128IntLength` -/
def len128 (n : Nat) : Nat := if n = 0 then 1 else n.log2 / 7 + 1

def base128 (n : Nat) : Bytes := enc128 (len128 n) n

/-- `appendTagAndLength` -/
def encHdr (cls : Nat) (compound : Bool) (tag len : Nat) : Bytes :=
  let b := cls * 64 + (if compound then 32 else 0)
  (if tag ≥ 31 then UInt8.ofNat (b + 31) :: base128 tag else [UInt8.ofNat (b + tag)]) ++ Der.lenOctets len

/-- Header and contents. -/
def encTLV (cls : Nat) (compound : Bool) (tag : Nat) (body : Bytes) : Bytes :=
  encHdr cls compound tag body.length ++ body

/-- How a Go type is coded: its universal tag, whether it is constructed, and the contents. `dec` gets
the contents octets and the whole element (for `RawContent`). -/
structure Codec (α : Type) where
  tag : Nat
  compound : Bool
  dec : Bytes → Bytes → Option α
  enc : α → Option Bytes

/-- Field parameters (struct tags). `opt = some d`: the field is optional and `d` is the value it has when
absent (the zero value, or the `default:` value). -/
structure Params (α : Type) where
  opt : Option α := none
  tag : Option Nat := none
  explicit : Bool := false
  set : Bool := false

/-- `setDefaultValue` with the offset reset: the optional field is absent. -/
def absent {α : Type} (p : Params α) (b : Bytes) : Option (α × Bytes) :=
  match p.opt with
  | some d => some (d, b)
  | none => none

/-- The part of `parseField` after a possible explicit tag has been unwrapped: `b` is the input at the
beginning of the field, `t` the header and `r` what follows it. -/
def parseBody {α : Type} (c : Codec α) (p : Params α) (b : Bytes) (t : Hdr) (r : Bytes) : Option (α × Bytes) :=
  let universal := if p.set then 17 else c.tag
  let implicitTag := if p.explicit then none else p.tag
  let ecls := if implicitTag.isSome then 2 else 0
  let etag := implicitTag.getD universal
  if ¬ (t.cls = ecls ∧ t.tag = etag) ∨ t.compound ≠ c.compound then absent p b
  else if r.length < t.len then none
  else
    let full := b.take (b.length - (r.length - t.len))
    match c.dec (r.take t.len) full with
    | some v => some (v, r.drop t.len)
    | none => none

/-- `parseField` for types other than RawValue. -/
def parseField {α : Type} (c : Codec α) (p : Params α) (b : Bytes) : Option (α × Bytes) :=
  if b = [] then absent p b
  else match parseHdr b with
    | none => none
    | some (t, r) =>
      if p.explicit then
        if r = [] then none
        else if t.cls = 2 ∧ some t.tag = p.tag ∧ (t.len = 0 ∨ t.compound = true) then
          if t.len = 0 then none
          else match parseHdr r with
            | none => none
            | some (t', r') => parseBody c p b t' r'
        else absent p b
      else parseBody c p b t r

/-- `makeField` for types other than RawValue: `isAbsent` tells whether an optional field is left out. -/
def marshalField {α : Type} [DecidableEq α] (c : Codec α) (p : Params α) (v : α) : Option Bytes :=
  if p.opt = some v then some []
  else match c.enc v with
    | none => none
    | some body =>
      let universal := if p.set then 17 else c.tag
      match p.tag with
      | none => some (encTLV 0 c.compound universal body)
      | some n =>
        if p.explicit then some (encTLV 2 true n (encTLV 0 c.compound universal body))
        else some (encTLV 2 c.compound n body)

/-- `asn1.RawValue` -/
structure RawValue where
  cls : Nat := 0
  tag : Nat := 0
  compound : Bool := false
  bytes : Bytes := []
  full : Bytes := []
  deriving DecidableEq, Repr

/-- `parseField` for RawValue: any element matches unless an implicit tag was asked for; an explicit tag
is checked but not unwrapped. -/
def parseRaw (p : Params RawValue) (b : Bytes) : Option (RawValue × Bytes) :=
  if b = [] then absent p b
  else match parseHdr b with
    | none => none
    | some (t, r) =>
      let ok := if p.explicit then decide (t.cls = 2 ∧ some t.tag = p.tag ∧ (t.len = 0 ∨ t.compound = true))
        else match p.tag with
          | some n => decide (t.cls = 2 ∧ t.tag = n)
          | none => true
      if p.explicit ∧ r = [] then none
      else if ¬ ok then absent p b
      else if r.length < t.len then none
      else some (⟨t.cls, t.tag, t.compound, r.take t.len, b.take (b.length - (r.length - t.len))⟩, r.drop t.len)

/-- `makeField` for RawValue. -/
def marshalRaw (p : Params RawValue) (v : RawValue) : Option Bytes :=
  if p.opt = some v then some []
  else if v.full ≠ [] then some v.full
  else some (encTLV v.cls v.compound v.tag v.bytes)

/-! ## Primitive types -/

/-- `[]byte` -/
def octets : Codec Bytes := ⟨4, false, fun b _ => some b, some⟩

/-- `*big.Int` (non-nil) -/
def bigInt : Codec Int := ⟨2, false, fun b _ => Der.decInt b, fun n => some (Der.encInt n)⟩

/-- `int` (64 bits): contents longer than 8 bytes are an error. -/
def goInt : Codec Int :=
  ⟨2, false, fun b _ => if b.length > 8 then none else Der.decInt b, fun n => some (Der.encInt n)⟩

/-- `bool` -/
def bool : Codec Bool :=
  ⟨1, false, fun b _ => if b = [0] then some false else if b = [0xff] then some true else none,
   fun v => some [if v then 0xff else 0]⟩

/-- The remaining arcs of `parseObjectIdentifier`; the counter (the number of bytes) bounds the loop. -/
def parseArcs : Nat → Bytes → Option (List Nat)
  | _, [] => some []
  | 0, _ :: _ => none
  | n + 1, b :: r =>
    match parse128 0 0 (b :: r) with
    | none => none
    | some (v, r') =>
      match parseArcs n r' with
      | none => none
      | some l => some (v :: l)

abbrev Oid := List Nat

/-- `parseObjectIdentifier` -/
def decOid (b : Bytes) : Option Oid :=
  match parse128 0 0 b with
  | none => none
  | some (v, r) =>
    match parseArcs r.length r with
    | none => none
    | some l => if v < 80 then some (v / 40 :: v % 40 :: l) else some (2 :: (v - 80) :: l)

/-- `makeObjectIdentifier` -/
def encOid : Oid → Option Bytes
  | a :: b :: l =>
    if a > 2 ∨ (a < 2 ∧ b ≥ 40) then none
    else some (base128 (a * 40 + b) ++ l.flatMap base128)
  | _ => none

def oid : Codec Oid := ⟨6, false, fun b _ => decOid b, encOid⟩

/-- `asn1.BitString` -/
structure BitString where
  bytes : Bytes := []
  bitLength : Nat := 0
  deriving DecidableEq, Repr

/-- `parseBitString` -/
def decBits (b : Bytes) : Option BitString :=
  match b with
  | [] => none
  | pad :: t =>
    if pad.toNat > 7 ∨ (t = [] ∧ pad.toNat > 0) ∨ (b.getLastD 0).toNat % 2 ^ pad.toNat ≠ 0 then none
    else some ⟨t, t.length * 8 - pad.toNat⟩

/-- `bitStringEncoder`: first octet `(8 - BitLength%8) % 8`, then the bytes. -/
def encBits (v : BitString) : Bytes := UInt8.ofNat ((8 - v.bitLength % 8) % 8) :: v.bytes

def bits : Codec BitString := ⟨3, false, fun b _ => decBits b, fun v => some (encBits v)⟩

/-! ## Slices -/

/-- First pass of `parseSequenceOf`: the header of every element is checked, elements are counted.
(The code also maps string and time tags; no slice of those types is parsed in /repo.) The counter bounds
the iterations, each consumes at least a byte. -/
def checkElems (chk : Hdr → Bool) : Nat → Bytes → Option Nat
  | _, [] => some 0
  | 0, _ :: _ => none
  | n + 1, b :: r =>
    match parseHdr (b :: r) with
    | none => none
    | some (t, r') =>
      if ¬ chk t then none
      else if r'.length < t.len then none
      else match checkElems chk n (r'.drop t.len) with
        | none => none
        | some k => some (k + 1)

/-- Second pass: `k` elements. -/
def parseElems {α : Type} (pf : Bytes → Option (α × Bytes)) : Nat → Bytes → Option (List α)
  | 0, _ => some []
  | k + 1, b =>
    match pf b with
    | none => none
    | some (v, r) =>
      match parseElems pf k r with
      | none => none
      | some l => some (v :: l)

/-- `parseSequenceOf` -/
def parseSeqOf {α : Type} (chk : Hdr → Bool) (pf : Bytes → Option (α × Bytes)) (b : Bytes) : Option (List α) :=
  match checkElems chk b.length b with
  | none => none
  | some k => parseElems pf k b

/-- Concatenation of the encodings of the elements. -/
def marshalElems {α : Type} (mf : α → Option Bytes) : List α → Option (List Bytes)
  | [] => some []
  | v :: l =>
    match mf v, marshalElems mf l with
    | some e, some es => some (e :: es)
    | _, _ => none

/-- Bytewise comparison `bytes.Compare(a, b) <= 0`. -/
def bytesLe : Bytes → Bytes → Bool
  | [], _ => true
  | _ :: _, [] => false
  | a :: as, b :: bs => if a < b then true else if b < a then false else bytesLe as bs

/-- Sorting (`sort.Sort`; insertion sort here, the results are the same for a total order whose equal elements are
equal). -/
def insertBy {α : Type} (le : α → α → Bool) (a : α) : List α → List α
  | [] => [a]
  | b :: l => if le a b then a :: b :: l else b :: insertBy le a l

def sortBy {α : Type} (le : α → α → Bool) : List α → List α
  | [] => []
  | a :: l => insertBy le a (sortBy le l)

/-- A slice of a non-RawValue type. -/
def seqOf {α : Type} [DecidableEq α] (c : Codec α) : Codec (List α) :=
  ⟨16, true,
   fun b _ => parseSeqOf (fun t => decide (t.cls = 0 ∧ t.tag = c.tag ∧ t.compound = c.compound)) (parseField c {}) b,
   fun l => (marshalElems (marshalField c {}) l).map List.flatten⟩

/-- A slice marshalled as SET OF (`asn1:"set"`): the encodings are sorted. Parsing is as for a slice. -/
def setOf {α : Type} [DecidableEq α] (c : Codec α) : Codec (List α) :=
  ⟨16, true, (seqOf c).dec,
   fun l => (marshalElems (marshalField c {}) l).map fun es => (sortBy bytesLe es).flatten⟩

/-- A slice of RawValue. -/
def seqOfRaw : Codec (List RawValue) :=
  ⟨16, true, fun b _ => parseSeqOf (fun _ => true) (parseRaw {}) b,
   fun l => (marshalElems (marshalRaw {}) l).map List.flatten⟩

/-! ## Top level -/

/-- `asn1.Unmarshal`: value and trailing data. -/
def unmarshal {α : Type} (c : Codec α) (b : Bytes) : Option (α × Bytes) := parseField c {} b

/-- `asn1.Marshal` -/
def marshal {α : Type} [DecidableEq α] (c : Codec α) (v : α) : Option Bytes := marshalField c {} v

/-! ## Common structures -/

/-- `pkix.AlgorithmIdentifier`: `Algorithm ObjectIdentifier; Parameters RawValue `asn1:"optional"``. -/
structure AlgId where
  algorithm : Oid := []
  parameters : RawValue := {}
  deriving DecidableEq, Repr

def algId : Codec AlgId :=
  ⟨16, true,
   fun b _ => do
     let (a, b) ← parseField oid {} b
     let (p, _) ← parseRaw { opt := some {} } b
     pure ⟨a, p⟩,
   fun v => do
     let a ← marshalField oid {} v.algorithm
     let p ← marshalRaw { opt := some {} } v.parameters
     pure (a ++ p)⟩

/-- `asn1.NullRawValue` -/
def nullRaw : RawValue := ⟨0, 5, false, [], []⟩

end MCrypto.Asn1
