import Verif.Heap
import Verif.X509.Parser
/-
Which memory a parsed certificate refers to. A `cryptobyte.String` is a slice, the readers of cryptobyte cut it up (`read`:
`v := (*s)[:n]; *s = (*s)[n:]`), and parseCertificate stores some of the pieces in the Certificate without copying them.
-/
namespace MCrypto.X509
open MCrypto Asn1 MCrypto.Go

/-- `s[i:i+n]` for indices within the length; the capacity reaches to the end of that of `s`. -/
def sub (s : Slice) (i n : Nat) : Slice := ⟨s.arr, s.off + i, n, s.cap - i⟩

/-- What is left of `s` when `n` octets are left. -/
def restS (s : Slice) (n : Nat) : Slice := sub s (s.len - n) n

/-- `String.ReadASN1Element` on slices: the element, the rest. -/
def readElementS (h : Heap) (tag : Der.Tag) (s : Slice) : Option (Slice × Slice) := do
  let (e, r) ← readElement tag (h.read s)
  pure (sub s 0 e.length, restS s r.length)

/-- `String.ReadASN1` on slices: the contents (the end of the element), the rest. -/
def readASN1S (h : Heap) (tag : Der.Tag) (s : Slice) : Option (Slice × Slice) := do
  let (b, r) ← Der.readASN1 tag (h.read s)
  pure (sub s (s.len - r.length - b.length) b.length, restS s r.length)

/-- A reader whose result is a new value, on slices. -/
def readS {α : Type} (f : Bytes → Option (α × Bytes)) (h : Heap) (s : Slice) : Option (α × Slice) := do
  let (a, r) ← f (h.read s)
  pure (a, restS s r.length)

/-- The slices of a Certificate that are pieces of the input. -/
structure CertRefs where
  raw : Slice
  rawTBSCertificate : Slice
  rawIssuer : Slice
  rawSubject : Slice
  rawSubjectPublicKeyInfo : Slice
  /-- `Extensions[i].Value` -/
  extValues : List Slice
  /-- `none`: `RightAlign` had to shift the bits and returned new memory -/
  signature : Option Slice
  /-- the bits of the public key; only an Ed25519 key is not copied (parser.go:310) -/
  key : Option Slice

/-- `for !extensions.Empty()`: parser.go:1161-1171 with parseExtension, parser.go:222-238; the slices `ext.Value`. The counter bounds the
iterations. -/
def extRefsAux (h : Heap) : Nat → Slice → Option (List Slice)
  | 0, s => if s.len = 0 then some [] else none
  | n + 1, s =>
    if s.len = 0 then some []
    else do
      let (e, s) ← readASN1S h 0x30 s
      let (_, e) ← readS readOID h e
      let (_, e) ← readS readFlag h e
      let (v, _) ← readASN1S h 0x04 e
      let l ← extRefsAux h n s
      pure (v :: l)

/-- parser.go:1144-1172: the slices of the extensions. -/
def tailRefs (h : Heap) (version : Int) (tbs : Slice) : Option (List Slice) :=
  if version > 1 then do
    let t ← skipOptional 0xa1 (h.read tbs)
    let tbs := restS tbs t.length
    let t ← skipOptional 0xa2 (h.read tbs)
    let tbs := restS tbs t.length
    if version = 3 then
      if peek 0xa3 (h.read tbs) then
        let (x, _) ← readASN1S h 0xa3 tbs
        let (x, _) ← readASN1S h 0x30 x
        extRefsAux h x.len x
      else pure []
    else pure []
  else pure []

/-- `ReadASN1BitString` (the bits are `bytes[1:]`) and `RightAlign` (the same memory unless bits have to be shifted):
parser.go:1181-1185 for the signature, 1132-1135 and 241 for the key. -/
def bitsRef (h : Heap) (s : Slice) : Option (Option Slice) := do
  let (v, _) ← readBits (h.read s)
  let (b, _) ← readASN1S h 0x03 s
  pure (if v.bitLength % 8 = 0 ∨ v.bytes.length = 0 then some (sub b 1 (b.len - 1)) else none)

/-- parser.go:1112-1135, 241 -/
def keyRef (h : Heap) (spki : Slice) : Option (Option Slice) := do
  let (s, _) ← readASN1S h 0x30 spki
  let (_, s) ← readASN1S h 0x30 s
  bitsRef h s

/-- parser.go:1006-1187: the slices that parseCertificate stores. -/
def certRefs (h : Heap) (der : Slice) : Option CertRefs := do
  let (raw, _) ← readElementS h 0x30 der
  let (input, _) ← readASN1S h 0x30 raw
  let (rawTbs, input) ← readElementS h 0x30 input
  let (tbs, _) ← readASN1S h 0x30 rawTbs
  let (version, tbs) ← readS parseVersion h tbs
  let (_, tbs) ← readS Der.readInt h tbs
  let (_, tbs) ← readASN1S h 0x30 tbs
  let (_, input) ← readASN1S h 0x30 input
  let (issuer, tbs) ← readElementS h 0x30 tbs
  let (_, tbs) ← readASN1S h 0x30 tbs
  let (subject, tbs) ← readElementS h 0x30 tbs
  let (spki, tbs) ← readElementS h 0x30 tbs
  let exts ← tailRefs h version tbs
  let key ← keyRef h spki
  let sig ← bitsRef h input
  pure ⟨raw, rawTbs, issuer, subject, spki, exts, sig, key⟩

/-- A `*Certificate` as `ParseCertificate` returns it: the values that are copies, and the slices. `SubjectKeyId`, `AuthorityKeyId` and
`IPAddresses`, which are pieces of extension values, are kept as values. -/
structure CertMem where
  val : Certificate
  refs : CertRefs

/-- `ParseCertificate` on the memory `h`. -/
def parseMem (env : Env) (h : Heap) (der : Slice) : Res CertMem := do
  let c ← ParseCertificate env (h.read der)
  let r ← Res.ofOption "unreachable" (certRefs h der)
  pure ⟨c, r⟩

/-- A field that is a slice, or was copied. -/
def orCopy (h : Heap) (o : Option Slice) (copy : Bytes) : Bytes :=
  match o with
  | some s => h.read s
  | none => copy

/-- The public key: Ed25519 keys are not copied. -/
def keyAt (h : Heap) (o : Option Slice) (k : PubKey) : PubKey :=
  match k with
  | .ed25519 b => .ed25519 (orCopy h o b)
  | k => k

/-- What the fields of the Certificate are when memory is `h`. -/
def CertMem.at (m : CertMem) (h : Heap) : Certificate :=
  { m.val with
    raw := h.read m.refs.raw
    rawTBSCertificate := h.read m.refs.rawTBSCertificate
    rawIssuer := h.read m.refs.rawIssuer
    rawSubject := h.read m.refs.rawSubject
    rawSubjectPublicKeyInfo := h.read m.refs.rawSubjectPublicKeyInfo
    extensions := List.zipWith (fun (e : Ext) s => { e with value := h.read s }) m.val.extensions m.refs.extValues
    signature := orCopy h m.refs.signature m.val.signature
    publicKey := keyAt h m.refs.key m.val.publicKey }

end MCrypto.X509
