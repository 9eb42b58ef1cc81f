import Verif.X509.Refs
import Verif.X509.Create
/-
Which memory parsed requests and revocation lists refer to. encoding/asn1 cuts up the input, `innerBytes := bytes[offset : offset+t.length]`;
`RawContent`, `RawValue` and `BitString.Bytes` are such pieces, octet strings, strings, numbers and object identifiers are copies
(asn1.go of Go 1.18: parseField, parseSequence, parseBitString).
-/
namespace MCrypto.X509
open MCrypto Asn1 MCrypto.Go

/-- The element at the beginning of a slice: the whole element, its contents, and what follows it. -/
def elementS (h : Heap) (s : Slice) : Option (Slice × Slice × Slice) := do
  let (t, r) ← parseHdr (h.read s)
  if r.length < t.len then none
  else pure (sub s 0 (s.len - (r.length - t.len)), sub s (s.len - r.length) t.len, restS s (r.length - t.len))

/-- The bits of a BIT STRING with contents `c`: `BitString.Bytes` is `bytes[1:]`; `RightAlign` returns the same memory unless bits have to be
shifted (then `none`). -/
def alignedRef (h : Heap) (c : Slice) : Option (Option Slice) := do
  let v ← decBits (h.read c)
  pure (if v.bitLength % 8 = 0 ∨ v.bytes.length = 0 then some (sub c 1 (c.len - 1)) else none)

/-! ## Requests -/

/-- The slices of a CertificateRequest that are pieces of the input. -/
structure RequestRefs where
  raw : Slice
  rawTBS : Slice
  rawSubject : Slice
  rawSPKI : Slice
  /-- `none`: the bits had to be shifted into new memory -/
  signature : Option Slice
  /-- the bits of the public key; only an Ed25519 key is not copied (parser.go:310) -/
  key : Option Slice

/-- x509.go:2220-2250: the slices that ParseCertificateRequest stores (`Raw`, `RawTBSCertificateRequest`, `RawSubject`,
`RawSubjectPublicKeyInfo`, `Signature`, an Ed25519 `PublicKey`). The values of `Extensions` are octet strings, hence copies. -/
def requestRefs (h : Heap) (der : Slice) : Option RequestRefs := do
  let (raw, b, _) ← elementS h der
  let (tbs, tb, b) ← elementS h b
  let (_, tb) ← (elementS h tb).map (·.2)
  let (subject, _, tb) ← elementS h tb
  let (spki, k, _) ← elementS h tb
  let (_, k) ← (elementS h k).map (·.2)
  let (_, kb, _) ← elementS h k
  let key ← alignedRef h kb
  let (_, b) ← (elementS h b).map (·.2)
  let (_, sb, _) ← elementS h b
  let sig ← alignedRef h sb
  pure ⟨raw, tbs, subject, spki, sig, key⟩

/-- A `*CertificateRequest` as `ParseCertificateRequest` returns it: the values that are copies, and the slices. -/
structure RequestMem where
  val : CertificateRequest
  refs : RequestRefs

/-- `ParseCertificateRequest` (x509.go:2216-2276) on the memory `h`. -/
def parseRequestMem (env : Env) (h : Heap) (der : Slice) : Res RequestMem := do
  let c ← ParseCertificateRequest env (h.read der)
  let r ← Res.ofOption "unreachable" (requestRefs h der)
  pure ⟨c, r⟩

/-- What the fields of the request are when memory is `h`. -/
def RequestMem.at (m : RequestMem) (h : Heap) : CertificateRequest :=
  { m.val with
    raw := h.read m.refs.raw
    rawTBSCertificateRequest := h.read m.refs.rawTBS
    rawSubject := h.read m.refs.rawSubject
    rawSubjectPublicKeyInfo := h.read m.refs.rawSPKI
    signature := orCopy h m.refs.signature m.val.signature
    publicKey := keyAt h m.refs.key m.val.publicKey }

/-! ## Revocation lists -/

/-- The slices of a CertificateList that are pieces of the input and that the check of its signature uses. -/
structure CrlRefs where
  rawTBS : Slice
  /-- the parameters of the signature algorithm, if there are any: `RawValue.FullBytes` and `RawValue.Bytes` -/
  params : Option (Slice × Slice)
  /-- `SignatureValue.Bytes` -/
  signature : Slice
  deriving DecidableEq

/-- The parameters of an AlgorithmIdentifier with contents `s`. -/
def paramsRef (h : Heap) (s : Slice) : Option (Option (Slice × Slice)) := do
  let (_, s) ← (elementS h s).map (·.2)
  if s.len = 0 then pure none
  else do
    let (full, b, _) ← elementS h s
    pure (some (full, b))

/-- `ParseDERCRL`: x509.go:1831-1839, the slices that encoding/asn1 stores. -/
def crlRefs (h : Heap) (der : Slice) : Option CrlRefs := do
  let (_, b, _) ← elementS h der
  let (tbs, _, b) ← elementS h b
  let (_, ab, b) ← elementS h b
  let (_, sb, _) ← elementS h b
  let params ← paramsRef h ab
  pure ⟨tbs, params, sub sb 1 (sb.len - 1)⟩

/-- A `*pkix.CertificateList`. Simplification: of `TBSCertList` only `Raw` is kept as a slice; the parameters of the inner algorithm
and values in the issuer that are octet or bit strings are slices too, but are kept as values. -/
structure CrlMem where
  val : Crl
  refs : CrlRefs

/-- `ParseDERCRL` on the memory `h`. -/
def parseCrlMem (h : Heap) (der : Slice) : Res CrlMem := do
  let c ← ParseDERCRL (h.read der)
  let r ← Res.ofOption "unreachable" (crlRefs h der)
  pure ⟨c, r⟩

def paramsAt (h : Heap) (o : Option (Slice × Slice)) (v : RawValue) : RawValue :=
  match o with
  | some (full, b) => { v with full := h.read full, bytes := h.read b }
  | none => v

/-- What the list is when memory is `h`. -/
def CrlMem.at (m : CrlMem) (h : Heap) : Crl :=
  { m.val with
    tbs := { m.val.tbs with raw := h.read m.refs.rawTBS }
    signatureAlgorithm := { m.val.signatureAlgorithm with parameters := paramsAt h m.refs.params m.val.signatureAlgorithm.parameters }
    signatureValue := { m.val.signatureValue with bytes := h.read m.refs.signature } }

end MCrypto.X509
