import Verif.Heap
import Verif.X509.Create
/-
Templates in memory: `CreateCertificateRequest`, `CreateCRL` and `CreateRevocationList` change lists that came from the caller
(they merge extensions into an attribute, and convert times to UTC), so they work on copies. Elsewhere in the model lists are
values; here they are slices of arrays (`Verif/Heap.lean` for the slices), so that writing to a slice of the caller can be seen.
-/
namespace MCrypto.X509
open MCrypto MCrypto.Go MCrypto.Asn1

/-- The arrays with elements of type `α`. Allocation adds one at the end. -/
abbrev Arrays (α : Type) := List (List α)

/-- The elements of a slice. -/
def Arrays.read (m : Arrays α) (s : Slice) : List α := ((m.getD s.arr []).drop s.off).take s.len

/-- `s[i] = x` -/
def Arrays.set (m : Arrays α) (s : Slice) (i : Nat) (x : α) : Arrays α := m.modify s.arr (List.set · (s.off + i) x)

/-- A new array and the slice of its first `n` elements. -/
def Arrays.new (m : Arrays α) (l : List α) (n : Nat) : Arrays α × Slice := (m ++ [l], ⟨m.length, 0, n, l.length⟩)

/-- `pkix.AttributeTypeAndValueSET` (crypto/x509/pkix) with its slice of slices. -/
structure AttrRef where
  type : Oid
  value : Slice
  deriving DecidableEq, Repr

/-- The arrays behind `[][]AttributeTypeAndValue` and `[]AttributeTypeAndValue`. -/
structure AttrMem where
  outer : Arrays Slice
  inner : Arrays AtvAny
  deriving DecidableEq, Repr

/-- The value of an attribute. -/
def AttrMem.attr (m : AttrMem) (a : AttrRef) : AttrSet := ⟨a.type, (m.outer.read a.value).map m.inner.read⟩

/-- x509.go:2082-2091: new slices with the same inner slices. -/
def copyAttrs (m : AttrMem) : List AttrRef → AttrMem × List AttrRef
  | [] => (m, [])
  | a :: l =>
    let values := m.outer.new (m.outer.read a.value) a.value.len
    let r := copyAttrs { m with outer := values.1 } l
    (r.1, ⟨a.type, values.2⟩ :: r.2)

/-- x509.go:2102-2129: `newValue` has capacity for all the extensions; what is not used is `zero`. -/
def mergeAttr (zero : AtvAny) (exts : List Ext) (m : AttrMem) (a : AttrRef) : AttrMem :=
  let values := m.outer.read a.value
  let specified := (values.map m.inner.read).flatten.map (·.type)
  let new := (exts.filter fun e => !specified.contains e.id).map fun e => (⟨e.id, .octets e.value⟩ : AtvAny)
  match values with
  | [] => m
  | v :: _ =>
    let old := m.inner.read v
    let newValue := m.inner.new (old ++ new ++ List.replicate (exts.length - new.length) zero) (old.length + new.length)
    ⟨m.outer.set a.value 0 newValue.2, newValue.1⟩

/-- x509.go:2095-2133: the first attribute with extensions gets the others; `extensionsAppended`. -/
def mergeAttrs (zero : AtvAny) (exts : List Ext) (m : AttrMem) : List AttrRef → AttrMem × Bool
  | [] => (m, false)
  | a :: l =>
    if a.type ≠ oidExtensionRequest ∨ a.value.len = 0 then mergeAttrs zero exts m l
    else (mergeAttr zero exts m a, true)

/-- x509.go:2082-2163 -/
def csrAttributesM (zero : AtvAny) (m : AttrMem) (attrs : List AttrRef) (exts : List Ext) : AttrMem × Option (List RawValue) :=
  let c := copyAttrs m attrs
  let r := if exts.length > 0 then mergeAttrs zero exts c.1 c.2 else (c.1, false)
  match newRawAttributes (c.2.map r.1.attr) with
  | none => (r.1, none)
  | some raws =>
    if exts.length > 0 ∧ ¬ r.2 then
      (r.1, do
        let b ← marshal extAttr ⟨oidExtensionRequest, [exts]⟩
        let (v, _) ← parseRaw {} b
        pure (raws ++ [v]))
    else (r.1, some raws)

/-- `CreateCertificateRequest` (x509.go:2058-2213) for a template whose attributes are `attrs` in memory `m`; the memory
afterwards and the result. The field `attributes` of `t` is not used. -/
def CreateCertificateRequestM (reg : Registry) (zero : AtvAny) (m : AttrMem) (t : CertificateRequest) (attrs : List AttrRef) :
    Option Signer → AttrMem × Res Bytes
  | none => (m, .err "x509: certificate private key does not implement crypto.Signer")
  | some key =>
    match (do
      let (hashFunc, sigAlgo) ← signingParamsForPublicKey key.pub t.signatureAlgorithm
      let (pkBytes, pkAlgo) ← marshalPublicKey key.pub
      let exts ← Res.ofOption "extensions" (buildCSRExtensions t)
      pure (hashFunc, sigAlgo, pkBytes, pkAlgo, exts) : Res (Nat × AlgId × Bytes × AlgId × List Ext)) with
    | .err e => (m, .err e)
    | .panic => (m, .panic)
    | .ok (hashFunc, sigAlgo, pkBytes, pkAlgo, exts) =>
      let r := csrAttributesM zero m attrs exts
      (r.1, do
        let raws ← Res.ofOption "asn1" r.2
        let subject ← Res.ofOption "asn1" (csrSubject t)
        signCsr reg key hashFunc sigAlgo
          { version := 0, subject := { full := subject }, publicKey := ⟨pkAlgo, ⟨pkBytes, pkBytes.length * 8⟩⟩,
            rawAttributes := raws })

/-- The loop x509.go:1859-1862 and 2351-2354 from index `i` for `n` elements: element `i` of the slice `src` of the caller, with
its time in UTC, goes to the new slice `dst`. The second component is whether all times can be converted (years the model of
`Time` does not have). -/
def utcLoop (src dst : Slice) (m : Arrays Revoked) (i : Nat) : Nat → Arrays Revoked × Bool
  | 0 => (m, true)
  | n + 1 =>
    match (m.read src)[i]? with
    | none => (m, false)
    | some r =>
      match r.revocationTime.utc with
      | none => (m, false)
      | some t => utcLoop src dst (m.set dst i { r with revocationTime := t }) (i + 1) n

/-- x509.go:1858-1862 and 2350-2354: the memory afterwards and `revokedCertsUTC`. -/
def revokedUTCM (zero : Revoked) (m : Arrays Revoked) (src : Slice) : Arrays Revoked × Option Slice :=
  let a := m.new (List.replicate src.len zero) src.len
  let r := utcLoop src a.2 a.1 0 src.len
  (r.1, if r.2 then some a.2 else none)

/-- x509.go:1864-1882 -/
def crlForUTC (c : Certificate) (sigAlgo : AlgId) (rs : List Revoked) (now expiry : Time) : Option TbsCrl := do
  let now ← now.utc
  let expiry ← expiry.utc
  let exts ← crlExtensions c.subjectKeyId
  pure { version := 1, signature := sigAlgo, issuer := c.subject.toRDNSequence, thisUpdate := now, nextUpdate := expiry,
         revoked := some rs, extensions := exts }

/-- `(*Certificate).CreateCRL` (x509.go:1846-1907) for a slice of entries in memory. -/
def Certificate.createCRLM (E : SignEnv) (zero : Revoked) (m : Arrays Revoked) (c : Certificate) (priv : Option Signer)
    (revoked : Slice) (now expiry : Time) : Arrays Revoked × Res Bytes :=
  match priv with
  | none => (m, .err "x509: certificate private key does not implement crypto.Signer")
  | some key =>
    match signingParamsForPublicKey key.pub 0 with
    | .err e => (m, .err e)
    | .panic => (m, .panic)
    | .ok (hashFunc, sigAlgo) =>
      let r := revokedUTCM zero m revoked
      (r.1, do
        let rs ← Res.ofOption "asn1" (r.2.map r.1.read)
        let tbs ← Res.ofOption "asn1" (crlForUTC c sigAlgo rs now expiry)
        let contents ← Res.ofOption "asn1" (marshal tbsCrl tbs)
        let digest ← digestFor E.reg (if hashFunc = hSM3 then 0 else hashFunc) contents
        signCrl key sigAlgo tbs digest (.hash hashFunc))

/-- x509.go:2356-2391 -/
def revocationListForUTC (t : RevocationList) (rs : List Revoked) (issuer : Certificate) (sigAlgo : AlgId) : Option TbsCrl := do
  let aki ← marshalAuthorityKeyId issuer.subjectKeyId
  let num ← marshalField optInt {} t.number
  let tu ← t.thisUpdate.utc
  let nu ← t.nextUpdate.utc
  pure { version := 1, signature := sigAlgo, issuer := issuer.subject.toRDNSequence, thisUpdate := tu, nextUpdate := nu,
         revoked := if rs.length > 0 then some rs else none,
         extensions := some ([aki, ⟨oidExtensionCRLNumber, false, num⟩] ++ t.extraExtensions) }

/-- `CreateRevocationList` (x509.go:2324-2419) for a template and an issuer that are not nil, with the entries in memory. The
field `revokedCertificates` of `t` is not used. -/
def CreateRevocationListM (E : SignEnv) (zero : Revoked) (m : Arrays Revoked) (t : RevocationList) (revoked : Slice)
    (issuer : Certificate) (priv : Signer) : Arrays Revoked × Res Bytes :=
  if ¬ hasBit issuer.keyUsage 6 then (m, .err "x509: issuer must have the crlSign key usage bit set")
  else if issuer.subjectKeyId.length = 0 then (m, .err "x509: issuer certificate doesn't contain a subject key identifier")
  else if t.nextUpdate.before t.thisUpdate then (m, .err "x509: template.ThisUpdate is after template.NextUpdate")
  else if t.number = none then (m, .err "x509: template contains nil Number field")
  else
    match signingParamsForPublicKey priv.pub t.signatureAlgorithm with
    | .err e => (m, .err e)
    | .panic => (m, .panic)
    | .ok (hashFunc, sigAlgo) =>
      let r := revokedUTCM zero m revoked
      (r.1, do
        let rs ← Res.ofOption "asn1" (r.2.map r.1.read)
        let tbs ← Res.ofOption "asn1" (revocationListForUTC t rs issuer sigAlgo)
        let contents ← Res.ofOption "asn1" (marshal tbsCrl tbs)
        let digest ← digestFor E.reg hashFunc contents
        signCrl priv sigAlgo tbs digest (signerOpts t.signatureAlgorithm hashFunc))

end MCrypto.X509
