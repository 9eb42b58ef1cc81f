import Verif.X509.SigAlg
import Verif.X509.Name
/-
Model of the `Certificate` type of /repo/x509/x509.go (lines 815-914) and of the methods on it that check
signatures (lines 945-996, 1072-1075).

Simplifications: strings are byte strings; a time is its calendar fields and zone offset (no fraction of a second); a
`*url.URL` is the pair of its `String()` and its `Host`; nil and empty slices are not
distinguished except where the code does.
-/
namespace MCrypto.X509
open MCrypto MCrypto.Asn1

/-- `*url.URL` -/
structure Url where
  str : Bytes
  host : Bytes
  deriving DecidableEq, Repr

/-- `pkix.Extension` -/
structure Ext where
  id : Oid := []
  critical : Bool := false
  value : Bytes := []
  deriving DecidableEq, Repr

/-- `net.IPNet` -/
structure IPNet where
  ip : Bytes
  mask : Bytes
  deriving DecidableEq, Repr

/-- `Certificate`: x509.go:815-914. -/
structure Certificate where
  raw : Bytes := []
  rawTBSCertificate : Bytes := []
  rawSubjectPublicKeyInfo : Bytes := []
  rawSubject : Bytes := []
  rawIssuer : Bytes := []
  signature : Bytes := []
  signatureAlgorithm : Int := 0
  publicKeyAlgorithm : Int := 0
  publicKey : PubKey := .nil
  version : Int := 0
  serialNumber : Option Int := none
  issuer : Name := {}
  subject : Name := {}
  notBefore : Time := ⟨1, 1, 1, 0, 0, 0, 0⟩
  notAfter : Time := ⟨1, 1, 1, 0, 0, 0, 0⟩
  keyUsage : Int := 0
  extensions : List Ext := []
  extraExtensions : List Ext := []
  unhandledCriticalExtensions : List Oid := []
  extKeyUsage : List Int := []
  unknownExtKeyUsage : List Oid := []
  basicConstraintsValid : Bool := false
  isCA : Bool := false
  maxPathLen : Int := 0
  maxPathLenZero : Bool := false
  subjectKeyId : Bytes := []
  authorityKeyId : Bytes := []
  ocspServer : List Bytes := []
  issuingCertificateURL : List Bytes := []
  dnsNames : List Bytes := []
  emailAddresses : List Bytes := []
  ipAddresses : List Bytes := []
  uris : List Url := []
  permittedDNSDomainsCritical : Bool := false
  permittedDNSDomains : List Bytes := []
  excludedDNSDomains : List Bytes := []
  permittedIPRanges : List IPNet := []
  excludedIPRanges : List IPNet := []
  permittedEmailAddresses : List Bytes := []
  excludedEmailAddresses : List Bytes := []
  permittedURIDomains : List Bytes := []
  excludedURIDomains : List Bytes := []
  crlDistributionPoints : List Bytes := []
  policyIdentifiers : List Oid := []
  deriving DecidableEq, Repr

/-- `(*Certificate).Equal`: x509.go:945-950; `none` is a nil pointer. Two non-nil pointers are equal iff
their `Raw` bytes are. -/
def certEqual : Option Certificate → Option Certificate → Bool
  | some c, some d => c.raw == d.raw
  | none, none => true
  | _, _ => false

/-- `KeyUsageCertSign`, `KeyUsageCRLSign`: x509.go:713-723 -/
@[simp] abbrev kuCertSign : Int := 32
@[simp] abbrev kuCRLSign : Int := 64

/-- `ku & m != 0` for the 64-bit int `ku` and a single bit `m = 2^i`. -/
def hasBit (ku : Int) (i : Nat) : Bool := decide (ku / 2 ^ i % 2 = 1)

/-- `(*Certificate).CheckSignature`: x509.go:984-986 -/
def Certificate.checkSignature (reg : Registry) (V : Verifiers) (c : Certificate) (algo : Int)
    (signed signature : Bytes) : Res Unit :=
  X509.checkSignature reg V algo signed signature c.publicKey

/-- `(*Certificate).CheckSignatureFrom`: x509.go:958-980 -/
def Certificate.checkSignatureFrom (reg : Registry) (V : Verifiers) (c parent : Certificate) : Res Unit :=
  if (parent.version = 3 ∧ ¬ parent.basicConstraintsValid) ∨ (parent.basicConstraintsValid ∧ ¬ parent.isCA) then
    .err "constraint violation"
  else if parent.keyUsage ≠ 0 ∧ ¬ hasBit parent.keyUsage 5 then .err "constraint violation"
  else if parent.publicKeyAlgorithm = pkUnknown then
    .err "x509: cannot verify signature: algorithm unimplemented"
  else parent.checkSignature reg V c.signatureAlgorithm c.rawTBSCertificate c.signature

/-- The parts of `pkix.CertificateList` that matter here. -/
structure CertificateList where
  tbsRaw : Bytes
  signatureAlgorithm : AlgId
  signatureValue : BitString
  deriving DecidableEq, Repr

/-- `(*Certificate).CheckCRLSignature`: x509.go:1072-1075 -/
def Certificate.checkCRLSignature (reg : Registry) (V : Verifiers) (c : Certificate) (crl : CertificateList) : Res Unit :=
  c.checkSignature reg V (getSignatureAlgorithmFromAI crl.signatureAlgorithm) crl.tbsRaw (rightAlign crl.signatureValue)

end MCrypto.X509
