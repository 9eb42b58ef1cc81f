import Verif.X509.CertSpec
import Verif.X509.Builder
import Verif.X509.NameSpec
/-
Specification for the functions that make certificates: usable keys and names, and which identifiers and algorithms
a made certificate carries.
-/
namespace MCrypto.X509Spec
open MCrypto MCrypto.Asn1
open MCrypto.X509 (Certificate PubKey Atv Name toAny)

/-- Public keys that can be put into a certificate and read back. -/
def KeyOk : PubKey → Prop
  | .rsa k => 0 < k.n ∧ 0 < k.e ∧ k.e < 2 ^ 63
  | .ecdsa k => OnCurve k
  | .sm2 k => OnCurve k
  | .ed25519 k => k.length = 32
  | _ => False

/-- The Go type of an elliptic curve key is that of its curve. -/
def sameKey : PubKey → PubKey
  | .ecdsa k => ecPubKey k
  | .sm2 k => ecPubKey k
  | k => k

/-- The name of a template: given by its octets, or by fields and extra names that are strings with proper types. -/
def NameOk (c : Certificate) : Prop :=
  (c.rawSubject ≠ [] → ∃ n, NameDer c.rawSubject n) ∧
  (c.rawSubject = [] → ∀ a ∈ c.subject.extraNames, OidOk a.type ∧ ∃ s, a.value = .str s)

/-- `raw` and `rdns` are the name of the template `c`: its octets if it has any, else the relative distinguished names of
its fields and extra names, with their attributes in any order. -/
def RdnsFrom (c : Certificate) (raw : Bytes) (rdns : List (List Atv)) : Prop :=
  NameDer raw rdns ∧ (c.rawSubject ≠ [] → raw = c.rawSubject) ∧
  (c.rawSubject = [] → List.Forall₂ List.Perm (toAny rdns) (nameRdns c.subject))

/-- `raw` and `n` are the name of the template `c`, and `n` has the fields of `raw`. -/
def NameFrom (c : Certificate) (raw : Bytes) (n : Name) : Prop :=
  ∃ rdns, RdnsFrom c raw rdns ∧ NameFields (toAny rdns).flatten n

/-- Algorithms whose signatures are not checked after signing: MD5WithRSA, SHA1WithRSA, ECDSAWithSHA1. -/
def uncheckedAlgorithms : List Int := [1, 2, 8]

/-- The fields of `c` that come from extensions are those of the template `t`. -/
structure SameExtensionFields (t c : Certificate) : Prop where
  keyUsage : c.keyUsage = t.keyUsage % 512
  extKeyUsage : c.extKeyUsage = t.extKeyUsage
  unknownExtKeyUsage : c.unknownExtKeyUsage = t.unknownExtKeyUsage
  basicConstraintsValid : c.basicConstraintsValid = t.basicConstraintsValid
  isCA : t.basicConstraintsValid = true → c.isCA = t.isCA
  pathLen : t.basicConstraintsValid = true →
    pathLimit c.maxPathLen c.maxPathLenZero = pathLimit t.maxPathLen t.maxPathLenZero
  ocspServer : c.ocspServer = t.ocspServer
  issuingCertificateURL : c.issuingCertificateURL = t.issuingCertificateURL
  dnsNames : c.dnsNames = t.dnsNames
  emailAddresses : c.emailAddresses = t.emailAddresses
  ipAddresses : c.ipAddresses = t.ipAddresses.map (fun ip => (X509.to4 ip).getD ip)
  uris : c.uris = t.uris
  policyIdentifiers : c.policyIdentifiers = t.policyIdentifiers
  critical : c.permittedDNSDomainsCritical = true ↔ t.permittedDNSDomainsCritical = true ∧
    ¬ (t.permittedDNSDomains = [] ∧ t.excludedDNSDomains = [] ∧ t.permittedIPRanges = [] ∧ t.excludedIPRanges = [] ∧
      t.permittedEmailAddresses = [] ∧ t.excludedEmailAddresses = [] ∧ t.permittedURIDomains = [] ∧
      t.excludedURIDomains = [])
  permittedDNSDomains : c.permittedDNSDomains = t.permittedDNSDomains
  excludedDNSDomains : c.excludedDNSDomains = t.excludedDNSDomains
  permittedIPRanges : c.permittedIPRanges = t.permittedIPRanges
  excludedIPRanges : c.excludedIPRanges = t.excludedIPRanges
  permittedEmailAddresses : c.permittedEmailAddresses = t.permittedEmailAddresses
  excludedEmailAddresses : c.excludedEmailAddresses = t.excludedEmailAddresses
  permittedURIDomains : c.permittedURIDomains = t.permittedURIDomains
  excludedURIDomains : c.excludedURIDomains = t.excludedURIDomains
  crlDistributionPoints : c.crlDistributionPoints = t.crlDistributionPoints
  unhandled : c.unhandledCriticalExtensions = (t.extraExtensions.filter (·.critical)).map (·.id)

end MCrypto.X509Spec
