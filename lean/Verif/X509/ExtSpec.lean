import Verif.X509.Parser
import Verif.X509.StringSpec
import Verif.Asn1.Lemmas
/-
Specification of the certificate extensions of RFC 5280 section 4.2 as the parser reads them: which octets stand for
which values. Only the `Env` of the parser (the URL and IP address parsers of the standard library) is used
from the model.
-/
namespace MCrypto.X509Spec
open MCrypto MCrypto.Asn1
open MCrypto.X509 (Env Url IPNet)

/-- `e` is a DER element with this identifier octet and contents (shorter than 2^32 octets, one identifier octet). -/
def Elem (tag : Der.Tag) (body e : Bytes) : Prop :=
  e = Der.tlv tag body ∧ tag &&& 0x1f ≠ 0x1f ∧ body.length + 6 < 2 ^ 32

/-- `s` is the concatenation of encodings of the values. -/
def Concat {α : Type} (E : Bytes → α → Prop) (vs : List α) (s : Bytes) : Prop :=
  ∃ es, s = es.flatten ∧ List.Forall₂ E es vs

/-- `e` encodes an object identifier. -/
def OidElem (o : Oid) (e : Bytes) : Prop := ∃ b, Elem 0x06 b e ∧ OidOk o ∧ encOid o = some b

/-- Only ASCII octets. -/
def Ascii (b : Bytes) : Prop := ∀ x ∈ b, x.toNat < 128

/-- KeyUsage (4.2.1.3): bit `i` of `ku` is bit `i` of the bit string, for the nine bits defined there. -/
def KeyUsageExt (value : Bytes) (ku : Nat) : Prop :=
  ∃ e tr pad bytes, value = e ++ tr ∧ Elem 0x03 (pad :: bytes) e ∧
    pad.toNat ≤ 7 ∧ (bytes = [] → pad = 0) ∧ (bytes.getLastD 0).toNat % 2 ^ pad.toNat = 0 ∧
    ∀ i, ku.testBit i = (decide (i < 9) && (bitsOf bytes).getD i false)

/-- The fields of BasicConstraints (4.2.1.9), either of which may be missing. -/
def BcBody (ca : Option Bool) (len : Option Int) (body : Bytes) : Prop :=
  ∃ ce le junk, body = ce ++ le ++ junk ∧
    (match ca with
      | none => ce = [] ∧ body.head? ≠ some 0x01
      | some v => Elem 0x01 [if v then 0xff else 0] ce) ∧
    (match len with
      | none => le = [] ∧ junk.head? ≠ some 0x02
      | some n => Elem 0x02 (Der.encInt n) le ∧ -(2 ^ 63 : Int) ≤ n ∧ n < 2 ^ 63)

/-- BasicConstraints; the path length is -1 when absent. -/
def BasicConstraintsExt (value : Bytes) (isCA : Bool) (maxPathLen : Int) : Prop :=
  ∃ e tr body ca len, value = e ++ tr ∧ Elem 0x30 body e ∧ BcBody ca len body ∧
    isCA = ca.getD false ∧ maxPathLen = len.getD (-1)

/-- A general name: identifier octet and contents. -/
abbrev GName := Der.Tag × Bytes

/-- Which general names are well formed (4.2.1.6): e-mail [1], DNS [2], URI [6], IP address [7]. -/
def SanOk (env : Env) (n : GName) : Prop :=
  (n.1 = 0x81 → Ascii n.2) ∧ (n.1 = 0x82 → Ascii n.2) ∧
  (n.1 = 0x86 → Ascii n.2 ∧ ∃ u, env.parseURL n.2 = some u ∧ (u.host ≠ [] → HostName u.host)) ∧
  (n.1 = 0x87 → n.2.length = 4 ∨ n.2.length = 16)

/-- SubjectAltName: a sequence of general names. -/
def SanExt (value : Bytes) (names : List GName) : Prop :=
  ∃ e tr body, value = e ++ tr ∧ Elem 0x30 body e ∧ Concat (fun e n => Elem n.1 n.2 e) names body

/-- The contents of the names with a given identifier octet. -/
def ofTag (t : Der.Tag) (names : List GName) : List Bytes := (names.filter fun n => n.1 == t).map (·.2)

/-- ExtKeyUsage (4.2.1.12): a sequence of object identifiers. -/
def EkuExt (value : Bytes) (oids : List Oid) : Prop :=
  ∃ e tr body, value = e ++ tr ∧ Elem 0x30 body e ∧ Concat (fun e o => OidElem o e) oids body

/-- CertificatePolicies (4.2.1.4); qualifiers may follow the identifier. -/
def PoliciesExt (value : Bytes) (oids : List Oid) : Prop :=
  ∃ e tr body, value = e ++ tr ∧ Elem 0x30 body e ∧
    Concat (fun e o => ∃ oe q, Elem 0x30 (oe ++ q) e ∧ OidElem o oe) oids body

/-- A domain in a name constraint (4.2.1.10): a host name, perhaps after a period. -/
def ConstraintHost (b : Bytes) : Prop := (b.head? ≠ some 46 ∧ HostName b) ∨ ∃ d, b = 46 :: d ∧ HostName d

/-- Ones followed by zeros. -/
def MaskOk (m : Bytes) : Prop := ∃ k j, bitsOf m = List.replicate k true ++ List.replicate j false

/-- Which bases of name constraints are well formed. -/
def ConstraintOk (env : Env) (n : GName) : Prop :=
  (n.1 = 0x82 → Ascii n.2 ∧ ConstraintHost n.2) ∧
  (n.1 = 0x87 → (n.2.length = 8 ∧ MaskOk (n.2.drop 4)) ∨ (n.2.length = 32 ∧ MaskOk (n.2.drop 16))) ∧
  (n.1 = 0x81 → Ascii n.2 ∧ if 64 ∈ n.2 then ∃ l d, Mailbox n.2 l d else ConstraintHost n.2) ∧
  (n.1 = 0x86 → Ascii n.2 ∧ env.isIP n.2 = false ∧ ConstraintHost n.2)

/-- GeneralSubtrees; `minimum` and `maximum` may follow the base and are ignored. -/
def SubtreesBody (body : Bytes) (names : List GName) : Prop :=
  Concat (fun e n => ∃ ve q, Elem 0x30 (ve ++ q) e ∧ Elem n.1 n.2 ve) names body

/-- An optional element. -/
def OptElem (tag : Der.Tag) (body : Option Bytes) (e : Bytes) : Prop :=
  match body with
  | none => e = []
  | some b => Elem tag b e

/-- NameConstraints: permitted and excluded subtrees, not both empty, and nothing else. -/
def NameConstraintsExt (value : Bytes) (permitted excluded : List GName) : Prop :=
  ∃ p x pe xe, Elem 0x30 (pe ++ xe) value ∧ OptElem 0xa0 p pe ∧ OptElem 0xa1 x xe ∧
    SubtreesBody (p.getD []) permitted ∧ SubtreesBody (x.getD []) excluded ∧ (permitted ≠ [] ∨ excluded ≠ [])

/-- The network an IP constraint stands for: address and mask, of equal length. -/
def netOf (b : Bytes) : IPNet := ⟨b.take (b.length / 2), b.drop (b.length / 2)⟩

/-- A distribution point: the URIs of the full name up to the first name of another type. -/
def DpElem (e : Bytes) (uris : List Bytes) : Prop :=
  ∃ body, Elem 0x30 body e ∧
    ((body.head? ≠ some 0xa0 ∧ uris = []) ∨
     ∃ ne tr fe tr' us junk, body = ne ++ tr ∧ Elem 0xa0 (fe ++ tr') ne ∧ Elem 0xa0 (us ++ junk) fe ∧
       Concat (fun e u => Elem 0x86 u e) uris us ∧ junk.head? ≠ some 0x86)

/-- CRLDistributionPoints (4.2.1.13) -/
def CrlDpExt (value : Bytes) (points : List (List Bytes)) : Prop :=
  ∃ e tr body, value = e ++ tr ∧ Elem 0x30 body e ∧ Concat DpElem points body

/-- AuthorityKeyIdentifier (4.2.1.1); only a leading key identifier is read. -/
def AkiExt (value : Bytes) (k : Option Bytes) : Prop :=
  ∃ e tr body, value = e ++ tr ∧ Elem 0x30 body e ∧
    match k with
    | none => body.head? ≠ some 0x80
    | some k => ∃ ke q, body = ke ++ q ∧ Elem 0x80 k ke

/-- SubjectKeyIdentifier (4.2.1.2) -/
def SkiExt (value k : Bytes) : Prop := ∃ e tr, value = e ++ tr ∧ Elem 0x04 k e

/-- An access description: method and URI (`none` when the location is not a URI). -/
def AccessElem (e : Bytes) (d : Oid × Option Bytes) : Prop :=
  ∃ oe loc, Elem 0x30 (oe ++ loc) e ∧ OidElem d.1 oe ∧
    match d.2 with
    | none => loc.head? ≠ some 0x86
    | some u => ∃ ue q, loc = ue ++ q ∧ Elem 0x86 u ue

/-- AuthorityInfoAccess (4.2.2.1) -/
def AiaExt (value : Bytes) (ds : List (Oid × Option Bytes)) : Prop :=
  ∃ e tr body, value = e ++ tr ∧ Elem 0x30 body e ∧ Concat AccessElem ds body

/-- The URIs given for an access method. -/
def urisOf (m : Oid) (ds : List (Oid × Option Bytes)) : List Bytes :=
  (ds.filter fun d => d.1 == m).filterMap (·.2)

end MCrypto.X509Spec

namespace MCrypto.X509Spec
open MCrypto MCrypto.Asn1
open MCrypto.X509 (Env Url IPNet Ext Certificate extKeyUsageFromOID)

/-- The extensions the parser knows: KeyUsage, BasicConstraints, SubjectAltName, NameConstraints,
CRLDistributionPoints, AuthorityKeyIdentifier, ExtKeyUsage, SubjectKeyIdentifier, CertificatePolicies,
AuthorityInfoAccess. -/
def knownExtensions : List Oid :=
  [[2, 5, 29, 15], [2, 5, 29, 19], [2, 5, 29, 17], [2, 5, 29, 30], [2, 5, 29, 31], [2, 5, 29, 35], [2, 5, 29, 37],
   [2, 5, 29, 14], [2, 5, 29, 32], [1, 3, 6, 1, 5, 5, 7, 1, 1]]

/-- The identifier octets of the four supported name types. -/
def nameTags : List Der.Tag := [0x81, 0x82, 0x86, 0x87]

/-- The value of an extension has the form its identifier asks for. -/
def WellFormed (env : Env) (e : Ext) : Prop :=
  (e.id = [2, 5, 29, 15] → ∃ ku, KeyUsageExt e.value ku) ∧
  (e.id = [2, 5, 29, 19] → ∃ ca len, BasicConstraintsExt e.value ca len) ∧
  (e.id = [2, 5, 29, 17] → ∃ names, SanExt e.value names ∧ ∀ n ∈ names, SanOk env n) ∧
  (e.id = [2, 5, 29, 30] → ∃ p x, NameConstraintsExt e.value p x ∧ ∀ n ∈ p ++ x, ConstraintOk env n) ∧
  (e.id = [2, 5, 29, 31] → ∃ points, CrlDpExt e.value points) ∧
  (e.id = [2, 5, 29, 35] → ∃ k, AkiExt e.value k) ∧
  (e.id = [2, 5, 29, 37] → ∃ oids, EkuExt e.value oids) ∧
  (e.id = [2, 5, 29, 14] → ∃ k, SkiExt e.value k) ∧
  (e.id = [2, 5, 29, 32] → ∃ oids, PoliciesExt e.value oids) ∧
  (e.id = [1, 3, 6, 1, 5, 5, 7, 1, 1] → ∃ ds, AiaExt e.value ds)

/-- The parser cannot act on an extension: it does not know it, or it is a SubjectAltName without a name of a
supported type, or a NameConstraints with a constraint of an unsupported type. -/
def Unhandled (e : Ext) : Prop :=
  e.id ∉ knownExtensions ∨
  (e.id = [2, 5, 29, 17] ∧ ∃ names, SanExt e.value names ∧ ∀ n ∈ names, n.1 ∉ nameTags) ∨
  (e.id = [2, 5, 29, 30] ∧ ∃ p x, NameConstraintsExt e.value p x ∧ ∃ n ∈ p ++ x, n.1 ∉ nameTags)

/-! ## Templates -/

/-- An IP network a name constraint can carry. -/
def NetOk (n : IPNet) : Prop :=
  (n.mask.length = 4 ∨ n.mask.length = 16) ∧ n.ip.length = n.mask.length ∧ MaskOk n.mask ∧
    List.zipWith (· &&& ·) n.ip n.mask = n.ip

/-- Name constraints the parser accepts. -/
structure NcOk (env : Env) (dns : List Bytes) (ips : List IPNet) (emails uris : List Bytes) : Prop where
  dns : ∀ s ∈ dns, ConstraintHost s
  ips : ∀ n ∈ ips, NetOk n
  emails : ∀ s ∈ emails, if 64 ∈ s then ∃ l d, Mailbox s l d else ConstraintHost s
  uris : ∀ s ∈ uris, env.isIP s = false ∧ ConstraintHost s

/-- Templates whose extension fields the parser can read back. -/
structure TemplateOk (env : Env) (t : Certificate) : Prop where
  pathLen : -(2 ^ 63 : Int) ≤ t.maxPathLen ∧ t.maxPathLen < 2 ^ 63
  unknownUsages : ∀ o ∈ t.unknownExtKeyUsage, OidOk o ∧ extKeyUsageFromOID o = none
  policies : ∀ o ∈ t.policyIdentifiers, OidOk o
  ips : ∀ ip ∈ t.ipAddresses, ip.length = 4 ∨ ip.length = 16
  uris : ∀ u ∈ t.uris, env.parseURL u.str = some u ∧ (u.host ≠ [] → HostName u.host)
  permitted : NcOk env t.permittedDNSDomains t.permittedIPRanges t.permittedEmailAddresses t.permittedURIDomains
  excluded : NcOk env t.excludedDNSDomains t.excludedIPRanges t.excludedEmailAddresses t.excludedURIDomains

/-- Nothing has been read from extensions yet. -/
structure NoExtFields (c : Certificate) : Prop where
  keyUsage : c.keyUsage = 0
  extKeyUsage : c.extKeyUsage = []
  unknownExtKeyUsage : c.unknownExtKeyUsage = []
  basicConstraintsValid : c.basicConstraintsValid = false
  isCA : c.isCA = false
  maxPathLen : c.maxPathLen = 0
  maxPathLenZero : c.maxPathLenZero = false
  subjectKeyId : c.subjectKeyId = []
  authorityKeyId : c.authorityKeyId = []
  ocspServer : c.ocspServer = []
  issuingCertificateURL : c.issuingCertificateURL = []
  dnsNames : c.dnsNames = []
  emailAddresses : c.emailAddresses = []
  ipAddresses : c.ipAddresses = []
  uris : c.uris = []
  policyIdentifiers : c.policyIdentifiers = []
  permittedDNSDomainsCritical : c.permittedDNSDomainsCritical = false
  permittedDNSDomains : c.permittedDNSDomains = []
  excludedDNSDomains : c.excludedDNSDomains = []
  permittedIPRanges : c.permittedIPRanges = []
  excludedIPRanges : c.excludedIPRanges = []
  permittedEmailAddresses : c.permittedEmailAddresses = []
  excludedEmailAddresses : c.excludedEmailAddresses = []
  permittedURIDomains : c.permittedURIDomains = []
  excludedURIDomains : c.excludedURIDomains = []
  crlDistributionPoints : c.crlDistributionPoints = []

/-- The limit on the number of intermediate certificates that `MaxPathLen` and `MaxPathLenZero` express: none
if the length is -1, or zero without `MaxPathLenZero`. -/
def pathLimit (maxPathLen : Int) (zero : Bool) : Option Int :=
  if maxPathLen = -1 ∨ (maxPathLen = 0 ∧ zero = false) then none else some maxPathLen

end MCrypto.X509Spec
