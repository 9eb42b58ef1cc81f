import Verif.X509.Pkcs7WriteSpec
import Verif.X509.CreateSpec
import Verif.X509.TableSpec
import Verif.X509.Pkcs7Spec
/-
Specification of the octets of names and certificate extensions as they are written (RFC 5280 4.1.2.4 and 4.2, X.690 11):
nothing is left open, so that for every template there is at most one such octet string.
-/
namespace MCrypto.X509Spec
open MCrypto MCrypto.Dg MCrypto.Asn1
open MCrypto.Pkcs7Spec (OctetLe)
open MCrypto.X509 (Certificate Name AtvAny AnyValue Ext Url IPNet)

/-! ## Names -/

/-- X.680 41.4: the characters of PrintableString. -/
def plainChar (c : Nat) : Prop := printableChar c ∧ c ≠ '*'.toNat ∧ c ≠ '&'.toNat

/-- A string: PrintableString if its characters allow that, otherwise UTF8String if it is valid UTF-8. -/
def StringOut (s e : Bytes) : Prop :=
  ((∀ c ∈ s, plainChar c.toNat) ∧ El 0x13 s e) ∨ ((¬ ∀ c ∈ s, plainChar c.toNat) ∧ Utf.Valid s ∧ El 0x0c s e)

/-- The value of an attribute, by its Go type. -/
def AnyOut : AnyValue → Bytes → Prop
  | .nil, _ => False
  | .str s, e => StringOut s e
  | .int n, e => IntEl n e
  | .bits b, e => ∃ unused, unused < 8 ∧ (b.bitLength + unused) % 8 = 0 ∧ El 0x03 (UInt8.ofNat unused :: b.bytes) e
  | .oid o, e => OidEl o e
  | .time t, e => TimeOut t e
  | .octets b, e => El 0x04 b e

/-- AttributeTypeAndValue. -/
def AtvOut (a : AtvAny) (e : Bytes) : Prop := ∃ oe ve, El 0x30 (oe ++ ve) e ∧ OidEl a.type oe ∧ AnyOut a.value ve

/-- A SET OF (X.690 11.6): the encodings of the values in ascending order. -/
def SetOut {α : Type} (E : α → Bytes → Prop) (vs : List α) (e : Bytes) : Prop :=
  ∃ es es' : List Bytes, El 0x31 es.flatten e ∧ List.Forall₂ (fun v x => E v x) vs es' ∧ es.Perm es' ∧ es.Pairwise OctetLe

/-- Name: a SEQUENCE of relative distinguished names. -/
def RdnsOut (rdns : List (List AtvAny)) (e : Bytes) : Prop := ∃ body, El 0x30 body e ∧ Many (SetOut AtvOut) rdns body

/-- The name in a template: its octets if they are given, otherwise its fields. -/
def SubjectOut (c : Certificate) (e : Bytes) : Prop :=
  (c.rawSubject ≠ [] ∧ e = c.rawSubject) ∨ (c.rawSubject = [] ∧ RdnsOut (nameRdns c.subject) e)

/-! ## Extensions -/

/-- Extension: object identifier, TRUE if it is critical, value. -/
def ExtOut (x : Ext) (e : Bytes) : Prop :=
  ∃ oe ce ve, El 0x30 (oe ++ (ce ++ ve)) e ∧ OidEl x.id oe ∧ (if x.critical then El 0x01 [0xff] ce else ce = []) ∧
    El 0x04 x.value ve

/-- Extensions. -/
def ExtsOut (l : List Ext) (e : Bytes) : Prop := ∃ body, El 0x30 body e ∧ Many ExtOut l body

/-- KeyUsage: bit `i` of the number is bit `i` of the string, which has one octet, or two if one of the bits 8 to 15 is set;
zero bits at the end of the last octet are unused, unless it has no other bits. -/
def KeyUsageOut (ku : Int) (v : Bytes) : Prop :=
  ∃ pad bs last, El 0x03 (pad :: (bs ++ [last])) v ∧ bs.length = (if ku / 256 % 256 = 0 then 0 else 1) ∧
    (∀ i < 8 * (bs.length + 1), (bitsOf (bs ++ [last]))[i]? = some (decide (ku / 2 ^ i % 2 = 1))) ∧
    (last = 0 → pad = 0) ∧ (last ≠ 0 → 2 ^ pad.toNat ∣ last.toNat ∧ ¬ 2 ^ (pad.toNat + 1) ∣ last.toNat)

/-- ExtKeyUsage: the object identifiers of the known usages, then the others. -/
def EkuOut (usages : List Int) (others : List Oid) (v : Bytes) : Prop :=
  ∃ os body, List.Forall₂ (fun u o => ∃ i : Nat, u = (i : Int) ∧ ekuOids[i]? = some o) usages os ∧ El 0x30 body v ∧
    Many OidEl (os ++ others) body

/-- BasicConstraints: TRUE for a CA, and the limit if there is one. -/
def BcOut (isCA : Bool) (limit : Option Int) (v : Bytes) : Prop :=
  ∃ ce le, El 0x30 (ce ++ le) v ∧ (if isCA then El 0x01 [0xff] ce else ce = []) ∧
    match limit with | none => le = [] | some n => IntEl n le

/-- AuthorityKeyIdentifier with the key identifier only. -/
def AkiOut (k v : Bytes) : Prop := ∃ e, El 0x30 e v ∧ El 0x80 k e

/-- AuthorityInfoAccess: OCSP servers, then issuing certificates, all of them URIs. -/
def AiaOut (ocsp issuers : List Bytes) (v : Bytes) : Prop :=
  ∃ body, El 0x30 body v ∧
    Many (fun (d : Oid × Bytes) e => ∃ oe ue, El 0x30 (oe ++ ue) e ∧ OidEl d.1 oe ∧ El 0x86 d.2 ue)
      (ocsp.map (fun u => ([1, 3, 6, 1, 5, 5, 7, 48, 1], u)) ++ issuers.map (fun u => ([1, 3, 6, 1, 5, 5, 7, 48, 2], u))) body

/-- An IPv4 address in an IPv6 address (RFC 4291 2.5.5.2). -/
def Mapped (ip : Bytes) : Prop := ip.length = 16 ∧ ip.take 12 = [0, 0, 0, 0, 0, 0, 0, 0, 0, 0, 0xff, 0xff]

instance (ip : Bytes) : Decidable (Mapped ip) := inferInstanceAs (Decidable (_ ∧ _))

/-- An IP address in four octets if it is one of IPv4. -/
def ipOctets (ip : Bytes) : Bytes := if Mapped ip then ip.drop 12 else ip

/-- SubjectAltName: DNS names, e-mail addresses, IP addresses, URIs. -/
def SanOut (dns emails ips uris : List Bytes) (v : Bytes) : Prop :=
  (∀ s ∈ dns ++ emails ++ uris, Ascii s) ∧ ∃ body, El 0x30 body v ∧
    Many (fun (n : GName) e => El n.1 n.2 e)
      (dns.map (fun s => (0x82, s)) ++ emails.map (fun s => (0x81, s)) ++ ips.map (fun s => (0x87, ipOctets s)) ++
        uris.map (fun s => (0x86, s))) body

/-- CertificatePolicies without qualifiers. -/
def PoliciesOut (ps : List Oid) (v : Bytes) : Prop :=
  ∃ body, El 0x30 body v ∧ Many (fun o e => ∃ oe, El 0x30 oe e ∧ OidEl o oe) ps body

/-- Bitwise and of octet strings. -/
def andOctets (a b : Bytes) : Bytes := List.zipWith (· &&& ·) a b

/-- An IP range (4.2.1.10): the address, its host bits zero, and the mask. An address and a mask of different lengths go together
if one of them is that of an IPv4 address in IPv6 form; otherwise the address is left out. -/
def netOctets (n : IPNet) : Bytes :=
  (if n.ip.length = n.mask.length then andOctets n.ip n.mask
   else if n.mask.length = 4 ∧ Mapped n.ip then andOctets (n.ip.drop 12) n.mask
   else if n.ip.length = 4 ∧ n.mask.length = 16 ∧ n.mask.take 12 = List.replicate 12 0xff then andOctets n.ip (n.mask.drop 12)
   else []) ++ n.mask

/-- GeneralSubtrees: DNS domains, IP ranges, e-mail addresses, URI domains; no element at all if there are none. -/
def SubtreesOut (tag : UInt8) (dns : List Bytes) (ips : List IPNet) (emails uris : List Bytes) (e : Bytes) : Prop :=
  (∀ s ∈ dns ++ emails ++ uris, Ascii s) ∧
  ((dns = [] ∧ ips = [] ∧ emails = [] ∧ uris = [] ∧ e = []) ∨
   (¬ (dns = [] ∧ ips = [] ∧ emails = [] ∧ uris = []) ∧ ∃ body, El tag body e ∧
    Many (fun (n : GName) e => ∃ ne, El 0x30 ne e ∧ El n.1 n.2 ne)
      (dns.map (fun s => (0x82, s)) ++ ips.map (fun n => (0x87, netOctets n)) ++ emails.map (fun s => (0x81, s)) ++
        uris.map (fun s => (0x86, s))) body))

/-- NameConstraints. -/
def NcOut (t : Certificate) (v : Bytes) : Prop :=
  ∃ p x, El 0x30 (p ++ x) v ∧
    SubtreesOut 0xa0 t.permittedDNSDomains t.permittedIPRanges t.permittedEmailAddresses t.permittedURIDomains p ∧
    SubtreesOut 0xa1 t.excludedDNSDomains t.excludedIPRanges t.excludedEmailAddresses t.excludedURIDomains x

/-- CRLDistributionPoints: one point with one URI for each. -/
def CrlDpOut (uris : List Bytes) (v : Bytes) : Prop :=
  ∃ body, El 0x30 body v ∧ Many (fun u e => ∃ a b c, El 0x30 a e ∧ El 0xa0 b a ∧ El 0xa0 c b ∧ El 0x86 u c) uris body

/-- An extension that is written if it is wanted and the template gives no extension with its identifier itself. -/
def ExtIf (wanted : Prop) (o : Oid) (critical : Bool) (V : Bytes → Prop) (extra l : List Ext) : Prop :=
  ((wanted ∧ ∀ x ∈ extra, x.id ≠ o) ∧ ∃ v, l = [⟨o, critical, v⟩] ∧ V v) ∨ (¬ (wanted ∧ ∀ x ∈ extra, x.id ≠ o) ∧ l = [])

/-- The extensions of a certificate made from the template `t`, in the order in which they are written. `emptySubject`: the
certificate has no subject; `aki`, `ski`: the key identifiers of issuer and subject. -/
def CertExtsOut (t : Certificate) (emptySubject : Bool) (aki ski : Bytes) (l : List Ext) : Prop :=
  ∃ l1 l2 l3 l4 l5 l6 l7 l8 l9 l10,
    l = l1 ++ l2 ++ l3 ++ l4 ++ l5 ++ l6 ++ l7 ++ l8 ++ l9 ++ l10 ++ t.extraExtensions ∧
    ExtIf (t.keyUsage ≠ 0) [2, 5, 29, 15] true (KeyUsageOut t.keyUsage) t.extraExtensions l1 ∧
    ExtIf (t.extKeyUsage ≠ [] ∨ t.unknownExtKeyUsage ≠ []) [2, 5, 29, 37] false (EkuOut t.extKeyUsage t.unknownExtKeyUsage)
      t.extraExtensions l2 ∧
    ExtIf (t.basicConstraintsValid = true) [2, 5, 29, 19] true (BcOut t.isCA (pathLimit t.maxPathLen t.maxPathLenZero))
      t.extraExtensions l3 ∧
    ExtIf (ski ≠ []) [2, 5, 29, 14] false (El 0x04 ski) t.extraExtensions l4 ∧
    ExtIf (aki ≠ []) [2, 5, 29, 35] false (AkiOut aki) t.extraExtensions l5 ∧
    ExtIf (t.ocspServer ≠ [] ∨ t.issuingCertificateURL ≠ []) [1, 3, 6, 1, 5, 5, 7, 1, 1] false
      (AiaOut t.ocspServer t.issuingCertificateURL) t.extraExtensions l6 ∧
    ExtIf (t.dnsNames ≠ [] ∨ t.emailAddresses ≠ [] ∨ t.ipAddresses ≠ [] ∨ t.uris ≠ []) [2, 5, 29, 17] emptySubject
      (SanOut t.dnsNames t.emailAddresses t.ipAddresses (t.uris.map (·.str))) t.extraExtensions l7 ∧
    ExtIf (t.policyIdentifiers ≠ []) [2, 5, 29, 32] false (PoliciesOut t.policyIdentifiers) t.extraExtensions l8 ∧
    ExtIf (t.permittedDNSDomains ≠ [] ∨ t.excludedDNSDomains ≠ [] ∨ t.permittedIPRanges ≠ [] ∨ t.excludedIPRanges ≠ [] ∨
        t.permittedEmailAddresses ≠ [] ∨ t.excludedEmailAddresses ≠ [] ∨ t.permittedURIDomains ≠ [] ∨ t.excludedURIDomains ≠ [])
      [2, 5, 29, 30] t.permittedDNSDomainsCritical (NcOut t) t.extraExtensions l9 ∧
    ExtIf (t.crlDistributionPoints ≠ []) [2, 5, 29, 31] false (CrlDpOut t.crlDistributionPoints) t.extraExtensions l10

end MCrypto.X509Spec
