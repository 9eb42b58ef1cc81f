import Verif.X509.Pkcs7
import Verif.X509.SigSpec
/-
Specification for /repo/x509/pkcs7.go (C57-C61): which certificate belongs to a signer, and which bytes a signature
has to be over (RFC 2315 9.2, 9.3; GM/T 0010).
-/
namespace MCrypto.Pkcs7Spec
open MCrypto MCrypto.X509 MCrypto.Asn1

/-- `c` is the certificate of the signer: the first embedded certificate with its serial number and (byte for byte)
its issuer name. -/
def SignerCert (certs : List Certificate) (s : SignerInfo) (c : Certificate) : Prop :=
  ∃ pre post n, certs = pre ++ c :: post ∧ s.issuerAndSerialNumber.serialNumber = some n ∧
    (c.serialNumber = some n ∧ c.rawIssuer = s.issuerAndSerialNumber.issuerName.full) ∧
    ∀ d ∈ pre, ¬ (d.serialNumber = some n ∧ d.rawIssuer = s.issuerAndSerialNumber.issuerName.full)

/-- Lexicographic order of octet strings. -/
def OctetLe (a b : Bytes) : Prop :=
  a <+: b ∨ ∃ (p : Bytes) (x y : UInt8) (s t : Bytes), a = p ++ x :: s ∧ b = p ++ y :: t ∧ x.toNat < y.toNat

/-- The octets of the SET of attribute values, as they are in the signer. -/
def valueOctets (v : RawValue) : Bytes := if v.full = [] then encTLV v.cls v.compound v.tag v.bytes else v.full

/-- `e` is the DER encoding of the attribute: SEQUENCE { type, values }. -/
def AttrDer (a : P7Attr) (e : Bytes) : Prop :=
  ∃ o, encOid a.type = some o ∧ e = Der.tlv 0x30 (Der.tlv 0x06 o ++ valueOctets a.value)

/-- `m` is the DER encoding of the SET OF the attributes: the encodings in ascending order. -/
def AttrSetDer (attrs : List P7Attr) (m : Bytes) : Prop :=
  ∃ ds es : List Bytes, List.Forall₂ AttrDer attrs ds ∧ es.Perm ds ∧ es.Pairwise OctetLe ∧ m = Der.tlv 0x31 es.flatten

/-- The first messageDigest attribute (1.2.840.113549.1.9.4) has, as its first value, the OCTET STRING `d`. -/
def HasDigest (attrs : List P7Attr) (d : Bytes) : Prop :=
  ∃ pre a post rest, attrs = pre ++ a :: post ∧ a.type = [1, 2, 840, 113549, 1, 9, 4] ∧
    (∀ b ∈ pre, b.type ≠ [1, 2, 840, 113549, 1, 9, 4]) ∧ a.value.bytes = Der.tlv 0x04 d ++ rest

/-- The bytes the signature of the signer must be over: the content if there are no signed attributes, else the
SET OF the attributes, which must hold the SM3 digest of the content. (encoding/asn1 does not handle 2^31 bytes
and more.) -/
def SignedMessage (content : Bytes) (s : SignerInfo) (m : Bytes) : Prop :=
  (s.authenticatedAttributes.getD [] = [] ∧ m = content) ∨
  (s.authenticatedAttributes.getD [] ≠ [] ∧ HasDigest (s.authenticatedAttributes.getD []) (Sm3Spec.sm3 content) ∧
    AttrSetDer (s.authenticatedAttributes.getD []) m ∧ m.length < 2 ^ 31)

end MCrypto.Pkcs7Spec
