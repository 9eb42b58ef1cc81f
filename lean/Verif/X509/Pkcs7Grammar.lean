import Verif.X509.ListGrammar
import Verif.X509.Pkcs7Spec
/-
Specification of PKCS#7 signed data (RFC 2315 9 with the object identifiers of GM/T 0010) as the package reads them:
which octets stand for which content, certificates, revocation lists and signers.
-/
namespace MCrypto.P7Spec
open MCrypto MCrypto.Dg MCrypto.X509Spec
open MCrypto.X509 (Certificate Env)

/-- An element of any type with contents `v`. -/
def Whole (v e : Bytes) : Prop := ∃ h, e = h ++ v ∧ Header h v.length

/-- A constructed element: bit 6 of the first octet. -/
def Constructed (e : Bytes) : Prop := ∃ x t, e = x :: t ∧ x.toNat.testBit 5

/-- Attribute: type and one element (a SET by the standard), here with its octets; something may follow. -/
def AttributeEl (a : List Nat × Bytes) (e : Bytes) : Prop :=
  ∃ oe junk, El 0x30 (oe ++ (a.2 ++ junk)) e ∧ OidEl a.1 oe ∧ AnyEl a.2

/-- Attributes under an implicit tag, perhaps missing. -/
def OptAttributes (tag : UInt8) (as : Option (List (List Nat × Bytes))) (s r : Bytes) : Prop :=
  (∃ e body l, s = e ++ r ∧ El tag body e ∧ Many AttributeEl l body ∧ as = some l) ∨
  (s = r ∧ Goes s ∧ s.head? ≠ some tag ∧ as = none)

/-- SignerInfo (RFC 2315 9.2). -/
structure Signer where
  version : Int
  issuer : Bytes
  serial : Int
  digestAlg : List Nat
  digestPar : Bytes
  signedAttrs : Option (List (List Nat × Bytes))
  sigAlg : List Nat
  sigPar : Bytes
  signature : Bytes
  unsignedAttrs : Option (List (List Nat × Bytes))

def SignerEl (s : Signer) (e : Bytes) : Prop :=
  ∃ ve ie de s1 ee ge s2 ne junk junk', El 0x30 (ve ++ (ie ++ (de ++ s1))) e ∧ Int64El s.version ve ∧
    El 0x30 (s.issuer ++ (ne ++ junk)) ie ∧ AnyEl s.issuer ∧ IntEl s.serial ne ∧ AlgEl s.digestAlg s.digestPar de ∧
    OptAttributes 0xa0 s.signedAttrs s1 (ee ++ (ge ++ s2)) ∧ AlgEl s.sigAlg s.sigPar ee ∧ El 0x04 s.signature ge ∧
    OptAttributes 0xa1 s.unsignedAttrs s2 junk'

/-- ContentInfo with contents `c` in the explicit tag; `c = []` if the contents are missing. -/
def ContentEl (o : List Nat) (c e : Bytes) : Prop :=
  ∃ oe s, El 0x30 (oe ++ s) e ∧ OidEl o oe ∧
    ((c ≠ [] ∧ ∃ ce junk, s = ce ++ junk ∧ El 0xa0 c ce) ∨
     (c = [] ∧ (s = [] ∨ ∃ h n t, s = h ++ t ∧ Header h n ∧ t ≠ [] ∧ (h.head? = some 0xa0 → n = 0))))

/-- The content that the octets `c` in the explicit tag stand for: the contents of the first element, or, if that is
constructed, of the OCTET STRING that it begins with. -/
def ContentIs (c content : Bytes) : Prop :=
  (c = [] ∧ content = []) ∨
  ∃ e r w, c = e ++ r ∧ Whole w e ∧
    ((Constructed e ∧ ∃ oe junk, w = oe ++ junk ∧ El 0x04 content oe) ∨ (¬ Constructed e ∧ content = w))

/-! The fields of SignedData, each from the octets before it to those after it. -/

/-- Version and digest algorithms. -/
def Head (s r : Bytes) : Prop :=
  ∃ v ve de body ds, s = ve ++ (de ++ r) ∧ Int64El v ve ∧ El 0x31 body de ∧
    Many (fun (a : List Nat × Bytes) e => AlgEl a.1 a.2 e) ds body

/-- The ContentInfo. -/
def ContentField (s c r : Bytes) : Prop := ∃ o e, s = e ++ r ∧ ContentEl o c e

/-- The certificates, under the implicit tag [0]; none if missing. -/
def CertsField (s certs r : Bytes) : Prop :=
  (∃ e, s = e ++ r ∧ El 0xa0 certs e) ∨ (s = r ∧ Goes s ∧ s.head? ≠ some 0xa0 ∧ certs = [])

/-- The revocation lists, under the implicit tag [1]. -/
def CrlsField (s : Bytes) (crls : Option (List CrlFields)) (r : Bytes) : Prop :=
  (∃ e body l, s = e ++ r ∧ El 0xa1 body e ∧ Many (fun f e => CrlDer e f) l body ∧ crls = some l) ∨
  (s = r ∧ Goes s ∧ s.head? ≠ some 0xa1 ∧ crls = none)

/-- The signers. -/
def SignersField (s : Bytes) (ss : List Signer) (r : Bytes) : Prop :=
  ∃ e body, s = e ++ r ∧ El 0x31 body e ∧ Many SignerEl ss body

/-- What is in a message. -/
structure P7 where
  content : Bytes
  certificates : List Certificate
  crls : Option (List CrlFields)
  signers : List Signer

/-- Certificates one after another. -/
def CertsAre (env : Env) (b : Bytes) (cs : List Certificate) : Prop :=
  ∃ ds, b = ds.flatten ∧ List.Forall₂ (fun d c => X509.ParseCertificate env d = .ok c) ds cs

/-- A complete SignedData. -/
def SignedDataDer (env : Env) (sd : Bytes) (p : P7) : Prop :=
  ∃ body tail s1 c s2 certs s3 s4 s5, (∃ e, sd = e ++ tail ∧ El 0x30 body e) ∧ Head body s1 ∧ ContentField s1 c s2 ∧
    CertsField s2 certs s3 ∧ CrlsField s3 p.crls s4 ∧ SignersField s4 p.signers s5 ∧
    ContentIs c p.content ∧ CertsAre env certs p.certificates

/-- `data` is, to the last octet, a ContentInfo of type signedData (1.2.156.10197.6.1.4.2.2) with the octets `sd`. -/
def Outer (data sd : Bytes) : Prop := ContentEl [1, 2, 156, 10197, 6, 1, 4, 2, 2] sd data

/-- A field that can be read is followed by more (`k`); at one that cannot be read, reading stops (`d`). -/
def OrStop {α : Type} (F : α → Bytes → Prop) (d : Prop) (k : α → Bytes → Prop) : Prop :=
  ((¬ ∃ v r, F v r) ∧ d) ∨ ∃ v r, F v r ∧ k v r

/-- What the octets of a SignedData stand for if errors do not count: the first field that cannot be read and all
after it are missing. -/
def LaxSignedData (sd c certs : Bytes) (crls : Option (List CrlFields)) (ss : List Signer) : Prop :=
  OrStop (fun body r => ∃ e, sd = e ++ r ∧ El 0x30 body e) (c = [] ∧ certs = [] ∧ crls = none ∧ ss = []) fun body _ =>
  OrStop (fun (_ : Unit) r => Head body r) (c = [] ∧ certs = [] ∧ crls = none ∧ ss = []) fun _ s1 =>
  OrStop (ContentField s1) (c = [] ∧ certs = [] ∧ crls = none ∧ ss = []) fun c' s2 => c = c' ∧
  OrStop (CertsField s2) (certs = [] ∧ crls = none ∧ ss = []) fun certs' s3 => certs = certs' ∧
  OrStop (CrlsField s3) (crls = none ∧ ss = []) fun crls' s4 => crls = crls' ∧
  OrStop (SignersField s4) (ss = []) fun ss' _ => ss = ss'

/-- The bytes the signature of the signer must be over (see Pkcs7Spec.SignedMessage): the content if there are no signed
attributes, else the DER of the SET OF the attributes, which must hold the SM3 digest of the content as first value of
the first messageDigest attribute. -/
def SignedOver (content : Bytes) (s : Signer) (m : Bytes) : Prop :=
  (s.signedAttrs.getD [] = [] ∧ m = content) ∨
  (s.signedAttrs.getD [] ≠ [] ∧
    (∃ pre v post w oe rest, s.signedAttrs.getD [] = pre ++ ([1, 2, 840, 113549, 1, 9, 4], v) :: post ∧
      (∀ a ∈ pre, a.1 ≠ [1, 2, 840, 113549, 1, 9, 4]) ∧ Whole w v ∧ w = oe ++ rest ∧ El 0x04 (Sm3Spec.sm3 content) oe) ∧
    (∃ ds es : List Bytes, List.Forall₂ (fun a d => ∃ o, IsOid o a.1 ∧ d = Der.tlv 0x30 (Der.tlv 0x06 o ++ a.2)) (s.signedAttrs.getD []) ds ∧
      es.Perm ds ∧ es.Pairwise Pkcs7Spec.OctetLe ∧ m = Der.tlv 0x31 es.flatten) ∧ m.length < 2 ^ 31)

/-- The certificate of the signer: the first with its serial number and, octet for octet, its issuer. -/
def CertOf (certs : List Certificate) (s : Signer) (c : Certificate) : Prop :=
  ∃ pre post, certs = pre ++ c :: post ∧ (c.serialNumber = some s.serial ∧ c.rawIssuer = s.issuer) ∧
    ∀ d ∈ pre, ¬ (d.serialNumber = some s.serial ∧ d.rawIssuer = s.issuer)

end MCrypto.P7Spec
