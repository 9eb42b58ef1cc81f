import Verif.X509.CertWriteSpec
/-
Specification of the octets of revocation lists as they are written (RFC 5280 5.1).
-/
namespace MCrypto.X509Spec
open MCrypto MCrypto.Dg MCrypto.Asn1
open MCrypto.X509 (Certificate Name Ext Time Signer HashFn Revoked RevocationList zeroTime)

/-- Extensions that may be absent. -/
def OptExtsOut (l : Option (List Ext)) (e : Bytes) : Prop :=
  match l with
  | none => e = []
  | some l => ExtsOut l e

/-- An entry: serial number, time of the revocation, extensions. -/
def RevokedOut (r : Revoked) (e : Bytes) : Prop :=
  ∃ n ne te xe, r.serialNumber = some n ∧ El 0x30 (ne ++ (te ++ xe)) e ∧ IntEl n ne ∧ UtcOut r.revocationTime te ∧
    OptExtsOut r.extensions xe

/-- The next update: left out if it is the zero time. -/
def NextOut (t : Time) (e : Bytes) : Prop :=
  (SameInstant t zeroTime ∧ e = []) ∨ (¬ SameInstant t zeroTime ∧ UtcOut t e)

/-- The entries: left out, or in order. -/
def EntriesOut (l : Option (List Revoked)) (e : Bytes) : Prop :=
  match l with
  | none => e = []
  | some l => ∃ body, El 0x30 body e ∧ Many RevokedOut l body

/-- The extensions of the list: left out, or with the tag [0]. -/
def ListExtsOut (exts : Option (List Ext)) (e : Bytes) : Prop :=
  match exts with
  | none => e = []
  | some l => ∃ xs, El 0xa0 xs e ∧ ExtsOut l xs

/-- TBSCertList, version 2. -/
def TbsListOut (a : Int) (issuer : Name) (thisUpdate nextUpdate : Time) (entries : Option (List Revoked)) (exts : Option (List Ext))
    (e : Bytes) : Prop :=
  ∃ ve ae ie te ne re xe, El 0x30 (ve ++ (ae ++ (ie ++ (te ++ (ne ++ (re ++ xe)))))) e ∧ IntEl 1 ve ∧ SigAlgOut a ae ∧
    RdnsOut (nameRdns issuer) ie ∧ UtcOut thisUpdate te ∧ NextOut nextUpdate ne ∧ EntriesOut entries re ∧
    ListExtsOut exts xe

/-- The list that `CreateRevocationList` makes: entries only if there are some; authority key identifier, number, and the
extensions of the template. -/
def RevocationListOut (hashes : Nat → Option HashFn) (t : RevocationList) (issuer : Certificate) (key : Signer) (e : Bytes) : Prop :=
  ∃ a tbs d sig ae be aki num n, a = chosenAlg t.signatureAlgorithm key.pub ∧ t.number = some n ∧
    El 0x30 (tbs ++ (ae ++ be)) e ∧ AkiOut issuer.subjectKeyId aki ∧ IntEl n num ∧
    TbsListOut a issuer.subject t.thisUpdate t.nextUpdate
      (if t.revokedCertificates = [] then none else some t.revokedCertificates)
      (some (⟨[2, 5, 29, 35], false, aki⟩ :: ⟨[2, 5, 29, 20], false, num⟩ :: t.extraExtensions)) tbs ∧
    Digest hashes (algHash a) tbs d ∧ key.sign d (optsFor a) = some sig ∧ SigAlgOut a ae ∧ El 0x03 (0 :: sig) be

/-- The list that `CreateCRL` makes: the default algorithm of the key, always entries, and the authority key identifier if the
issuer has one. For SM3 (20) the signer gets the list itself. -/
def CrlOut (hashes : Nat → Option HashFn) (c : Certificate) (key : Signer) (entries : List Revoked) (now expiry : Time) (e : Bytes) :
    Prop :=
  ∃ a tbs d sig ae be exts, a = defaultAlg key.pub ∧ El 0x30 (tbs ++ (ae ++ be)) e ∧
    (if c.subjectKeyId = [] then exts = none
      else ∃ aki, AkiOut c.subjectKeyId aki ∧ exts = some [⟨[2, 5, 29, 35], false, aki⟩]) ∧
    TbsListOut a c.subject now expiry (some entries) exts tbs ∧
    (if algHash a = 20 then d = tbs else Digest hashes (algHash a) tbs d) ∧
    key.sign d (.hash (algHash a)) = some sig ∧ SigAlgOut a ae ∧ El 0x03 (0 :: sig) be

end MCrypto.X509Spec
