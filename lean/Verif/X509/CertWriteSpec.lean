import Verif.X509.ExtWriteSpec
import Verif.X509.KeyWriteSpec
import Verif.X509.Create
/-
Specification of the octets of certificates, revocation lists and certificate requests as they are written (RFC 5280 4.1 and 5.1,
RFC 2986 4, RFC 4055 3.1).
-/
namespace MCrypto.X509Spec
open MCrypto MCrypto.Dg MCrypto.Asn1
open MCrypto.X509 (Certificate Name Ext PubKey Time Signer SignOpts HashFn Verifiers Revoked)

/-- RSASSA-PSS-params (RFC 4055 3.1): the hash and MGF1 with the same hash, both with NULL, and the length of the salt. -/
def PssOut (hash : Oid) (salt : Int) (e : Bytes) : Prop :=
  ∃ h0 a0 h1 a1 m h2 s, El 0x30 (h0 ++ (h1 ++ h2)) e ∧ El 0xa0 a0 h0 ∧ AlgOut hash [5, 0] a0 ∧
    El 0xa1 a1 h1 ∧ AlgOut (pkcs1 ++ [8]) m a1 ∧ AlgOut hash [5, 0] m ∧ El 0xa2 s h2 ∧ IntEl salt s

/-- The identifier of a signature algorithm: NULL for RSA with PKCS #1, the parameters for PSS, none for the others. -/
def SigAlgOut (a : Int) (e : Bytes) : Prop :=
  ∃ par, AlgOut (algOid a) par e ∧
    (if a = 12 then PssOut (nistAlg ++ [2, 1]) 32 par
     else if a = 13 then PssOut (nistAlg ++ [2, 2]) 48 par
     else if a = 14 then PssOut (nistAlg ++ [2, 3]) 64 par
     else match scheme a with
       | some (.rsaPkcs1, _) => par = [5, 0]
       | _ => par = [])

/-- The time in UTC. -/
def UtcOut (t : Time) (e : Bytes) : Prop :=
  ∃ u, ValidTime u ∧ u.offset = 0 ∧ u.year ≤ 9999 ∧ SameInstant t u ∧ TimeOut u e

/-- The algorithm a signature is made with: the one that is asked for, or that of the key. -/
def chosenAlg (requested : Int) (pub : PubKey) : Int := if requested = 0 then defaultAlg pub else requested

/-- What the signer gets: the hash of `b`, or `b` if the algorithm does not hash first. -/
def Digest (hashes : Nat → Option HashFn) (h : Nat) (b d : Bytes) : Prop :=
  (h = 0 ∧ d = b) ∨ (h ≠ 0 ∧ ∃ f, hashes h = some f ∧ d = f b)

/-- The options the signer gets: those of PSS for the PSS algorithms. -/
def optsFor (a : Int) : SignOpts := if a = 12 ∨ a = 13 ∨ a = 14 then .pss (algHash a) else .hash (algHash a)

/-- The identifier of the issuer's key: that of the parent if it has one and is not the subject. -/
def issuerKeyId (t p : Certificate) (issuer subject : Bytes) : Bytes :=
  if issuer ≠ subject ∧ p.subjectKeyId ≠ [] then p.subjectKeyId else t.authorityKeyId

/-- The identifier of the subject's key: for a CA without one the SHA-1 of the octets of the key. -/
def subjectKeyIdOf (sha1 : Bytes → Bytes) (t : Certificate) (key : Bytes) : Bytes :=
  if t.subjectKeyId = [] ∧ t.isCA = true then sha1 key else t.subjectKeyId

/-- TBSCertificate, version 3. -/
def TbsCertOut (sha1 : Bytes → Bytes) (t p : Certificate) (pub : PubKey) (a : Int) (e : Bytes) : Prop :=
  ∃ serial ve v ne ae ie vbe nb na se ke key exts xe xs, t.serialNumber = some serial ∧
    El 0x30 (ve ++ (ne ++ (ae ++ (ie ++ (vbe ++ (se ++ (ke ++ xe))))))) e ∧
    El 0xa0 v ve ∧ IntEl 2 v ∧ IntEl serial ne ∧ SigAlgOut a ae ∧ SubjectOut p ie ∧
    El 0x30 (nb ++ na) vbe ∧ UtcOut t.notBefore nb ∧ UtcOut t.notAfter na ∧ SubjectOut t se ∧ PkixKeyOut pub key ke ∧
    CertExtsOut t (decide (se = [0x30, 0])) (issuerKeyId t p ie se) (subjectKeyIdOf sha1 t key) exts ∧
    El 0xa3 xs xe ∧ ExtsOut exts xs

/-- Certificate. -/
def CertOut (hashes : Nat → Option HashFn) (V : Verifiers) (sha1 : Bytes → Bytes) (t p : Certificate) (pub : PubKey)
    (key : Signer) (e : Bytes) : Prop :=
  ∃ a tbs d sig ae be, a = chosenAlg t.signatureAlgorithm key.pub ∧ El 0x30 (tbs ++ (ae ++ be)) e ∧
    TbsCertOut sha1 t p pub a tbs ∧ Digest hashes (algHash a) tbs d ∧ key.sign d (optsFor a) = some sig ∧ SigAlgOut a ae ∧
    El 0x03 (0 :: sig) be ∧ (a ∈ uncheckedAlgorithms ∨ SigAccepted hashes V a tbs sig key.pub)

end MCrypto.X509Spec
