import Verif.X509.Cert
import Verif.Sm2.Spec
import Verif.Der.Spec
/-
Specification for the signature part of /repo/x509 (C40-C43), independent of the tables and control flow of
the code: what each signature algorithm is (from the documentation of the constants and RFC 3279, 4055, 5758,
8410, GM/T 0009), and what it means for a signature to be valid.
-/
namespace MCrypto.X509Spec
open MCrypto MCrypto.X509

/-- The family of a signature algorithm. -/
inductive Scheme where
  | rsaPkcs1 | rsaPss | dsa | ec
  deriving DecidableEq, Repr

/-- The documented meaning of the algorithm constants that hash first: family and hash. -/
def scheme (a : Int) : Option (Scheme × Nat) :=
  if a = MD5WithRSA then some (.rsaPkcs1, hMD5)
  else if a = SHA1WithRSA then some (.rsaPkcs1, hSHA1)
  else if a = SHA256WithRSA then some (.rsaPkcs1, hSHA256)
  else if a = SHA384WithRSA then some (.rsaPkcs1, hSHA384)
  else if a = SHA512WithRSA then some (.rsaPkcs1, hSHA512)
  else if a = DSAWithSHA1 then some (.dsa, hSHA1)
  else if a = DSAWithSHA256 then some (.dsa, hSHA256)
  else if a = ECDSAWithSHA1 then some (.ec, hSHA1)
  else if a = ECDSAWithSHA256 then some (.ec, hSHA256)
  else if a = ECDSAWithSHA384 then some (.ec, hSHA384)
  else if a = ECDSAWithSHA512 then some (.ec, hSHA512)
  else if a = SHA256WithRSAPSS then some (.rsaPss, hSHA256)
  else if a = SHA384WithRSAPSS then some (.rsaPss, hSHA384)
  else if a = SHA512WithRSAPSS then some (.rsaPss, hSHA512)
  else if a = SM2WithSM3 then some (.ec, hSM3)
  else none

/-- The primitive of the family and of the type of key accepts the signature; `f` is the hash function of the
algorithm. An SM2 key checks SM2 signatures (which hash with SM3 themselves) whatever the hash of the
algorithm is. -/
def PrimitiveAccepts (V : Verifiers) (h : Nat) (f : HashFn) (plain sig : Bytes) : Scheme → PubKey → Prop
  | .rsaPkcs1, .rsa k => V.rsaPKCS1v15 k h (f plain) sig = true
  | .rsaPss, .rsa k => V.rsaPSS k h (f plain) sig = true
  | .ec, .ecdsa k => V.ecdsaASN1 k (f plain) sig = true
  | .ec, .sm2 k => k.curve = .sm2p256v1 ∧ Sm2.verify k plain [] sig = true
  | _, _ => False

/-- `sig` is a signature of `plain` by the key, under the algorithm. -/
def SigAccepted (hashes : Nat → Option HashFn) (V : Verifiers) (a : Int) (plain sig : Bytes)
    (key : PubKey) : Prop :=
  ∃ s h f, scheme a = some (s, h) ∧ hashes h = some f ∧ PrimitiveAccepts V h f plain sig s key

/-- The registered function of each hash after a history of `RegisterHash` calls: the last call decides. -/
def lastRegistered (calls : List (Nat × Option HashFn)) (h : Nat) : Option HashFn :=
  match calls.reverse.find? (fun c => c.1 == h) with
  | some (_, f) => f
  | none => none

/-- The identifier "1234567812345678" (GM/T 0009) used when none is given. -/
def defaultId : Bytes := [49, 50, 51, 52, 53, 54, 55, 56, 49, 50, 51, 52, 53, 54, 55, 56]

/-- `sig` is the DER encoding of a valid GB/T 32918.2 signature of `plain` by the curve point `Q` (whose
coordinates are those of `pub`) under the default identifier. -/
def Sm2Valid (pub : Sm2.PublicKey) (Q : Curve.EP) (plain sig : Bytes) : Prop :=
  ∃ r s, DerSpec.IsSig sig r s ∧
    Sm2Spec.ValidSig Q (ofBytes (Sm3Spec.sm3 (Sm2Spec.Z defaultId pub.x pub.y ++ plain))) r s

/-- RFC 5280 4.2.1.9 and 4.2.1.3: the certificate may be used to verify certificate signatures. A version-3
certificate must have valid basic constraints; if basic constraints are present the CA flag must be set; if
a key usage is present it must include certSign. -/
def MaySignCerts (parent : Certificate) : Prop :=
  (parent.version = 3 → parent.basicConstraintsValid = true) ∧
  (parent.basicConstraintsValid = true → parent.isCA = true) ∧
  (parent.keyUsage ≠ 0 → ∃ k : Int, parent.keyUsage / 32 = 2 * k + 1)

end MCrypto.X509Spec
