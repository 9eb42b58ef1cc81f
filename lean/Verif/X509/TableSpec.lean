import Verif.X509.SigSpec
import Verif.X509.Eku
/-
Specification of the object identifiers of algorithms, curves and extended key usages (C43), from the
documents that define them and not from the tables of the code: RFC 3279, 4055, 5758, 8410, 5480, 5280 and
GM/T 0006 (SM2/SM3).
-/
namespace MCrypto.X509Spec
open MCrypto MCrypto.X509 MCrypto.Asn1

/-- { iso(1) member-body(2) us(840) rsadsi(113549) pkcs(1) pkcs-1(1) } -/
def pkcs1 : Oid := [1, 2, 840, 113549, 1, 1]
/-- { iso(1) member-body(2) us(840) ansi-X9-62(10045) } -/
def x962 : Oid := [1, 2, 840, 10045]
/-- { joint-iso-itu-t(2) country(16) us(840) organization(1) gov(101) csor(3) nistAlgorithm(4) } -/
def nistAlg : Oid := [2, 16, 840, 1, 101, 3, 4]
/-- { iso(1) member-body(2) cn(156) oscca(10197) algorithms(1) } -/
def gm : Oid := [1, 2, 156, 10197, 1]

/-- The OID that identifies a signature algorithm (all of RSA-PSS shares one). -/
def algOid (a : Int) : Oid :=
  if a = MD5WithRSA then pkcs1 ++ [4]
  else if a = SHA1WithRSA then pkcs1 ++ [5]
  else if a = SHA256WithRSA then pkcs1 ++ [11]
  else if a = SHA384WithRSA then pkcs1 ++ [12]
  else if a = SHA512WithRSA then pkcs1 ++ [13]
  else if a = SHA256WithRSAPSS ∨ a = SHA384WithRSAPSS ∨ a = SHA512WithRSAPSS then pkcs1 ++ [10]
  else if a = DSAWithSHA1 then [1, 2, 840, 10040, 4, 3]
  else if a = DSAWithSHA256 then nistAlg ++ [3, 2]
  else if a = ECDSAWithSHA1 then x962 ++ [4, 1]
  else if a = ECDSAWithSHA256 then x962 ++ [4, 3, 2]
  else if a = ECDSAWithSHA384 then x962 ++ [4, 3, 3]
  else if a = ECDSAWithSHA512 then x962 ++ [4, 3, 4]
  else if a = PureEd25519 then [1, 3, 101, 112]
  else if a = SM2WithSM3 then gm ++ [501]
  else []

/-- RFC 4055 section 3.1, as profiled: the PSS parameters name hash and MGF1 with the same hash (with absent
or NULL parameters), the salt is as long as the digest and the trailer field is 1. -/
def PssIs (full : Bytes) (hashOid : Oid) (salt : Int) : Prop :=
  ∃ p m rest rest', unmarshal pssParameters full = some (p, rest) ∧
    unmarshal algId p.mgf.parameters.full = some (m, rest') ∧
    p.hash.algorithm = hashOid ∧ p.mgf.algorithm = pkcs1 ++ [8] ∧ m.algorithm = hashOid ∧
    (p.hash.parameters.full = [] ∨ p.hash.parameters.full = [5, 0]) ∧
    (m.parameters.full = [] ∨ m.parameters.full = [5, 0]) ∧
    p.saltLength = salt ∧ p.trailerField = 1

/-- The AlgorithmIdentifier `ai` identifies the signature algorithm `a`. -/
def Identifies (ai : AlgId) (a : Int) : Prop :=
  1 ≤ a ∧ a ≤ 16 ∧ ai.algorithm = algOid a ∧
  (a = PureEd25519 → ai.parameters.full = []) ∧
  (a = SHA256WithRSAPSS → PssIs ai.parameters.full (nistAlg ++ [2, 1]) 32) ∧
  (a = SHA384WithRSAPSS → PssIs ai.parameters.full (nistAlg ++ [2, 2]) 48) ∧
  (a = SHA512WithRSAPSS → PssIs ai.parameters.full (nistAlg ++ [2, 3]) 64)

/-- The hash of each algorithm, 0 for Ed25519. -/
def algHash (a : Int) : Nat := match scheme a with | some (_, h) => h | none => 0

/-- The algorithm used for a key when none is requested. -/
def defaultAlg : PubKey → Int
  | .rsa _ => SHA256WithRSA
  | .ecdsa k => if k.curve = P384 then ECDSAWithSHA384 else if k.curve = P521 then ECDSAWithSHA512 else ECDSAWithSHA256
  | .sm2 _ => SM2WithSM3
  | _ => PureEd25519

/-- Keys that can sign: RSA, ECDSA on a NIST curve, SM2 on its curve, Ed25519. -/
def CanSign : PubKey → Prop
  | .rsa _ => True
  | .ecdsa k => k.curve = P224 ∨ k.curve = P256 ∨ k.curve = P384 ∨ k.curve = P521
  | .sm2 k => k.curve = SM2P256
  | .ed25519 _ => True
  | _ => False

/-- The family of the algorithm fits the type of the key. -/
def FamilyFits : PubKey → Int → Prop
  | .rsa _, a => ∃ h, scheme a = some (.rsaPkcs1, h) ∨ scheme a = some (.rsaPss, h)
  | .ecdsa _, a => ∃ h, scheme a = some (.ec, h)
  | .sm2 _, a => ∃ h, scheme a = some (.ec, h)
  | .ed25519 _, a => a = PureEd25519
  | _, _ => False

/-- RFC 5480 2.1.1.1, FIPS 186-4, GM/T 0006: the OIDs of the named curves. -/
def curveOids : List (Sm2.CurveId × Oid) :=
  [(P224, [1, 3, 132, 0, 33]), (P256, x962 ++ [3, 1, 7]), (P384, [1, 3, 132, 0, 34]), (P521, [1, 3, 132, 0, 35]),
   (SM2P256, gm ++ [301])]

/-- RFC 5280 4.2.1.12, RFC 4945 and the vendors' usages, in the order of the constants from 0. -/
def ekuOids : List Oid :=
  [[2, 5, 29, 37, 0]] ++ (List.range 9).map (fun i => [1, 3, 6, 1, 5, 5, 7, 3, i + 1]) ++
  [[1, 3, 6, 1, 4, 1, 311, 10, 3, 3], [2, 16, 840, 1, 113730, 4, 1], [1, 3, 6, 1, 4, 1, 311, 2, 1, 22],
   [1, 3, 6, 1, 4, 1, 311, 61, 1, 1]]

end MCrypto.X509Spec
