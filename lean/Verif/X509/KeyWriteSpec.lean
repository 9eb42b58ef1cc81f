import Verif.X509.KeyGrammar
import Verif.X509.KeysSpec
/-
Specification of what the writers of keys write (RFC 8017 A.1, RFC 5915 3, RFC 5208 5, RFC 5280 4.1, SEC 1 2.3.3): in
contrast to the grammars of KeyGrammar.lean nothing is left open, so that for every key there is at most one such octet string.
-/
namespace MCrypto.X509Spec
open MCrypto MCrypto.Dg
open MCrypto.X509 (RsaPub RsaPriv PrivKey PubKey CurveParams params)

/-- `s` is the number `n` in exactly `len` octets, most significant first. -/
def Fixed (len n : Nat) (s : Bytes) : Prop := s.length = len ∧ ofBytes s = n

/-- SEC 1 2.3.3: the uncompressed form of a point, both coordinates in as many octets as the field needs. -/
def PointOctets (c : CurveParams) (x y : Nat) (s : Bytes) : Prop :=
  ∃ X Y, s = 4 :: (X ++ Y) ∧ Fixed ((c.bitSize + 7) / 8) x X ∧ Fixed ((c.bitSize + 7) / 8) y Y

/-- ECPrivateKey (RFC 5915 3): version 1, the private key in as many octets as the order of the curve has, `[0]` the curve if `o` is
given, `[1]` the public key. -/
def EcPrivOut (k : Sm2.PrivateKey) (o : Option (List Nat)) (e : Bytes) : Prop :=
  ∃ c ve de d oe pe be pt, params k.pub.curve = some c ∧ El 0x30 (ve ++ (de ++ (oe ++ pe))) e ∧ IntEl 1 ve ∧ El 0x04 d de ∧
    Fixed (byteLen c.n) k.d d ∧
    (match o with | none => oe = [] | some o => ∃ ie, El 0xa0 ie oe ∧ OidEl o ie) ∧
    El 0xa1 be pe ∧ El 0x03 (0 :: pt) be ∧ PointOctets c k.pub.x k.pub.y pt

/-- `x` is the inverse of `a` modulo `m`, reduced. -/
def InverseMod (a m x : Int) : Prop := 0 ≤ x ∧ x < m ∧ m ∣ a * x - 1

/-- OtherPrimeInfos (RFC 8017 A.1.2): for each further prime `p` the prime, `d mod (p-1)`, and the inverse modulo `p` of the
product `r` of the primes before it. -/
def OthersOut (d : Int) : Int → List Int → Bytes → Prop
  | _, [], s => s = []
  | r, p :: ps, s => ∃ e pe xe te t s', s = e ++ s' ∧ El 0x30 (pe ++ (xe ++ te)) e ∧ IntEl p pe ∧ IntEl (d % (p - 1)) xe ∧
      IntEl t te ∧ InverseMod r p t ∧ OthersOut d (r * p) ps s'

/-- RSAPrivateKey (RFC 8017 A.1.2): version 0, or 1 if there are more than two primes; n, e, d, p, q, d mod (p-1), d mod (q-1), the
inverse of q modulo p; and the further primes if there are any. -/
def RsaPrivOut (k : RsaPriv) (e : Bytes) : Prop :=
  ∃ p q rs t ve ne ee de pe qe e1 e2 te oe, k.primes = p :: q :: rs ∧
    El 0x30 (ve ++ (ne ++ (ee ++ (de ++ (pe ++ (qe ++ (e1 ++ (e2 ++ (te ++ oe))))))))) e ∧
    IntEl (if rs = [] then 0 else 1) ve ∧ IntEl k.pub.n ne ∧ IntEl k.pub.e ee ∧ IntEl k.d de ∧ IntEl p pe ∧ IntEl q qe ∧
    IntEl (k.d % (p - 1)) e1 ∧ IntEl (k.d % (q - 1)) e2 ∧ IntEl t te ∧ InverseMod q p t ∧
    ((rs = [] ∧ oe = []) ∨ (rs ≠ [] ∧ ∃ s, El 0x30 s oe ∧ OthersOut k.d (p * q) rs s))

/-- RSAPublicKey (RFC 8017 A.1.1). -/
def RsaPubOut (k : RsaPub) (e : Bytes) : Prop := ∃ ne ee, El 0x30 (ne ++ ee) e ∧ IntEl k.n ne ∧ IntEl k.e ee

/-- AlgorithmIdentifier (RFC 5280 4.1.1.2) of a key: the RSA algorithm with NULL, Ed25519 without parameters, id-ecPublicKey
with the curve. -/
def AlgOut (o : List Nat) (par : Bytes) (e : Bytes) : Prop := ∃ oe, El 0x30 (oe ++ par) e ∧ OidEl o oe

/-- PrivateKeyInfo (RFC 5208 5): version 0, algorithm, key. The inner structure of an EC key names no curve if its Go type is
`ecdsa.PrivateKey`, and sm2p256v1 if it is `sm2.PrivateKey`. -/
def Pkcs8Out (k : PrivKey) (e : Bytes) : Prop :=
  ∃ ve ae ke alg par key, El 0x30 (ve ++ (ae ++ ke)) e ∧ IntEl 0 ve ∧ AlgOut alg par ae ∧ El 0x04 key ke ∧
    match k with
    | .rsa r => alg = [1, 2, 840, 113549, 1, 1, 1] ∧ par = [5, 0] ∧ RsaPrivOut r key
    | .ecdsa s => alg = [1, 2, 840, 10045, 2, 1] ∧ (∃ o, curveOid s.pub.curve o ∧ OidEl o par) ∧ EcPrivOut s none key
    | .sm2 s => alg = [1, 2, 840, 10045, 2, 1] ∧ (∃ o, curveOid s.pub.curve o ∧ OidEl o par) ∧
        EcPrivOut s (some [1, 2, 156, 10197, 1, 301]) key
    | .ed25519 b => alg = [1, 3, 101, 112] ∧ par = [] ∧ 32 ≤ b.length ∧ El 0x04 (b.take 32) key
    | .other _ => False

/-- SubjectPublicKeyInfo (RFC 5280 4.1): algorithm, and the octets `key` of the key as a BIT STRING without unused bits. -/
def PkixKeyOut (k : PubKey) (key e : Bytes) : Prop :=
  ∃ ae be alg par, El 0x30 (ae ++ be) e ∧ AlgOut alg par ae ∧ El 0x03 (0 :: key) be ∧
    match k with
    | .rsa r => alg = [1, 2, 840, 113549, 1, 1, 1] ∧ par = [5, 0] ∧ RsaPubOut r key
    | .ecdsa s | .sm2 s => alg = [1, 2, 840, 10045, 2, 1] ∧ (∃ o, curveOid s.curve o ∧ OidEl o par) ∧
        ∃ c, params s.curve = some c ∧ PointOctets c s.x s.y key
    | .ed25519 b => alg = [1, 3, 101, 112] ∧ par = [] ∧ key = b
    | .dsa _ | .nil | .other _ => False

/-- SubjectPublicKeyInfo of a key. -/
def PkixOut (k : PubKey) (e : Bytes) : Prop := ∃ key, PkixKeyOut k key e

end MCrypto.X509Spec
