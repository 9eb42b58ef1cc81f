import Verif.Asn1.Grammar
import Verif.X509.CertSpec
/-
Specification of the DER of private and public keys (RFC 8017 A.1, RFC 5915, RFC 5208, RFC 5280 4.1) as the package
reads it: which octets stand for which key.
-/
namespace MCrypto.X509Spec
open MCrypto MCrypto.Dg
open MCrypto.X509 (RsaPub RsaPriv PrivKey PubKey)

/-- OtherPrimeInfo (RFC 8017 A.1.2): prime, exponent, coefficient. -/
def OtherPrimeEl (r : Int) (e : Bytes) : Prop :=
  ∃ re xe ce junk x c, El 0x30 (re ++ (xe ++ (ce ++ junk))) e ∧ IntEl r re ∧ IntEl x xe ∧ IntEl c ce

/-- RSAPrivateKey (RFC 8017 A.1.2) with version at most 1. The values after the first two primes may be missing; something
may follow in the sequence. -/
def RsaPrivDer (der : Bytes) (k : RsaPriv) : Prop :=
  ∃ ve ne ee de pe qe s s1 s2 s3 junk v p q rs,
    El 0x30 (ve ++ (ne ++ (ee ++ (de ++ (pe ++ (qe ++ s)))))) der ∧
    Int64El v ve ∧ v ≤ 1 ∧ IntEl k.pub.n ne ∧ Int64El k.pub.e ee ∧ IntEl k.d de ∧ IntEl p pe ∧ IntEl q qe ∧
    Opt 0x02 (fun e => ∃ x, IntEl x e) s s1 ∧ Opt 0x02 (fun e => ∃ x, IntEl x e) s1 s2 ∧
    Opt 0x02 (fun e => ∃ x, IntEl x e) s2 s3 ∧
    ((∃ e body, s3 = e ++ junk ∧ El 0x30 body e ∧ Many OtherPrimeEl rs body) ∨
      (rs = [] ∧ s3 = junk ∧ Goes junk ∧ junk.head? ≠ some 0x30)) ∧
    k.primes = p :: q :: rs

/-- RSAPublicKey (RFC 8017 A.1.1). -/
def RsaPubDer (der : Bytes) (k : RsaPub) : Prop :=
  ∃ ne ee junk, El 0x30 (ne ++ (ee ++ junk)) der ∧ IntEl k.n ne ∧ IntEl k.e ee

/-- The curve field of ECPrivateKey in front of `r`: an explicitly tagged object identifier, or nothing. -/
def EcCurveField (o : Option (List Nat)) (s r : Bytes) : Prop :=
  match o with
  | some o => Expl 0xa0 (OidEl o) s r
  | none => s = r ∧ NoExpl 0xa0 0x80 0x06 s

/-- The public key field of ECPrivateKey: an explicitly tagged BIT STRING, or nothing. -/
def EcPublicField (s r : Bytes) : Prop :=
  Expl 0xa1 (fun e => ∃ b bytes u, El 0x03 b e ∧ IsBits b bytes u) s r ∨ (s = r ∧ NoExpl 0xa1 0x81 0x03 s)

/-- ECPrivateKey (RFC 5915 3), version 1, with private key octets `d` and perhaps a curve `o`; the public key may be
missing. Something may follow in the sequence and after it. -/
def EcPrivDer (der : Bytes) (d : Bytes) (o : Option (List Nat)) : Prop :=
  ∃ e ve de s s1 junk tr, der = e ++ tr ∧ El 0x30 (ve ++ (de ++ s)) e ∧ Int64El 1 ve ∧ El 0x04 d de ∧
    EcCurveField o s s1 ∧ EcPublicField s1 junk

/-- PrivateKeyInfo (RFC 5208 5): any version, algorithm `o` with parameters `par`, key octets. Attributes and anything
after the structure are not read. -/
def Pkcs8Der (der : Bytes) (o : List Nat) (par key : Bytes) : Prop :=
  ∃ e ve ae ke junk tr v, der = e ++ tr ∧ El 0x30 (ve ++ (ae ++ (ke ++ junk))) e ∧ Int64El v ve ∧ AlgEl o par ae ∧ El 0x04 key ke

/-- The private key with octets `d` on the curve with object identifier `o`: its value is below the order, and
the public point is that multiple of the base point. -/
def EcKeyIs (o : List Nat) (d : Bytes) (key : PrivKey) : Prop :=
  ∃ k, key = ecPrivKey k ∧ curveOid k.pub.curve o ∧ IsKeyPair k ∧ k.d = ofBytes d

/-- The key that a PrivateKeyInfo stands for. For EC keys the parameters name the curve if they begin with an object
identifier, else the key itself has to; for RSA the parameters are not looked at. -/
def Pkcs8KeyIs (edPub : Bytes → Bytes) (o : List Nat) (par key : Bytes) (k : PrivKey) : Prop :=
  (o = [1, 2, 840, 113549, 1, 1, 1] ∧ ∃ r, RsaPrivDer key r ∧ IsRsaKey r ∧ k = .rsa r) ∨
  (o = [1, 2, 840, 10045, 2, 1] ∧ ∃ d inner, EcPrivDer key d inner ∧
    ((∃ c, OidEl c par ∧ EcKeyIs c d k) ∨ ((¬ ∃ c, OidEl c par) ∧ ∃ c, inner = some c ∧ EcKeyIs c d k))) ∨
  (o = [1, 3, 101, 112] ∧ par = [] ∧ ∃ e tr seed, key = e ++ tr ∧ El 0x04 seed e ∧ seed.length = 32 ∧
    k = .ed25519 (seed ++ edPub seed))

/-- SubjectPublicKeyInfo (RFC 5280 4.1): algorithm, parameters, key octets. -/
def PkixDer (der : Bytes) (o : List Nat) (par key : Bytes) : Prop :=
  ∃ ae be junk, El 0x30 (ae ++ (be ++ junk)) der ∧ AlgEl o par ae ∧ BitsEl key be

/-- The algorithms of public keys: RSA, DSA, EC, Ed25519. -/
def pubAlgorithms : List (List Nat) :=
  [[1, 2, 840, 113549, 1, 1, 1], [1, 2, 840, 10040, 4, 1], [1, 2, 840, 10045, 2, 1], [1, 3, 101, 112]]

end MCrypto.X509Spec
