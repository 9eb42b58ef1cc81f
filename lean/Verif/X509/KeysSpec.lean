import Verif.X509.Keys
/-
What the key-format properties (C53-C56) talk about, independently of the encoders and decoders.
-/
namespace MCrypto.X509Spec
open MCrypto MCrypto.X509
open MCrypto.Sm2 (CurveId)

/-- A key pair: a known curve, a private scalar below its order, and the public point is [d]G. -/
def IsKeyPair (k : Sm2.PrivateKey) : Prop :=
  ∃ c, params k.pub.curve = some c ∧ k.d < c.n ∧ (k.pub.x, k.pub.y) = Curve.scalarMult c.p c.g (toBytes k.d)

/-- The Go type an elliptic-curve private key is returned as. -/
def ecPrivKey (k : Sm2.PrivateKey) : PrivKey := if k.pub.curve = SM2P256 then .sm2 k else .ecdsa k

/-- The Go type an elliptic-curve public key is returned as. -/
def ecPubKey (k : Sm2.PublicKey) : PubKey := if k.curve = SM2P256 then .sm2 k else .ecdsa k

/-- The point of a public key is on its (known) curve. -/
def OnCurve (k : Sm2.PublicKey) : Prop :=
  ∃ c, params k.curve = some c ∧ Curve.isOnCurve c.p c.b (k.x, k.y) = true

/-- An RSA key in the sense of RFC 8017 3.2 as far as `Validate` checks it: 2 ≤ e < 2^31, factors above 1
with product n, and e·d ≡ 1 modulo each p-1 (p > 2). -/
structure IsRsaKey (k : RsaPriv) : Prop where
  e_ge : 2 ≤ k.pub.e
  e_lt : k.pub.e < 2 ^ 31
  primes : ∀ p ∈ k.primes, 2 < p
  two : 2 ≤ k.primes.length
  prod : k.primes.prod = k.pub.n
  exps : ∀ p ∈ k.primes, (p - 1) ∣ (k.pub.e * k.d - 1)
  dpos : 0 < k.d

/-- Two-prime keys, or pairwise coprime factors. -/
def Factors (l : List Int) : Prop := l.length = 2 ∨ l.Pairwise (fun p q => Int.gcd p q = 1)

end MCrypto.X509Spec
