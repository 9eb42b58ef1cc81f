import Verif.X509.Curves
import Verif.Curve.Group
import Verif.Der.Spec
import Verif.Sm3.Spec
import Verif.X509.SigAlg
/-
ECDSA as in FIPS 186-4 section 6.4 and SEC 1 section 4.1, on Mathlib's group of points. Independent of the model of crypto/ecdsa; of the model of the curves it uses
the parameters only.
-/
namespace MCrypto.EcdsaSpec
open MCrypto MCrypto.X509 WeierstrassCurve

/-- The points of y² = x³ - 3x + b over the field of p elements. -/
abbrev Points (c : CurveParams) [Fact c.p.Prime] := (Curve.E c.p (c.b : ZMod c.p)).Point

/-- `A` is the affine point with the coordinates `q`. -/
def At (c : CurveParams) [Fact c.p.Prime] (q : Nat × Nat) (A : Points c) : Prop :=
  q.1 < c.p ∧ q.2 < c.p ∧ ∃ h, A = .some (q.1 : ZMod c.p) (q.2 : ZMod c.p) h

/-- `e` is the number of the leading bits of the digest, as many as the order has (all if it has no more). -/
def Leading (n : Nat) (digest : Bytes) (e : Nat) : Prop :=
  ∃ L, n < 2 ^ L ∧ (L = 0 ∨ 2 ^ (L - 1) ≤ n) ∧ e = if 8 * digest.length ≤ L then ofBytes digest else ofBytes digest / 2 ^ (8 * digest.length - L)

/-- `(r, s)` is an ECDSA signature of the digest under the public point `Q`: with the numbers `u1` = e/s and `u2` = r/s modulo the order, the point
u1·G + u2·Q is not the neutral one and its first coordinate is `r` modulo the order. -/
def Valid (c : CurveParams) [Fact c.p.Prime] (Q : Points c) (digest : Bytes) (r s : Int) : Prop :=
  (0 < r ∧ r < c.n) ∧ (0 < s ∧ s < c.n) ∧
  ∃ G q, ∃ e u1 u2 : Nat, At c c.g G ∧ Leading c.n digest e ∧ (u1 < c.n ∧ s * u1 % c.n = (e : Int) % c.n) ∧ (u2 < c.n ∧ s * u2 % c.n = r) ∧
    At c q (u1 • G + u2 • Q) ∧ (q.1 : Int) % c.n = r

/-- `(r, s)` is the signature of the digest that the private number `d` and the nonce `k` give. -/
def Made (c : CurveParams) [Fact c.p.Prime] (d k : Nat) (digest : Bytes) (r s : Nat) : Prop :=
  ∃ G q, ∃ e : Nat, At c c.g G ∧ (0 < k ∧ k < c.n) ∧ At c q (k • G) ∧ r = q.1 % c.n ∧ 0 < r ∧ Leading c.n digest e ∧
    (0 < s ∧ s < c.n) ∧ (k * s) % c.n = (e + r * d) % c.n

/-- The number that the `i`th block of the stream gives, when the stream has that many octets: blocks are 8 octets longer than the curve's size in octets, rounded
down (FIPS 186-4 B.5.1). -/
def Nonce (c : CurveParams) (stream : Bytes) (i k : Nat) : Prop :=
  ∃ pre block rest, stream = pre ++ block ++ rest ∧ block.length = c.bitSize / 8 + 8 ∧ pre.length = i * block.length ∧ k = ofBytes block % (c.n - 1) + 1

/-- The octets are the DER encoding of an ECDSA signature of the digest under the public key. (Encodings of 4 GiB and more are not read.) -/
def Signed (k : Sm2.PublicKey) (digest sig : Bytes) : Prop :=
  sig.length < 2 ^ 32 ∧ ∃ c, ∃ _ : Fact c.p.Prime, ∃ Q r s, params k.curve = some c ∧ At c (k.x, k.y) Q ∧ DerSpec.IsSig sig r s ∧ Valid c Q digest r s

/-- The algorithms for ECDSA keys and their hash functions. (The package has SM2WithSM3 among them.) -/
def algorithms (H : StdHashes) : List (Int × HashFn) :=
  [(ECDSAWithSHA1, H.sha1), (ECDSAWithSHA256, H.sha256), (ECDSAWithSHA384, H.sha384), (ECDSAWithSHA512, H.sha512), (SM2WithSM3, Sm3Spec.sm3)]

end MCrypto.EcdsaSpec
