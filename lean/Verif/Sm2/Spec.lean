import Verif.Curve.Sm2Curve
import Verif.Sm2.Model
/-
Specification of SM2 (GB/T 32918.2 signatures, 32918.4 encryption), stated over the group of points
of the curve (Mathlib) and over the SM3 specification; independent of the model's point arithmetic.
-/
namespace MCrypto.Sm2Spec
open MCrypto MCrypto.Curve MCrypto.Sm2

/-- The public key `pub` is the curve point `Q` (affine coordinates; `(0,0)` for infinity). -/
def Represents (pub : PublicKey) (Q : EP) : Prop := Rep bF (pub.x, pub.y) Q

/-- `priv` is a key pair: the public key is [d]G. -/
def KeyPair (priv : PrivateKey) : Prop := Represents priv.pub (priv.d • Gp)

/-- The affine coordinates of a curve point, as integers in [0,P). None for infinity. -/
def coords : EP → Option (Nat × Nat)
  | .zero => none
  | .some x y _ => some (x.val, y.val)

/-- GB/T 32918.2, 7.1 B1-B7: `(r,s)` is a valid signature of the digest value `e` for `Q`. -/
def ValidSig (Q : EP) (e : Nat) (r s : Int) : Prop :=
  (1 ≤ r ∧ r ≤ N - 1) ∧ (1 ≤ s ∧ s ≤ N - 1) ∧
  (r + s) % N ≠ 0 ∧
  ∃ x1 y1, coords (s.toNat • Gp + ((r + s) % N).toNat • Q) = some (x1, y1) ∧
    (((e + x1) % N : Nat) : Int) = r

/-- The i-th 40-byte chunk of the random stream as a nonce in [1, N-1]. -/
def nonce (rd : Bytes) (i : Nat) : Nat := ofBytes ((rd.drop (40 * i)).take 40) % (N - 1) + 1

/-- x-coordinate of [k]G, 0 at infinity. -/
noncomputable def xOf (k : Nat) : Nat := ((coords (k • Gp)).map Prod.fst).getD 0

/-- GB/T 32918.2, 6.1 A5: the nonce is rejected when r = 0 or r + k = n. -/
def goodNonce (e k : Nat) : Prop := (e + xOf k) % N ≠ 0 ∧ (e + xOf k) % N + k ≠ N

/-- GB/T 32918.2, 5.5: Z for the given identifier and public key coordinates. -/
def Z (uid : Bytes) (x y : Nat) : Bytes :=
  Sm3Spec.sm3 (beBytes 2 (8 * uid.length) ++ uid ++ beBytes 32 A ++ beBytes 32 B ++
    beBytes 32 G.1 ++ beBytes 32 G.2 ++ beBytes 32 x ++ beBytes 32 y)

/-- GB/T 32918.4, 5.4.3: block `i` (from 1) of the key stream. -/
def kdfBlock (x y i : Nat) : Bytes := Sm3Spec.sm3 (beBytes 32 x ++ beBytes 32 y ++ beBytes 4 i)

/-- GB/T 32918.4, 5.4.3: the first `klen` bytes of the concatenated blocks. -/
def kdf (klen x y : Nat) : Bytes :=
  (((List.range ((klen + 31) / 32)).flatMap fun i => kdfBlock x y (i + 1))).take klen

/-- The key stream as /repo computes it (sm2.go:419-445), for comparison with `kdf`: the hash object
is never reset, so block `i` hashes all counters up to `i`, and every block is cut to `w` bytes. -/
def rawStream (w : Nat) (xy : Bytes) : Nat → Bytes → Nat → Bytes
  | 0, _, _ => []
  | n + 1, seen, ct =>
    (Sm3Spec.sm3 (seen ++ xy ++ beBytes 4 ct)).take w ++ rawStream w xy n (seen ++ xy ++ beBytes 4 ct) (ct + 1)

/-- The i-th 32-byte chunk of the random stream as a key candidate of `elliptic.GenerateKey`: the
second byte is xored with 0x42. -/
def keyCand (rd : Bytes) (i : Nat) : Nat :=
  let b := (rd.drop (32 * i)).take 32
  ofBytes (b.take 1 ++ [b.getD 1 0 ^^^ 0x42] ++ b.drop 2)

end MCrypto.Sm2Spec
