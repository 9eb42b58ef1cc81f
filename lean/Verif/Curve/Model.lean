import Verif.Base
import Verif.Curve.Prime
/-
Model of the part of Go's crypto/elliptic that sm2.go uses through the embedded
`*elliptic.CurveParams` (sm2.go:28-31, 41-56): short Weierstrass curve y^2 = x^3 - 3x + b over F_p,
affine coordinates as integers, (0,0) standing for the point at infinity.

The Jacobian formulas are the ones of `CurveParams` in Go 1.18 (crypto/elliptic/params.go), which is what the embedded
parameters of an SM2 key use; they are proved to give the group law in Curve/Group. (Later versions of Go panic for points
that are not on the curve.)
-/
namespace MCrypto.Curve
open MCrypto

/-- Affine coordinates as returned by Go; `(0,0)` is the point at infinity. -/
abbrev Pt := Nat × Nat

/-- Subtraction mod p. -/
def fsub (p a b : Nat) : Nat := (a + (p - b % p)) % p
/-- Inverse mod a prime p (Fermat). -/
def finv (p a : Nat) : Nat := powMod a (p - 2) p

/-- Jacobian coordinates: (x, y, z) is the affine point (x/z², y/z³), or infinity if z = 0. -/
structure Jac where
  x : Nat
  y : Nat
  z : Nat
  deriving DecidableEq, Repr

/-- `zForAffine` (crypto/elliptic): (0,0) is taken for the point at infinity. -/
def toJac (q : Pt) : Jac := ⟨q.1, q.2, if q.1 ≠ 0 ∨ q.2 ≠ 0 then 1 else 0⟩

/-- `CurveParams.affineFromJacobian` (crypto/elliptic). For a prime p the inverse exists whenever z is not 0 mod p. -/
def toAffine (p : Nat) (q : Jac) : Pt :=
  if q.z = 0 then (0, 0)
  else
    let zinv := finv p q.z
    let zinvsq := zinv * zinv
    (q.x * zinvsq % p, q.y * (zinvsq * zinv) % p)

/-- `CurveParams.doubleJacobian` (crypto/elliptic), a = -3. Go adds p to negative intermediate values and reduces at the
end; here each difference is taken mod p. -/
def jDouble (p : Nat) (q : Jac) : Jac :=
  let delta := q.z * q.z % p
  let gamma := q.y * q.y % p
  let alpha := 3 * (fsub p q.x delta * (q.x + delta))
  let beta := q.x * gamma
  let x3 := fsub p (alpha * alpha) (8 * beta % p)
  let z3 := fsub p (fsub p ((q.y + q.z) * (q.y + q.z)) gamma) delta
  let y3 := fsub p (alpha * fsub p (4 * beta) x3) (8 * (gamma * gamma) % p)
  ⟨x3, y3, z3⟩

/-- `CurveParams.addJacobian` (crypto/elliptic). -/
def jAdd (p : Nat) (a b : Jac) : Jac :=
  if a.z = 0 then b
  else if b.z = 0 then a
  else
    let z1z1 := a.z * a.z % p
    let z2z2 := b.z * b.z % p
    let u1 := a.x * z2z2 % p
    let u2 := b.x * z1z1 % p
    let h := fsub p u2 u1
    let i := 2 * h * (2 * h)
    let j := h * i
    let s1 := a.y * b.z * z2z2 % p
    let s2 := b.y * a.z * z1z1 % p
    let r := fsub p s2 s1
    if h = 0 ∧ r = 0 then jDouble p a
    else
      let r := 2 * r
      let v := u1 * i
      let x3 := fsub p (fsub p (fsub p (r * r) j) v) v
      let y3 := fsub p (r * fsub p v x3) (2 * (s1 * j))
      let z3 := fsub p (fsub p ((a.z + b.z) * (a.z + b.z)) z1z1) z2z2 * h % p
      ⟨x3, y3, z3⟩

/-- `CurveParams.Add` (crypto/elliptic) -/
def add (p : Nat) (a b : Pt) : Pt := toAffine p (jAdd p (toJac a) (toJac b))

/-- Bits of a byte string, most significant first. -/
def bitsOf (k : Bytes) : List Bool :=
  k.flatMap fun b => (List.range 8).map fun i => b.toNat.testBit (7 - i)

/-- `CurveParams.ScalarMult(x, y, k)` and, with the base point, `ScalarBaseMult(k)`: left-to-right double-and-add over the
bytes of `k`. (Go 1.18 gives the point (0,0) the coordinate z = 1 here; doubling it gives infinity and the result is (0,0)
in both cases.) -/
def scalarMult (p : Nat) (pt : Pt) (k : Bytes) : Pt :=
  toAffine p ((bitsOf k).foldl
    (fun acc b => if b then jAdd p (toJac pt) (jDouble p acc) else jDouble p acc) ⟨0, 0, 0⟩)

/-- `CurveParams.IsOnCurve` (a = -3); coordinates must be reduced (Go 1.18 and later check this too). -/
def isOnCurve (p b : Nat) (pt : Pt) : Bool :=
  decide (pt.1 < p) && decide (pt.2 < p) &&
  decide (pt.2 * pt.2 % p = (fsub p (pt.1 * pt.1 * pt.1) (3 * pt.1) + b) % p)

/-- sm2.go:49 -/
def B : Nat := 0x28E9FA9E9D9F5E344D5A9E4BCF6509A7F39789F515AB8F92DDBCBD414D940E93
/-- sm2.go:48 -/
def A : Nat := 0xFFFFFFFEFFFFFFFFFFFFFFFFFFFFFFFFFFFFFFFF00000000FFFFFFFFFFFFFFFC
/-- sm2.go:51-52 -/
def G : Pt :=
  (0x32C4AE2C1F1981195F9904466A39C9948FE30BBFF2660BE1715A4589334C74C7,
   0xBC3736A2F4F6779C59BDCEE36B692153D0A9877CC62A474002DF32E52139F0A0)

end MCrypto.Curve
