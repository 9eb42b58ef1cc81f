import Verif.Sm2.Model
import Verif.Asn1.Model
/-
The elliptic curves the x509 package knows: the four NIST curves of Go's crypto/elliptic and sm2p256v1.
A curve is identified by `Sm2.CurveId` (the identity of the `elliptic.Curve` interface value): the NIST
curve of `k` bits is `.other k`.

Simplification: Go's NIST curves have their own arithmetic; the model uses the generic Jacobian formulas of
Verif/Curve/Model.lean for all curves.
-/
namespace MCrypto.X509
open MCrypto MCrypto.Curve MCrypto.Asn1
open MCrypto.Sm2 (CurveId)

/-- `elliptic.CurveParams` -/
structure CurveParams where
  p : Nat
  n : Nat
  b : Nat
  g : Pt
  bitSize : Nat

/-- `elliptic.P224().Params()` (FIPS 186-4 D.1.2) -/
def p224 : CurveParams where
  p := 0xffffffffffffffffffffffffffffffff000000000000000000000001
  n := 0xffffffffffffffffffffffffffff16a2e0b8f03e13dd29455c5c2a3d
  b := 0xb4050a850c04b3abf54132565044b0b7d7bfd8ba270b39432355ffb4
  g := (0xb70e0cbd6bb4bf7f321390b94a03c1d356c21122343280d6115c1d21,
    0xbd376388b5f723fb4c22dfe6cd4375a05a07476444d5819985007e34)
  bitSize := 224

/-- `elliptic.P256().Params()` (FIPS 186-4 D.1.2) -/
def p256 : CurveParams where
  p := 0xffffffff00000001000000000000000000000000ffffffffffffffffffffffff
  n := 0xffffffff00000000ffffffffffffffffbce6faada7179e84f3b9cac2fc632551
  b := 0x5ac635d8aa3a93e7b3ebbd55769886bc651d06b0cc53b0f63bce3c3e27d2604b
  g := (0x6b17d1f2e12c4247f8bce6e563a440f277037d812deb33a0f4a13945d898c296,
    0x4fe342e2fe1a7f9b8ee7eb4a7c0f9e162bce33576b315ececbb6406837bf51f5)
  bitSize := 256

/-- `elliptic.P384().Params()` (FIPS 186-4 D.1.2) -/
def p384 : CurveParams where
  p := 0xfffffffffffffffffffffffffffffffffffffffffffffffffffffffffffffffeffffffff0000000000000000ffffffff
  n := 0xffffffffffffffffffffffffffffffffffffffffffffffffc7634d81f4372ddf581a0db248b0a77aecec196accc52973
  b := 0xb3312fa7e23ee7e4988e056be3f82d19181d9c6efe8141120314088f5013875ac656398d8a2ed19d2a85c8edd3ec2aef
  g := (0xaa87ca22be8b05378eb1c71ef320ad746e1d3b628ba79b9859f741e082542a385502f25dbf55296c3a545e3872760ab7,
    0x3617de4a96262c6f5d9e98bf9292dc29f8f41dbd289a147ce9da3113b5f0b8c00a60b1ce1d7e819d7a431d7c90ea0e5f)
  bitSize := 384

/-- `elliptic.P521().Params()` (FIPS 186-4 D.1.2) -/
def p521 : CurveParams where
  p := 0x1ffffffffffffffffffffffffffffffffffffffffffffffffffffffffffffffffffffffffffffffffffffffffffffffffffffffffffffffffffffffffffffffffff
  n := 0x1fffffffffffffffffffffffffffffffffffffffffffffffffffffffffffffffffa51868783bf2f966b7fcc0148f709a5d03bb5c9b8899c47aebb6fb71e91386409
  b := 0x51953eb9618e1c9a1f929a21a0b68540eea2da725b99b315f3b8b489918ef109e156193951ec7e937b1652c0bd3bb1bf073573df883d2c34f1ef451fd46b503f00
  g := (0xc6858e06b70404e9cd9e3ecb662395b4429c648139053fb521f828af606b4d3dbaa14b5e77efe75928fe1dc127a2ffa8de3348b3c1856a429bf97e7e31c2e5bd66,
    0x11839296a789a3bc0045c8a5fb42c7d1bd998f54449579b446817afbd17273e662c97ee72995ef42640c550b9013fad0761353c7086a272c24088be94769fd16650)
  bitSize := 521

/-- sm2.go:41-56 -/
def sm2p256 : CurveParams where
  p := P
  n := N
  b := B
  g := G
  bitSize := 256

abbrev P224 : CurveId := .other 224
abbrev P256 : CurveId := .other 256
abbrev P384 : CurveId := .other 384
abbrev P521 : CurveId := .other 521
abbrev SM2P256 : CurveId := .sm2p256v1

/-- `curve.Params()`; `none` for curves unknown to the package. -/
def params : CurveId → Option CurveParams
  | .sm2p256v1 => some sm2p256
  | .other k =>
    if k = 224 then some p224 else if k = 256 then some p256
    else if k = 384 then some p384 else if k = 521 then some p521 else none

/-- x509.go:668-674 -/
def oidNamedCurveP224 : Oid := [1, 3, 132, 0, 33]
def oidNamedCurveP256 : Oid := [1, 2, 840, 10045, 3, 1, 7]
def oidNamedCurveP384 : Oid := [1, 3, 132, 0, 34]
def oidNamedCurveP521 : Oid := [1, 3, 132, 0, 35]
def oidNamedCurveSM2P256 : Oid := [1, 2, 156, 10197, 1, 301]

/-- x509.go:676-690 -/
def namedCurveFromOID (oid : Oid) : Option CurveId :=
  if oid = oidNamedCurveP224 then some P224
  else if oid = oidNamedCurveP256 then some P256
  else if oid = oidNamedCurveP384 then some P384
  else if oid = oidNamedCurveP521 then some P521
  else if oid = oidNamedCurveSM2P256 then some SM2P256
  else none

/-- x509.go:692-707 -/
def oidFromNamedCurve (c : CurveId) : Option Oid :=
  if c = P224 then some oidNamedCurveP224
  else if c = P256 then some oidNamedCurveP256
  else if c = P384 then some oidNamedCurveP384
  else if c = P521 then some oidNamedCurveP521
  else if c = SM2P256 then some oidNamedCurveSM2P256
  else none

/-- `curve.ScalarBaseMult(k)` -/
def baseMult (c : CurveParams) (k : Bytes) : Pt := scalarMult c.p c.g k

/-- Bytes of a coordinate: `(BitSize + 7) / 8`. -/
def CurveParams.size (c : CurveParams) : Nat := (c.bitSize + 7) / 8

/-- `(N.BitLen() + 7) / 8` (sec1.go:56, 68, 112) -/
def CurveParams.nSize (c : CurveParams) : Nat := byteLen c.n

/-- `(*big.Int).FillBytes(make([]byte, n))`: panics when the value does not fit. -/
def fillBytes (v n : Nat) : Res Bytes := if v < 256 ^ n then .ok (beBytes n v) else .panic

/-- `elliptic.Marshal` (crypto/elliptic, Go 1.18: no on-curve check). -/
def ellipticMarshal (c : CurveParams) (x y : Nat) : Res Bytes := do
  let xb ← fillBytes x c.size
  let yb ← fillBytes y c.size
  pure (4 :: (xb ++ yb))

/-- `elliptic.Unmarshal` (crypto/elliptic): uncompressed form, reduced coordinates, on the curve. -/
def ellipticUnmarshal (c : CurveParams) (data : Bytes) : Option Pt :=
  if data.length ≠ 1 + 2 * c.size then none
  else if data.headD 0 ≠ 4 then none
  else
    let x := ofBytes ((data.drop 1).take c.size)
    let y := ofBytes (data.drop (1 + c.size))
    if x ≥ c.p ∨ y ≥ c.p then none
    else if ¬ isOnCurve c.p c.b (x, y) then none
    else some (x, y)

end MCrypto.X509
