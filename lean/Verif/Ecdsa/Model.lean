import Verif.X509.Issuers
/-
Model of what /repo/x509 uses of Go's crypto/ecdsa (Go 1.18): `VerifyASN1` (x509.go:1044) and `(*PrivateKey).Sign` (the `crypto.Signer` of
x509.go:1779, 1897, 2200, 2409).

Simplifications: the curves compute as in Verif/Curve/Model.lean. The stream of octets that `Sign` derives (AES-CTR with a key from SHA-512 of the private
number, 32 random octets and the digest) is a parameter. Inverses modulo the order N, a prime, are powers with exponent N-2 (`fermatInverse`; `Verify` calls
`ModInverse`, which gives the same number).
-/
namespace MCrypto.Ecdsa
open MCrypto MCrypto.Curve MCrypto.X509

/-- `hashToInt` (crypto/ecdsa): as many leading bits of the digest as the order has. -/
def hashToInt (c : CurveParams) (hash : Bytes) : Nat :=
  let orderBits := Rsa.bitLen c.n
  let orderBytes := (orderBits + 7) / 8
  let hash := if hash.length > orderBytes then hash.take orderBytes else hash
  let ret := ofBytes hash
  if hash.length * 8 > orderBits then ret >>> (hash.length * 8 - orderBits) else ret

/-- `ecdsa.Verify` (crypto/ecdsa) -/
def verify (c : CurveParams) (q : Pt) (hash : Bytes) (r s : Int) : Bool :=
  if r ≤ 0 ∨ s ≤ 0 then false
  else if r ≥ c.n ∨ s ≥ c.n then false
  else
    let e := hashToInt c hash
    let w := finv c.n s.toNat
    let u1 := e * w % c.n
    let u2 := r.toNat * w % c.n
    let pt := add c.p (baseMult c (toBytes u1)) (scalarMult c.p q (toBytes u2))
    if pt.1 = 0 ∧ pt.2 = 0 then false
    else decide (pt.1 % c.n = r.toNat)

/-- `ecdsa.VerifyASN1` (crypto/ecdsa; called at x509.go:1044). Its reading of the signature is the code of sm2.go:211-225. -/
def verifyASN1 (pub : Sm2.PublicKey) (hash sig : Bytes) : Bool :=
  match params pub.curve, Sm2.unmarshalSign sig with
  | some c, .ok (r, s) => verify c (pub.x, pub.y) hash r s
  | _, _ => false

/-- `randFieldElement` (crypto/ecdsa): a number from 1 to N-1. -/
def randFieldElement (c : CurveParams) (rd : Reader) : Res (Nat × Reader) := do
  let (b, rd) ← readFull (c.bitSize / 8 + 8) rd
  .ok (ofBytes b % (c.n - 1) + 1, rd)

theorem randFieldElement_lt {c : CurveParams} {rd rd' : Reader} {k : Nat} (h : randFieldElement c rd = .ok (k, rd')) :
    rd'.length < rd.length := by
  unfold randFieldElement at h
  cases hr : readFull (c.bitSize / 8 + 8) rd with
  | ok x =>
    obtain ⟨b, rd1⟩ := x
    rw [hr] at h
    simp only [Res.bind_ok, Res.ok.injEq, Prod.mk.injEq] at h
    obtain ⟨-, rfl⟩ := h
    exact Sm2.readFull_lt (by omega) hr
  | err e => rw [hr] at h; cases h
  | panic => rw [hr] at h; cases h

/-- `signGeneric` (crypto/ecdsa): both loops draw a new number. -/
def signLoop (c : CurveParams) (d : Nat) (hash : Bytes) (rd : Reader) : Res (Nat × Nat × Reader) :=
  match h : randFieldElement c rd with
  | .ok (k, rd') =>
    have : rd'.length < rd.length := randFieldElement_lt h
    let kInv := finv c.n k
    let r := (baseMult c (toBytes k)).1 % c.n
    if r = 0 then signLoop c d hash rd'
    else
      let e := hashToInt c hash
      let s := (d * r + e) * kInv % c.n
      if s = 0 then signLoop c d hash rd' else .ok (r, s, rd')
  | .err e => .err e
  | .panic => .panic
termination_by rd.length

/-- `(*ecdsa.PrivateKey).Sign` (crypto/ecdsa). Its writing of the signature is the code of sm2.go:202-209. -/
def sign (key : Sm2.PrivateKey) (stream : Reader) (digest : Bytes) : Res Bytes :=
  match params key.pub.curve with
  | none => .panic
  | some c => do
    let (r, s, _) ← signLoop c key.d digest stream
    Sm2.marshalSign r s

/-! ## The parameters of the x509 model -/

/-- The ECDSA key as a `crypto.Signer` (x509.go:1682, 1847, 2059, 2324): the hash in the options is not used. -/
def ecdsaSigner (key : Sm2.PrivateKey) (stream : Bytes → Reader) : Signer :=
  ⟨.ecdsa key.pub, fun digest _ => match sign key (stream digest) digest with
    | .ok s => some s
    | _ => none⟩

/-- The verification functions of x509.go:1030-1069 with those of crypto/rsa and crypto/ecdsa in place; Ed25519 stays a parameter. -/
def stdVerifiers (H : StdHashes) (V : Verifiers) : Verifiers :=
  ⟨(Rsa.rsaVerifiers H V).rsaPKCS1v15, (Rsa.rsaVerifiers H V).rsaPSS, verifyASN1, V.ed25519⟩

end MCrypto.Ecdsa
