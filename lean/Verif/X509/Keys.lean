import Verif.X509.Curves
import Mathlib.Data.Int.GCD
/-
Model of the key formats of /repo/x509: pkcs1.go, sec1.go, pkcs8.go, and the public-key part of x509.go
and parser.go.

Simplifications: error texts are shortened; a failed parse tries the other formats only to choose the
text of the error (pkcs8.go:33-39, sec1.go:82-88, pkcs1.go:54-60 and 142-144, x509.go:65-68), which is dropped;
`*big.Int` fields of keys are not nil; Ed25519 key generation is a parameter (`edPub`).
-/
namespace MCrypto.X509
open MCrypto MCrypto.Curve MCrypto.Asn1
open MCrypto.Sm2 (CurveId)

/-! ## Keys -/

/-- `rsa.PublicKey` -/
structure RsaPub where
  n : Int
  e : Int
  deriving DecidableEq, Repr

/-- `rsa.PrivateKey`; `Precomputed` is a function of these fields (`precompute`). -/
structure RsaPriv where
  pub : RsaPub
  d : Int
  primes : List Int
  deriving DecidableEq, Repr

/-- `dsa.PublicKey` -/
structure DsaPub where
  p : Int
  q : Int
  g : Int
  y : Int
  deriving DecidableEq, Repr

/-- The dynamic value of a private key. `ecdsa.PrivateKey` has the shape of `sm2.PrivateKey`. -/
inductive PrivKey where
  | rsa (k : RsaPriv)
  | ecdsa (k : Sm2.PrivateKey)
  | sm2 (k : Sm2.PrivateKey)
  | ed25519 (k : Bytes)
  | other (n : Nat)
  deriving DecidableEq, Repr

/-- The dynamic value of a public key. -/
inductive PubKey where
  | rsa (k : RsaPub)
  | ecdsa (k : Sm2.PublicKey)
  | sm2 (k : Sm2.PublicKey)
  | ed25519 (k : Bytes)
  | dsa (k : DsaPub)
  | nil
  | other (n : Nat)
  deriving DecidableEq, Repr

/-! ## RSA (crypto/rsa) -/

/-- `checkPub` and `(*PrivateKey).Validate` -/
def rsaValidate (k : RsaPriv) : Bool :=
  decide (2 ≤ k.pub.e) && decide (k.pub.e ≤ 2 ^ 31 - 1) &&
  k.primes.all (fun p => decide (1 < p)) &&
  decide (k.primes.foldl (· * ·) 1 = k.pub.n) &&
  k.primes.all (fun p => decide (k.pub.e * k.d % (p - 1) = 1))

/-- `(*big.Int).ModInverse(g, n)` for a positive modulus: nil when there is no inverse. -/
def modInverse (g n : Int) : Option Int := if Int.gcd g n = 1 then some (Int.gcdA g n % n) else none

/-- `pkcs1AdditionalRSAPrime` (pkcs1.go:30-36); a nil big.Int is `none`. -/
structure AddPrime where
  prime : Option Int
  exp : Option Int
  coeff : Option Int
  deriving DecidableEq, Repr

/-- The `CRTValues` of `Precompute` together with the primes they belong to (pkcs1.go:124-129);
`r` is the product of the primes before. -/
def crtValues (d r : Int) : List Int → List AddPrime
  | [] => []
  | p :: ps => ⟨some p, some (d % (p - 1)), modInverse r p⟩ :: crtValues d (r * p) ps

/-! ## ASN.1 structures -/

/-- `*big.Int`, nil being `none`: marshalling nil is an error. -/
def optInt : Codec (Option Int) := ⟨2, false, fun b _ => (Der.decInt b).map some, fun v => v.map Der.encInt⟩

def addPrime : Codec AddPrime :=
  ⟨16, true,
   fun b _ => do
     let (p, b) ← parseField optInt {} b
     let (e, b) ← parseField optInt {} b
     let (c, _) ← parseField optInt {} b
     pure ⟨p, e, c⟩,
   fun v => do
     let p ← marshalField optInt {} v.prime
     let e ← marshalField optInt {} v.exp
     let c ← marshalField optInt {} v.coeff
     pure (p ++ (e ++ c))⟩

/-- pkcs1.go:15-28 -/
structure Pkcs1Priv where
  version : Int
  n : Int
  e : Int
  d : Int
  p : Int
  q : Int
  dp : Option Int
  dq : Option Int
  qinv : Option Int
  additional : List AddPrime
  deriving DecidableEq, Repr

def pkcs1Priv : Codec Pkcs1Priv :=
  ⟨16, true,
   fun b _ => do
     let (version, b) ← parseField goInt {} b
     let (n, b) ← parseField bigInt {} b
     let (e, b) ← parseField goInt {} b
     let (d, b) ← parseField bigInt {} b
     let (p, b) ← parseField bigInt {} b
     let (q, b) ← parseField bigInt {} b
     let (dp, b) ← parseField optInt { opt := some none } b
     let (dq, b) ← parseField optInt { opt := some none } b
     let (qinv, b) ← parseField optInt { opt := some none } b
     let (add, _) ← parseField (seqOf addPrime) { opt := some [] } b
     pure ⟨version, n, e, d, p, q, dp, dq, qinv, add⟩,
   fun v => do
     let e1 ← marshalField goInt {} v.version
     let e2 ← marshalField bigInt {} v.n
     let e3 ← marshalField goInt {} v.e
     let e4 ← marshalField bigInt {} v.d
     let e5 ← marshalField bigInt {} v.p
     let e6 ← marshalField bigInt {} v.q
     let e7 ← marshalField optInt { opt := some none } v.dp
     let e8 ← marshalField optInt { opt := some none } v.dq
     let e9 ← marshalField optInt { opt := some none } v.qinv
     let e10 ← marshalField (seqOf addPrime) { opt := some [] } v.additional
     pure (e1 ++ (e2 ++ (e3 ++ (e4 ++ (e5 ++ (e6 ++ (e7 ++ (e8 ++ (e9 ++ e10)))))))))⟩

/-- pkcs1.go:39-42 -/
def pkcs1Pub : Codec RsaPub :=
  ⟨16, true,
   fun b _ => do
     let (n, b) ← parseField bigInt {} b
     let (e, _) ← parseField goInt {} b
     pure ⟨n, e⟩,
   fun v => do
     let e1 ← marshalField bigInt {} v.n
     let e2 ← marshalField goInt {} v.e
     pure (e1 ++ e2)⟩

/-- sec1.go:25-30 -/
structure EcPriv where
  version : Int
  privateKey : Bytes
  namedCurveOID : Oid
  publicKey : BitString
  deriving DecidableEq, Repr

def ecPriv : Codec EcPriv :=
  ⟨16, true,
   fun b _ => do
     let (version, b) ← parseField goInt {} b
     let (privateKey, b) ← parseField octets {} b
     let (oid, b) ← parseField oid { opt := some [], tag := some 0, explicit := true } b
     let (pub, _) ← parseField bits { opt := some {}, tag := some 1, explicit := true } b
     pure ⟨version, privateKey, oid, pub⟩,
   fun v => do
     let e1 ← marshalField goInt {} v.version
     let e2 ← marshalField octets {} v.privateKey
     let e3 ← marshalField oid { opt := some [], tag := some 0, explicit := true } v.namedCurveOID
     let e4 ← marshalField bits { opt := some {}, tag := some 1, explicit := true } v.publicKey
     pure (e1 ++ (e2 ++ (e3 ++ e4)))⟩

/-- pkcs8.go:17-22 -/
structure Pkcs8 where
  version : Int
  algo : AlgId
  privateKey : Bytes
  deriving DecidableEq, Repr

def pkcs8 : Codec Pkcs8 :=
  ⟨16, true,
   fun b _ => do
     let (version, b) ← parseField goInt {} b
     let (algo, b) ← parseField algId {} b
     let (key, _) ← parseField octets {} b
     pure ⟨version, algo, key⟩,
   fun v => do
     let e1 ← marshalField goInt {} v.version
     let e2 ← marshalField algId {} v.algo
     let e3 ← marshalField octets {} v.privateKey
     pure (e1 ++ (e2 ++ e3))⟩

/-- x509.go:189-193 (`publicKeyInfo`; its `Raw` is what was parsed) and x509.go:49-52 (`pkixPublicKey`, the
same structure without `Raw`, used for marshalling). -/
structure Spki where
  algo : AlgId
  publicKey : BitString
  deriving DecidableEq, Repr

def spki : Codec Spki :=
  ⟨16, true,
   fun b _ => do
     let (algo, b) ← parseField algId {} b
     let (key, _) ← parseField bits {} b
     pure ⟨algo, key⟩,
   fun v => do
     let e1 ← marshalField algId {} v.algo
     let e2 ← marshalField bits {} v.publicKey
     pure (e1 ++ e2)⟩

/-! ## PKCS #1 -/

/-- pkcs1.go:47-97 -/
def parsePKCS1PrivateKey (der : Bytes) : Res RsaPriv :=
  match unmarshal pkcs1Priv der with
  | none => .err "asn1"
  | some (priv, rest) =>
    if rest.length > 0 then .err "trailing data"
    else if priv.version > 1 then .err "x509: unsupported private key version"
    else if priv.n ≤ 0 ∨ priv.d ≤ 0 ∨ priv.p ≤ 0 ∨ priv.q ≤ 0 then
      .err "x509: private key contains zero or negative value"
    else if priv.additional.any (fun a => decide (a.prime.getD 0 ≤ 0)) then
      .err "x509: private key contains zero or negative prime"
    else
      let key : RsaPriv := ⟨⟨priv.n, priv.e⟩, priv.d, priv.p :: priv.q :: priv.additional.map (·.prime.getD 0)⟩
      if rsaValidate key then .ok key else .err "crypto/rsa"

/-- pkcs1.go:104-133: `Precompute`, then Marshal, whose error is dropped (`nil` is returned).
Panics with fewer than two primes and when one of them is 1 (division by zero in `Precompute`). -/
def marshalPKCS1PrivateKey (k : RsaPriv) : Res Bytes :=
  match k.primes with
  | p :: q :: more =>
    if p = 1 ∨ q = 1 ∨ 1 ∈ more then .panic
    else
      .ok ((marshal pkcs1Priv
        ⟨if k.primes.length > 2 then 1 else 0, k.pub.n, k.pub.e, k.d, p, q, some (k.d % (p - 1)),
          some (k.d % (q - 1)), modInverse q p, crtValues k.d (p * q) more⟩).getD [])
  | _ => .panic

/-- pkcs1.go:138-162 -/
def parsePKCS1PublicKey (der : Bytes) : Res RsaPub :=
  match unmarshal pkcs1Pub der with
  | none => .err "asn1"
  | some (pub, rest) =>
    if rest.length > 0 then .err "trailing data"
    else if pub.n ≤ 0 ∨ pub.e ≤ 0 then .err "x509: public key contains zero or negative value"
    else if pub.e > 2 ^ 31 - 1 then .err "x509: public key contains large public exponent"
    else .ok pub

/-- pkcs1.go:167-173 -/
def marshalPKCS1PublicKey (k : RsaPub) : Bytes := (marshal pkcs1Pub k).getD []

/-! ## SEC 1 -/

/-- sec1.go:55-73, `marshalECPrivateKeyWithOID` and `marshalSM2PrivateKeyWithOID` (identical bodies);
a nil OID is `[]`. `c` are the parameters of the key's curve. -/
def marshalECPrivateKeyWithOID (c : CurveParams) (k : Sm2.PrivateKey) (o : Oid) : Res Bytes := do
  let d ← fillBytes k.d c.nSize
  let pub ← ellipticMarshal c k.pub.x k.pub.y
  Res.ofOption "asn1" (marshal ecPriv ⟨1, d, o, ⟨pub, 0⟩⟩)

/-- sec1.go:44-51 -/
def marshalECPrivateKey (k : Sm2.PrivateKey) : Res Bytes :=
  match oidFromNamedCurve k.pub.curve, params k.pub.curve with
  | some o, some c => marshalECPrivateKeyWithOID c k o
  | _, _ => .err "x509: unknown elliptic curve"

/-- The loop sec1.go:113-118: drop leading zeros until at most `n` octets are left. -/
def stripZeros (n : Nat) : Bytes → Option Bytes
  | [] => some []
  | b :: r => if (b :: r).length > n then (if b ≠ 0 then none else stripZeros n r) else some (b :: r)

/-- sec1.go:79-135 -/
def parseECPrivateKey (namedCurveOID : Option Oid) (der : Bytes) : Res PrivKey :=
  match unmarshal ecPriv der with
  | none => .err "x509: failed to parse EC private key"
  | some (privKey, _) =>
    if privKey.version ≠ 1 then .err "x509: unknown EC private key version"
    else
      let id := namedCurveFromOID (namedCurveOID.getD privKey.namedCurveOID)
      match id, id.bind params with
      | some curve, some c =>
        let k := ofBytes privKey.privateKey
        if k ≥ c.n then .err "x509: invalid elliptic curve private key value"
        else match stripZeros c.nSize privKey.privateKey with
          | none => .err "x509: invalid private key length"
          | some s =>
            let q := baseMult c (List.replicate (c.nSize - s.length) 0 ++ s)
            let key : Sm2.PrivateKey := ⟨⟨curve, q.1, q.2⟩, k⟩
            if curve = SM2P256 then .ok (.sm2 key) else .ok (.ecdsa key)
      | _, _ => .err "x509: unknown elliptic curve"

/-! ## PKCS #8 -/

/-- x509.go:631-636 -/
def oidPublicKeyRSA : Oid := [1, 2, 840, 113549, 1, 1, 1]
def oidPublicKeyDSA : Oid := [1, 2, 840, 10040, 4, 1]
def oidPublicKeyECDSA : Oid := [1, 2, 840, 10045, 2, 1]
def oidPublicKeyEd25519 : Oid := [1, 3, 101, 112]

/-- `ed25519.NewKeyFromSeed` -/
def edNewKey (edPub : Bytes → Bytes) (seed : Bytes) : Bytes := seed ++ edPub seed

/-- The RSA case: pkcs8.go:42-47 -/
def parsePKCS8RSA (k : Pkcs8) : Res PrivKey :=
  match parsePKCS1PrivateKey k.privateKey with
  | .ok key => .ok (.rsa key)
  | .err _ => .err "x509: failed to parse RSA private key embedded in PKCS#8"
  | .panic => .panic

/-- The EC case: pkcs8.go:49-59 -/
def parsePKCS8EC (k : Pkcs8) : Res PrivKey :=
  let namedCurveOID := (unmarshal oid k.algo.parameters.full).map Prod.fst
  match parseECPrivateKey namedCurveOID k.privateKey with
  | .ok key => .ok key
  | .err _ => .err "x509: failed to parse EC private key embedded in PKCS#8"
  | .panic => .panic

/-- The Ed25519 case: pkcs8.go:61-72 -/
def parsePKCS8Ed (edPub : Bytes → Bytes) (k : Pkcs8) : Res PrivKey :=
  if k.algo.parameters.full.length ≠ 0 then .err "x509: invalid Ed25519 private key parameters"
  else match unmarshal octets k.privateKey with
    | none => .err "x509: invalid Ed25519 private key"
    | some (seed, _) =>
      if seed.length ≠ 32 then .err "x509: invalid Ed25519 private key length"
      else .ok (.ed25519 (edNewKey edPub seed))

/-- pkcs8.go:30-77 -/
def parsePKCS8PrivateKey (edPub : Bytes → Bytes) (der : Bytes) : Res PrivKey :=
  match unmarshal pkcs8 der with
  | none => .err "asn1"
  | some (k, _) =>
    if k.algo.algorithm = oidPublicKeyRSA then parsePKCS8RSA k
    else if k.algo.algorithm = oidPublicKeyECDSA then parsePKCS8EC k
    else if k.algo.algorithm = oidPublicKeyEd25519 then parsePKCS8Ed edPub k
    else .err "x509: PKCS#8 wrapping contained private key with unknown algorithm"

/-- The EC cases: pkcs8.go:96-116 (inner OID nil) and pkcs8.go:117-137 (inner OID `oidNamedCurveSM2P256`). -/
def pkcs8EC (k : Sm2.PrivateKey) (inner : Oid) : Res Pkcs8 :=
  match oidFromNamedCurve k.pub.curve, params k.pub.curve with
  | some o, some c => do
    let oidBytes ← Res.ofOption "x509: failed to marshal curve OID" (marshal oid o)
    let key ← marshalECPrivateKeyWithOID c k inner
    pure ⟨0, ⟨oidPublicKeyECDSA, { full := oidBytes }⟩, key⟩
  | _, _ => .err "x509: unknown curve while marshaling to PKCS#8"

/-- The structure built by pkcs8.go:86-151. `k.Seed()` of an Ed25519 key is its first 32 bytes (panics when
shorter). -/
def pkcs8Of : PrivKey → Res Pkcs8
  | .rsa k => do
    let key ← marshalPKCS1PrivateKey k
    pure ⟨0, ⟨oidPublicKeyRSA, nullRaw⟩, key⟩
  | .ecdsa k => pkcs8EC k []
  | .sm2 k => pkcs8EC k oidNamedCurveSM2P256
  | .ed25519 k =>
    if k.length < 32 then .panic
    else do
      let key ← Res.ofOption "x509: failed to marshal private key" (marshal octets (k.take 32))
      pure ⟨0, ⟨oidPublicKeyEd25519, {}⟩, key⟩
  | .other _ => .err "x509: unknown key type while marshaling PKCS#8"

/-- pkcs8.go:85-154 -/
def marshalPKCS8PrivateKey (k : PrivKey) : Res Bytes := do
  let s ← pkcs8Of k
  Res.ofOption "asn1" (marshal pkcs8 s)

/-! ## PKIX public keys -/

/-- `asn1.BitString.RightAlign` -/
def rightAlign (b : BitString) : Bytes :=
  if b.bitLength % 8 = 0 ∨ b.bytes.length = 0 then b.bytes
  else beBytes b.bytes.length (ofBytes b.bytes / 2 ^ (8 - b.bitLength % 8))

/-- `cryptobyte.String.ReadASN1ObjectIdentifier`: contents as in encoding/asn1. -/
def readOID (s : Bytes) : Option (Oid × Bytes) :=
  match Der.readASN1 Der.tagOID s with
  | none => none
  | some (b, rest) =>
    match decOid b with
    | none => none
    | some o => some (o, rest)

/-- `cryptobyte.String.ReadASN1Integer(*int)`: as for big.Int, in at most 8 octets. -/
def readGoInt (s : Bytes) : Option (Int × Bytes) :=
  match Der.readASN1 Der.tagINTEGER s with
  | none => none
  | some (b, rest) =>
    if b.length > 8 then none
    else match Der.decInt b with
      | none => none
      | some n => some (n, rest)

/-- The RSA case: parser.go:243-272 -/
def parseRSAPub (par der : Bytes) : Res PubKey :=
  if par ≠ [5, 0] then .err "x509: RSA key missing NULL parameters"
  else match Der.readASN1 Der.tagSEQUENCE der with
    | none => .err "x509: invalid RSA public key"
    | some (der, _) =>
      match Der.readInt der with
      | none => .err "x509: invalid RSA modulus"
      | some (n, der) =>
        match readGoInt der with
        | none => .err "x509: invalid RSA public exponent"
        | some (e, _) =>
          if n ≤ 0 then .err "x509: RSA modulus is not a positive number"
          else if e ≤ 0 then .err "x509: RSA public exponent is not a positive number"
          else .ok (.rsa ⟨n, e⟩)

/-- The ECDSA case: parser.go:273-300 -/
def parseECPub (par der : Bytes) : Res PubKey :=
  match readOID par with
  | none => .err "x509: invalid ECDSA parameters"
  | some (o, _) =>
    match namedCurveFromOID o, (namedCurveFromOID o).bind params with
    | some curve, some c =>
      match ellipticUnmarshal c der with
      | none => .err "x509: failed to unmarshal elliptic curve point"
      | some q => if curve = SM2P256 then .ok (.sm2 ⟨curve, q.1, q.2⟩) else .ok (.ecdsa ⟨curve, q.1, q.2⟩)
    | _, _ => .err "x509: unsupported elliptic curve"

/-- The Ed25519 case: parser.go:301-310 -/
def parseEdPub (par der : Bytes) : Res PubKey :=
  if par.length ≠ 0 then .err "x509: Ed25519 key encoded with illegal parameters"
  else if der.length ≠ 32 then .err "x509: wrong Ed25519 public key size"
  else .ok (.ed25519 der)

/-- The DSA parameters: parser.go:324-330 -/
def readDSAParams (par : Bytes) : Option (Int × Int × Int) := do
  let (b, _) ← Der.readASN1 Der.tagSEQUENCE par
  let (p, b) ← Der.readInt b
  let (q, b) ← Der.readInt b
  let (g, _) ← Der.readInt b
  pure (p, q, g)

/-- The DSA case: parser.go:311-335 -/
def parseDSAPub (par der : Bytes) : Res PubKey :=
  match Der.readInt der with
  | none => .err "x509: invalid DSA public key"
  | some (y, _) =>
    match readDSAParams par with
    | none => .err "x509: invalid DSA parameters"
    | some (p, q, g) =>
      if y ≤ 0 ∨ p ≤ 0 ∨ q ≤ 0 ∨ g ≤ 0 then .err "x509: zero or negative DSA parameter"
      else .ok (.dsa ⟨p, q, g, y⟩)

/-- x509.go:398-407, `PublicKeyAlgorithm` -/
inductive PkAlgo where
  | unknown | rsa | dsa | ecdsa | ed25519
  deriving DecidableEq, Repr

/-- x509.go:638-650 -/
def getPublicKeyAlgorithmFromOID (o : Oid) : PkAlgo :=
  if o = oidPublicKeyRSA then .rsa
  else if o = oidPublicKeyDSA then .dsa
  else if o = oidPublicKeyECDSA then .ecdsa
  else if o = oidPublicKeyEd25519 then .ed25519
  else .unknown

/-- parser.go:240-338; the default case returns nil without an error. -/
def parsePublicKey (algo : PkAlgo) (k : Spki) : Res PubKey :=
  let par := k.algo.parameters.full
  let der := rightAlign k.publicKey
  match algo with
  | .rsa => parseRSAPub par der
  | .ecdsa => parseECPub par der
  | .ed25519 => parseEdPub par der
  | .dsa => parseDSAPub par der
  | .unknown => .ok .nil

/-- x509.go:62-77 -/
def parsePKIXPublicKey (der : Bytes) : Res PubKey :=
  match unmarshal spki der with
  | none => .err "asn1"
  | some (pki, rest) =>
    if rest.length ≠ 0 then .err "x509: trailing data after ASN.1 of public-key"
    else
      let algo := getPublicKeyAlgorithmFromOID pki.algo.algorithm
      if algo = .unknown then .err "x509: unknown public key algorithm" else parsePublicKey algo pki

/-- The EC cases: x509.go:93-105 and 107-119. For a curve the package does not know only the error is
modelled (`elliptic.Marshal` runs first and could panic on coordinates too big for that curve). -/
def marshalECPub (k : Sm2.PublicKey) : Res (Bytes × AlgId) :=
  match oidFromNamedCurve k.curve, params k.curve with
  | some o, some c => do
    let pb ← ellipticMarshal c k.x k.y
    let par ← Res.ofOption "asn1" (marshal oid o)
    pure (pb, ⟨oidPublicKeyECDSA, { full := par }⟩)
  | _, _ => .err "x509: unsupported elliptic curve"

/-- x509.go:79-128 -/
def marshalPublicKey : PubKey → Res (Bytes × AlgId)
  | .rsa k => do
    let pb ← Res.ofOption "asn1" (marshal pkcs1Pub k)
    pure (pb, ⟨oidPublicKeyRSA, nullRaw⟩)
  | .ecdsa k => marshalECPub k
  | .sm2 k => marshalECPub k
  | .ed25519 k => .ok (k, ⟨oidPublicKeyEd25519, {}⟩)
  | .dsa _ | .nil | .other _ => .err "x509: unsupported public key type"

/-- x509.go:137-157 -/
def marshalPKIXPublicKey (k : PubKey) : Res Bytes := do
  let (pb, alg) ← marshalPublicKey k
  pure ((marshal spki ⟨alg, ⟨pb, 8 * pb.length⟩⟩).getD [])

end MCrypto.X509
