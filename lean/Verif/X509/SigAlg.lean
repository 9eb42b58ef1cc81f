import Verif.X509.Keys
/-
Model of the hash registry and of the signature algorithms of /repo/x509/x509.go: lines 200-216 (init),
218-356 (Hash), 358-407 (SignatureAlgorithm, PublicKeyAlgorithm), 479-615 (the algorithm table, PSS
parameters, getSignatureAlgorithmFromAI), 1007-1069 (checkSignature), 1546-1620 (signingParamsForPublicKey).

Simplifications: error texts are shortened; `func() hash.Hash` is the digest function of the instances it
makes; the primitives of Go's crypto/rsa, crypto/ecdsa and crypto/ed25519 are parameters (`Verifiers`);
SM2 verification is the model of /repo/sm2.
-/
namespace MCrypto.X509
open MCrypto MCrypto.Asn1
open MCrypto.Sm2 (CurveId)

/-! ## Hashes -/

/-- x509.go:272-294 (`const ( MD4 Hash = 1 + iota …`): `type Hash uint`. -/
@[simp] abbrev hMD4 : Nat := 1
@[simp] abbrev hMD5 : Nat := 2
@[simp] abbrev hSHA1 : Nat := 3
@[simp] abbrev hSHA224 : Nat := 4
@[simp] abbrev hSHA256 : Nat := 5
@[simp] abbrev hSHA384 : Nat := 6
@[simp] abbrev hSHA512 : Nat := 7
@[simp] abbrev hMD5SHA1 : Nat := 8
@[simp] abbrev hRIPEMD160 : Nat := 9
@[simp] abbrev hSHA3_224 : Nat := 10
@[simp] abbrev hSHA3_256 : Nat := 11
@[simp] abbrev hSHA3_384 : Nat := 12
@[simp] abbrev hSHA3_512 : Nat := 13
@[simp] abbrev hSHA512_224 : Nat := 14
@[simp] abbrev hSHA512_256 : Nat := 15
@[simp] abbrev hBLAKE2s_256 : Nat := 16
@[simp] abbrev hBLAKE2b_256 : Nat := 17
@[simp] abbrev hBLAKE2b_384 : Nat := 18
@[simp] abbrev hBLAKE2b_512 : Nat := 19
@[simp] abbrev hSM3 : Nat := 20
@[simp] abbrev maxHash : Nat := 21

/-- x509.go:296-317, by index. -/
def digestSizes : List Nat := [0, 16, 16, 20, 28, 32, 48, 64, 36, 20, 28, 32, 48, 64, 28, 32, 32, 32, 48, 64, 32]

/-- `Hash.Size`: x509.go:322-327 -/
def hashSize (h : Nat) : Res Nat :=
  if 0 < h ∧ h < maxHash then
    match digestSizes[h]? with
    | some n => .ok n
    | none => .panic
  else .panic

/-- `func() hash.Hash` -/
abbrev HashFn := Bytes → Bytes

/-- The package variable `hashes`: x509.go:329 -/
abbrev Registry := List (Option HashFn)

/-- x509.go:329: `make([]func() hash.Hash, maxHash)` -/
def noHashes : Registry := List.replicate maxHash none

/-- `RegisterHash`: x509.go:351-356 -/
def registerHash (reg : Registry) (h : Nat) (f : Option HashFn) : Res Registry :=
  if h ≥ maxHash then .panic else .ok (reg.set h f)

/-- `Hash.New`: x509.go:333-341 -/
def hashNew (reg : Registry) (h : Nat) : Res HashFn :=
  if 0 < h ∧ h < maxHash then
    match reg[h]? with
    | none => .panic
    | some none => .panic
    | some (some f) => .ok f
  else .panic

/-- `Hash.Available`: x509.go:344-346 -/
def hashAvailable (reg : Registry) (h : Nat) : Bool := decide (h < maxHash) && (reg.getD h none).isSome

/-- The hash functions of other packages that `init` registers. -/
structure StdHashes where
  md5 : HashFn
  sha1 : HashFn
  sha224 : HashFn
  sha256 : HashFn
  sha384 : HashFn
  sha512 : HashFn
  ripemd160 : HashFn
  sha3_224 : HashFn
  sha3_256 : HashFn
  sha3_384 : HashFn
  sha3_512 : HashFn
  sha512_224 : HashFn
  sha512_256 : HashFn

/-- `init`: x509.go:200-216. `sm3.New` makes instances whose digest is `Sm3.sum` (C02). -/
def initCalls (H : StdHashes) : List (Nat × Option HashFn) :=
  [(hMD5, some H.md5), (hSHA1, some H.sha1), (hSHA224, some H.sha224), (hSHA256, some H.sha256),
   (hSHA384, some H.sha384), (hSHA512, some H.sha512), (hMD5SHA1, none), (hRIPEMD160, some H.ripemd160),
   (hSHA3_224, some H.sha3_224), (hSHA3_256, some H.sha3_256), (hSHA3_384, some H.sha3_384),
   (hSHA3_512, some H.sha3_512), (hSHA512_224, some H.sha512_224), (hSHA512_256, some H.sha512_256),
   (hSM3, some Sm3.sum)]

/-- A sequence of `RegisterHash` calls. -/
def registerAll (reg : Registry) : List (Nat × Option HashFn) → Res Registry
  | [] => .ok reg
  | (h, f) :: l => do
    let reg ← registerHash reg h f
    registerAll reg l

/-- The registry after package initialisation. -/
def initRegistry (H : StdHashes) : Registry :=
  match registerAll noHashes (initCalls H) with
  | .ok r => r
  | _ => noHashes

/-! ## Signature algorithms -/

/-- x509.go:358-378 -/
@[simp] abbrev UnknownSignatureAlgorithm : Int := 0
@[simp] abbrev MD5WithRSA : Int := 1
@[simp] abbrev SHA1WithRSA : Int := 2
@[simp] abbrev SHA256WithRSA : Int := 3
@[simp] abbrev SHA384WithRSA : Int := 4
@[simp] abbrev SHA512WithRSA : Int := 5
@[simp] abbrev DSAWithSHA1 : Int := 6
@[simp] abbrev DSAWithSHA256 : Int := 7
@[simp] abbrev ECDSAWithSHA1 : Int := 8
@[simp] abbrev ECDSAWithSHA256 : Int := 9
@[simp] abbrev ECDSAWithSHA384 : Int := 10
@[simp] abbrev ECDSAWithSHA512 : Int := 11
@[simp] abbrev SHA256WithRSAPSS : Int := 12
@[simp] abbrev SHA384WithRSAPSS : Int := 13
@[simp] abbrev SHA512WithRSAPSS : Int := 14
@[simp] abbrev PureEd25519 : Int := 15
@[simp] abbrev SM2WithSM3 : Int := 16

/-- x509.go:380-387 -/
def isRSAPSS (a : Int) : Bool := a == SHA256WithRSAPSS || a == SHA384WithRSAPSS || a == SHA512WithRSAPSS

/-- x509.go:398-407 -/
@[simp] abbrev pkUnknown : Int := 0
@[simp] abbrev pkRSA : Int := 1
@[simp] abbrev pkDSA : Int := 2
@[simp] abbrev pkECDSA : Int := 3
@[simp] abbrev pkEd25519 : Int := 4
@[simp] abbrev pkSM2 : Int := 5

/-- x509.go:480-495 -/
def oidSignatureMD5WithRSA : Oid := [1, 2, 840, 113549, 1, 1, 4]
def oidSignatureSHA1WithRSA : Oid := [1, 2, 840, 113549, 1, 1, 5]
def oidSignatureSHA256WithRSA : Oid := [1, 2, 840, 113549, 1, 1, 11]
def oidSignatureSHA384WithRSA : Oid := [1, 2, 840, 113549, 1, 1, 12]
def oidSignatureSHA512WithRSA : Oid := [1, 2, 840, 113549, 1, 1, 13]
def oidSignatureRSAPSS : Oid := [1, 2, 840, 113549, 1, 1, 10]
def oidSignatureDSAWithSHA1 : Oid := [1, 2, 840, 10040, 4, 3]
def oidSignatureDSAWithSHA256 : Oid := [2, 16, 840, 1, 101, 3, 4, 3, 2]
def oidSignatureECDSAWithSHA1 : Oid := [1, 2, 840, 10045, 4, 1]
def oidSignatureECDSAWithSHA256 : Oid := [1, 2, 840, 10045, 4, 3, 2]
def oidSignatureECDSAWithSHA384 : Oid := [1, 2, 840, 10045, 4, 3, 3]
def oidSignatureECDSAWithSHA512 : Oid := [1, 2, 840, 10045, 4, 3, 4]
def oidSignatureEd25519 : Oid := [1, 3, 101, 112]
def oidSignatureSM2WithSM3 : Oid := [1, 2, 156, 10197, 1, 501]

/-- x509.go:497-503 -/
def oidSHA256 : Oid := [2, 16, 840, 1, 101, 3, 4, 2, 1]
def oidSHA384 : Oid := [2, 16, 840, 1, 101, 3, 4, 2, 2]
def oidSHA512 : Oid := [2, 16, 840, 1, 101, 3, 4, 2, 3]
def oidMGF1 : Oid := [1, 2, 840, 113549, 1, 1, 8]

/-- A row of `signatureAlgorithmDetails` (the display name is in `X509/Display`). -/
structure AlgoDetails where
  algo : Int
  oid : Oid
  pubKeyAlgo : Int
  hash : Nat
  deriving DecidableEq, Repr

/-- x509.go:511-534 -/
def signatureAlgorithmDetails : List AlgoDetails :=
  [⟨MD5WithRSA, oidSignatureMD5WithRSA, pkRSA, hMD5⟩,
   ⟨SHA1WithRSA, oidSignatureSHA1WithRSA, pkRSA, hSHA1⟩,
   ⟨SHA256WithRSA, oidSignatureSHA256WithRSA, pkRSA, hSHA256⟩,
   ⟨SHA384WithRSA, oidSignatureSHA384WithRSA, pkRSA, hSHA384⟩,
   ⟨SHA512WithRSA, oidSignatureSHA512WithRSA, pkRSA, hSHA512⟩,
   ⟨SHA256WithRSAPSS, oidSignatureRSAPSS, pkRSA, hSHA256⟩,
   ⟨SHA384WithRSAPSS, oidSignatureRSAPSS, pkRSA, hSHA384⟩,
   ⟨SHA512WithRSAPSS, oidSignatureRSAPSS, pkRSA, hSHA512⟩,
   ⟨DSAWithSHA1, oidSignatureDSAWithSHA1, pkDSA, hSHA1⟩,
   ⟨DSAWithSHA256, oidSignatureDSAWithSHA256, pkDSA, hSHA256⟩,
   ⟨ECDSAWithSHA1, oidSignatureECDSAWithSHA1, pkECDSA, hSHA1⟩,
   ⟨ECDSAWithSHA256, oidSignatureECDSAWithSHA256, pkECDSA, hSHA256⟩,
   ⟨ECDSAWithSHA384, oidSignatureECDSAWithSHA384, pkECDSA, hSHA384⟩,
   ⟨ECDSAWithSHA512, oidSignatureECDSAWithSHA512, pkECDSA, hSHA512⟩,
   ⟨PureEd25519, oidSignatureEd25519, pkEd25519, 0⟩,
   ⟨SM2WithSM3, oidSignatureSM2WithSM3, pkECDSA, hSM3⟩]

/-! ## RSA PSS parameters -/

/-- x509.go:543-547 (`hashToPSSParameters`): the DER for a hash OID arc and a salt length; a missing map
entry is the zero RawValue. -/
def pssDER (arc salt : UInt8) : Bytes :=
  [48, 52, 160, 15, 48, 13, 6, 9, 96, 134, 72, 1, 101, 3, 4, 2, arc, 5, 0, 161, 28, 48, 26, 6, 9, 42, 134, 72,
   134, 247, 13, 1, 1, 8, 48, 13, 6, 9, 96, 134, 72, 1, 101, 3, 4, 2, arc, 5, 0, 162, 3, 2, 1, salt]

def hashToPSSParameters (h : Nat) : RawValue :=
  if h = hSHA256 then { full := pssDER 1 32 }
  else if h = hSHA384 then { full := pssDER 2 48 }
  else if h = hSHA512 then { full := pssDER 3 64 }
  else {}

/-- x509.go:551-559 -/
structure PssParameters where
  hash : AlgId
  mgf : AlgId
  saltLength : Int
  trailerField : Int
  deriving DecidableEq, Repr

def pssParameters : Codec PssParameters :=
  ⟨16, true,
   fun b _ => do
     let (h, b) ← parseField algId { tag := some 0, explicit := true } b
     let (m, b) ← parseField algId { tag := some 1, explicit := true } b
     let (s, b) ← parseField goInt { tag := some 2, explicit := true } b
     let (t, _) ← parseField goInt { opt := some 1, tag := some 3, explicit := true } b
     pure ⟨h, m, s, t⟩,
   fun v => do
     let e1 ← marshalField algId { tag := some 0, explicit := true } v.hash
     let e2 ← marshalField algId { tag := some 1, explicit := true } v.mgf
     let e3 ← marshalField goInt { tag := some 2, explicit := true } v.saltLength
     let e4 ← marshalField goInt { opt := some 1, tag := some 3, explicit := true } v.trailerField
     pure (e1 ++ (e2 ++ (e3 ++ e4)))⟩

/-- `asn1.NullBytes` -/
def nullBytes : Bytes := [5, 0]

/-- The PSS part of `getSignatureAlgorithmFromAI`: x509.go:582-614 -/
def pssAlgo (fullBytes : Bytes) : Int :=
  match unmarshal pssParameters fullBytes with
  | none => UnknownSignatureAlgorithm
  | some (params, _) =>
    match unmarshal algId params.mgf.parameters.full with
    | none => UnknownSignatureAlgorithm
    | some (mgf1, _) =>
      if (params.hash.parameters.full.length ≠ 0 ∧ params.hash.parameters.full ≠ nullBytes) ∨
         params.mgf.algorithm ≠ oidMGF1 ∨
         mgf1.algorithm ≠ params.hash.algorithm ∨
         (mgf1.parameters.full.length ≠ 0 ∧ mgf1.parameters.full ≠ nullBytes) ∨
         params.trailerField ≠ 1 then UnknownSignatureAlgorithm
      else if params.hash.algorithm = oidSHA256 ∧ params.saltLength = 32 then SHA256WithRSAPSS
      else if params.hash.algorithm = oidSHA384 ∧ params.saltLength = 48 then SHA384WithRSAPSS
      else if params.hash.algorithm = oidSHA512 ∧ params.saltLength = 64 then SHA512WithRSAPSS
      else UnknownSignatureAlgorithm

/-- `getSignatureAlgorithmFromAI`: x509.go:561-615 -/
def getSignatureAlgorithmFromAI (ai : AlgId) : Int :=
  if ai.algorithm = oidSignatureEd25519 ∧ ai.parameters.full.length ≠ 0 then UnknownSignatureAlgorithm
  else if ai.algorithm ≠ oidSignatureRSAPSS then
    match signatureAlgorithmDetails.find? (fun d => ai.algorithm == d.oid) with
    | some d => d.algo
    | none => UnknownSignatureAlgorithm
  else pssAlgo ai.parameters.full

/-! ## Verification -/

/-- The verification functions of Go's standard library: `rsa.VerifyPKCS1v15(pub, hash, hashed, sig) == nil`,
`rsa.VerifyPSS(pub, hash, digest, sig, PSSSaltLengthEqualsHash) == nil`, `ecdsa.VerifyASN1(pub, hash, sig)`,
`ed25519.Verify(pub, msg, sig)`. -/
structure Verifiers where
  rsaPKCS1v15 : RsaPub → Nat → Bytes → Bytes → Bool
  rsaPSS : RsaPub → Nat → Bytes → Bytes → Bool
  ecdsaASN1 : Sm2.PublicKey → Bytes → Bytes → Bool
  ed25519 : Bytes → Bytes → Bytes → Bool

/-- `return nil` if the primitive accepted, an error otherwise. -/
def accept (b : Bool) (e : String) : Res Unit := if b then .ok () else .err e

/-- The loop x509.go:1011-1016: the last matching row wins; hash 0 and the unknown key algorithm when no row
matches. -/
def algoLookup (algo : Int) : Nat × Int :=
  signatureAlgorithmDetails.foldl (fun acc d => if d.algo = algo then (d.hash, d.pubKeyAlgo) else acc) (0, pkUnknown)

/-- The type switch of `checkSignature`: x509.go:1030-1069; `signed` is the digest of `plain`. -/
def checkByKey (V : Verifiers) (algo : Int) (hashType : Nat) (pubKeyAlgo : Int)
    (plain signed signature : Bytes) : PubKey → Res Unit
  | .rsa pub =>
    if pubKeyAlgo ≠ pkRSA then .err "mismatch"
    else if isRSAPSS algo then accept (V.rsaPSS pub hashType signed signature) "verification error"
    else accept (V.rsaPKCS1v15 pub hashType signed signature) "verification error"
  | .ecdsa pub =>
    if pubKeyAlgo ≠ pkECDSA then .err "mismatch"
    else accept (V.ecdsaASN1 pub signed signature) "x509: ECDSA verification failure"
  | .sm2 pub =>
    if pubKeyAlgo ≠ pkECDSA then .err "mismatch"
    else if pub.curve ≠ CurveId.sm2p256v1 then .err "mismatch"
    else accept (Sm2.verify pub plain [] signature) "x509: SM2 verification failure"
  | .ed25519 pub =>
    if pubKeyAlgo ≠ pkEd25519 then .err "mismatch"
    else if pub.length ≠ 32 then .panic
    else accept (V.ed25519 pub signed signature) "x509: Ed25519 verification failure"
  | .dsa _ | .nil | .other _ => .err "x509: cannot verify signature: algorithm unimplemented"

/-- `checkSignature`: x509.go:1007-1069 -/
def checkSignature (reg : Registry) (V : Verifiers) (algo : Int) (plain signature : Bytes)
    (publicKey : PubKey) : Res Unit :=
  let (hashType, pubKeyAlgo) := algoLookup algo
  if ¬ hashAvailable reg hashType then .err "x509: cannot verify signature: algorithm unimplemented"
  else if hashType = 0 ∧ pubKeyAlgo ≠ pkEd25519 then .err "x509: cannot verify signature: algorithm unimplemented"
  else do
    let f ← hashNew reg hashType
    checkByKey V algo hashType pubKeyAlgo plain (f plain) signature publicKey

/-! ## Signing parameters -/

/-- The first type switch of `signingParamsForPublicKey` (x509.go:1549-1588): key type, hash, algorithm. -/
def signingDefaults : PubKey → Res (Int × Nat × AlgId)
  | .rsa _ => .ok (pkRSA, hSHA256, ⟨oidSignatureSHA256WithRSA, nullRaw⟩)
  | .ecdsa pub =>
    if pub.curve = P224 ∨ pub.curve = P256 then .ok (pkECDSA, hSHA256, ⟨oidSignatureECDSAWithSHA256, {}⟩)
    else if pub.curve = P384 then .ok (pkECDSA, hSHA384, ⟨oidSignatureECDSAWithSHA384, {}⟩)
    else if pub.curve = P521 then .ok (pkECDSA, hSHA512, ⟨oidSignatureECDSAWithSHA512, {}⟩)
    else .err "x509: unknown elliptic curve"
  | .sm2 pub =>
    if pub.curve = SM2P256 then .ok (pkECDSA, hSM3, ⟨oidSignatureSM2WithSM3, {}⟩)
    else .err "x509: unknown SM2 curve"
  | .ed25519 _ => .ok (pkEd25519, 0, ⟨oidSignatureEd25519, {}⟩)
  | .dsa _ | .nil | .other _ => .err "x509: only RSA, ECDSA, SM2 and Ed25519 keys supported"

/-- `signingParamsForPublicKey`: x509.go:1546-1623 -/
def signingParamsForPublicKey (pub : PubKey) (requested : Int) : Res (Nat × AlgId) := do
  let (pubType, hashFunc, sigAlgo) ← signingDefaults pub
  if requested = 0 then pure (hashFunc, sigAlgo)
  else match signatureAlgorithmDetails.find? (fun d => d.algo == requested) with
    | none => .err "x509: unknown SignatureAlgorithm"
    | some d =>
      if d.pubKeyAlgo ≠ pubType then .err "x509: requested SignatureAlgorithm does not match private key type"
      else if d.hash = 0 ∧ pubType ≠ pkEd25519 then .err "x509: cannot sign with hash function requested"
      else pure (d.hash, ⟨d.oid, if isRSAPSS requested then hashToPSSParameters d.hash else sigAlgo.parameters⟩)

end MCrypto.X509
