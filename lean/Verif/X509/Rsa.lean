import Verif.X509.Create
import Verif.X509.Curves
/-
The RSA signatures behind /repo/x509: the functions of crypto/rsa (Go 1.18, the version of go.mod) that x509.go:1036 and 1038
call to verify, and `(*rsa.PrivateKey).Sign`, which x509.go:1779, 1897, 2200 and 2409 call through `crypto.Signer`. In
Verif/X509/SigAlg.lean and Create.lean these are parameters; here they are defined, and `rsaVerifiers` and `rsaSigner` are the
parameters for programs that use RSA keys of crypto/rsa.

Simplifications: `subtle.ConstantTime...` is comparison; `big.Int.Exp` is the power modulo the modulus; the key has been through
`Precompute` (the parsers of pkcs1.go and pkcs8.go do that: pkcs1.go:94); the random octets of one call are given as an argument:
the blinding factor that `decrypt` settles on (`none` if no source of randomness is given) and the salt.
-/
namespace MCrypto.Rsa
open MCrypto MCrypto.X509

/-- `(*PublicKey).Size`: the length of the modulus in octets (rsa.go; used by x509.go:1036-1038). -/
def size (k : RsaPub) : Nat := byteLen k.n.natAbs

/-- `(*big.Int).BitLen` (used by rsa.VerifyPSS, x509.go:1036). -/
def bitLen (n : Nat) : Nat := if n = 0 then 0 else n.log2 + 1

/-- `crypto.Hash.Size` (x509.go:1036-1038 convert the hash to `crypto.Hash`); panics for numbers it does not know. -/
def cryptoHashSize (h : Nat) : Res Nat :=
  if h = 1 then .ok 16 else if h = 2 then .ok 16 else if h = 3 then .ok 20 else if h = 4 then .ok 28
  else if h = 5 then .ok 32 else if h = 6 then .ok 48 else if h = 7 then .ok 64 else if h = 8 then .ok 36
  else if h = 9 then .ok 20 else if h = 10 then .ok 28 else if h = 11 then .ok 32 else if h = 12 then .ok 48
  else if h = 13 then .ok 64 else if h = 14 then .ok 28 else if h = 15 then .ok 32 else if h = 16 then .ok 32
  else if h = 17 then .ok 32 else if h = 18 then .ok 48 else if h = 19 then .ok 64 else .panic

/-- `hashPrefixes` of pkcs1v15.go (x509.go:1038). -/
def hashPrefix (h : Nat) : Option Bytes :=
  if h = 2 then some [0x30, 0x20, 0x30, 0x0c, 0x06, 0x08, 0x2a, 0x86, 0x48, 0x86, 0xf7, 0x0d, 0x02, 0x05, 0x05, 0x00, 0x04, 0x10]
  else if h = 3 then some [0x30, 0x21, 0x30, 0x09, 0x06, 0x05, 0x2b, 0x0e, 0x03, 0x02, 0x1a, 0x05, 0x00, 0x04, 0x14]
  else if h = 4 then some [0x30, 0x2d, 0x30, 0x0d, 0x06, 0x09, 0x60, 0x86, 0x48, 0x01, 0x65, 0x03, 0x04, 0x02, 0x04, 0x05, 0x00, 0x04, 0x1c]
  else if h = 5 then some [0x30, 0x31, 0x30, 0x0d, 0x06, 0x09, 0x60, 0x86, 0x48, 0x01, 0x65, 0x03, 0x04, 0x02, 0x01, 0x05, 0x00, 0x04, 0x20]
  else if h = 6 then some [0x30, 0x41, 0x30, 0x0d, 0x06, 0x09, 0x60, 0x86, 0x48, 0x01, 0x65, 0x03, 0x04, 0x02, 0x02, 0x05, 0x00, 0x04, 0x30]
  else if h = 7 then some [0x30, 0x51, 0x30, 0x0d, 0x06, 0x09, 0x60, 0x86, 0x48, 0x01, 0x65, 0x03, 0x04, 0x02, 0x03, 0x05, 0x00, 0x04, 0x40]
  else if h = 8 then some []
  else if h = 9 then some [0x30, 0x20, 0x30, 0x08, 0x06, 0x06, 0x28, 0xcf, 0x06, 0x03, 0x00, 0x31, 0x04, 0x14]
  else none

/-- `pkcs1v15HashInfo` (x509.go:1038). -/
def pkcs1v15HashInfo (hash inLen : Nat) : Res (Nat × Bytes) :=
  if hash = 0 then .ok (inLen, [])
  else do
    let hashLen ← cryptoHashSize hash
    if inLen ≠ hashLen then .err "crypto/rsa: input must be hashed message"
    else match hashPrefix hash with
      | none => .err "crypto/rsa: unsupported hash function"
      | some p => .ok (hashLen, p)

/-- `encrypt` of rsa.go (x509.go:1036-1038): the public operation. -/
def encrypt (pub : RsaPub) (m : Int) : Int := m ^ pub.e.toNat % pub.n

/-- The comparisons of `VerifyPKCS1v15` (x509.go:1038) on `em`. -/
def emGood (em : Bytes) (k tLen hashLen : Nat) (pre hashed : Bytes) : Bool :=
  em[0]? == some 0 && em[1]? == some 1 && em.drop (k - hashLen) == hashed &&
  (em.drop (k - tLen)).take (tLen - hashLen) == pre && em[k - tLen - 1]? == some 0 &&
  (List.range (k - tLen - 3)).all (fun i => em[i + 2]? == some 0xff)

/-- `rsa.VerifyPKCS1v15` (x509.go:1038). -/
def verifyPKCS1v15 (pub : RsaPub) (hash : Nat) (hashed sig : Bytes) : Res Unit := do
  let (hashLen, pre) ← pkcs1v15HashInfo hash hashed.length
  let tLen := pre.length + hashLen
  let k := size pub
  if k < tLen + 11 then .err "crypto/rsa: verification error"
  else if k ≠ sig.length then .err "crypto/rsa: verification error"
  else do
    let em ← fillBytes (encrypt pub (ofBytes sig)).toNat k
    if emGood em k tLen hashLen pre hashed then .ok () else .err "crypto/rsa: verification error"

/-! ## The private operation -/

/-- The loop over `CRTValues` in `decrypt` of rsa.go; a missing coefficient is a nil pointer that `Mul` dereferences. -/
def crtLoop (c : Int) : List Int → List AddPrime → Int → Int → Res Int
  | p :: ps, v :: vs, r, m => do
    let coeff ← Res.ofPtr v.coeff
    let m2 := c ^ (v.exp.getD 0).toNat % p
    crtLoop c ps vs (r * p) (m + (m2 - m) * coeff % p * r)
  | _, _, _, m => .ok m
where
  /-- a pointer that is followed -/
  Res.ofPtr {α : Type} : Option α → Res α
    | some a => .ok a
    | none => .panic

/-- The part of `decrypt` after blinding: the Chinese remainder theorem with the values of `Precompute`. -/
def crt (key : RsaPriv) (c : Int) : Res Int :=
  match key.primes with
  | p :: q :: more =>
    match modInverse q p with
    | none => .panic
    | some qinv =>
      let m1 := c ^ (key.d % (p - 1)).toNat % p
      let m2 := c ^ (key.d % (q - 1)).toNat % q
      let m := if m1 - m2 < 0 then m1 - m2 + p else m1 - m2
      crtLoop c more (crtValues key.d (p * q) more) (p * q) (m * qinv % p * q + m2)
  | _ => .panic

/-- `decrypt` of rsa.go with the blinding factor `r`. -/
def decrypt (key : RsaPriv) (blind : Option Int) (c : Int) : Res Int :=
  if c > key.pub.n then .err "crypto/rsa: decryption error"
  else if key.pub.n = 0 then .err "crypto/rsa: decryption error"
  else match blind with
    | none => crt key c
    | some r => match modInverse r key.pub.n with
      | none => .err "no blinding factor"
      | some ir => do
        let m ← crt key (c * encrypt key.pub r % key.pub.n)
        pure (m * ir % key.pub.n)

/-- `decryptAndCheck` of rsa.go. -/
def decryptAndCheck (key : RsaPriv) (blind : Option Int) (c : Int) : Res Int := do
  let m ← decrypt key blind c
  if encrypt key.pub m ≠ c then .err "rsa: internal error" else .ok m

/-- `rsa.SignPKCS1v15` (through x509.go:1779, 1897, 2200, 2409). -/
def signPKCS1v15 (key : RsaPriv) (blind : Option Int) (hash : Nat) (hashed : Bytes) : Res Bytes := do
  let (hashLen, pre) ← pkcs1v15HashInfo hash hashed.length
  let tLen := pre.length + hashLen
  let k := size key.pub
  if k < tLen + 11 then .err "crypto/rsa: message too long for RSA public key size"
  else do
    let em := 0 :: 1 :: (List.replicate (k - tLen - 3) 0xff ++ (0 :: (pre ++ hashed)))
    let c ← decryptAndCheck key blind (ofBytes em)
    fillBytes c.toNat k

/-! ## PSS -/

/-- `crypto.Hash.New` of the standard library with its own implementations. -/
def stdHash (H : StdHashes) (h : Nat) : Option HashFn :=
  if h = hMD5 then some H.md5 else if h = hSHA1 then some H.sha1 else if h = hSHA224 then some H.sha224
  else if h = hSHA256 then some H.sha256 else if h = hSHA384 then some H.sha384 else if h = hSHA512 then some H.sha512
  else if h = hRIPEMD160 then some H.ripemd160 else if h = hSHA3_224 then some H.sha3_224
  else if h = hSHA3_256 then some H.sha3_256 else if h = hSHA3_384 then some H.sha3_384
  else if h = hSHA3_512 then some H.sha3_512 else if h = hSHA512_224 then some H.sha512_224
  else if h = hSHA512_256 then some H.sha512_256 else none

/-- `mgf1XOR` of rsa.go: one digest of seed and counter after the other is XORed onto `out`. The first argument bounds the
number of rounds (one per octet is enough). -/
def mgf1XOR (f : HashFn) (seed : Bytes) : Nat → Nat → Bytes → Bytes
  | 0, _, out => out
  | _, _, [] => []
  | n + 1, counter, out =>
    let digest := f (seed ++ beBytes 4 counter)
    out.zipWith (· ^^^ ·) digest ++ mgf1XOR f seed n (counter + 1) (out.drop digest.length)

/-- `db[0] &= 0xff >> (8*emLen - emBits)` of pss.go. -/
def clearTop (s : Nat) : Bytes → Bytes
  | [] => []
  | b :: l => (b &&& (0xff >>> UInt8.ofNat s)) :: l

/-- `emsaPSSEncode` of pss.go. -/
def emsaPSSEncode (f : HashFn) (hLen : Nat) (mHash : Bytes) (emBits : Nat) (salt : Bytes) : Res Bytes :=
  let sLen := salt.length
  let emLen := (emBits + 7) / 8
  if mHash.length ≠ hLen then .err "crypto/rsa: input must be hashed with given hash"
  else if emLen < hLen + sLen + 2 then .err "crypto/rsa: key size too small for PSS signature"
  else
    let psLen := emLen - sLen - hLen - 2
    let h := f (List.replicate 8 0 ++ (mHash ++ salt))
    let db := List.replicate psLen 0 ++ (1 :: salt)
    .ok (clearTop (8 * emLen - emBits) (mgf1XOR f h db.length 0 db) ++ (h ++ [0xbc]))

/-- `emsaPSSVerify` of pss.go with `PSSSaltLengthEqualsHash`, which x509.go:1036 asks for. -/
def emsaPSSVerify (f : HashFn) (hLen : Nat) (mHash em : Bytes) (emBits : Nat) : Bool :=
  let sLen := hLen
  let emLen := (emBits + 7) / 8
  let h := (em.drop (emLen - hLen - 1)).take hLen
  let masked := em.take (emLen - hLen - 1)
  let db := clearTop (8 * emLen - emBits) (mgf1XOR f h masked.length 0 masked)
  let psLen := emLen - hLen - sLen - 2
  let salt := db.drop (db.length - sLen)
  decide (emLen = em.length) && decide (hLen = mHash.length) && decide (hLen + sLen + 2 ≤ emLen) &&
  em[emLen - 1]? == some 0xbc &&
  em.headD 0 &&& ~~~(0xff >>> UInt8.ofNat (8 * emLen - emBits)) == 0 &&
  (db.take psLen).all (· == 0) && db[psLen]? == some 1 &&
  f (List.replicate 8 0 ++ (mHash ++ salt)) == h

/-- `rsa.VerifyPSS` with `PSSSaltLengthEqualsHash` (x509.go:1036). -/
def verifyPSS (H : StdHashes) (pub : RsaPub) (hash : Nat) (digest sig : Bytes) : Res Unit :=
  if sig.length ≠ size pub then .err "crypto/rsa: verification error"
  else
    let m := encrypt pub (ofBytes sig)
    let emBits := bitLen pub.n.natAbs - 1
    let emLen := (emBits + 7) / 8
    if bitLen m.toNat > emLen * 8 then .err "crypto/rsa: verification error"
    else do
      let em ← fillBytes m.toNat emLen
      match stdHash H hash with
      | none => .panic
      | some f => do
        let hLen ← cryptoHashSize hash
        if emsaPSSVerify f hLen digest em emBits then .ok () else .err "crypto/rsa: verification error"

/-- `rsa.SignPSS` with `PSSSaltLengthEqualsHash` (the options of x509.go:1770-1776 and 2401-2407). -/
def signPSS (H : StdHashes) (key : RsaPriv) (blind : Option Int) (rand : Bytes) (hash : Nat) (digest : Bytes) : Res Bytes := do
  let hLen ← cryptoHashSize hash
  if rand.length < hLen then .err "unexpected EOF"
  else match stdHash H hash with
    | none => .panic
    | some f => do
      let em ← emsaPSSEncode f hLen digest (bitLen key.pub.n.natAbs - 1) (rand.take hLen)
      let c ← decryptAndCheck key blind (ofBytes em)
      fillBytes c.toNat (size key.pub)

/-! ## The parameters of the x509 model -/

/-- `(*rsa.PrivateKey).Sign`: x509.go:1779, 1897, 2200, 2409. -/
def sign (H : StdHashes) (key : RsaPriv) (blind : Option Int) (rand : Bytes) (digest : Bytes) : SignOpts → Res Bytes
  | .hash h => signPKCS1v15 key blind h digest
  | .pss h => signPSS H key blind rand h digest

/-- The RSA key as a `crypto.Signer` (x509.go:1682, 1847, 2059, 2324). A crash is no signature here; `sign` tells the two apart. -/
def rsaSigner (H : StdHashes) (key : RsaPriv) (blind : Option Int) (rand : Bytes) : Signer :=
  ⟨.rsa key.pub, fun digest opts => match sign H key blind rand digest opts with
    | .ok s => some s
    | _ => none⟩

/-- The verification functions of x509.go:1030-1069 with those of crypto/rsa in place; the others stay parameters. -/
def rsaVerifiers (H : StdHashes) (V : Verifiers) : Verifiers :=
  ⟨fun pub hash digest sig => (verifyPKCS1v15 pub hash digest sig).isOk,
   fun pub hash digest sig => (verifyPSS H pub hash digest sig).isOk, V.ecdsaASN1, V.ed25519⟩

end MCrypto.Rsa
