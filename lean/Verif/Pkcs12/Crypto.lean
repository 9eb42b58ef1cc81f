import Verif.Asn1.Lemmas
import Verif.Pkcs12.Kdf
import Verif.Pkcs12.Rc2
import Verif.Pkcs12.Prims
/-
Model of /repo/pkcs12/crypto.go and /repo/pkcs12/mac.go (all of both) and of `unmarshal`
(/repo/pkcs12/pkcs12.go:92-103). Error texts are reduced to the part callers can distinguish.
-/
namespace MCrypto.P12
open MCrypto Asn1

/-- pkcs12.go:92-103: `asn1.Unmarshal` that rejects trailing data. -/
def unmarshalAll {α : Type} (c : Codec α) (b : Bytes) : Res α :=
  match unmarshal c b with
  | none => .err "asn1"
  | some (v, rest) => if rest.length ≠ 0 then .err "go-pkcs12: trailing data found" else .ok v

/-- The same for a `RawValue` destination. -/
def unmarshalAllRaw (b : Bytes) : Res RawValue :=
  match parseRaw {} b with
  | none => .err "asn1"
  | some (v, rest) => if rest.length ≠ 0 then .err "go-pkcs12: trailing data found" else .ok v

/-- crypto.go:16-19 -/
def oid3DES : Oid := [1, 2, 840, 113549, 1, 12, 1, 3]
def oidRC2_40 : Oid := [1, 2, 840, 113549, 1, 12, 1, 6]

/-- crypto.go:59-62 `pbeParams` -/
structure PbeParams where
  salt : Bytes
  iterations : Int
  deriving DecidableEq, Repr

def pbeParams : Codec PbeParams :=
  ⟨16, true,
   fun b _ => do
     let (s, b) ← parseField octets {} b
     let (n, _) ← parseField goInt {} b
     pure ⟨s, n⟩,
   fun v => do
     let s ← marshalField octets {} v.salt
     let n ← marshalField goInt {} v.iterations
     pure (s ++ n)⟩

/-- A `cipher.Block` of block size 8 (`BlockSize()` is 8 for both ciphers: rc2.go:34, `des.BlockSize`). -/
structure Block where
  enc : Bytes → Res Bytes
  dec : Bytes → Res Bytes

/-- `des.NewTripleDESCipher`: an error unless the key has 24 bytes. -/
def tdesBlock (P : Prims) (key : Bytes) : Res Block :=
  if key.length ≠ 24 then .err "crypto/des: invalid key size"
  else .ok ⟨fun b => .ok (P.tdesEnc key b), fun b => .ok (P.tdesDec key b)⟩

/-- crypto.go:47-49, `New(key, len(key)*8)` -/
def rc2Block (key : Bytes) : Res Block :=
  (Rc2.new key (key.length * 8 : Nat)) >>= fun k => .ok ⟨Rc2.encrypt k, Rc2.decrypt k⟩

/-- The two implementations of `pbeCipher`: crypto.go:31-57. -/
inductive CipherType where
  | tdes
  | rc2

def CipherType.keyLen : CipherType → Nat
  | .tdes => 24
  | .rc2 => 5

/-- crypto.go:33-35 / 47-49 -/
def create (P : Prims) : CipherType → Bytes → Res Block
  | .tdes, key => tdesBlock P key
  | .rc2, key => rc2Block key

/-- crypto.go:37-39 / 51-53 -/
def deriveKey (P : Prims) (t : CipherType) (salt password : Bytes) (iter : Int) : Res Bytes :=
  pbkdf P.sha1 20 64 salt password iter 1 t.keyLen

/-- crypto.go:41-43 / 55-57 -/
def deriveIV (P : Prims) (_ : CipherType) (salt password : Bytes) (iter : Int) : Res Bytes :=
  pbkdf P.sha1 20 64 salt password iter 2 8

/-- crypto.go:67-74, the `switch`. -/
def cipherTypeFor (o : Oid) : Res CipherType :=
  if o = oid3DES then .ok .tdes
  else if o = oidRC2_40 then .ok .rc2
  else .err "NotImplementedError"

/-- crypto.go:64-90 -/
def pbeCipherFor (P : Prims) (alg : AlgId) (password : Bytes) : Res (Block × Bytes) := do
  let t ← cipherTypeFor alg.algorithm
  let params ← unmarshalAll pbeParams alg.parameters.full
  let key ← deriveKey P t params.salt password params.iterations
  let iv ← deriveIV P t params.salt password params.iterations
  let block ← create P t key
  pure (block, iv)

/-- `cipher.NewCBCEncrypter(block, iv).CryptBlocks`: one block per step, chained. (`CryptBlocks` panics
when the length is no multiple of 8, `NewCBC…` when the IV has not 8 bytes.) -/
def cbcEnc (blk : Block) : Nat → Bytes → Bytes → Res Bytes
  | 0, _, _ => .ok []
  | n + 1, iv, m => do
    let c ← blk.enc (xorBytes iv (m.take 8))
    let r ← cbcEnc blk n c (m.drop 8)
    pure (c ++ r)

/-- `cipher.NewCBCDecrypter(block, iv).CryptBlocks` -/
def cbcDec (blk : Block) : Nat → Bytes → Bytes → Res Bytes
  | 0, _, _ => .ok []
  | n + 1, iv, c => do
    let p ← blk.dec (c.take 8)
    let r ← cbcDec blk n (c.take 8) (c.drop 8)
    pure (xorBytes iv p ++ r)

def cryptBlocks (f : Nat → Bytes → Bytes → Res Bytes) (iv data : Bytes) : Res Bytes :=
  if iv.length ≠ 8 then .panic
  else if data.length % 8 ≠ 0 then .panic
  else f (data.length / 8) iv data

/-- crypto.go:92-132 `pbDecrypterFor`, `pbDecrypt`; `data` is `info.Data()`, `alg` `info.Algorithm()`. -/
def pbDecrypt (P : Prims) (alg : AlgId) (data password : Bytes) : Res Bytes := do
  let (block, iv) ← pbeCipherFor P alg password
  if data.length = 0 then .err "go-pkcs12: empty encrypted data"
  else if data.length % 8 ≠ 0 then .err "go-pkcs12: input is not a multiple of the block size"
  else do
    let decrypted ← cryptBlocks (cbcDec block) iv data
    let psLen := (decrypted.getLastD 0).toNat
    if psLen = 0 ∨ psLen > 8 then .err "ErrDecryption"
    else if decrypted.length < psLen then .err "ErrDecryption"
    else
      let ps := decrypted.drop (decrypted.length - psLen)
      let m := decrypted.take (decrypted.length - psLen)
      if ps ≠ List.replicate psLen (UInt8.ofNat psLen) then .err "ErrDecryption" else .ok m

/-- crypto.go:140-164 `pbEncrypterFor`, `pbEncrypt`; the result is what `info.SetData` receives. -/
def pbEncrypt (P : Prims) (alg : AlgId) (decrypted password : Bytes) : Res Bytes := do
  let (block, iv) ← pbeCipherFor P alg password
  let psLen := 8 - decrypted.length % 8
  let padded := decrypted ++ List.replicate psLen (UInt8.ofNat psLen)
  cryptBlocks (cbcEnc block) iv padded

/-! ## mac.go -/

/-- mac.go:26-28 -/
def oidSHA1 : Oid := [1, 3, 14, 3, 2, 26]

/-- mac.go:20-24 -/
structure DigestInfo where
  algorithm : AlgId := {}
  digest : Bytes := []
  deriving DecidableEq, Repr

/-- mac.go:14-18 -/
structure MacData where
  mac : DigestInfo := {}
  macSalt : Bytes := []
  iterations : Int := 0
  deriving DecidableEq, Repr

/-- mac.go:35-39 / 52-56: the key and the HMAC of the message. -/
def macOf (P : Prims) (md : MacData) (message password : Bytes) : Res Bytes := do
  let key ← pbkdf P.sha1 20 64 md.macSalt password md.iterations 3 20
  pure (hmac P.sha1 key message)

/-- mac.go:30-45 -/
def verifyMac (P : Prims) (md : MacData) (message password : Bytes) : Res Unit :=
  if md.mac.algorithm.algorithm ≠ oidSHA1 then .err "NotImplementedError"
  else do
    let expected ← macOf P md message password
    if md.mac.digest ≠ expected then .err "ErrIncorrectPassword" else .ok ()

/-- mac.go:47-59: the updated `macData`. -/
def computeMac (P : Prims) (md : MacData) (message password : Bytes) : Res MacData :=
  if md.mac.algorithm.algorithm ≠ oidSHA1 then .err "NotImplementedError"
  else do
    let d ← macOf P md message password
    pure { md with mac := { md.mac with digest := d } }

end MCrypto.P12
