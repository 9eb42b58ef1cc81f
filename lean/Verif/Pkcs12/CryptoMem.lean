import Verif.Pkcs12.KdfMem
import Verif.Pkcs12.Crypto
/-
/repo/pkcs12/crypto.go:64-164 and mac.go:30-59 with memory, on top of KdfMem.

Simplifications: the algorithm identifier is a value (asn1.Unmarshal copies octet strings, so that the salt is a new array); the block cipher
and the CBC mode are values, made from the contents of the key and of the IV at the time (`des.NewTripleDESCipher`, `New` of rc2.go and
`cipher.NewCBC...` copy what they need); `CryptBlocks` reads its whole input and then writes its output.
-/
namespace MCrypto.P12.Mem
open MCrypto MCrypto.Go MCrypto.P12 Asn1

/-- `x, err := ...; if err != nil { return err }` -/
def andThen {α β : Type} (x : Heap × Res α) (f : Heap → α → Heap × Res β) : Heap × Res β :=
  match x.2 with
  | .ok a => f x.1 a
  | .err e => (x.1, .err e)
  | .panic => (x.1, .panic)

/-- crypto.go:64-90 -/
def pbeCipherFor (room : Nat → Nat) (P : Prims) (alg : AlgId) (h : Heap) (password : Slice) : Heap × Res (Block × Bytes) :=
  andThen (h, cipherTypeFor alg.algorithm) fun h t =>
  andThen (h, unmarshalAll pbeParams alg.parameters.full) fun h params =>
  let (h, salt) := fresh h params.salt
  andThen (pbkdf room P.sha1 20 64 h salt password params.iterations 1 t.keyLen) fun h key =>
  andThen (pbkdf room P.sha1 20 64 h salt password params.iterations 2 8) fun h iv =>
  andThen (h, create P t (h.read key)) fun h block =>
  (h, .ok (block, h.read iv))

/-- crypto.go:92-132; `data` is `info.Data()` -/
def pbDecrypt (room : Nat → Nat) (P : Prims) (alg : AlgId) (h : Heap) (data password : Slice) : Heap × Res Slice :=
  andThen (pbeCipherFor room P alg h password) fun h c =>
  if data.len = 0 then (h, .err "go-pkcs12: empty encrypted data")
  else if data.len % 8 ≠ 0 then (h, .err "go-pkcs12: input is not a multiple of the block size")
  else
    let (h, decrypted) := fresh h (List.replicate data.len 0)
    andThen (h, cryptBlocks (cbcDec c.1) c.2 (h.read data)) fun h out =>
    let h := copyTo h decrypted 0 out
    let psLen := ((h.read decrypted).getLastD 0).toNat
    if psLen = 0 ∨ psLen > 8 then (h, .err "ErrDecryption")
    else if decrypted.len < psLen then (h, .err "ErrDecryption")
    else if (h.read decrypted).drop (decrypted.len - psLen) ≠ List.replicate psLen (UInt8.ofNat psLen) then (h, .err "ErrDecryption")
    else (h, .ok { decrypted with len := decrypted.len - psLen })

/-- crypto.go:140-164; the result is what `info.SetData` receives -/
def pbEncrypt (room : Nat → Nat) (P : Prims) (alg : AlgId) (h : Heap) (decrypted password : Slice) : Heap × Res Slice :=
  andThen (pbeCipherFor room P alg h password) fun h c =>
  let psLen := 8 - decrypted.len % 8
  let (h, encrypted) := fresh h (List.replicate (decrypted.len + psLen) 0)
  let h := copyTo h { encrypted with len := decrypted.len } 0 (h.read decrypted)
  let h := copyTo h encrypted decrypted.len (List.replicate psLen (UInt8.ofNat psLen))
  andThen (h, cryptBlocks (cbcEnc c.1) c.2 (h.read encrypted)) fun h out =>
  (copyTo h encrypted 0 out, .ok encrypted)

/-- mac.go:35-39 and 52-56: the key and `mac.Sum(nil)`, a new array -/
def macOf (room : Nat → Nat) (P : Prims) (h : Heap) (salt : Slice) (iterations : Int) (message password : Slice) : Heap × Res Slice :=
  andThen (pbkdf room P.sha1 20 64 h salt password iterations 3 20) fun h key =>
  let (h, d) := fresh h (hmac P.sha1 (h.read key) (h.read message))
  (h, .ok d)

/-- mac.go:30-45; `digest` is `macData.Mac.Digest` -/
def verifyMac (room : Nat → Nat) (P : Prims) (alg : Oid) (h : Heap) (digest salt : Slice) (iterations : Int) (message password : Slice) : Heap × Res Unit :=
  if alg ≠ oidSHA1 then (h, .err "NotImplementedError")
  else
    andThen (macOf room P h salt iterations message password) fun h d =>
    if h.read digest ≠ h.read d then (h, .err "ErrIncorrectPassword") else (h, .ok ())

/-- mac.go:47-59: the slice stored in `macData.Mac.Digest` -/
def computeMac (room : Nat → Nat) (P : Prims) (alg : Oid) (h : Heap) (salt : Slice) (iterations : Int) (message password : Slice) : Heap × Res Slice :=
  if alg ≠ oidSHA1 then (h, .err "NotImplementedError")
  else macOf room P h salt iterations message password

end MCrypto.P12.Mem
