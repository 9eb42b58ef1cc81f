import Verif.Pkcs12.Pfx
/-
The functions of /repo/pkcs12 that hash, again, with the calls of SHA-1 made visible: `Q α` is a computation that may ask for
the SHA-1 value of octets and goes on with the answer. SHA-1 is not available to it in any other way. `Q.run` answers with a hash
function, `Q.asked` lists what was hashed, in order. Every definition follows the one of the same name without `Q` in Kdf.lean,
Crypto.lean and Pfx.lean line by line; `Verif/Pkcs12/QueriesLemmas.lean` proves that `run` gives the same results.
-/
namespace MCrypto.P12
open MCrypto Asn1 MCrypto.X509

/-- A computation that asks for hash values. -/
inductive Q (α : Type) where
  | ret (r : Res α)
  | ask (m : Bytes) (k : Bytes → Q α)

namespace Q
/-- Sequencing; an error or panic ends the computation. -/
def bind {α β : Type} : Q α → (α → Q β) → Q β
  | ret (.ok a), f => f a
  | ret (.err e), _ => ret (.err e)
  | ret .panic, _ => ret .panic
  | ask m k, f => ask m fun d => bind (k d) f

instance : Monad Q where
  pure a := ret (.ok a)
  bind := bind

/-- The result when `H` answers. -/
def run {α : Type} (H : Bytes → Bytes) : Q α → Res α
  | ret r => r
  | ask m k => run H (k (H m))

/-- What is hashed, in order, when `H` answers. -/
def asked {α : Type} (H : Bytes → Bytes) : Q α → List Bytes
  | ret _ => []
  | ask m k => m :: asked H (k (H m))
end Q

/-- One call of the hash. -/
def hashQ (m : Bytes) : Q Bytes := .ask m fun d => .ret (.ok d)

/-- pbkdf.go:113: `n` more times `Ai = hash(Ai)`. -/
def rehashQ : Nat → Bytes → Q Bytes
  | 0, a => pure a
  | n + 1, a => do
    let d ← hashQ a
    rehashQ n d

/-- pbkdf.go:110-114 -/
def hashIterQ (r : Int) (x : Bytes) : Q Bytes := do
  let a ← hashQ x
  rehashQ (r - 1).toNat a

/-- pbkdf.go:107-158 -/
def kdfLoopQ (v : Nat) (D : Bytes) (r : Int) (c : Nat) : Nat → Bytes → Bytes → Q Bytes
  | 0, _, A => pure A
  | n + 1, I, A => do
    let i := c - (n + 1)
    let Ai ← hashIterQ r (D ++ I)
    let A := copyAt A (i * 20) Ai
    if i < c - 1 then
      let B := fillB Ai v v []
      kdfLoopQ v D r c n (addBlocks v (ofBytes B) (I.length / v) I) A
    else kdfLoopQ v D r c n I A

/-- pbkdf.go:33-163 -/
def pbkdfQ (u v : Nat) (salt password : Bytes) (r : Int) (ID : UInt8) (size : Nat) : Q Bytes := do
  let D := List.replicate v ID
  let S := fillWithRepeats salt v
  let P := fillWithRepeats password v
  let I := S ++ P
  let c := (size + u - 1) / u
  let A ← kdfLoopQ v D r c c I (List.replicate (c * 20) 0)
  if size ≤ A.length then pure (A.take size) else .ret .panic

/-- `hmac.New(sha1.New, key)`, Write, Sum (RFC 2104; Prims.lean `hmac`). -/
def hmacQ (key text : Bytes) : Q Bytes := do
  let k0 ← if key.length > 64 then hashQ key else pure key
  let k := k0 ++ List.replicate (64 - k0.length) 0
  let d ← hashQ (k.map (· ^^^ 0x36) ++ text)
  hashQ (k.map (· ^^^ 0x5c) ++ d)

/-- crypto.go:37-39 / 51-53 -/
def deriveKeyQ (t : CipherType) (salt password : Bytes) (iter : Int) : Q Bytes :=
  pbkdfQ 20 64 salt password iter 1 t.keyLen

/-- crypto.go:41-43 / 55-57 -/
def deriveIVQ (_ : CipherType) (salt password : Bytes) (iter : Int) : Q Bytes :=
  pbkdfQ 20 64 salt password iter 2 8

/-- crypto.go:64-90 (`P` for Triple DES only) -/
def pbeCipherForQ (P : Prims) (alg : AlgId) (password : Bytes) : Q (Block × Bytes) := do
  let t ← Q.ret (cipherTypeFor alg.algorithm)
  let params ← Q.ret (unmarshalAll pbeParams alg.parameters.full)
  let key ← deriveKeyQ t params.salt password params.iterations
  let iv ← deriveIVQ t params.salt password params.iterations
  let block ← Q.ret (create P t key)
  pure (block, iv)

/-- crypto.go:104-132, after the cipher is set up: nothing more is hashed. -/
def decryptWith (data : Bytes) (block : Block) (iv : Bytes) : Res Bytes :=
  if data.length = 0 then .err "go-pkcs12: empty encrypted data"
  else if data.length % 8 ≠ 0 then .err "go-pkcs12: input is not a multiple of the block size"
  else do
    let decrypted ← cryptBlocks (cbcDec block) iv data
    let psLen := (decrypted.getLastD 0).toNat
    if psLen = 0 ∨ psLen > 8 then .err "ErrDecryption"
    else if decrypted.length < psLen then .err "ErrDecryption"
    else
      let ps := decrypted.drop (decrypted.length - psLen)
      let m := decrypted.take (decrypted.length - psLen)
      if ps ≠ List.replicate psLen (UInt8.ofNat psLen) then .err "ErrDecryption" else .ok m

/-- crypto.go:92-132: the cipher is set up before the data is looked at. -/
def pbDecryptQ (P : Prims) (alg : AlgId) (data password : Bytes) : Q Bytes := do
  let (block, iv) ← pbeCipherForQ P alg password
  Q.ret (decryptWith data block iv)

/-- crypto.go:140-164 -/
def pbEncryptQ (P : Prims) (alg : AlgId) (decrypted password : Bytes) : Q Bytes := do
  let (block, iv) ← pbeCipherForQ P alg password
  let psLen := 8 - decrypted.length % 8
  let padded := decrypted ++ List.replicate psLen (UInt8.ofNat psLen)
  Q.ret (cryptBlocks (cbcEnc block) iv padded)

/-- mac.go:35-39 / 52-56 -/
def macOfQ (md : MacData) (message password : Bytes) : Q Bytes := do
  let key ← pbkdfQ 20 64 md.macSalt password md.iterations 3 20
  hmacQ key message

/-- mac.go:30-45 -/
def verifyMacQ (md : MacData) (message password : Bytes) : Q Unit :=
  if md.mac.algorithm.algorithm ≠ oidSHA1 then .ret (.err "NotImplementedError")
  else do
    let expected ← macOfQ md message password
    if md.mac.digest ≠ expected then .ret (.err "ErrIncorrectPassword") else pure ()

/-- mac.go:47-59 -/
def computeMacQ (md : MacData) (message password : Bytes) : Q MacData :=
  if md.mac.algorithm.algorithm ≠ oidSHA1 then .ret (.err "NotImplementedError")
  else do
    let d ← macOfQ md message password
    pure { md with mac := { md.mac with digest := d } }

/-- Look at the error of a computation: what `err == ErrIncorrectPassword` does (pkcs12.go:350). -/
def Q.attempt {α β : Type} : Q α → (Res α → Q β) → Q β
  | .ret r, f => f r
  | .ask m k, f => .ask m fun d => attempt (k d) f

/-- pkcs12.go:350-361 -/
def checkMacQ (md : MacData) (content password : Bytes) : Q Bytes :=
  (verifyMacQ md content password).attempt fun
    | .ok _ => .ret (.ok password)
    | .panic => .ret .panic
    | .err e =>
      if e = "ErrIncorrectPassword" ∧ password = [0, 0] then do
        verifyMacQ md content []
        pure []
      else .ret (.err e)

/-- pkcs12.go:375-393 -/
def safeDataQ (P : Prims) (ci : ContentInfo) (password : Bytes) : Q Bytes :=
  if ci.contentType = oidDataContentType then .ret (unmarshalAll octets ci.content.bytes)
  else if ci.contentType = oidEncryptedDataContentType then do
    let ed ← Q.ret (unmarshalAll encryptedData ci.content.bytes)
    if ed.version ≠ 0 then .ret (.err "NotImplementedError")
    else pbDecryptQ P ed.info.alg ed.info.encryptedContent password
  else .ret (.err "NotImplementedError")

/-- pkcs12.go:372-400 -/
def collectBagsQ (P : Prims) (password : Bytes) : List ContentInfo → List SafeBag → Q (List SafeBag)
  | [], bags => pure bags
  | ci :: cis, bags => do
    let data ← safeDataQ P ci password
    let sc ← Q.ret (unmarshalAll (seqOf safeBag) data)
    collectBagsQ P password cis (bags ++ sc)

/-- pkcs12.go:327-403 -/
def getSafeContentsQ (P : Prims) (p12Data password : Bytes) : Q (List SafeBag × Bytes) := do
  let pfx ← Q.ret (unmarshalAll pfxPdu p12Data)
  if pfx.version ≠ 3 then .ret (.err "NotImplementedError")
  else if pfx.authSafe.contentType ≠ oidDataContentType then .ret (.err "NotImplementedError")
  else do
    let content ← Q.ret (unmarshalAllRaw pfx.authSafe.content.bytes)
    if pfx.mac.mac.algorithm.algorithm.length = 0 then .ret (.err "go-pkcs12: no MAC in data")
    else do
      let password ← checkMacQ pfx.mac content.bytes password
      let authSafe ← Q.ret (unmarshalAll (seqOf contentInfo) content.bytes)
      if authSafe.length ≠ 2 then .ret (.err "NotImplementedError")
      else do
        let bags ← collectBagsQ P password authSafe []
        pure (bags, password)

/-- safebags.go:26-47 -/
def decodePkcs8ShroudedKeyBagQ (P : Prims) (edPub : Bytes → Bytes) (asn1Data password : Bytes) : Q PrivKey := do
  let info ← Q.ret (unmarshalAll encryptedPrivateKeyInfo asn1Data)
  let pkData ← pbDecryptQ P info.alg info.data password
  let _ ← Q.ret (unmarshalAllRaw pkData)
  Q.ret (parsePKCS8PrivateKey edPub pkData)

/-- pkcs12.go:225-254 / 286-315 -/
def decodeBagQ {κ : Type} (P : Prims) (edPub : Bytes → Bytes) (parseCerts : Bytes → Res (List κ)) (keep : Bool)
    (password : Bytes) (bag : SafeBag) (s : DecState κ) : Q (DecState κ) :=
  if bag.id = oidCertBag then .ret do
    let dup := if s.certs.length ≠ 0 then true else s.dup
    let certsData ← decodeCertBag bag.value.bytes
    let certs ← parseCerts certsData
    match certs with
    | [c] => .ok { s with certs := if keep then s.certs ++ [c] else [c], dup := dup }
    | _ => .err "go-pkcs12: expected exactly one certificate in the certBag"
  else if bag.id = oidPKCS8ShroundedKeyBag then do
    let k ← decodePkcs8ShroudedKeyBagQ P edPub bag.value.bytes password
    pure { s with key := some k, dup := false }
  else pure s

/-- pkcs12.go:224, 285: the loop. -/
def decodeBagsQ {κ : Type} (P : Prims) (edPub : Bytes → Bytes) (parseCerts : Bytes → Res (List κ)) (keep : Bool)
    (password : Bytes) : List SafeBag → DecState κ → Q (DecState κ)
  | [], s => pure s
  | b :: bs, s => do
    let s ← decodeBagQ P edPub parseCerts keep password b s
    decodeBagsQ P edPub parseCerts keep password bs s

/-- pkcs12.go:207-264 (`keep = true`, `DecodeAll`) and 266-325 (`keep = false`, `Decode`) -/
def decodeWithQ {κ : Type} (P : Prims) (edPub : Bytes → Bytes) (parseCerts : Bytes → Res (List κ)) (keep : Bool)
    (pfxData password : Bytes) : Q (PrivKey × List κ) := do
  let encodedPassword ← Q.ret (bmpString password)
  let (bags, encodedPassword) ← getSafeContentsQ P pfxData encodedPassword
  let s ← decodeBagsQ P edPub parseCerts keep encodedPassword bags {}
  Q.ret (finish s)

/-- pkcs12.go:126-170 -/
def convertBagQ (P : Prims) (edPub : Bytes → Bytes) (bag : SafeBag) (password : Bytes) : Q PemBlock := do
  let headers ← Q.ret (convertAttributes (bag.attrs.getD []) [])
  if bag.id = oidCertBag then do
    let d ← Q.ret (decodeCertBag bag.value.bytes)
    pure ⟨"CERTIFICATE", headers, d⟩
  else if bag.id = oidPKCS8ShroundedKeyBag then do
    let k ← decodePkcs8ShroudedKeyBagQ P edPub bag.value.bytes password
    let d ← Q.ret (convertKey k)
    pure ⟨"PRIVATE KEY", headers, d⟩
  else .ret (.err "don't know how to convert a safe bag")

/-- pkcs12.go:114-121 -/
def convertBagsQ (P : Prims) (edPub : Bytes → Bytes) (password : Bytes) : List SafeBag → Q (List PemBlock)
  | [] => pure []
  | b :: bs => do
    let x ← convertBagQ P edPub b password
    let xs ← convertBagsQ P edPub password bs
    pure (x :: xs)

/-- pkcs12.go:105-124 -/
def toPEMQ (P : Prims) (edPub : Bytes → Bytes) (pfxData password : Bytes) : Q (List PemBlock) :=
  match bmpString password with
  | .err _ => .ret (.err "ErrIncorrectPassword")
  | .panic => .ret .panic
  | .ok encodedPassword =>
    (getSafeContentsQ P pfxData encodedPassword).attempt fun
      | .panic => .ret .panic
      | .err _ => .ret (.ok [])
      | .ok (bags, password) => convertBagsQ P edPub password bags

/-- safebags.go:49-77 -/
def encodePkcs8ShroudedKeyBagQ (P : Prims) (key : PrivKey) (password : Bytes) (rnd : Reader) : Q (Bytes × Reader) := do
  let pkData ← Q.ret (marshalPKCS8PrivateKey key)
  let (salt, rnd) ← Q.ret (readSalt rnd)
  let paramBytes ← Q.ret (marshalR pbeParams ⟨salt, 2048⟩)
  let alg : AlgId := ⟨oid3DES, { full := paramBytes }⟩
  let data ← pbEncryptQ P alg pkData password
  let asn1Data ← Q.ret (marshalR encryptedPrivateKeyInfo ⟨alg, data⟩)
  pure (asn1Data, rnd)

/-- pkcs12.go:507-550 -/
def makeSafeContentsQ (P : Prims) (bags : List SafeBag) (password : Option Bytes) (rnd : Reader) :
    Q (ContentInfo × Reader) := do
  let data ← Q.ret (marshalR (seqOf safeBag) bags)
  match password with
  | none => do
    let c ← Q.ret (marshalR octets data)
    pure (⟨oidDataContentType, ctx0 c⟩, rnd)
  | some password => do
    let (salt, rnd) ← Q.ret (readSalt rnd)
    let paramBytes ← Q.ret (marshalR pbeParams ⟨salt, 2048⟩)
    let alg : AlgId := ⟨oidRC2_40, { full := paramBytes }⟩
    let enc ← pbEncryptQ P alg data password
    let c ← Q.ret (marshalR encryptedData ⟨0, oidDataContentType, alg, enc⟩)
    pure (⟨oidEncryptedDataContentType, ctx0 c⟩, rnd)

/-- pkcs12.go:419-427 -/
def localKeyIdAttrQ (raw : Bytes) : Q Attribute := do
  let d ← hashQ raw
  let fp ← Q.ret (marshalR octets d)
  pure ⟨oidLocalKeyID, ⟨0, 17, true, fp, []⟩⟩

/-- pkcs12.go:405-492 -/
def encodeQ (P : Prims) (privateKey : PrivKey) (certificate : Bytes) (caCerts : List Bytes) (password : Bytes)
    (rnd : Reader) : Q (Bytes × Reader) := do
  let encodedPassword ← Q.ret (bmpString password)
  let attr ← localKeyIdAttrQ certificate
  let leaf ← Q.ret (makeCertBag certificate (some [attr]))
  let cas ← Q.ret (makeCaBags caCerts)
  let (keyValue, rnd) ← encodePkcs8ShroudedKeyBagQ P privateKey encodedPassword rnd
  let keyBag : SafeBag := ⟨oidPKCS8ShroundedKeyBag, ctx0 keyValue, some [attr]⟩
  let (safe0, rnd) ← makeSafeContentsQ P (leaf :: cas) (some encodedPassword) rnd
  let (safe1, rnd) ← makeSafeContentsQ P [keyBag] none rnd
  let authSafe ← Q.ret (marshalR (seqOf contentInfo) [safe0, safe1])
  let (macSalt, rnd) ← Q.ret (readSalt rnd)
  let md ← computeMacQ ⟨⟨⟨oidSHA1, {}⟩, []⟩, macSalt, 1⟩ authSafe encodedPassword
  let content ← Q.ret (marshalR octets authSafe)
  let pfx ← Q.ret (marshalR pfxPdu ⟨3, ⟨oidDataContentType, ctx0 content⟩, md⟩)
  pure (pfx, rnd)

end MCrypto.P12
