import Verif.Pkcs12.Crypto
import Verif.X509.Keys
/-
Model of /repo/pkcs12/pkcs12.go (all but `unmarshal`, which is in Crypto.lean) and
/repo/pkcs12/safebags.go (all).

Parameters: `P` the standard-library primitives, `edPub` Ed25519 public keys (only used when a key bag
holds an Ed25519 key), `parseCerts` the function `x509.ParseCertificates` (the one of /repo for `DecodeAll`,
the one of the Go standard library for `Decode`), `rand.Reader` as a `Reader`.
A certificate is represented by its `Raw` bytes on the way in, and by what `parseCerts` returns on the way
out. Error texts are reduced to what callers can distinguish.
-/
namespace MCrypto.P12
open MCrypto Asn1 MCrypto.X509

/-! ## Structures -/

/-- pkcs12.go:19-25 -/
def oidDataContentType : Oid := [1, 2, 840, 113549, 1, 7, 1]
def oidEncryptedDataContentType : Oid := [1, 2, 840, 113549, 1, 7, 6]
def oidFriendlyName : Oid := [1, 2, 840, 113549, 1, 9, 20]
def oidLocalKeyID : Oid := [1, 2, 840, 113549, 1, 9, 21]
def oidMicrosoftCSPName : Oid := [1, 3, 6, 1, 4, 1, 311, 17, 1]

/-- safebags.go:14-19 -/
def oidCertTypeX509Certificate : Oid := [1, 2, 840, 113549, 1, 9, 22, 1]
def oidPKCS8ShroundedKeyBag : Oid := [1, 2, 840, 113549, 1, 12, 10, 1, 2]
def oidCertBag : Oid := [1, 2, 840, 113549, 1, 12, 10, 1, 3]

/-- pkcs12.go:34-37 `contentInfo` -/
structure ContentInfo where
  contentType : Oid := []
  content : RawValue := {}
  deriving DecidableEq, Repr

/-- Field parameters of `Content asn1.RawValue `asn1:"tag:0,explicit,optional"``. -/
def contentParams : Params RawValue := { opt := some {}, tag := some 0, explicit := true }

def contentInfo : Codec ContentInfo :=
  ⟨16, true,
   fun b _ => do
     let (t, b) ← parseField oid {} b
     let (c, _) ← parseRaw contentParams b
     pure ⟨t, c⟩,
   fun v => do
     let t ← marshalField oid {} v.contentType
     let c ← marshalRaw contentParams v.content
     pure (t ++ c)⟩

/-- mac.go:20-24 as ASN.1 -/
def digestInfo : Codec DigestInfo :=
  ⟨16, true,
   fun b _ => do
     let (a, b) ← parseField algId {} b
     let (d, _) ← parseField octets {} b
     pure ⟨a, d⟩,
   fun v => do
     let a ← marshalField algId {} v.algorithm
     let d ← marshalField octets {} v.digest
     pure (a ++ d)⟩

/-- mac.go:14-18 as ASN.1: `Iterations int `asn1:"optional,default:1"``. -/
def macData : Codec MacData :=
  ⟨16, true,
   fun b _ => do
     let (m, b) ← parseField digestInfo {} b
     let (s, b) ← parseField octets {} b
     let (n, _) ← parseField goInt { opt := some 1 } b
     pure ⟨m, s, n⟩,
   fun v => do
     let m ← marshalField digestInfo {} v.mac
     let s ← marshalField octets {} v.macSalt
     let n ← marshalField goInt { opt := some 1 } v.iterations
     pure (m ++ (s ++ n))⟩

/-- pkcs12.go:28-32 `pfxPdu` -/
structure PfxPdu where
  version : Int
  authSafe : ContentInfo
  mac : MacData
  deriving DecidableEq, Repr

def pfxPdu : Codec PfxPdu :=
  ⟨16, true,
   fun b _ => do
     let (v, b) ← parseField goInt {} b
     let (a, b) ← parseField contentInfo {} b
     let (m, _) ← parseField macData { opt := some {} } b
     pure ⟨v, a, m⟩,
   fun v => do
     let e ← marshalField goInt {} v.version
     let a ← marshalField contentInfo {} v.authSafe
     let m ← marshalField macData { opt := some {} } v.mac
     pure (e ++ (a ++ m))⟩

/-- pkcs12.go:44-48 `encryptedContentInfo`; `EncryptedContent []byte `asn1:"tag:0,optional"``
(nil and empty are one value here; `pbEncrypt` never sets an empty one). -/
structure EncryptedContentInfo where
  contentType : Oid
  alg : AlgId
  encryptedContent : Bytes
  deriving DecidableEq, Repr

def encryptedContentInfo : Codec EncryptedContentInfo :=
  ⟨16, true,
   fun b _ => do
     let (t, b) ← parseField oid {} b
     let (a, b) ← parseField algId {} b
     let (c, _) ← parseField octets { opt := some [], tag := some 0 } b
     pure ⟨t, a, c⟩,
   fun v => do
     let t ← marshalField oid {} v.contentType
     let a ← marshalField algId {} v.alg
     let c ← marshalField octets { opt := some [], tag := some 0 } v.encryptedContent
     pure (t ++ (a ++ c))⟩

/-- pkcs12.go:39-42 `encryptedData` -/
structure EncryptedData where
  version : Int
  info : EncryptedContentInfo
  deriving DecidableEq, Repr

def encryptedData : Codec EncryptedData :=
  ⟨16, true,
   fun b _ => do
     let (v, b) ← parseField goInt {} b
     let (i, _) ← parseField encryptedContentInfo {} b
     pure ⟨v, i⟩,
   fun v => do
     let e ← marshalField goInt {} v.version
     let i ← marshalField encryptedContentInfo {} v.info
     pure (e ++ i)⟩

/-- pkcs12.go:64-67 `pkcs12Attribute` (`set` has no effect on a RawValue). -/
structure Attribute where
  id : Oid
  value : RawValue
  deriving DecidableEq, Repr

def attrC : Codec Attribute :=
  ⟨16, true,
   fun b _ => do
     let (i, b) ← parseField oid {} b
     let (v, _) ← parseRaw { set := true } b
     pure ⟨i, v⟩,
   fun v => do
     let i ← marshalField oid {} v.id
     let w ← marshalRaw { set := true } v.value
     pure (i ++ w)⟩

/-- `[]pkcs12Attribute`: `none` is the nil slice, which `optional` leaves out; an empty non-nil slice is
marshalled as an empty SET. -/
def attributes : Codec (Option (List Attribute)) :=
  ⟨16, true, fun b f => ((setOf attrC).dec b f).map some, fun v => (setOf attrC).enc (v.getD [])⟩

/-- pkcs12.go:58-62 `safeBag` -/
structure SafeBag where
  id : Oid
  value : RawValue
  attrs : Option (List Attribute)
  deriving DecidableEq, Repr

def bagValueParams : Params RawValue := { tag := some 0, explicit := true }
def bagAttrParams : Params (Option (List Attribute)) := { opt := some none, set := true }

def safeBag : Codec SafeBag :=
  ⟨16, true,
   fun b _ => do
     let (i, b) ← parseField oid {} b
     let (v, b) ← parseRaw bagValueParams b
     let (a, _) ← parseField attributes bagAttrParams b
     pure ⟨i, v, a⟩,
   fun v => do
     let i ← marshalField oid {} v.id
     let w ← marshalRaw bagValueParams v.value
     let a ← marshalField attributes bagAttrParams v.attrs
     pure (i ++ (w ++ a))⟩

/-- pkcs12.go:69-72 `encryptedPrivateKeyInfo` -/
structure EncryptedPrivateKeyInfo where
  alg : AlgId
  data : Bytes
  deriving DecidableEq, Repr

def encryptedPrivateKeyInfo : Codec EncryptedPrivateKeyInfo :=
  ⟨16, true,
   fun b _ => do
     let (a, b) ← parseField algId {} b
     let (d, _) ← parseField octets {} b
     pure ⟨a, d⟩,
   fun v => do
     let a ← marshalField algId {} v.alg
     let d ← marshalField octets {} v.data
     pure (a ++ d)⟩

/-- safebags.go:21-24 `certBag` -/
structure CertBag where
  id : Oid
  data : Bytes
  deriving DecidableEq, Repr

def certBag : Codec CertBag :=
  ⟨16, true,
   fun b _ => do
     let (i, b) ← parseField oid {} b
     let (d, _) ← parseField octets { tag := some 0, explicit := true } b
     pure ⟨i, d⟩,
   fun v => do
     let i ← marshalField oid {} v.id
     let d ← marshalField octets { tag := some 0, explicit := true } v.data
     pure (i ++ d)⟩

/-! ## safebags.go -/

/-- `asn1.Marshal` with its error. -/
def marshalR {α : Type} [DecidableEq α] (c : Codec α) (v : α) : Res Bytes := Res.ofOption "asn1" (marshal c v)

/-- safebags.go:26-47 -/
def decodePkcs8ShroudedKeyBag (P : Prims) (edPub : Bytes → Bytes) (asn1Data password : Bytes) : Res PrivKey := do
  let info ← unmarshalAll encryptedPrivateKeyInfo asn1Data
  let pkData ← pbDecrypt P info.alg info.data password
  let _ ← unmarshalAllRaw pkData
  parsePKCS8PrivateKey edPub pkData

/-- `rand.Read` of a slice of 8 bytes. -/
def readSalt (rnd : Reader) : Res (Bytes × Reader) := readFull 8 rnd

/-- safebags.go:49-77 -/
def encodePkcs8ShroudedKeyBag (P : Prims) (key : PrivKey) (password : Bytes) (rnd : Reader) :
    Res (Bytes × Reader) := do
  let pkData ← marshalPKCS8PrivateKey key
  let (salt, rnd) ← readSalt rnd
  let paramBytes ← marshalR pbeParams ⟨salt, 2048⟩
  let alg : AlgId := ⟨oid3DES, { full := paramBytes }⟩
  let data ← pbEncrypt P alg pkData password
  let asn1Data ← marshalR encryptedPrivateKeyInfo ⟨alg, data⟩
  pure (asn1Data, rnd)

/-- safebags.go:79-88 -/
def decodeCertBag (asn1Data : Bytes) : Res Bytes := do
  let bag ← unmarshalAll certBag asn1Data
  if bag.id ≠ oidCertTypeX509Certificate then .err "NotImplementedError" else .ok bag.data

/-- safebags.go:90-98 -/
def encodeCertBag (raw : Bytes) : Res Bytes := marshalR certBag ⟨oidCertTypeX509Certificate, raw⟩

/-! ## Encode -/

/-- An explicitly tagged `[0]` value as the code builds it: class 2, tag 0, constructed. -/
def ctx0 (bytes : Bytes) : RawValue := ⟨2, 0, true, bytes, []⟩

/-- pkcs12.go:494-505 -/
def makeCertBag (raw : Bytes) (attrs : Option (List Attribute)) : Res SafeBag := do
  let v ← encodeCertBag raw
  pure ⟨oidCertBag, ctx0 v, attrs⟩

/-- pkcs12.go:507-550; `password = none` is a nil slice. -/
def makeSafeContents (P : Prims) (bags : List SafeBag) (password : Option Bytes) (rnd : Reader) :
    Res (ContentInfo × Reader) := do
  let data ← marshalR (seqOf safeBag) bags
  match password with
  | none => do
    let c ← marshalR octets data
    pure (⟨oidDataContentType, ctx0 c⟩, rnd)
  | some password => do
    let (salt, rnd) ← readSalt rnd
    let paramBytes ← marshalR pbeParams ⟨salt, 2048⟩
    let alg : AlgId := ⟨oidRC2_40, { full := paramBytes }⟩
    let enc ← pbEncrypt P alg data password
    let c ← marshalR encryptedData ⟨0, oidDataContentType, alg, enc⟩
    pure (⟨oidEncryptedDataContentType, ctx0 c⟩, rnd)

/-- pkcs12.go:435-440: one bag per CA certificate, with an empty (non-nil) attribute list. -/
def makeCaBags : List Bytes → Res (List SafeBag)
  | [] => .ok []
  | raw :: cas => do
    let b ← makeCertBag raw (some [])
    let bs ← makeCaBags cas
    pure (b :: bs)

/-- pkcs12.go:419-427: the attribute with the SHA-1 fingerprint of the leaf certificate. -/
def localKeyIdAttr (P : Prims) (raw : Bytes) : Res Attribute := do
  let fp ← marshalR octets (P.sha1 raw)
  pure ⟨oidLocalKeyID, ⟨0, 17, true, fp, []⟩⟩

/-- pkcs12.go:405-492. `certificate` and `caCerts` are the `Raw` fields. (A nil certificate pointer panics
in the code; the model takes the value.) -/
def encode (P : Prims) (privateKey : PrivKey) (certificate : Bytes) (caCerts : List Bytes) (password : Bytes)
    (rnd : Reader) : Res (Bytes × Reader) := do
  let encodedPassword ← bmpString password
  let attr ← localKeyIdAttr P certificate
  let leaf ← makeCertBag certificate (some [attr])
  let cas ← makeCaBags caCerts
  let (keyValue, rnd) ← encodePkcs8ShroudedKeyBag P privateKey encodedPassword rnd
  let keyBag : SafeBag := ⟨oidPKCS8ShroundedKeyBag, ctx0 keyValue, some [attr]⟩
  let (safe0, rnd) ← makeSafeContents P (leaf :: cas) (some encodedPassword) rnd
  let (safe1, rnd) ← makeSafeContents P [keyBag] none rnd
  let authSafe ← marshalR (seqOf contentInfo) [safe0, safe1]
  let (macSalt, rnd) ← readSalt rnd
  let md ← computeMac P ⟨⟨⟨oidSHA1, {}⟩, []⟩, macSalt, 1⟩ authSafe encodedPassword
  let content ← marshalR octets authSafe
  let pfx ← marshalR pfxPdu ⟨3, ⟨oidDataContentType, ctx0 content⟩, md⟩
  pure (pfx, rnd)

/-! ## Decode -/

/-- pkcs12.go:350-361: the MAC check with the second attempt for the empty password. Returns the password to
use from here on. -/
def checkMac (P : Prims) (md : MacData) (content password : Bytes) : Res Bytes :=
  match verifyMac P md content password with
  | .ok _ => .ok password
  | .panic => .panic
  | .err e =>
    if e = "ErrIncorrectPassword" ∧ password = [0, 0] then do
      verifyMac P md content []
      pure []
    else .err e

/-- pkcs12.go:375-393, the `switch`: the octets of the SafeContents in one content info. -/
def safeData (P : Prims) (ci : ContentInfo) (password : Bytes) : Res Bytes :=
  if ci.contentType = oidDataContentType then unmarshalAll octets ci.content.bytes
  else if ci.contentType = oidEncryptedDataContentType then do
    let ed ← unmarshalAll encryptedData ci.content.bytes
    if ed.version ≠ 0 then .err "NotImplementedError"
    else pbDecrypt P ed.info.alg ed.info.encryptedContent password
  else .err "NotImplementedError"

/-- pkcs12.go:372-400, the loop over the content infos. -/
def collectBags (P : Prims) (password : Bytes) : List ContentInfo → List SafeBag → Res (List SafeBag)
  | [], bags => .ok bags
  | ci :: cis, bags => do
    let data ← safeData P ci password
    let sc ← unmarshalAll (seqOf safeBag) data
    collectBags P password cis (bags ++ sc)

/-- pkcs12.go:327-403 -/
def getSafeContents (P : Prims) (p12Data password : Bytes) : Res (List SafeBag × Bytes) := do
  let pfx ← unmarshalAll pfxPdu p12Data
  if pfx.version ≠ 3 then .err "NotImplementedError"
  else if pfx.authSafe.contentType ≠ oidDataContentType then .err "NotImplementedError"
  else do
    let content ← unmarshalAllRaw pfx.authSafe.content.bytes
    if pfx.mac.mac.algorithm.algorithm.length = 0 then .err "go-pkcs12: no MAC in data"
    else do
      let password ← checkMac P pfx.mac content.bytes password
      let authSafe ← unmarshalAll (seqOf contentInfo) content.bytes
      if authSafe.length ≠ 2 then .err "NotImplementedError"
      else do
        let bags ← collectBags P password authSafe []
        pure (bags, password)

/-- The variables of `DecodeAll` / `Decode` in the loop over the bags: the named results. `dup` is whether
the outer `err` is set. -/
structure DecState (κ : Type) where
  key : Option PrivKey := none
  certs : List κ := []
  dup : Bool := false

/-- pkcs12.go:225-254 / 286-315: one bag. A certificate bag sets `err` when there is one already; the
assignments after it declare a new `err`, so the outer one stays set. A key bag sets `err` too, but the
assignment from `decodePkcs8ShroudedKeyBag` overwrites it with nil. `keep = true` (`DecodeAll`) appends the
certificate, `keep = false` (`Decode`) replaces it. -/
def decodeBag {κ : Type} (P : Prims) (edPub : Bytes → Bytes) (parseCerts : Bytes → Res (List κ)) (keep : Bool)
    (password : Bytes) (bag : SafeBag) (s : DecState κ) : Res (DecState κ) :=
  if bag.id = oidCertBag then do
    let dup := if s.certs.length ≠ 0 then true else s.dup
    let certsData ← decodeCertBag bag.value.bytes
    let certs ← parseCerts certsData
    match certs with
    | [c] => .ok { s with certs := if keep then s.certs ++ [c] else [c], dup := dup }
    | _ => .err "go-pkcs12: expected exactly one certificate in the certBag"
  else if bag.id = oidPKCS8ShroundedKeyBag then do
    let k ← decodePkcs8ShroudedKeyBag P edPub bag.value.bytes password
    .ok { s with key := some k, dup := false }
  else .ok s

def decodeBags {κ : Type} (P : Prims) (edPub : Bytes → Bytes) (parseCerts : Bytes → Res (List κ)) (keep : Bool)
    (password : Bytes) : List SafeBag → DecState κ → Res (DecState κ)
  | [], s => .ok s
  | b :: bs, s => do
    let s ← decodeBag P edPub parseCerts keep password b s
    decodeBags P edPub parseCerts keep password bs s

/-- pkcs12.go:256-263 / 317-324 (the code after the loop; `return` returns the outer `err`). -/
def finish {κ : Type} (s : DecState κ) : Res (PrivKey × List κ) :=
  match s.certs, s.key with
  | [], _ => .err "go-pkcs12: certificate missing"
  | _ :: _, none => .err "go-pkcs12: private key missing"
  | c :: cs, some k => if s.dup then .err "go-pkcs12: expected exactly one certificate bag" else .ok (k, c :: cs)

/-- pkcs12.go:207-264 (`keep = true`) and 266-325 (`keep = false`). The code returns the values together
with the error when a second certificate bag was seen last; the model keeps the error only. -/
def decodeWith {κ : Type} (P : Prims) (edPub : Bytes → Bytes) (parseCerts : Bytes → Res (List κ)) (keep : Bool)
    (pfxData password : Bytes) : Res (PrivKey × List κ) := do
  let encodedPassword ← bmpString password
  let (bags, encodedPassword) ← getSafeContents P pfxData encodedPassword
  let s ← decodeBags P edPub parseCerts keep encodedPassword bags {}
  finish s

/-- `DecodeAll` -/
def decodeAll {κ : Type} (P : Prims) (edPub : Bytes → Bytes) (parseCerts : Bytes → Res (List κ))
    (pfxData password : Bytes) : Res (PrivKey × List κ) := decodeWith P edPub parseCerts true pfxData password

/-- `Decode`: the list of certificates is the single variable `certificate`. -/
def decode {κ : Type} (P : Prims) (edPub : Bytes → Bytes) (parseCerts : Bytes → Res (List κ))
    (pfxData password : Bytes) : Res (PrivKey × κ) := do
  let (k, cs) ← decodeWith P edPub parseCerts false pfxData password
  match cs with
  | c :: _ => .ok (k, c)
  | [] => .err "unreachable"

/-! ## ToPEM -/

/-- `pem.Block`; the headers are a map, here the list of its entries with at most one per key. -/
structure PemBlock where
  type : String
  headers : List (String × Bytes)
  bytes : Bytes
  deriving DecidableEq, Repr

/-- Assignment to a map entry. -/
def setHeader (h : List (String × Bytes)) (k : String) (v : Bytes) : List (String × Bytes) :=
  h.filter (fun e => e.1 ≠ k) ++ [(k, v)]

/-- One digit of `hex.EncodeToString`. -/
def hexDigit (n : Nat) : UInt8 := UInt8.ofNat (if n < 10 then 48 + n else 87 + n)

/-- `hex.EncodeToString` -/
def hexEncode (b : Bytes) : Bytes := b.flatMap fun x => [hexDigit (x.toNat / 16), hexDigit (x.toNat % 16)]

/-- pkcs12.go:172-205 -/
def convertAttribute (a : Attribute) : Res (String × Bytes) :=
  let isStr (key : String) : Res (String × Bytes) := do
    let v ← unmarshalAllRaw a.value.bytes
    let s ← decodeBMPString v.bytes
    pure (key, s)
  if a.id = oidFriendlyName then isStr "friendlyName"
  else if a.id = oidLocalKeyID then do
    let id ← unmarshalAll octets a.value.bytes
    pure ("localKeyId", hexEncode id)
  else if a.id = oidMicrosoftCSPName then isStr "Microsoft CSP Name"
  else .err "go-pkcs12: unknown attribute"

/-- pkcs12.go:131-137 -/
def convertAttributes : List Attribute → List (String × Bytes) → Res (List (String × Bytes))
  | [], h => .ok h
  | a :: as, h => do
    let (k, v) ← convertAttribute a
    convertAttributes as (setHeader h k v)

/-- pkcs12.go:155-165: the encodings of the Go standard library, which does not know the SM2 curve and has
no SM2 keys. -/
def convertKey : PrivKey → Res Bytes
  | .rsa k => marshalPKCS1PrivateKey k
  | .ecdsa k => if k.pub.curve = SM2P256 then .err "x509: unknown elliptic curve" else marshalECPrivateKey k
  | _ => .err "found unknown private key type in PKCS#8 wrapping"

/-- pkcs12.go:126-170 -/
def convertBag (P : Prims) (edPub : Bytes → Bytes) (bag : SafeBag) (password : Bytes) : Res PemBlock := do
  let headers ← convertAttributes (bag.attrs.getD []) []
  if bag.id = oidCertBag then do
    let d ← decodeCertBag bag.value.bytes
    pure ⟨"CERTIFICATE", headers, d⟩
  else if bag.id = oidPKCS8ShroundedKeyBag then do
    let k ← decodePkcs8ShroudedKeyBag P edPub bag.value.bytes password
    let d ← convertKey k
    pure ⟨"PRIVATE KEY", headers, d⟩
  else .err "don't know how to convert a safe bag"

def convertBags (P : Prims) (edPub : Bytes → Bytes) (password : Bytes) : List SafeBag → Res (List PemBlock)
  | [] => .ok []
  | b :: bs => do
    let x ← convertBag P edPub b password
    let xs ← convertBags P edPub password bs
    pure (x :: xs)

/-- pkcs12.go:105-124. The error of `getSafeContents` is overwritten without being looked at; the bags are
nil then. -/
def toPEM (P : Prims) (edPub : Bytes → Bytes) (pfxData password : Bytes) : Res (List PemBlock) :=
  match bmpString password with
  | .err _ => .err "ErrIncorrectPassword"
  | .panic => .panic
  | .ok encodedPassword =>
    match getSafeContents P pfxData encodedPassword with
    | .panic => .panic
    | .err _ => .ok []
    | .ok (bags, password) => convertBags P edPub password bags

/-! ## The SM2 helpers -/

/-- pkcs12.go:551-558: `writeFile` returns the error of `ioutil.WriteFile`. -/
def sm2P12Encrypt {σ : Type} (P : Prims) (writeFile : Bytes → Res σ) (certificate password : Bytes)
    (priv : Sm2.PrivateKey) (rnd : Reader) : Res (σ × Reader) := do
  let (pfx, rnd) ← encode P (.sm2 priv) certificate [] password rnd
  let s ← writeFile pfx
  pure (s, rnd)

/-- pkcs12.go:559-591: `file` is what `ioutil.ReadFile` returns, data and error; the error is ignored. The
result `none` is `(nil, nil, nil)`. -/
def sm2P12Decrypt {κ : Type} (P : Prims) (edPub : Bytes → Bytes) (parseCerts : Bytes → Res (List κ))
    (file : Bytes × Option String) (password : Bytes) : Res (Option (κ × PrivKey)) := do
  let (pv, cer) ← decodeAll P edPub parseCerts file.1 password
  match pv with
  | .sm2 k =>
    if k.pub.curve = SM2P256 then
      if ¬ Curve.isOnCurve sm2p256.p sm2p256.b (k.pub.x, k.pub.y) then .err "error while validating SM2 private key"
      else match cer with
        | c :: _ => .ok (some (c, .sm2 k))
        | [] => .panic
    else .ok none
  | .rsa k =>
    match cer with
    | c :: _ => .ok (some (c, .rsa k))
    | [] => .panic
  | _ => .err "unexpected type for p12 private key"

end MCrypto.P12
