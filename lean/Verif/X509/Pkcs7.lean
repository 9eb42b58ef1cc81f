import Verif.X509.Create
/-
Model of /repo/x509/pkcs7.go.

Simplifications: error texts are shortened; `time.Now()` and the randomness of the signer are arguments; a nil slice is
`none` where the difference from an empty one shows in the encoding. The types `PKCS7` and `signerInfo` have the
same fields as in the code.
-/
namespace MCrypto.X509
open MCrypto MCrypto.Asn1

/-- pkcs7.go:38-45, 109-114 and x509.go:495 -/
def oidGMData : Oid := [1, 2, 156, 10197, 6, 1, 4, 2, 1]
def oidGMSignedData : Oid := [1, 2, 156, 10197, 6, 1, 4, 2, 2]
def oidAttributeContentType : Oid := [1, 2, 840, 113549, 1, 9, 3]
def oidAttributeMessageDigest : Oid := [1, 2, 840, 113549, 1, 9, 4]
def oidAttributeSigningTime : Oid := [1, 2, 840, 113549, 1, 9, 5]
def oidDigestAlgorithmSM3 : Oid := [1, 2, 156, 10197, 1, 401]
def oidSignatureECDSASM2 : Oid := [1, 2, 156, 10197, 1, 301, 1]

/-- `contentInfo`: pkcs7.go:28-31 -/
structure ContentInfo where
  contentType : Oid := []
  content : RawValue := {}
  deriving DecidableEq, Repr

def contentInfo : Codec ContentInfo :=
  ⟨16, true,
   fun b _ => do
     let (t, b) ← parseField oid {} b
     let (c, _) ← parseRaw { opt := some {}, tag := some 0, explicit := true } b
     pure ⟨t, c⟩,
   fun v => do
     let e1 ← marshalField oid {} v.contentType
     let e2 ← marshalRaw { opt := some {}, tag := some 0, explicit := true } v.content
     pure (e1 ++ e2)⟩

/-- `attribute`: pkcs7.go:59-62. The `set` parameter has no effect on a RawValue. -/
structure P7Attr where
  type : Oid
  value : RawValue
  deriving DecidableEq, Repr

def p7Attr : Codec P7Attr :=
  ⟨16, true,
   fun b _ => do
     let (t, b) ← parseField oid {} b
     let (v, _) ← parseRaw {} b
     pure ⟨t, v⟩,
   fun a => do
     let e1 ← marshalField oid {} a.type
     let e2 ← marshalRaw {} a.value
     pure (e1 ++ e2)⟩

/-- `issuerAndSerial`: pkcs7.go:64-67 -/
structure IssuerAndSerial where
  issuerName : RawValue := {}
  serialNumber : Option Int := none
  deriving DecidableEq, Repr

def issuerAndSerial : Codec IssuerAndSerial :=
  ⟨16, true,
   fun b _ => do
     let (i, b) ← parseRaw {} b
     let (n, _) ← parseField optInt {} b
     pure ⟨i, n⟩,
   fun v => do
     let e1 ← marshalRaw {} v.issuerName
     let e2 ← marshalField optInt {} v.serialNumber
     pure (e1 ++ e2)⟩

/-- `signerInfo`: pkcs7.go:69-77. `default:1` without `optional` has no effect. -/
structure SignerInfo where
  version : Int := 0
  issuerAndSerialNumber : IssuerAndSerial := {}
  digestAlgorithm : AlgId := {}
  authenticatedAttributes : Option (List P7Attr) := none
  digestEncryptionAlgorithm : AlgId := {}
  encryptedDigest : Bytes := []
  unauthenticatedAttributes : Option (List P7Attr) := none
  deriving DecidableEq, Repr

def signerInfo : Codec SignerInfo :=
  ⟨16, true,
   fun b _ => do
     let (v, b) ← parseField goInt {} b
     let (i, b) ← parseField issuerAndSerial {} b
     let (d, b) ← parseField algId {} b
     let (a, b) ← parseField (nilable (seqOf p7Attr)) { opt := some none, tag := some 0 } b
     let (e, b) ← parseField algId {} b
     let (s, b) ← parseField octets {} b
     let (u, _) ← parseField (nilable (seqOf p7Attr)) { opt := some none, tag := some 1 } b
     pure ⟨v, i, d, a, e, s, u⟩,
   fun s => do
     let e1 ← marshalField goInt {} s.version
     let e2 ← marshalField issuerAndSerial {} s.issuerAndSerialNumber
     let e3 ← marshalField algId {} s.digestAlgorithm
     let e4 ← marshalField (nilable (seqOf p7Attr)) { opt := some none, tag := some 0 } s.authenticatedAttributes
     let e5 ← marshalField algId {} s.digestEncryptionAlgorithm
     let e6 ← marshalField octets {} s.encryptedDigest
     let e7 ← marshalField (nilable (seqOf p7Attr)) { opt := some none, tag := some 1 } s.unauthenticatedAttributes
     pure (e1 ++ (e2 ++ (e3 ++ (e4 ++ (e5 ++ (e6 ++ e7))))))⟩

/-- `rawCertificates`: pkcs7.go:56-58, a struct with only `Raw`. -/
def rawCertificates : Codec Bytes :=
  ⟨16, true, fun _ full => some full, fun raw => some (if raw = [] then [] else stripTagAndLength raw)⟩

/-- `signedData`: pkcs7.go:47-54 -/
structure SignedData where
  version : Int := 0
  digestAlgorithmIdentifiers : List AlgId := []
  contentInfo : ContentInfo := {}
  certificates : Bytes := []
  crls : Option (List Crl) := none
  signerInfos : List SignerInfo := []
  deriving DecidableEq, Repr

/-- The fields that were parsed before the first error (pkcs7.go:469 drops the error, so the caller sees these), and
whether there was no error. A slice that does not parse stays nil. -/
def signedDataFields (b : Bytes) : SignedData × Bool :=
  match parseField goInt {} b with
  | none => ({}, false)
  | some (v, b) =>
    match parseField (Asn1.setOf algId) { set := true } b with
    | none => ({ version := v }, false)
    | some (d, b) =>
      match parseField contentInfo {} b with
      | none => ({ version := v, digestAlgorithmIdentifiers := d }, false)
      | some (c, b) =>
        match parseField rawCertificates { opt := some [], tag := some 0 } b with
        | none => ({ version := v, digestAlgorithmIdentifiers := d, contentInfo := c }, false)
        | some (certs, b) =>
          match parseField (nilable (seqOf crl)) { opt := some none, tag := some 1 } b with
          | none => ({ version := v, digestAlgorithmIdentifiers := d, contentInfo := c, certificates := certs }, false)
          | some (crls, b) =>
            match parseField (Asn1.setOf signerInfo) { set := true } b with
            | none => ({ version := v, digestAlgorithmIdentifiers := d, contentInfo := c, certificates := certs,
                         crls := crls }, false)
            | some (s, _) =>
              ({ version := v, digestAlgorithmIdentifiers := d, contentInfo := c, certificates := certs, crls := crls,
                 signerInfos := s }, true)

def signedData : Codec SignedData :=
  ⟨16, true,
   fun b _ => some (signedDataFields b).1,
   fun s => do
     let e1 ← marshalField goInt {} s.version
     let e2 ← marshalField (Asn1.setOf algId) { set := true } s.digestAlgorithmIdentifiers
     let e3 ← marshalField contentInfo {} s.contentInfo
     let e4 ← marshalField rawCertificates { opt := some [], tag := some 0 } s.certificates
     let e5 ← marshalField (nilable (seqOf crl)) { opt := some none, tag := some 1 } s.crls
     let e6 ← marshalField (Asn1.setOf signerInfo) { set := true } s.signerInfos
     pure (e1 ++ (e2 ++ (e3 ++ (e4 ++ (e5 ++ e6)))))⟩

/-- `var sd signedData; asn1.Unmarshal(data, &sd)`: pkcs7.go:468-469. An error before the first field leaves the zero
value. -/
def unmarshalSignedData (data : Bytes) : SignedData :=
  match unmarshal signedData data with
  | some (sd, _) => sd
  | none => {}

/-- `PKCS7`: pkcs7.go:20-26; `raw` is always a `signedData` (it is set only by parseSignedData). -/
structure PKCS7 where
  content : Bytes := []
  certificates : List Certificate := []
  crls : Option (List Crl) := none
  signers : List SignerInfo := []
  raw : SignedData := {}
  deriving DecidableEq, Repr

/-- `rawCertificates.Parse`: pkcs7.go:79-90 -/
def parseRawCertificates (env : Env) (raw : Bytes) : Res (List Certificate) :=
  if raw.length = 0 then .ok []
  else match parseRaw {} raw with
    | none => .err "asn1"
    | some (v, _) => ParseCertificates env v.bytes

/-- pkcs7.go:476-493: the content. -/
def parseContent (bytes : Bytes) : Res Bytes :=
  if bytes.length > 0 then
    match parseRaw {} bytes with
    | none => .err "asn1"
    | some (c, _) =>
      if c.compound then
        match unmarshal octets c.bytes with
        | none => .err "asn1"
        | some (b, _) => .ok b
      else .ok c.bytes
  else .ok []

/-- `parseSignedData`: pkcs7.go:467-500 -/
def parseSignedData (env : Env) (data : Bytes) : Res PKCS7 := do
  let sd := unmarshalSignedData data
  let certs ← parseRawCertificates env sd.certificates
  let content ← parseContent sd.contentInfo.content.bytes
  pure { content := content, certificates := certs, crls := sd.crls, signers := sd.signerInfos, raw := sd }

/-- `ParsePKCS7`: pkcs7.go:442-463 -/
def ParsePKCS7 (env : Env) (data : Bytes) : Res PKCS7 :=
  if data.length = 0 then .err "pkcs7: input data is empty"
  else match unmarshal contentInfo data with
    | none => .err "asn1"
    | some (info, rest) =>
      if rest.length > 0 then .err "trailing data"
      else if info.contentType = oidGMSignedData then parseSignedData env info.content.bytes
      else .err "pkcs7: cannot parse data: unimplemented content type"

/-! ## Verification -/

/-- `isCertMatchForIssuerAndSerial`: pkcs7.go:135-137; comparing with a nil number panics. -/
def isCertMatch (cert : Certificate) (ias : IssuerAndSerial) : Res Bool :=
  match cert.serialNumber, ias.serialNumber with
  | some m, some n => .ok (decide (m = n) && decide (cert.rawIssuer = ias.issuerName.full))
  | _, _ => .panic

/-- `getCertFromCertsByIssuerAndSerial`: pkcs7.go:116-123 -/
def getCert (ias : IssuerAndSerial) : List Certificate → Res (Option Certificate)
  | [] => .ok none
  | c :: l => do
    let m ← isCertMatch c ias
    if m then pure (some c) else getCert ias l

/-- `(*PKCS7).GetOnlySigner`: pkcs7.go:127-133 -/
def PKCS7.getOnlySigner (p7 : PKCS7) : Res (Option Certificate) :=
  match p7.signers with
  | [s] => getCert s.issuerAndSerialNumber p7.certificates
  | _ => .ok none

/-- `unmarshalAttribute`: pkcs7.go:139-147 -/
def unmarshalAttribute {α : Type} (c : Codec α) (attrs : List P7Attr) (type : Oid) : Res α :=
  match attrs.find? (fun a => a.type == type) with
  | none => .err "pkcs7: attribute type not in attributes"
  | some a =>
    match unmarshal c a.value.bytes with
    | none => .err "asn1"
    | some (v, _) => .ok v

/-- `(*PKCS7).UnmarshalSignedAttribute`: pkcs7.go:150-160 -/
def PKCS7.unmarshalSignedAttribute {α : Type} (c : Codec α) (p7 : PKCS7) (type : Oid) : Res α :=
  match p7.raw.signerInfos with
  | [] => .err "pkcs7: payload has no signers"
  | s :: _ => unmarshalAttribute c (s.authenticatedAttributes.getD []) type

/-- `marshalAttributes`: pkcs7.go:92-107 -/
def marshalAttributes (attrs : List P7Attr) : Option Bytes := do
  let set ← marshalField (Asn1.setOf p7Attr) { set := true } attrs
  let (raw, _) ← parseRaw {} (encTLV 0 true 16 set)
  pure raw.bytes

/-- pkcs7.go:529-556: the bytes the signature must be over. -/
def signedBytes (content : Bytes) (s : SignerInfo) : Res Bytes :=
  let attrs := s.authenticatedAttributes.getD []
  if attrs.length > 0 then do
    let digest ← unmarshalAttribute octets attrs oidAttributeMessageDigest
    if digest ≠ Sm3.sum content then .err "pkcs7: Message digest mismatch"
    else Res.ofOption "asn1" (marshalAttributes attrs)
  else .ok content

/-- `verifySignature`: pkcs7.go:528-566. The algorithm identifiers of the signer are not looked at. -/
def verifySigner (reg : Registry) (V : Verifiers) (p7 : PKCS7) (s : SignerInfo) : Res Unit := do
  let signed ← signedBytes p7.content s
  let cert ← getCert s.issuerAndSerialNumber p7.certificates
  match cert with
  | none => .err "pkcs7: No certificate for signer"
  | some c => c.checkSignature reg V SM2WithSM3 signed s.encryptedDigest

/-- The loop of `Verify`: pkcs7.go:509-513 -/
def verifySigners (reg : Registry) (V : Verifiers) (p7 : PKCS7) : List SignerInfo → Res Unit
  | [] => .ok ()
  | s :: l => do
    let _ ← verifySigner reg V p7 s
    verifySigners reg V p7 l

/-- `(*PKCS7).Verify`: pkcs7.go:505-515 -/
def PKCS7.verify (reg : Registry) (V : Verifiers) (p7 : PKCS7) : Res Unit :=
  if p7.signers.length = 0 then .err "pkcs7: Message has no signers" else verifySigners reg V p7 p7.signers

/-! ## Signing -/

/-- pkcs7.go:362-379: the attribute and its encoding (the sort key). -/
def sortableAttr (type : Oid) (value : AnyValue) : Option (Bytes × P7Attr) := do
  let v ← marshalAny value
  let a : P7Attr := ⟨type, ⟨0, 17, true, v, []⟩⟩
  let key ← marshal p7Attr a
  pure (key, a)

def sortableAttrs : List (Oid × AnyValue) → Option (List (Bytes × P7Attr))
  | [] => some []
  | (t, v) :: l => do
    let x ← sortableAttr t v
    let xs ← sortableAttrs l
    pure (x :: xs)

/-- `(*attributes).ForMarshaling`: pkcs7.go:359-383. `sort.Sort` is not stable, but elements with the same key are
equal (the encoding determines the attribute), so any sort gives the same list. -/
def forMarshaling (attrs : List (Oid × AnyValue)) : Option (List P7Attr) := do
  let l ← sortableAttrs attrs
  pure ((sortBy (fun a b => bytesLe a.1 b.1) l).map (·.2))

/-- pkcs7.go:252-261 and 287-296: the signed attributes. -/
def signedAttrs (now : Time) (data : Bytes) : List (Oid × AnyValue) :=
  [(oidAttributeContentType, .oid oidGMData), (oidAttributeMessageDigest, .octets (Sm3.sum data)),
   (oidAttributeSigningTime, .time now)]

/-- `getSignerInfoWithAttr` and `getSignerInfoWithAttrCallback`: pkcs7.go:251-319; `sign` is `sm2.Sign` with the key or
the callback, applied to the marshalled attributes. -/
def getSignerInfo (cert : Certificate) (sign : Bytes → Res Bytes) (now : Time) (data : Bytes) : Res SignerInfo := do
  let attrs ← Res.ofOption "asn1" (forMarshaling (signedAttrs now data))
  let b ← Res.ofOption "asn1" (marshalAttributes attrs)
  let signature ← sign b
  pure { version := 1, issuerAndSerialNumber := ⟨{ full := cert.rawIssuer }, cert.serialNumber⟩,
         authenticatedAttributes := some attrs, digestAlgorithm := ⟨oidDigestAlgorithmSM3, {}⟩,
         digestEncryptionAlgorithm := ⟨oidSignatureECDSASM2, {}⟩, encryptedDigest := signature }

/-- `marshalCertificates` and `marshalCertificateBytes`: pkcs7.go:420-440 -/
def marshalCertificates (certs : List Certificate) : Bytes := encTLV 2 true 0 (certs.flatMap (·.raw))

/-- pkcs7.go:177-211, 215-249: everything but the signer. The error of the signer is dropped; the zero `signerInfo` takes
its place. -/
def newSignedDataWith (cert : Certificate) (si : Res SignerInfo) (data : Bytes) : Res Bytes := do
  let content ← Res.ofOption "asn1" (marshal octets data)
  let s ← match si with
    | .ok s => .ok s
    | .err _ => .ok {}
    | .panic => .panic
  let inner ← Res.ofOption "asn1" (marshal signedData
    { version := 1, digestAlgorithmIdentifiers := [⟨oidDigestAlgorithmSM3, {}⟩],
      contentInfo := ⟨oidGMData, ⟨2, 0, true, content, []⟩⟩, certificates := marshalCertificates [cert],
      crls := some [], signerInfos := [s] })
  Res.ofOption "asn1" (marshal contentInfo ⟨oidGMSignedData, ⟨2, 0, true, inner, []⟩⟩)

/-- The signer with a key: pkcs7.go:396-406; only SM2 keys can sign. -/
def signWithKey (rd : Reader) : PrivKey → Bytes → Res Bytes
  | .sm2 k, b => Sm2.sign rd k b []
  | _, _ => .err "unsupport algop"

/-- The signer with a callback: pkcs7.go:408-418 -/
def signWithCallback (f : Bytes → Option Bytes) (b : Bytes) : Res Bytes := Res.ofOption "callback" (f b)

/-- `NewSignedData`: pkcs7.go:213-249 -/
def NewSignedData (rd : Reader) (now : Time) (cert : Certificate) (key : PrivKey) (data : Bytes) : Res Bytes :=
  newSignedDataWith cert (getSignerInfo cert (signWithKey rd key) now data) data

/-- `NewSignedDataCallBack`: pkcs7.go:176-211 -/
def NewSignedDataCallBack (now : Time) (cert : Certificate) (f : Bytes → Option Bytes) (data : Bytes) : Res Bytes :=
  newSignedDataWith cert (getSignerInfo cert (signWithCallback f) now data) data

end MCrypto.X509
