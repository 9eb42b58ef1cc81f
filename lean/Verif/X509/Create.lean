import Verif.X509.Pkix
/-
Model of the functions of /repo/x509/x509.go that sign structures: CreateCertificate (1535-1542, 1625-1807),
ParseCRL, ParseDERCRL, CreateCRL (1809-1907), CreateCertificateRequest, ParseCertificateRequest, CheckSignature
(1516-1533, 1909-2281) and CreateRevocationList (2283-2419).

Simplifications: error texts are shortened; a name is the RDN sequence `ToRDNSequence` gives or
`FillFromRDNSequence` gets (crypto/x509/pkix); a `crypto.Signer` is its public key and its `Sign` function, any
function, so the randomness is part of the signer; `pem.Decode` is a parameter.
-/
namespace MCrypto.X509
open MCrypto MCrypto.Asn1

/-- `crypto.SignerOpts`: a hash, or `*rsa.PSSOptions` with salt length equal to the hash length. -/
inductive SignOpts where
  | hash (h : Nat)
  | pss (h : Nat)
  deriving DecidableEq, Repr

/-- `crypto.Signer`: `Public` and `Sign(rand, digest, opts)` (`none` is an error). -/
structure Signer where
  pub : PubKey
  sign : Bytes → SignOpts → Option Bytes

/-- The package state and the functions of other packages used here. -/
structure SignEnv where
  /-- the registered hashes -/
  reg : Registry
  /-- verification of the standard library -/
  V : Verifiers
  /-- `sha1.Sum` -/
  sha1 : Bytes → Bytes

/-! ## CreateCertificate -/

/-- `subjectBytes`: x509.go:1535-1541 -/
def subjectBytes (c : Certificate) : Option Bytes :=
  if c.rawSubject.length > 0 then some c.rawSubject else marshal rdnSequence c.subject.toRDNSequence

/-- x509.go:1715-1718 -/
def chooseAuthorityKeyId (t p : Certificate) (asn1Issuer asn1Subject : Bytes) : Bytes :=
  if asn1Issuer ≠ asn1Subject ∧ p.subjectKeyId.length > 0 then p.subjectKeyId else t.authorityKeyId

/-- x509.go:1720-1728 -/
def chooseSubjectKeyId (sha1 : Bytes → Bytes) (t : Certificate) (publicKeyBytes : Bytes) : Bytes :=
  if t.subjectKeyId.length = 0 ∧ t.isCA then sha1 publicKeyBytes else t.subjectKeyId

/-- x509.go:1763-1768: what is given to the signer. -/
def digestFor (reg : Registry) (hashFunc : Nat) (b : Bytes) : Res Bytes :=
  if hashFunc ≠ 0 then do
    let f ← hashNew reg hashFunc
    pure (f b)
  else pure b

/-- x509.go:1770-1776 -/
def signerOpts (algo : Int) (hashFunc : Nat) : SignOpts :=
  if algo ≠ 0 ∧ isRSAPSS algo then .pss hashFunc else .hash hashFunc

/-- x509.go:1794-1804: the check of the new signature. -/
def selfCheck (E : SignEnv) (sigAlgo : AlgId) (tbs signature : Bytes) (pub : PubKey) : Res Unit :=
  let a := getSignatureAlgorithmFromAI sigAlgo
  if a = MD5WithRSA ∨ a = SHA1WithRSA ∨ a = ECDSAWithSHA1 then .ok ()
  else match checkSignature E.reg E.V a tbs signature pub with
    | .err _ => .err "x509: signature over certificate returned by signer is invalid"
    | r => r

/-- x509.go:1745-1755: the structure to be signed; `none` when a time cannot be marshalled. -/
def tbsFor (t : Certificate) (sigAlgo : AlgId) (asn1Issuer asn1Subject pkBytes : Bytes) (pkAlgo : AlgId)
    (exts : List Ext) : Option TbsCert := do
  let nb ← t.notBefore.utc
  let na ← t.notAfter.utc
  pure { version := 2, serialNumber := t.serialNumber, signatureAlgorithm := sigAlgo, issuer := { full := asn1Issuer },
         notBefore := nb, notAfter := na, subject := { full := asn1Subject },
         publicKey := ⟨pkAlgo, ⟨pkBytes, pkBytes.length * 8⟩⟩, extensions := some exts }

/-- x509.go:1757-1806: sign, marshal and check. -/
def signCert (E : SignEnv) (key : Signer) (algo : Int) (hashFunc : Nat) (sigAlgo : AlgId) (c : TbsCert) : Res Bytes := do
  let contents ← Res.ofOption "asn1" (marshalTbsCert c)
  let signed ← digestFor E.reg hashFunc contents
  let signature ← Res.ofOption "signer" (key.sign signed (signerOpts algo hashFunc))
  let cert ← Res.ofOption "asn1" (marshalCert { c with raw := contents } sigAlgo ⟨signature, signature.length * 8⟩)
  let _ ← selfCheck E sigAlgo contents signature key.pub
  pure cert

/-- x509.go:1691-1693 -/
def badPathLen (t : Certificate) : Bool :=
  t.basicConstraintsValid && !t.isCA && decide (t.maxPathLen ≠ -1) && (decide (t.maxPathLen ≠ 0) || t.maxPathLenZero)

/-- `CreateCertificate`: x509.go:1681-1807; `priv = none` is a key that is not a `crypto.Signer`. -/
def CreateCertificate (E : SignEnv) (t p : Certificate) (pub : PubKey) : Option Signer → Res Bytes
  | none => .err "x509: certificate private key does not implement crypto.Signer"
  | some key =>
    if t.serialNumber = none then .err "x509: no SerialNumber given"
    else if badPathLen t then .err "x509: only CAs are allowed to specify MaxPathLen"
    else do
      let (hashFunc, sigAlgo) ← signingParamsForPublicKey key.pub t.signatureAlgorithm
      let (pkBytes, pkAlgo) ← marshalPublicKey pub
      let asn1Issuer ← Res.ofOption "asn1" (subjectBytes p)
      let asn1Subject ← Res.ofOption "asn1" (subjectBytes t)
      if p.publicKey ≠ .nil ∧ key.pub ≠ p.publicKey then
        .err "x509: provided PrivateKey doesn't match parent's PublicKey"
      else
        let exts ← Res.ofOption "extensions" (buildCertExtensions t (asn1Subject == [0x30, 0])
          (chooseAuthorityKeyId t p asn1Issuer asn1Subject) (chooseSubjectKeyId E.sha1 t pkBytes))
        let c ← Res.ofOption "asn1" (tbsFor t sigAlgo asn1Issuer asn1Subject pkBytes pkAlgo exts)
        signCert E key t.signatureAlgorithm hashFunc sigAlgo c

/-! ## Revocation lists -/

/-- `ParseDERCRL`: x509.go:1831-1839 -/
def ParseDERCRL (der : Bytes) : Res Crl :=
  match unmarshal crl der with
  | none => .err "asn1"
  | some (c, rest) => if rest.length ≠ 0 then .err "x509: trailing data after CRL" else .ok c

/-- "-----BEGIN X509 CRL" and "X509 CRL": x509.go:1809-1814 -/
def pemCRLPrefix : Bytes := [45, 45, 45, 45, 45, 66, 69, 71, 73, 78, 32, 88, 53, 48, 57, 32, 67, 82, 76]
def pemType : Bytes := [88, 53, 48, 57, 32, 67, 82, 76]

/-- `ParseCRL`: x509.go:1820-1828; `pemDecode` gives the type and the bytes of the first block. -/
def ParseCRL (pemDecode : Bytes → Option (Bytes × Bytes)) (b : Bytes) : Res Crl :=
  if pemCRLPrefix.isPrefixOf b then
    match pemDecode b with
    | some (type, bytes) => if type = pemType then ParseDERCRL bytes else ParseDERCRL b
    | none => ParseDERCRL b
  else ParseDERCRL b

/-- x509.go:1857-1862 and 2349-2354: revocation times in UTC. -/
def revokedUTC : List Revoked → Option (List Revoked)
  | [] => some []
  | r :: l => do
    let t ← r.revocationTime.utc
    let l ← revokedUTC l
    pure ({ r with revocationTime := t } :: l)

/-- x509.go:1892-1907 and 2409-2418: sign and marshal the list. `digest` is what the signer gets. -/
def signCrl (key : Signer) (sigAlgo : AlgId) (tbs : TbsCrl) (digest : Bytes) (opts : SignOpts) : Res Bytes := do
  let signature ← Res.ofOption "signer" (key.sign digest opts)
  Res.ofOption "asn1" (marshal crl ⟨tbs, sigAlgo, ⟨signature, signature.length * 8⟩⟩)

/-- x509.go:1874-1882 -/
def crlExtensions (subjectKeyId : Bytes) : Option (Option (List Ext)) :=
  if subjectKeyId.length > 0 then do
    let e ← marshalAuthorityKeyId subjectKeyId
    pure (some [e])
  else some none

/-- x509.go:1864-1872: the structure of `CreateCRL`. -/
def crlFor (c : Certificate) (sigAlgo : AlgId) (revoked : List Revoked) (now expiry : Time) : Option TbsCrl := do
  let rs ← revokedUTC revoked
  let now ← now.utc
  let expiry ← expiry.utc
  let exts ← crlExtensions c.subjectKeyId
  pure { version := 1, signature := sigAlgo, issuer := c.subject.toRDNSequence, thisUpdate := now, nextUpdate := expiry,
         revoked := some rs, extensions := exts }

/-- `(*Certificate).CreateCRL`: x509.go:1846-1907. The list is not hashed for SM3. -/
def Certificate.createCRL (E : SignEnv) (c : Certificate) (priv : Option Signer) (revoked : List Revoked)
    (now expiry : Time) : Res Bytes :=
  match priv with
  | none => .err "x509: certificate private key does not implement crypto.Signer"
  | some key => do
    let (hashFunc, sigAlgo) ← signingParamsForPublicKey key.pub 0
    let tbs ← Res.ofOption "asn1" (crlFor c sigAlgo revoked now expiry)
    let contents ← Res.ofOption "asn1" (marshal tbsCrl tbs)
    let digest ← digestFor E.reg (if hashFunc = hSM3 then 0 else hashFunc) contents
    signCrl key sigAlgo tbs digest (.hash hashFunc)

/-- `RevocationList`: x509.go:2283-2310 -/
structure RevocationList where
  signatureAlgorithm : Int := 0
  revokedCertificates : List Revoked := []
  number : Option Int := none
  thisUpdate : Time := zeroTime
  nextUpdate : Time := zeroTime
  extraExtensions : List Ext := []
  deriving DecidableEq, Repr

/-- x509.go:2356-2391: the structure of `CreateRevocationList`. -/
def revocationListFor (t : RevocationList) (issuer : Certificate) (sigAlgo : AlgId) : Option TbsCrl := do
  let rs ← revokedUTC t.revokedCertificates
  let aki ← marshalAuthorityKeyId issuer.subjectKeyId
  let num ← marshalField optInt {} t.number
  let tu ← t.thisUpdate.utc
  let nu ← t.nextUpdate.utc
  pure { version := 1, signature := sigAlgo, issuer := issuer.subject.toRDNSequence, thisUpdate := tu, nextUpdate := nu,
         revoked := if rs.length > 0 then some rs else none,
         extensions := some ([aki, ⟨oidExtensionCRLNumber, false, num⟩] ++ t.extraExtensions) }

/-- `CreateRevocationList`: x509.go:2324-2419 -/
def CreateRevocationList (E : SignEnv) (template : Option RevocationList) (issuer : Option Certificate) (priv : Signer) :
    Res Bytes :=
  match template, issuer with
  | none, _ => .err "x509: template can not be nil"
  | _, none => .err "x509: issuer can not be nil"
  | some t, some issuer =>
    if ¬ hasBit issuer.keyUsage 6 then .err "x509: issuer must have the crlSign key usage bit set"
    else if issuer.subjectKeyId.length = 0 then .err "x509: issuer certificate doesn't contain a subject key identifier"
    else if t.nextUpdate.before t.thisUpdate then .err "x509: template.ThisUpdate is after template.NextUpdate"
    else if t.number = none then .err "x509: template contains nil Number field"
    else do
      let (hashFunc, sigAlgo) ← signingParamsForPublicKey priv.pub t.signatureAlgorithm
      let tbs ← Res.ofOption "asn1" (revocationListFor t issuer sigAlgo)
      let contents ← Res.ofOption "asn1" (marshal tbsCrl tbs)
      let digest ← digestFor E.reg hashFunc contents
      signCrl priv sigAlgo tbs digest (signerOpts t.signatureAlgorithm hashFunc)

/-- `(*Certificate).CheckCRLSignature` (x509.go:1072-1075) on a parsed list. -/
def Crl.signedPart (c : Crl) : CertificateList := ⟨c.tbs.raw, c.signatureAlgorithm, c.signatureValue⟩

/-! ## Certificate requests -/

/-- `pkix.AttributeTypeAndValueSET` -/
structure AttrSet where
  type : Oid
  value : List (List AtvAny)
  deriving DecidableEq, Repr

def attrSet : Codec AttrSet :=
  ⟨16, true,
   fun b _ => do
     let (o, b) ← parseField oid {} b
     let (v, _) ← parseField (Asn1.setOf (seqOf atvAny)) { set := true } b
     pure ⟨o, v⟩,
   fun a => do
     let e1 ← marshalField oid {} a.type
     let e2 ← marshalField (Asn1.setOf (seqOf atvAny)) { set := true } a.value
     pure (e1 ++ e2)⟩

/-- The anonymous struct of x509.go:2144-2150. -/
structure ExtAttr where
  type : Oid
  value : List (List Ext)
  deriving DecidableEq, Repr

def extAttr : Codec ExtAttr :=
  ⟨16, true,
   fun b _ => do
     let (o, b) ← parseField oid {} b
     let (v, _) ← parseField (Asn1.setOf (seqOf extension)) { set := true } b
     pure ⟨o, v⟩,
   fun a => do
     let e1 ← marshalField oid {} a.type
     let e2 ← marshalField (Asn1.setOf (seqOf extension)) { set := true } a.value
     pure (e1 ++ e2)⟩

/-- `pkcs10Attribute`: x509.go:2012-2015 -/
structure RawAttr where
  id : Oid
  values : List RawValue
  deriving DecidableEq, Repr

def rawAttr : Codec RawAttr :=
  ⟨16, true,
   fun b _ => do
     let (o, b) ← parseField oid {} b
     let (v, _) ← parseField seqOfRaw { set := true } b
     pure ⟨o, v⟩,
   fun _ => none⟩

/-- `CertificateRequest`: x509.go:1910-1951 -/
structure CertificateRequest where
  raw : Bytes := []
  rawTBSCertificateRequest : Bytes := []
  rawSubjectPublicKeyInfo : Bytes := []
  rawSubject : Bytes := []
  version : Int := 0
  signature : Bytes := []
  signatureAlgorithm : Int := 0
  publicKeyAlgorithm : Int := 0
  publicKey : PubKey := .nil
  subject : Name := {}
  attributes : List AttrSet := []
  extensions : List Ext := []
  extraExtensions : List Ext := []
  dnsNames : List Bytes := []
  emailAddresses : List Bytes := []
  ipAddresses : List Bytes := []
  uris : List Url := []
  deriving DecidableEq, Repr

/-- `tbsCertificateRequest`: x509.go:1956-1962; `spkiRaw` is `PublicKey.Raw`. -/
structure TbsCsr where
  raw : Bytes := []
  version : Int
  subject : RawValue
  spkiRaw : Bytes := []
  publicKey : Spki
  rawAttributes : List RawValue
  deriving DecidableEq, Repr

/-- `publicKeyInfo` (x509.go:189-193) with its `Raw`. -/
def spkiWithRaw : Codec (Bytes × Spki) :=
  ⟨16, true, fun b full => (spki.dec b full).map fun s => (full, s), fun v => spki.enc v.2⟩

def tbsCsr : Codec TbsCsr :=
  ⟨16, true,
   fun b full => do
     let (v, b) ← parseField goInt {} b
     let (s, b) ← parseRaw {} b
     let (k, b) ← parseField spkiWithRaw {} b
     let (a, _) ← parseField seqOfRaw { tag := some 0 } b
     pure ⟨full, v, s, k.1, k.2, a⟩,
   fun c =>
     if c.raw ≠ [] then some (stripTagAndLength c.raw)
     else do
       let e1 ← marshalField goInt {} c.version
       let e2 ← marshalRaw {} c.subject
       let e3 ← marshalField spki {} c.publicKey
       let e4 ← marshalField seqOfRaw { tag := some 0 } c.rawAttributes
       pure (e1 ++ (e2 ++ (e3 ++ e4)))⟩

/-- `certificateRequest`: x509.go:1964-1969 -/
structure Csr where
  raw : Bytes := []
  tbs : TbsCsr
  signatureAlgorithm : AlgId
  signatureValue : BitString
  deriving DecidableEq, Repr

def csr : Codec Csr :=
  ⟨16, true,
   fun b full => do
     let (t, b) ← parseField tbsCsr {} b
     let (a, b) ← parseField algId {} b
     let (s, _) ← parseField bits {} b
     pure ⟨full, t, a, s⟩,
   fun c =>
     if c.raw ≠ [] then some (stripTagAndLength c.raw)
     else do
       let e1 ← marshalField tbsCsr {} c.tbs
       let e2 ← marshalField algId {} c.signatureAlgorithm
       let e3 ← marshalField bits {} c.signatureValue
       pure (e1 ++ (e2 ++ e3))⟩

/-- x509.go:1973 -/
def oidExtensionRequest : Oid := [1, 2, 840, 113549, 1, 9, 14]

/-- `newRawAttributes`: x509.go:1977-1991 -/
def newRawAttributes (attrs : List AttrSet) : Option (List RawValue) := do
  let b ← marshal (seqOf attrSet) attrs
  let (raws, rest) ← unmarshal seqOfRaw b
  if rest.length ≠ 0 then none else pure raws

/-- `parseRawAttributes`: x509.go:1994-2006 -/
def parseRawAttributes (raws : List RawValue) : List AttrSet :=
  raws.filterMap fun r =>
    match unmarshal attrSet r.full with
    | some (a, []) => some a
    | _ => none

/-- The loop body of `parseCSRExtensions`: x509.go:2018-2033; `none` is an error. -/
def attrExtensions (r : RawValue) : Option (List Ext) :=
  match unmarshal rawAttr r.full with
  | some (a, []) =>
    match a.values with
    | [] => some []
    | v :: _ =>
      if a.id ≠ oidExtensionRequest then some []
      else match unmarshal (seqOf extension) v.full with
        | none => none
        | some (x, _) => some x
  | _ => some []

/-- `parseCSRExtensions`: x509.go:2010-2037 -/
def parseCSRExtensions : List RawValue → Option (List Ext)
  | [] => some []
  | r :: l => do
    let x ← attrExtensions r
    let xs ← parseCSRExtensions l
    pure (x ++ xs)

/-- x509.go:1519: some alternative name is given. -/
def csrHasSANs (t : CertificateRequest) : Bool :=
  decide (t.dnsNames.length > 0) || decide (t.emailAddresses.length > 0) || decide (t.ipAddresses.length > 0) ||
  decide (t.uris.length > 0)

/-- `buildCSRExtensions`: x509.go:1516-1533 -/
def buildCSRExtensions (t : CertificateRequest) : Option (List Ext) :=
  if csrHasSANs t && !oidInExtensions oidExtensionSubjectAltName t.extraExtensions then do
    let san ← marshalSANs t.dnsNames t.emailAddresses t.ipAddresses t.uris
    pure (⟨oidExtensionSubjectAltName, false, san⟩ :: t.extraExtensions)
  else some t.extraExtensions

/-- x509.go:2102-2129: the extensions the attribute does not have yet are added to its first value. -/
def addToAttr (exts : List Ext) (a : AttrSet) : AttrSet :=
  let specified := a.value.flatten.map (·.type)
  let new := (exts.filter fun e => !specified.contains e.id).map fun e => (⟨e.id, .octets e.value⟩ : AtvAny)
  match a.value with
  | [] => a
  | v :: vs => { a with value := (v ++ new) :: vs }

/-- x509.go:2094-2134: the attributes and `extensionsAppended`. -/
def appendExtensions (exts : List Ext) : List AttrSet → List AttrSet × Bool
  | [] => ([], false)
  | a :: l =>
    if a.type ≠ oidExtensionRequest ∨ a.value.length = 0 then
      let (l', b) := appendExtensions exts l
      (a :: l', b)
    else (addToAttr exts a :: l, true)

/-- x509.go:2082-2163: the raw attributes of the request. -/
def csrAttributes (attrs : List AttrSet) (exts : List Ext) : Option (List RawValue) :=
  let (attrs', appended) := if exts.length > 0 then appendExtensions exts attrs else (attrs, false)
  match newRawAttributes attrs' with
  | none => none
  | some raws =>
    if exts.length > 0 ∧ ¬ appended then do
      let b ← marshal extAttr ⟨oidExtensionRequest, [exts]⟩
      let (r, _) ← parseRaw {} b
      pure (raws ++ [r])
    else some raws

/-- x509.go:2165-2171 -/
def csrSubject (t : CertificateRequest) : Option Bytes :=
  if t.rawSubject.length = 0 then marshal rdnSequence t.subject.toRDNSequence else some t.rawSubject

/-- x509.go:2186-2213: sign and marshal. -/
def signCsr (reg : Registry) (key : Signer) (hashFunc : Nat) (sigAlgo : AlgId) (tbs : TbsCsr) : Res Bytes := do
  let contents ← Res.ofOption "asn1" (marshal tbsCsr tbs)
  let signed ← digestFor reg hashFunc contents
  let signature ← Res.ofOption "signer" (key.sign signed (.hash hashFunc))
  Res.ofOption "asn1" (marshal csr
    { tbs := { tbs with raw := contents }, signatureAlgorithm := sigAlgo, signatureValue := ⟨signature, signature.length * 8⟩ })

/-- `CreateCertificateRequest`: x509.go:2058-2213 -/
def CreateCertificateRequest (reg : Registry) (t : CertificateRequest) : Option Signer → Res Bytes
  | none => .err "x509: certificate private key does not implement crypto.Signer"
  | some key => do
    let (hashFunc, sigAlgo) ← signingParamsForPublicKey key.pub t.signatureAlgorithm
    let (pkBytes, pkAlgo) ← marshalPublicKey key.pub
    let exts ← Res.ofOption "extensions" (buildCSRExtensions t)
    let raws ← Res.ofOption "asn1" (csrAttributes t.attributes exts)
    let subject ← Res.ofOption "asn1" (csrSubject t)
    signCsr reg key hashFunc sigAlgo
      { version := 0, subject := { full := subject }, publicKey := ⟨pkAlgo, ⟨pkBytes, pkBytes.length * 8⟩⟩,
        rawAttributes := raws }

/-- The loop x509.go:2265-2273: the last SubjectAltName wins. -/
def csrSans (env : Env) (out : CertificateRequest) : List Ext → Option CertificateRequest
  | [] => some out
  | e :: l =>
    if e.id = oidExtensionSubjectAltName then
      match parseSANExtension env e.value with
      | none => none
      | some s => csrSans env { out with dnsNames := s.dns, emailAddresses := s.emails, ipAddresses := s.ips, uris := s.uris } l
    else csrSans env out l

/-- The subject of a request: x509.go:2252-2258; everything must be consumed. -/
def csrParseSubject (full : Bytes) : Option (List (List AtvAny)) :=
  match unmarshal rdnSequence full with
  | some (s, []) => some s
  | _ => none

/-- `parseCertificateRequest`: x509.go:2230-2276 -/
def parseCertificateRequest (env : Env) (c : Csr) : Res CertificateRequest := do
  let algo := getPublicKeyAlgorithmFromOID c.tbs.publicKey.algo.algorithm
  let pub ← parsePublicKey algo c.tbs.publicKey
  let subject ← Res.ofOption "x509: subject" (csrParseSubject c.tbs.subject.full)
  let exts ← Res.ofOption "asn1" (parseCSRExtensions c.tbs.rawAttributes)
  Res.ofOption "x509: san" (csrSans env
    { raw := c.raw, rawTBSCertificateRequest := c.tbs.raw, rawSubjectPublicKeyInfo := c.tbs.spkiRaw,
      rawSubject := c.tbs.subject.full, signature := rightAlign c.signatureValue,
      signatureAlgorithm := getSignatureAlgorithmFromAI c.signatureAlgorithm, publicKeyAlgorithm := algo.toInt,
      publicKey := pub, version := c.tbs.version, attributes := parseRawAttributes c.tbs.rawAttributes,
      subject := .fromRDNSequence subject, extensions := exts } exts)

/-- `ParseCertificateRequest`: x509.go:2217-2228 -/
def ParseCertificateRequest (env : Env) (der : Bytes) : Res CertificateRequest :=
  match unmarshal csr der with
  | none => .err "asn1"
  | some (c, rest) => if rest.length ≠ 0 then .err "trailing data" else parseCertificateRequest env c

/-- `(*CertificateRequest).CheckSignature`: x509.go:2279-2281 -/
def CertificateRequest.checkSignature (reg : Registry) (V : Verifiers) (c : CertificateRequest) : Res Unit :=
  X509.checkSignature reg V c.signatureAlgorithm c.rawTBSCertificateRequest c.signature c.publicKey

end MCrypto.X509
