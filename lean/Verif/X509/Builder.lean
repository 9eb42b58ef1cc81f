import Verif.X509.Parser
/-
Model of the construction of certificate extensions, /repo/x509/x509.go:1083-1543.

Simplifications: error texts are dropped (`none`); templates hold no nil `*net.IPNet` or `*url.URL` (the code
dereferences them); the arcs of object identifiers are natural numbers. The array of ten extensions the code fills
(`ret[n]`, `n++`) is a list; there are ten places that append to it, so its bound is never reached.
-/
namespace MCrypto.X509
open MCrypto MCrypto.Asn1

/-- `reverseBitsInAByte`: x509.go:1119-1124 -/
def reverseBitsInAByte (x : UInt8) : UInt8 :=
  let b1 : UInt8 := (x >>> 4) ||| (x <<< 4)
  let b2 : UInt8 := ((b1 >>> 2) &&& (0x33 : UInt8)) ||| ((b1 <<< 2) &&& (0xcc : UInt8))
  let b3 : UInt8 := ((b2 >>> 1) &&& (0x55 : UInt8)) ||| ((b2 <<< 1) &&& (0xaa : UInt8))
  b3

/-- The loops of `asn1BitLength`: x509.go:1132-1141. The argument has the last byte first. -/
def bitLengthLoop : List UInt8 → Nat → Nat
  | [], _ => 0
  | b :: t, bitLen =>
    match (List.range 8).find? (fun bit => b.toNat / 2 ^ bit % 2 == 1) with
    | some bit => bitLen - bit
    | none => bitLengthLoop t (bitLen - 8)

/-- `asn1BitLength`: x509.go:1129-1144 -/
def asn1BitLength (bitString : Bytes) : Nat := bitLengthLoop bitString.reverse (bitString.length * 8)

/-- `oidInExtensions`: x509.go:1167-1174 -/
def oidInExtensions (o : Oid) (l : List Ext) : Bool := l.any fun e => e.id == o

/-- `marshalKeyUsage`: x509.go:1443-1462. `byte(ku)` and `byte(ku >> 8)` of a 64-bit int. -/
def marshalKeyUsage (ku : Int) : Option Ext := do
  let a0 := reverseBitsInAByte (UInt8.ofNat (ku % 256).toNat)
  let a1 := reverseBitsInAByte (UInt8.ofNat (ku / 256 % 256).toNat)
  let bitString := if a1 ≠ 0 then [a0, a1] else [a0]
  let value ← marshal bits ⟨bitString, asn1BitLength bitString⟩
  pure ⟨oidExtensionKeyUsage, true, value⟩

/-- x509.go:1467-1474: the OIDs of the usages, or an error for an unknown one. -/
def usageOids : List Int → Option (List Oid)
  | [] => some []
  | u :: l => do
    let o ← oidFromExtKeyUsage u
    let os ← usageOids l
    pure (o :: os)

/-- `marshalExtKeyUsage`: x509.go:1464-1484 -/
def marshalExtKeyUsage (extUsages : List Int) (unknownUsages : List Oid) : Option Ext := do
  let os ← usageOids extUsages
  let value ← marshal (seqOf oid) (os ++ unknownUsages)
  pure ⟨oidExtensionExtendedKeyUsage, false, value⟩

/-- `basicConstraints`: x509.go:1083-1086 -/
structure BasicConstraints where
  isCA : Bool
  maxPathLen : Int
  deriving DecidableEq, Repr

def basicConstraints : Codec BasicConstraints :=
  ⟨16, true,
   fun b _ => do
     let (c, b) ← parseField bool { opt := some false } b
     let (m, _) ← parseField goInt { opt := some (-1) } b
     pure ⟨c, m⟩,
   fun v => do
     let c ← marshalField bool { opt := some false } v.isCA
     let m ← marshalField goInt { opt := some (-1) } v.maxPathLen
     pure (c ++ m)⟩

/-- `marshalBasicConstraints`: x509.go:1486-1500. On an error of `Marshal` the code returns the extension without
value and no error. -/
def marshalBasicConstraints (isCA : Bool) (maxPathLen : Int) (maxPathLenZero : Bool) : Ext :=
  let maxPathLen := if maxPathLen = 0 ∧ ¬ maxPathLenZero then -1 else maxPathLen
  ⟨oidExtensionBasicConstraints, true, (marshal basicConstraints ⟨isCA, maxPathLen⟩).getD []⟩

/-- `authKeyId`: x509.go:196-198 -/
def authKeyId : Codec Bytes :=
  ⟨16, true,
   fun b _ => do
     let (k, _) ← parseField octets { opt := some [], tag := some 0 } b
     pure k,
   fun v => marshalField octets { opt := some [], tag := some 0 } v⟩

/-- `authorityInfoAccess`: x509.go:1102-1105 -/
structure AccessDescription where
  method : Oid
  location : RawValue
  deriving DecidableEq, Repr

def accessDescription : Codec AccessDescription :=
  ⟨16, true,
   fun b _ => do
     let (m, b) ← parseField oid {} b
     let (l, _) ← parseRaw {} b
     pure ⟨m, l⟩,
   fun v => do
     let m ← marshalField oid {} v.method
     let l ← marshalRaw {} v.location
     pure (m ++ l)⟩

/-- x509.go:1276, 1282: a RawValue with class 2 and the given tag. -/
def ctxRaw (tag : Nat) (b : Bytes) : RawValue := ⟨2, tag, false, b, []⟩

/-- x509.go:1269-1290 -/
def marshalAuthorityInfoAccess (ocsp issuers : List Bytes) : Option Ext := do
  let value ← marshal (seqOf accessDescription)
    (ocsp.map (fun n => ⟨oidAuthorityInfoAccessOcsp, ctxRaw 6 n⟩) ++
     issuers.map (fun n => ⟨oidAuthorityInfoAccessIssuers, ctxRaw 6 n⟩))
  pure ⟨oidExtensionAuthorityInfoAccess, false, value⟩

/-- `net.IP.To4` (standard library) -/
def to4 (ip : Bytes) : Option Bytes :=
  if ip.length = 4 then some ip
  else if ip.length = 16 ∧ ip.take 12 = [0, 0, 0, 0, 0, 0, 0, 0, 0, 0, 0xff, 0xff] then some (ip.drop 12)
  else none

/-- The names that have to be IA5 strings: x509.go:1180-1191, 1200-1206. -/
def ia5Raws (tag : Nat) : List Bytes → Option (List RawValue)
  | [] => some []
  | s :: l => do
    if ¬ isIA5String s then none
    let rs ← ia5Raws tag l
    pure (ctxRaw tag s :: rs)

/-- `marshalSANs`: x509.go:1178-1208 -/
def marshalSANs (dnsNames emails : List Bytes) (ips : List Bytes) (uris : List Url) : Option Bytes := do
  let ds ← ia5Raws 2 dnsNames
  let es ← ia5Raws 1 emails
  let is := ips.map fun ip => ctxRaw 7 ((to4 ip).getD ip)
  let us ← ia5Raws 6 (uris.map (·.str))
  marshal seqOfRaw (ds ++ es ++ is ++ us)

/-- `policyInformation`: x509.go:1089-1092 -/
def policyInformation : Codec Oid :=
  ⟨16, true,
   fun b _ => do
     let (o, _) ← parseField oid {} b
     pure o,
   fun v => marshalField oid {} v⟩

/-- `marshalCertificatePolicies`: x509.go:1502-1514 -/
def marshalCertificatePolicies (ps : List Oid) : Option Ext := do
  let value ← marshal (seqOf policyInformation) ps
  pure ⟨oidExtensionCertificatePolicies, false, value⟩

/-- `net.IP.Mask` (standard library); a nil result is the empty string. -/
def ipMask (ip mask : Bytes) : Bytes :=
  let mask := if mask.length = 16 ∧ ip.length = 4 ∧ (mask.take 12).all (· == 0xff) then mask.drop 12 else mask
  let ip := if mask.length = 4 ∧ ip.length = 16 ∧ ip.take 12 = [0, 0, 0, 0, 0, 0, 0, 0, 0, 0, 0xff, 0xff]
    then ip.drop 12 else ip
  if ip.length ≠ mask.length then [] else List.zipWith (· &&& ·) ip mask

/-- `ipAndMask`: x509.go:1323-1329 -/
def ipAndMask (n : IPNet) : Bytes := ipMask n.ip n.mask ++ n.mask

/-- One constraint: a SEQUENCE with one tagged value, x509.go:1339-1343 (and 1347-1351, 1359-1363, 1371-1375). -/
def constraintTLV (tag : Der.Tag) (v : Bytes) : Option Bytes := do
  let inner ← Der.addASN1 tag v
  Der.addASN1 0x30 inner

/-- Constraints that have to be IA5 strings. -/
def ia5Constraints (tag : Der.Tag) : List Bytes → Option Bytes
  | [] => some []
  | s :: l => do
    if ¬ isIA5String s then none
    let b ← constraintTLV tag s
    let bs ← ia5Constraints tag l
    pure (b ++ bs)

/-- x509.go:1346-1352 -/
def ipConstraints : List IPNet → Option Bytes
  | [] => some []
  | n :: l => do
    let b ← constraintTLV 0x87 (ipAndMask n)
    let bs ← ipConstraints l
    pure (b ++ bs)

/-- `serialiseConstraints`: x509.go:1331-1379 -/
def serialiseConstraints (dns : List Bytes) (ips : List IPNet) (emails uriDomains : List Bytes) : Option Bytes := do
  let a ← ia5Constraints 0x82 dns
  let b ← ipConstraints ips
  let c ← ia5Constraints 0x81 emails
  let d ← ia5Constraints 0x86 uriDomains
  pure (a ++ b ++ c ++ d)

/-- x509.go:1393-1403: a subtree list is written only if it is not empty. -/
def subtreesTLV (tag : Der.Tag) (b : Bytes) : Option Bytes := if b.length > 0 then Der.addASN1 tag b else some []

/-- x509.go:1315-1411 -/
def marshalNameConstraints (t : Certificate) : Option Ext := do
  let permitted ← serialiseConstraints t.permittedDNSDomains t.permittedIPRanges t.permittedEmailAddresses
    t.permittedURIDomains
  let excluded ← serialiseConstraints t.excludedDNSDomains t.excludedIPRanges t.excludedEmailAddresses
    t.excludedURIDomains
  let p ← subtreesTLV 0xa0 permitted
  let x ← subtreesTLV 0xa1 excluded
  let value ← Der.addASN1 0x30 (p ++ x)
  pure ⟨oidExtensionNameConstraints, t.permittedDNSDomainsCritical, value⟩

/-- `distributionPointName`: x509.go:1114-1117. `RelativeName` is never set by the code and left out. -/
def distributionPointName : Codec (List RawValue) :=
  ⟨16, true,
   fun b _ => do
     let (n, _) ← parseField seqOfRaw { opt := some [], tag := some 0 } b
     pure n,
   fun v => marshalField seqOfRaw { opt := some [], tag := some 0 } v⟩

/-- `distributionPoint`: x509.go:1108-1112. `Reason` and `CRLIssuer` are never set by the code and left out. -/
def distributionPoint : Codec (List RawValue) :=
  ⟨16, true,
   fun b _ => do
     let (n, _) ← parseField distributionPointName { opt := some [], tag := some 0 } b
     pure n,
   fun v => marshalField distributionPointName { opt := some [], tag := some 0 } v⟩

/-- x509.go:1413-1434 -/
def marshalCRLDistributionPoints (names : List Bytes) : Option Ext := do
  let value ← marshal (seqOf distributionPoint) (names.map fun n => [ctxRaw 6 n])
  pure ⟨oidExtensionCRLDistributionPoints, false, value⟩

/-- x509.go:1251-1258 -/
def marshalSubjectKeyId (k : Bytes) : Option Ext := do
  let value ← marshal octets k
  pure ⟨oidExtensionSubjectKeyId, false, value⟩

/-- x509.go:1260-1267 -/
def marshalAuthorityKeyId (k : Bytes) : Option Ext := do
  let value ← marshal authKeyId k
  pure ⟨oidExtensionAuthorityKeyId, false, value⟩

/-- x509.go:1292-1304 -/
def marshalSubjectAltName (t : Certificate) (subjectIsEmpty : Bool) : Option Ext := do
  let value ← marshalSANs t.dnsNames t.emailAddresses t.ipAddresses t.uris
  pure ⟨oidExtensionSubjectAltName, subjectIsEmpty, value⟩

/-- An extension that is added when the template asks for it and the caller gave no extension with its OID. -/
def extIf (wanted : Bool) (o : Oid) (extra : List Ext) (m : Option Ext) : Option (List Ext) :=
  if wanted && !oidInExtensions o extra then
    match m with
    | none => none
    | some e => some [e]
  else some []

/-- x509.go:1315-1318: some name constraint is given. -/
def hasNameConstraints (t : Certificate) : Bool :=
  decide (t.permittedDNSDomains.length > 0) || decide (t.excludedDNSDomains.length > 0) ||
  decide (t.permittedIPRanges.length > 0) || decide (t.excludedIPRanges.length > 0) ||
  decide (t.permittedEmailAddresses.length > 0) || decide (t.excludedEmailAddresses.length > 0) ||
  decide (t.permittedURIDomains.length > 0) || decide (t.excludedURIDomains.length > 0)

/-- x509.go:1292 -/
def hasSANs (t : Certificate) : Bool :=
  decide (t.dnsNames.length > 0) || decide (t.emailAddresses.length > 0) || decide (t.ipAddresses.length > 0) ||
  decide (t.uris.length > 0)

/-- `buildCertExtensions`: x509.go:1221-1441 -/
def buildCertExtensions (t : Certificate) (subjectIsEmpty : Bool) (authorityKeyId subjectKeyId : Bytes) :
    Option (List Ext) := do
  let x := t.extraExtensions
  let e1 ← extIf (decide (t.keyUsage ≠ 0)) oidExtensionKeyUsage x (marshalKeyUsage t.keyUsage)
  let e2 ← extIf (decide (t.extKeyUsage.length > 0) || decide (t.unknownExtKeyUsage.length > 0))
    oidExtensionExtendedKeyUsage x (marshalExtKeyUsage t.extKeyUsage t.unknownExtKeyUsage)
  let e3 ← extIf t.basicConstraintsValid oidExtensionBasicConstraints x
    (some (marshalBasicConstraints t.isCA t.maxPathLen t.maxPathLenZero))
  let e4 ← extIf (decide (subjectKeyId.length > 0)) oidExtensionSubjectKeyId x (marshalSubjectKeyId subjectKeyId)
  let e5 ← extIf (decide (authorityKeyId.length > 0)) oidExtensionAuthorityKeyId x
    (marshalAuthorityKeyId authorityKeyId)
  let e6 ← extIf (decide (t.ocspServer.length > 0) || decide (t.issuingCertificateURL.length > 0))
    oidExtensionAuthorityInfoAccess x (marshalAuthorityInfoAccess t.ocspServer t.issuingCertificateURL)
  let e7 ← extIf (hasSANs t) oidExtensionSubjectAltName x (marshalSubjectAltName t subjectIsEmpty)
  let e8 ← extIf (decide (t.policyIdentifiers.length > 0)) oidExtensionCertificatePolicies x
    (marshalCertificatePolicies t.policyIdentifiers)
  let e9 ← extIf (hasNameConstraints t) oidExtensionNameConstraints x (marshalNameConstraints t)
  let e10 ← extIf (decide (t.crlDistributionPoints.length > 0)) oidExtensionCRLDistributionPoints x
    (marshalCRLDistributionPoints t.crlDistributionPoints)
  pure (e1 ++ e2 ++ e3 ++ e4 ++ e5 ++ e6 ++ e7 ++ e8 ++ e9 ++ e10 ++ x)

end MCrypto.X509
