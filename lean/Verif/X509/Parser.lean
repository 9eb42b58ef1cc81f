import Verif.X509.Strings
import Verif.X509.Eku
/-
Model of the certificate parser, /repo/x509/parser.go:110-238 and 341-1214.

Simplifications: error texts are dropped (`none`, or one text where the result type is `Res`), so the order in
which several malformed parts are reported does not matter; `url.Parse` and `net.ParseIP` are parameters
(`Env`); `fmt.Println` of the curve OID at parser.go:1129 is left out; names stay RDN sequences
(`pkix.Name.FillFromRDNSequence` is standard library); `time.Parse` followed by the comparison with
`Format` is modelled by the language it accepts.
Where the code reads a string into itself (`s.ReadASN1(&s, tag)`) the rest of `s` is lost.
-/
namespace MCrypto.X509
open MCrypto MCrypto.Asn1

/-- Functions of `net/url` and `net` the parser calls. -/
structure Env where
  /-- `url.Parse`; `none` is an error. -/
  parseURL : Bytes → Option Url
  /-- `net.ParseIP(s) != nil` -/
  isIP : Bytes → Bool

/-! ## cryptobyte -/

/-- `String.PeekASN1Tag` -/
def peek (tag : Der.Tag) (s : Bytes) : Bool := s.head? == some tag

/-- `String.ReadAnyASN1Element`: tag, whole element, rest. -/
def readAnyElement (s : Bytes) : Option (Der.Tag × Bytes × Bytes) :=
  match Der.readAny s with
  | none => none
  | some (t, _, rest) => some (t, s.take (s.length - rest.length), rest)

/-- `String.ReadASN1Element` -/
def readElement (tag : Der.Tag) (s : Bytes) : Option (Bytes × Bytes) :=
  match readAnyElement s with
  | none => none
  | some (t, e, rest) => if t = tag then some (e, rest) else none

/-- `String.ReadASN1Boolean` -/
def readBool (s : Bytes) : Option (Bool × Bytes) :=
  match Der.readASN1 0x01 s with
  | none => none
  | some (b, rest) => if b = [0] then some (false, rest) else if b = [0xff] then some (true, rest) else none

/-- `String.ReadASN1BitString` -/
def readBits (s : Bytes) : Option (BitString × Bytes) :=
  match Der.readASN1 0x03 s with
  | none => none
  | some (b, rest) =>
    match decBits b with
    | none => none
    | some v => some (v, rest)

/-- `String.ReadOptionalASN1`: contents if present, rest. -/
def readOptional (tag : Der.Tag) (s : Bytes) : Option (Option Bytes × Bytes) :=
  if peek tag s then
    match Der.readASN1 tag s with
    | none => none
    | some (b, rest) => some (some b, rest)
  else some (none, s)

/-- `String.SkipOptionalASN1` -/
def skipOptional (tag : Der.Tag) (s : Bytes) : Option Bytes :=
  match readOptional tag s with
  | none => none
  | some (_, rest) => some rest

/-- `String.ReadOptionalASN1Integer(*int, tag, default)` -/
def readOptionalGoInt (tag : Der.Tag) (d : Int) (s : Bytes) : Option (Int × Bytes) :=
  match readOptional tag s with
  | none => none
  | some (none, rest) => some (d, rest)
  | some (some b, rest) =>
    match readGoInt b with
    | some (n, []) => some (n, rest)
    | _ => none

/-- `for !s.Empty() { … }`: the counter bounds the iterations, each consumes at least a byte. -/
def readManyAux {α : Type} (step : Bytes → Option (α × Bytes)) : Nat → Bytes → Option (List α)
  | _, [] => some []
  | 0, _ :: _ => none
  | n + 1, b :: t =>
    match step (b :: t) with
    | none => none
    | some (v, rest) =>
      match readManyAux step n rest with
      | none => none
      | some l => some (v :: l)

def readMany {α : Type} (step : Bytes → Option (α × Bytes)) (s : Bytes) : Option (List α) :=
  readManyAux step s.length s

/-! ## Names, algorithms, times -/

/-- parser.go:124-141: one attribute. -/
def readAtv (s : Bytes) : Option (Atv × Bytes) := do
  let (atav, rest) ← Der.readASN1 0x30 s
  let (type, atav) ← readOID atav
  let (tag, raw, _) ← Der.readAny atav
  let value ← parseASN1String tag raw
  pure (⟨type, value⟩, rest)

/-- parser.go:117-146: one RDN. -/
def readRdn (s : Bytes) : Option (List Atv × Bytes) := do
  let (set, rest) ← Der.readASN1 0x31 s
  let atvs ← readMany readAtv set
  pure (atvs, rest)

/-- `parseName`: parser.go:110-148 -/
def parseName (raw : Bytes) : Option (List (List Atv)) := do
  let (s, _) ← Der.readASN1 0x30 raw
  readMany readRdn s

/-- `parseAI`: parser.go:150-166. The tag field gets the identifier octet. -/
def parseAI (der : Bytes) : Option AlgId := do
  let (a, der) ← readOID der
  if der = [] then pure ⟨a, {}⟩
  else
    let (tag, full, _) ← readAnyElement der
    pure ⟨a, { tag := tag.toNat, full := full }⟩

def digit (b : UInt8) : Option Nat := if 48 ≤ b.toNat ∧ b.toNat ≤ 57 then some (b.toNat - 48) else none

/-- Two digits. -/
def num2 : Bytes → Option (Nat × Bytes)
  | a :: b :: t => do
    let x ← digit a
    let y ← digit b
    pure (10 * x + y, t)
  | _ => none

def isLeap (y : Nat) : Bool := decide (y % 4 = 0) && (decide (y % 100 ≠ 0) || decide (y % 400 = 0))

/-- `daysIn` of package time. -/
def daysIn (m y : Nat) : Nat :=
  if m = 2 then (if isLeap y then 29 else 28)
  else if m = 4 ∨ m = 6 ∨ m = 9 ∨ m = 11 then 30 else 31

/-- The zone "Z0700": `Z`, or a sign and hhmm that is not zero and that formatting reproduces. -/
def parseZone : Bytes → Option Int
  | [c] => if c = 90 then some 0 else none
  | c :: t => do
    let (hh, t) ← num2 t
    let (mm, t) ← num2 t
    if t ≠ [] ∨ mm ≥ 60 ∨ hh * 60 + mm = 0 then none
    else if c = 43 then some ((hh * 60 + mm : Nat) : Int)
    else if c = 45 then some (-((hh * 60 + mm : Nat) : Int))
    else none
  | [] => none

/-- Month, day, hour, minute. -/
def parseMDHM (year : Nat) (s : Bytes) : Option (Nat × Nat × Nat × Nat × Bytes) := do
  let (mo, s) ← num2 s
  let (d, s) ← num2 s
  let (h, s) ← num2 s
  let (mi, s) ← num2 s
  if 1 ≤ mo ∧ mo ≤ 12 ∧ 1 ≤ d ∧ d ≤ daysIn mo year ∧ h < 24 ∧ mi < 60 then pure (mo, d, h, mi, s) else none

def parseSec (s : Bytes) : Option (Nat × Bytes) := do
  let (x, s) ← num2 s
  if x < 60 then pure (x, s) else none

/-- parser.go:172-199: UTCTime, with or without seconds. -/
def parseUTCTime (s : Bytes) : Option Time := do
  let (yy, s) ← num2 s
  let y := if yy ≥ 69 then 1900 + yy else 2000 + yy
  let (mo, d, h, mi, s) ← parseMDHM y s
  let y' := if y ≥ 2050 then y - 100 else y
  match parseZone s with
  | some z => pure ⟨y', mo, d, h, mi, 0, z⟩
  | none =>
    let (sec, s) ← parseSec s
    let z ← parseZone s
    pure ⟨y', mo, d, h, mi, sec, z⟩

/-- `ReadASN1GeneralizedTime` on the contents. -/
def parseGeneralizedTime (s : Bytes) : Option Time := do
  let (y1, s) ← num2 s
  let (y2, s) ← num2 s
  let y := 100 * y1 + y2
  let (mo, d, h, mi, s) ← parseMDHM y s
  let (sec, s) ← parseSec s
  let z ← parseZone s
  pure ⟨y, mo, d, h, mi, sec, z⟩

/-- parser.go:169-208: one time. -/
def readTime (s : Bytes) : Option (Time × Bytes) :=
  if peek 0x17 s then do
    let (utc, rest) ← Der.readASN1 0x17 s
    let t ← parseUTCTime utc
    pure (t, rest)
  else if peek 0x18 s then do
    let (gt, rest) ← Der.readASN1 0x18 s
    let t ← parseGeneralizedTime gt
    pure (t, rest)
  else none

/-- `parseValidity`: parser.go:168-220 -/
def parseValidity (der : Bytes) : Option (Time × Time) := do
  let (nb, der) ← readTime der
  let (na, _) ← readTime der
  pure (nb, na)

/-- A boolean that may be missing: parser.go:227-231, 361-365 -/
def readFlag (s : Bytes) : Option (Bool × Bytes) := if peek 0x01 s then readBool s else some (false, s)

/-- `parseExtension`: parser.go:222-238 -/
def parseExtension (der : Bytes) : Option Ext := do
  let (id, der) ← readOID der
  let (critical, der) ← readFlag der
  let (value, _) ← Der.readASN1 0x04 der
  pure ⟨id, critical, value⟩

/-! ## Extensions -/

/-- `BitString.At` -/
def bitAt (b : BitString) (i : Nat) : Nat :=
  if i ≥ b.bitLength then 0 else (b.bytes.getD (i / 8) 0).toNat / 2 ^ (7 - i % 8) % 2

/-- `parseKeyUsageExtension`: parser.go:341-354 -/
def parseKeyUsageExtension (der : Bytes) : Option Int := do
  let (bits, _) ← readBits der
  pure (((List.range 9).foldl (fun u i => if bitAt bits i ≠ 0 then u ||| 2 ^ i else u) 0 : Nat) : Int)

/-- parser.go:366-371 -/
def readPathLen (s : Bytes) : Option (Int × Bytes) := if s ≠ [] ∧ peek 0x02 s then readGoInt s else some (-1, s)

/-- `parseBasicConstraintsExtension`: parser.go:356-375 -/
def parseBasicConstraintsExtension (der : Bytes) : Option (Bool × Int) := do
  let (der, _) ← Der.readASN1 0x30 der
  let (isCA, der) ← readFlag der
  let (maxPathLen, _) ← readPathLen der
  pure (isCA, maxPathLen)

/-- What the callback of `parseSANExtension` stores for a name. -/
inductive San where
  | email (s : Bytes)
  | dns (s : Bytes)
  | uri (u : Url)
  | ip (b : Bytes)
  | other
  deriving DecidableEq, Repr

/-- The callback: parser.go:431-470; the tag is the identifier octet xor 0x80. -/
def sanItem (env : Env) (tag : UInt8) (data : Bytes) : Option San :=
  if tag = 1 then (if isIA5String data then some (.email data) else none)
  else if tag = 2 then (if isIA5String data then some (.dns data) else none)
  else if tag = 6 then
    if ¬ isIA5String data then none
    else match env.parseURL data with
      | none => none
      | some u =>
        if u.host.length > 0 then
          match domainToReverseLabels u.host with
          | none => none
          | some _ => some (.uri u)
        else some (.uri u)
  else if tag = 7 then (if data.length = 4 ∨ data.length = 16 then some (.ip data) else none)
  else some .other

/-- The loop body of `forEachSAN`: parser.go:381-390 -/
def readSan (env : Env) (s : Bytes) : Option (San × Bytes) :=
  match Der.readAny s with
  | none => none
  | some (tag, data, rest) =>
    match sanItem env (tag ^^^ 0x80) data with
    | none => none
    | some x => some (x, rest)

/-- The four lists of `parseSANExtension`. -/
structure SanLists where
  dns : List Bytes := []
  emails : List Bytes := []
  ips : List Bytes := []
  uris : List Url := []
  deriving DecidableEq, Repr

def collectSans (l : List San) : SanLists where
  dns := l.filterMap fun | .dns s => some s | _ => none
  emails := l.filterMap fun | .email s => some s | _ => none
  ips := l.filterMap fun | .ip b => some b | _ => none
  uris := l.filterMap fun | .uri u => some u | _ => none

/-- `parseSANExtension` with `forEachSAN`: parser.go:377-393, 430-473 -/
def parseSANExtension (env : Env) (der : Bytes) : Option SanLists := do
  let (s, _) ← Der.readASN1 0x30 der
  let l ← readMany (readSan env) s
  pure (collectSans l)

/-- `parseExtKeyUsageExtension`: parser.go:475-493 -/
def parseExtKeyUsageExtension (der : Bytes) : Option (List Int × List Oid) := do
  let (s, _) ← Der.readASN1 0x30 der
  let l ← readMany readOID s
  pure (l.filterMap extKeyUsageFromOID, l.filter fun o => (extKeyUsageFromOID o).isNone)

/-- parser.go:500-511 -/
def readPolicy (s : Bytes) : Option (Oid × Bytes) := do
  let (cp, rest) ← Der.readASN1 0x30 s
  let (o, _) ← readOID cp
  pure (o, rest)

/-- `parseCertificatePoliciesExtension`: parser.go:495-513 -/
def parseCertificatePoliciesExtension (der : Bytes) : Option (List Oid) := do
  let (s, _) ← Der.readASN1 0x30 der
  readMany readPolicy s

/-- What `getValues` stores for a constraint; `other` sets `unhandled`. -/
inductive Constraint where
  | dns (s : Bytes)
  | ip (n : IPNet)
  | email (s : Bytes)
  | uri (s : Bytes)
  | other
  deriving DecidableEq, Repr

/-- Dropping one leading period: parser.go:598-605, 648-651, 668-675 -/
def trimDot (s : Bytes) : Bytes :=
  match s with
  | c :: t => if c = 46 then t else s
  | [] => s

/-- The switch of `getValues`: parser.go:591-685 -/
def constraintItem (env : Env) (tag : Der.Tag) (value : Bytes) : Option Constraint :=
  if tag = 0x82 then
    if ¬ isIA5String value then none
    else match domainToReverseLabels (trimDot value) with
      | none => none
      | some _ => some (.dns value)
  else if tag = 0x87 then
    if value.length = 8 then
      if isValidIPMask (value.drop 4) then some (.ip ⟨value.take 4, value.drop 4⟩) else none
    else if value.length = 32 then
      if isValidIPMask (value.drop 16) then some (.ip ⟨value.take 16, value.drop 16⟩) else none
    else none
  else if tag = 0x81 then
    if ¬ isIA5String value then none
    else if value.contains 64 then
      match parseRFC2821Mailbox value with
      | none => none
      | some _ => some (.email value)
    else match domainToReverseLabels (trimDot value) with
      | none => none
      | some _ => some (.email value)
  else if tag = 0x86 then
    if ¬ isIA5String value then none
    else if env.isIP value then none
    else match domainToReverseLabels (trimDot value) with
      | none => none
      | some _ => some (.uri value)
  else some .other

/-- The loop body of `getValues`: parser.go:576-590 -/
def readConstraint (env : Env) (s : Bytes) : Option (Constraint × Bytes) := do
  let (seq, rest) ← Der.readASN1 0x30 s
  let (tag, value, _) ← Der.readAny seq
  let c ← constraintItem env tag value
  pure (c, rest)

/-- The results of `getValues`. -/
structure Subtrees where
  dns : List Bytes := []
  ips : List IPNet := []
  emails : List Bytes := []
  uris : List Bytes := []
  unhandled : Bool := false
  deriving DecidableEq, Repr

def collectConstraints (l : List Constraint) : Subtrees where
  dns := l.filterMap fun | .dns s => some s | _ => none
  ips := l.filterMap fun | .ip n => some n | _ => none
  emails := l.filterMap fun | .email s => some s | _ => none
  uris := l.filterMap fun | .uri s => some s | _ => none
  unhandled := l.any fun | .other => true | _ => false

/-- The contents of the two subtree lists: parser.go:557-574. An absent list reads like an empty one. -/
def splitNameConstraints (value : Bytes) : Option (Bytes × Bytes) :=
  match Der.readASN1 0x30 value with
  | some (top, []) =>
    match readOptional 0xa0 top with
    | none => none
    | some (permitted, top) =>
      match readOptional 0xa1 top with
      | some (excluded, []) =>
        if (permitted.isNone && excluded.isNone) ∨ ((permitted.getD []).length = 0 ∧ (excluded.getD []).length = 0)
        then none
        else some (permitted.getD [], excluded.getD [])
      | _ => none
  | _ => none

/-- `parseNameConstraintsExtension`: parser.go:540-698; permitted and excluded. -/
def parseNameConstraintsExtension (env : Env) (value : Bytes) : Option (Subtrees × Subtrees) := do
  let (p, x) ← splitNameConstraints value
  let ps ← readMany (readConstraint env) p
  let xs ← readMany (readConstraint env) x
  pure (collectConstraints ps, collectConstraints xs)

/-- parser.go:918-927: the URIs of a distribution point name, up to the first name of another type. -/
def dpUris : Nat → Bytes → Option (List Bytes)
  | 0, _ => some []
  | n + 1, s =>
    if s = [] then some []
    else if ¬ peek 0x86 s then some []
    else match Der.readASN1 0x86 s with
      | none => none
      | some (u, rest) =>
        match dpUris n rest with
        | none => none
        | some l => some (u :: l)

/-- parser.go:903-927: one distribution point. -/
def readDistributionPoint (s : Bytes) : Option (List Bytes × Bytes) := do
  let (dp, rest) ← Der.readASN1 0x30 s
  let (name, _) ← readOptional 0xa0 dp
  match name with
  | none => pure ([], rest)
  | some n =>
    let (full, _) ← Der.readASN1 0xa0 n
    let us ← dpUris full.length full
    pure (us, rest)

/-- parser.go:898-928 -/
def parseCRLDistributionPoints (value : Bytes) : Option (List Bytes) := do
  let (s, _) ← Der.readASN1 0x30 value
  let l ← readMany readDistributionPoint s
  pure l.flatten

/-- parser.go:932-942: `none` inside when there is no key identifier. -/
def parseAuthorityKeyId (value : Bytes) : Option (Option Bytes) := do
  let (akid, _) ← Der.readASN1 0x30 value
  if peek 0x80 akid then
    let (k, _) ← Der.readASN1 0x80 akid
    pure (some k)
  else pure none

/-- x509.go:1160-1163 -/
def oidAuthorityInfoAccessOcsp : Oid := [1, 3, 6, 1, 5, 5, 7, 48, 1]
def oidAuthorityInfoAccessIssuers : Oid := [1, 3, 6, 1, 5, 5, 7, 48, 2]

/-- parser.go:972-985: one access description; `none` when the location is not a URI. -/
def readAccess (s : Bytes) : Option (Option (Oid × Bytes) × Bytes) := do
  let (aia, rest) ← Der.readASN1 0x30 s
  let (method, aia) ← readOID aia
  if peek 0x86 aia then
    let (u, _) ← Der.readASN1 0x86 aia
    pure (some (method, u), rest)
  else pure (none, rest)

/-- parser.go:987-988: the URI of an access description with the OCSP method. -/
def ocspOf : Option (Oid × Bytes) → Option Bytes
  | some (m, u) => if m = oidAuthorityInfoAccessOcsp then some u else none
  | none => none

/-- parser.go:989-990: the URI of an access description with the caIssuers method. -/
def issuerOf : Option (Oid × Bytes) → Option Bytes
  | some (m, u) => if m = oidAuthorityInfoAccessOcsp then none
      else if m = oidAuthorityInfoAccessIssuers then some u else none
  | none => none

/-- parser.go:967-992: OCSP servers and issuing certificate URLs. -/
def parseAuthorityInfoAccess (value : Bytes) : Option (List Bytes × List Bytes) := do
  let (s, _) ← Der.readASN1 0x30 value
  let l ← readMany readAccess s
  pure (l.filterMap ocspOf, l.filterMap issuerOf)

/-- x509.go:1146-1158 -/
def oidExtensionSubjectKeyId : Oid := [2, 5, 29, 14]
def oidExtensionKeyUsage : Oid := [2, 5, 29, 15]
def oidExtensionExtendedKeyUsage : Oid := [2, 5, 29, 37]
def oidExtensionAuthorityKeyId : Oid := [2, 5, 29, 35]
def oidExtensionBasicConstraints : Oid := [2, 5, 29, 19]
def oidExtensionSubjectAltName : Oid := [2, 5, 29, 17]
def oidExtensionCertificatePolicies : Oid := [2, 5, 29, 32]
def oidExtensionNameConstraints : Oid := [2, 5, 29, 30]
def oidExtensionCRLDistributionPoints : Oid := [2, 5, 29, 31]
def oidExtensionAuthorityInfoAccess : Oid := [1, 3, 6, 1, 5, 5, 7, 1, 1]
def oidExtensionCRLNumber : Oid := [2, 5, 29, 20]

/-- One iteration of the loop of `processExtensions` up to the check of `unhandled`: parser.go:852-996.
The tests on the elements of the OID are written as comparisons of OIDs. -/
def processExtension (env : Env) (out : Certificate) (e : Ext) : Option (Certificate × Bool) :=
  if e.id = [2, 5, 29, 15] then do
    let ku ← parseKeyUsageExtension e.value
    pure ({ out with keyUsage := ku }, false)
  else if e.id = [2, 5, 29, 19] then do
    let (isCA, maxPathLen) ← parseBasicConstraintsExtension e.value
    pure ({ out with isCA := isCA, maxPathLen := maxPathLen, basicConstraintsValid := true,
                     maxPathLenZero := decide (maxPathLen = 0) }, false)
  else if e.id = [2, 5, 29, 17] then do
    let s ← parseSANExtension env e.value
    pure ({ out with dnsNames := s.dns, emailAddresses := s.emails, ipAddresses := s.ips, uris := s.uris },
      decide (s.dns.length = 0 ∧ s.emails.length = 0 ∧ s.ips.length = 0 ∧ s.uris.length = 0))
  else if e.id = [2, 5, 29, 30] then do
    let (p, x) ← parseNameConstraintsExtension env e.value
    pure ({ out with permittedDNSDomains := p.dns, permittedIPRanges := p.ips, permittedEmailAddresses := p.emails,
                     permittedURIDomains := p.uris, excludedDNSDomains := x.dns, excludedIPRanges := x.ips,
                     excludedEmailAddresses := x.emails, excludedURIDomains := x.uris,
                     permittedDNSDomainsCritical := e.critical }, p.unhandled || x.unhandled)
  else if e.id = [2, 5, 29, 31] then do
    let us ← parseCRLDistributionPoints e.value
    pure ({ out with crlDistributionPoints := out.crlDistributionPoints ++ us }, false)
  else if e.id = [2, 5, 29, 35] then do
    let k ← parseAuthorityKeyId e.value
    pure ({ out with authorityKeyId := k.getD out.authorityKeyId }, false)
  else if e.id = [2, 5, 29, 37] then do
    let (k, u) ← parseExtKeyUsageExtension e.value
    pure ({ out with extKeyUsage := k, unknownExtKeyUsage := u }, false)
  else if e.id = [2, 5, 29, 14] then do
    let (k, _) ← Der.readASN1 0x04 e.value
    pure ({ out with subjectKeyId := k }, false)
  else if e.id = [2, 5, 29, 32] then do
    let ps ← parseCertificatePoliciesExtension e.value
    pure ({ out with policyIdentifiers := ps }, false)
  else if e.id = oidExtensionAuthorityInfoAccess then do
    let (o, i) ← parseAuthorityInfoAccess e.value
    pure ({ out with ocspServer := out.ocspServer ++ o, issuingCertificateURL := out.issuingCertificateURL ++ i }, false)
  else some (out, true)

/-- The loop of `processExtensions`: parser.go:850-1003 -/
def processExtensionsLoop (env : Env) : Certificate → List Ext → Option Certificate
  | out, [] => some out
  | out, e :: l =>
    match processExtension env out e with
    | none => none
    | some (out, unhandled) =>
      processExtensionsLoop env
        (if e.critical && unhandled then
          { out with unhandledCriticalExtensions := out.unhandledCriticalExtensions ++ [e.id] } else out) l

/-- `processExtensions`: parser.go:849-1004 -/
def processExtensions (env : Env) (out : Certificate) : Option Certificate :=
  processExtensionsLoop env out out.extensions

/-! ## Certificates -/

/-- Value of the constants of x509.go:398-407. -/
def PkAlgo.toInt : PkAlgo → Int
  | .unknown => pkUnknown
  | .rsa => pkRSA
  | .dsa => pkDSA
  | .ecdsa => pkECDSA
  | .ed25519 => pkEd25519

/-- parser.go:1161-1171: one extension. -/
def readExtension (s : Bytes) : Option (Ext × Bytes) := do
  let (e, rest) ← Der.readASN1 0x30 s
  let x ← parseExtension e
  pure (x, rest)

/-- parser.go:1144-1178: what follows the public key in the to-be-signed part. -/
def parseTail (env : Env) (cert : Certificate) (tbs : Bytes) : Option Certificate :=
  if cert.version > 1 then do
    let tbs ← skipOptional 0xa1 tbs
    let tbs ← skipOptional 0xa2 tbs
    if cert.version = 3 then
      let (exts, _) ← readOptional 0xa3 tbs
      match exts with
      | none => pure cert
      | some x =>
        let (x, _) ← Der.readASN1 0x30 x
        let l ← readMany readExtension x
        processExtensions env { cert with extensions := cert.extensions ++ l }
    else pure cert
  else pure cert

/-- The version: parser.go:1032-1043. The increment wraps for the largest 64-bit value. -/
def parseVersion (tbs : Bytes) : Option (Int × Bytes) := do
  let (v, tbs) ← readOptionalGoInt 0xa0 0 tbs
  if v < 0 then none
  let v := if v = 2 ^ 63 - 1 then -2 ^ 63 else v + 1
  if v > 3 then none else pure (v, tbs)

/-- The names and validity: parser.go:1076-1105 -/
structure Identity where
  rawIssuer : Bytes
  issuer : List (List Atv)
  notBefore : Time
  notAfter : Time
  rawSubject : Bytes
  subject : List (List Atv)

def parseIdentity (tbs : Bytes) : Option (Identity × Bytes) := do
  let (rawIssuer, tbs) ← readElement 0x30 tbs
  let issuer ← parseName rawIssuer
  let (validity, tbs) ← Der.readASN1 0x30 tbs
  let (nb, na) ← parseValidity validity
  let (rawSubject, tbs) ← readElement 0x30 tbs
  let subject ← parseName rawSubject
  pure (⟨rawIssuer, issuer, nb, na, rawSubject, subject⟩, tbs)

/-- The SubjectPublicKeyInfo: parser.go:1107-1142 -/
def parseSpki (tbs : Bytes) : Option (Bytes × Spki × Bytes) := do
  let (raw, tbs) ← readElement 0x30 tbs
  let (s, _) ← Der.readASN1 0x30 raw
  let (ai, s) ← Der.readASN1 0x30 s
  let pkAI ← parseAI ai
  let (spk, _) ← readBits s
  pure (raw, ⟨pkAI, spk⟩, tbs)

/-- What is needed of the head of the certificate: parser.go:1009-1074. -/
structure CertHead where
  raw : Bytes
  rawTbs : Bytes
  version : Int
  serial : Int
  sigAI : AlgId
  /-- what is left of the to-be-signed part -/
  tbs : Bytes
  /-- what follows the outer algorithm identifier -/
  input : Bytes

def parseCertHead (der : Bytes) : Option CertHead := do
  let (raw, _) ← readElement 0x30 der
  let (input, _) ← Der.readASN1 0x30 raw
  let (rawTbs, input) ← readElement 0x30 input
  let (tbs, _) ← Der.readASN1 0x30 rawTbs
  let (version, tbs) ← parseVersion tbs
  let (serial, tbs) ← Der.readInt tbs
  let (sigAISeq, tbs) ← Der.readASN1 0x30 tbs
  let (outer, input) ← Der.readASN1 0x30 input
  if outer ≠ sigAISeq then none
  let sigAI ← parseAI sigAISeq
  pure ⟨raw, rawTbs, version, serial, sigAI, tbs, input⟩

/-- `parseCertificate`: parser.go:1006-1187 -/
def parseCertificate (env : Env) (der : Bytes) : Res Certificate := do
  let hd ← Res.ofOption "x509: malformed certificate" (parseCertHead der)
  let (id, tbs) ← Res.ofOption "x509: malformed certificate" (parseIdentity hd.tbs)
  let (rawSpki, spki, tbs) ← Res.ofOption "x509: malformed spki" (parseSpki tbs)
  let algo := getPublicKeyAlgorithmFromOID spki.algo.algorithm
  let pub ← parsePublicKey algo spki
  let cert : Certificate :=
    { raw := hd.raw, rawTBSCertificate := hd.rawTbs, version := hd.version, serialNumber := some hd.serial,
      signatureAlgorithm := getSignatureAlgorithmFromAI hd.sigAI, rawIssuer := id.rawIssuer, issuer := .fromRDNSequence (toAny id.issuer),
      notBefore := id.notBefore, notAfter := id.notAfter, rawSubject := id.rawSubject, 
      subject := .fromRDNSequence (toAny id.subject),
      rawSubjectPublicKeyInfo := rawSpki, publicKeyAlgorithm := algo.toInt, publicKey := pub }
  let cert ← Res.ofOption "x509: malformed extensions" (parseTail env cert tbs)
  let (signature, _) ← Res.ofOption "x509: malformed signature" (readBits hd.input)
  pure { cert with signature := rightAlign signature }

/-- `ParseCertificate`: parser.go:1190-1199 -/
def ParseCertificate (env : Env) (der : Bytes) : Res Certificate := do
  let cert ← parseCertificate env der
  if der.length ≠ cert.raw.length then .err "x509: trailing data" else pure cert

/-- `ParseCertificates`: parser.go:1203-1214. The counter bounds the iterations; each consumes `len(cert.Raw)`
bytes, which is not zero. -/
def parseCertificatesAux (env : Env) : Nat → Bytes → Res (List Certificate)
  | _, [] => .ok []
  | 0, _ :: _ => .panic
  | n + 1, b :: t => do
    let cert ← parseCertificate env (b :: t)
    let l ← parseCertificatesAux env n ((b :: t).drop cert.raw.length)
    pure (cert :: l)

def ParseCertificates (env : Env) (der : Bytes) : Res (List Certificate) := parseCertificatesAux env der.length der

end MCrypto.X509
