import Verif.X509.Parser
import Verif.X509.Builder
/-
Go's `encoding/asn1` on `time.Time`, `interface{}` and the structures of crypto/x509/pkix that /repo/x509/x509.go
marshals and parses: `RDNSequence`, `Extension`, `CertificateList`, `AttributeTypeAndValueSET`, and the structures
`validity`, `tbsCertificate`, `certificate` (x509.go:160-193). Dependencies of /repo, modelled from their
published source (Go 1.18); see DESIGN.md.

Simplifications: a time has whole seconds and whole minutes of zone offset, and a year from 0 on; a nil slice is
`none` where the difference from an empty one shows in the encoding.
-/
namespace MCrypto.X509
open MCrypto MCrypto.Asn1

/-! ## Times -/

/-- The day after. -/
def Time.nextDay (t : Time) : Time :=
  if t.day < daysIn t.month t.year then { t with day := t.day + 1 }
  else if t.month < 12 then { t with month := t.month + 1, day := 1 }
  else { t with year := t.year + 1, month := 1, day := 1 }

/-- The day before; there is none before 1 January of year 0 in this model. -/
def Time.prevDay (t : Time) : Option Time :=
  if 1 < t.day then some { t with day := t.day - 1 }
  else if 1 < t.month then some { t with month := t.month - 1, day := daysIn (t.month - 1) t.year }
  else if 0 < t.year then some { t with year := t.year - 1, month := 12, day := 31 }
  else none

/-- `k` days later (or earlier). -/
def Time.addDays : Nat → Time → Time
  | 0, t => t
  | k + 1, t => Time.addDays k t.nextDay

def Time.subDays : Nat → Time → Option Time
  | 0, t => some t
  | k + 1, t => do
    let t ← t.prevDay
    Time.subDays k t

/-- The clock moved to the minute `m` of the same day, in UTC. -/
def Time.atMinute (t : Time) (m : Nat) : Time := { t with hour := m / 60, minute := m % 60, offset := 0 }

/-- `time.Time.UTC`; `none` for a time in a year before 0 (marshalling one is an error). -/
def Time.utc (t : Time) : Option Time :=
  let m : Int := ((t.hour * 60 + t.minute : Nat) : Int) - t.offset
  let t' := t.atMinute (m % 1440).toNat
  if 0 ≤ m / 1440 then some (t'.addDays (m / 1440).toNat) else t'.subDays (-(m / 1440)).toNat

/-- Days before the year, with year 0 as origin. -/
def daysBeforeYear : Nat → Nat
  | 0 => 0
  | y + 1 => daysBeforeYear y + (if isLeap y then 366 else 365)

/-- Days of the year before month `m`. -/
def daysBeforeMonth (y : Nat) : Nat → Nat
  | 0 => 0
  | 1 => 0
  | m + 2 => daysBeforeMonth y (m + 1) + daysIn (m + 1) y

/-- The instant, in seconds from the beginning of year 0 UTC. -/
def Time.instant (t : Time) : Int :=
  (((daysBeforeYear t.year + daysBeforeMonth t.year t.month + t.day : Nat) : Int) * 1440 +
    ((t.hour * 60 + t.minute : Nat) : Int) - t.offset) * 60 + (t.second : Int)

/-- `time.Time.Before` -/
def Time.before (t u : Time) : Bool := decide (t.instant < u.instant)

/-- `appendTwoDigits` -/
def twoDigits (n : Nat) : Bytes := [UInt8.ofNat (48 + n / 10 % 10), UInt8.ofNat (48 + n % 10)]

/-- The zone part of `appendTimeCommon`. -/
def zoneBytes (offset : Int) : Bytes :=
  if offset = 0 then [90]
  else (if 0 < offset then 43 else 45) :: (twoDigits (offset.natAbs / 60) ++ twoDigits (offset.natAbs % 60))

/-- `appendTimeCommon` -/
def timeCommon (t : Time) : Bytes :=
  twoDigits t.month ++ twoDigits t.day ++ twoDigits t.hour ++ twoDigits t.minute ++ twoDigits t.second ++
    zoneBytes t.offset

/-- `outsideUTCRange` -/
def outsideUTCRange (t : Time) : Bool := decide (t.year < 1950) || decide (2050 ≤ t.year)

/-- `makeField` for a `time.Time` without parameters: UTCTime, or GeneralizedTime outside its range. -/
def marshalTime (t : Time) : Option Bytes :=
  if outsideUTCRange t then
    if t.year > 9999 then none
    else some (encTLV 0 false 24 (twoDigits (t.year / 100) ++ twoDigits (t.year % 100) ++ timeCommon t))
  else some (encTLV 0 false 23 (twoDigits (t.year % 100) ++ timeCommon t))

/-- `time.Time{}` -/
def zeroTime : Time := ⟨1, 1, 1, 0, 0, 0, 0⟩

/-- An optional time (`NextUpdate`). -/
def marshalOptTime (t : Time) : Option Bytes := if t = zeroTime then some [] else marshalTime t

/-- `parseField` for a `time.Time`: UTCTime or GeneralizedTime. -/
def parseTimeField (optional : Bool) (b : Bytes) : Option (Time × Bytes) :=
  let dflt := if optional then some (zeroTime, b) else none
  if b = [] then dflt
  else match parseHdr b with
    | none => none
    | some (t, r) =>
      if t.cls = 0 ∧ (t.tag = 23 ∨ t.tag = 24) ∧ t.compound = false then
        if r.length < t.len then none
        else
          match (if t.tag = 23 then parseUTCTime (r.take t.len) else parseGeneralizedTime (r.take t.len)) with
          | none => none
          | some v => some (v, r.drop t.len)
      else dflt

/-! ## interface{} -/

/-- The type switch of `parseField` for the ANY type, on a primitive universal element. The string cases are those of
`parseASN1String`, which parser.go copies from encoding/asn1. -/
def anyOf (tag : Nat) (b : Bytes) : Option AnyValue :=
  if tag = 19 ∨ tag = 18 ∨ tag = 22 ∨ tag = 20 ∨ tag = 12 ∨ tag = 30 then
    (parseASN1String (UInt8.ofNat tag) b).map .str
  else if tag = 2 then (if b.length > 8 then none else (Der.decInt b).map .int)
  else if tag = 3 then (decBits b).map .bits
  else if tag = 6 then (decOid b).map .oid
  else if tag = 23 then (parseUTCTime b).map .time
  else if tag = 24 then (parseGeneralizedTime b).map .time
  else if tag = 4 then some (.octets b)
  else some .nil

/-- `parseField` for `interface{}` -/
def parseAny (b : Bytes) : Option (AnyValue × Bytes) :=
  match parseHdr b with
  | none => none
  | some (t, r) =>
    if r.length < t.len then none
    else if t.compound = false ∧ t.cls = 0 then
      match anyOf t.tag (r.take t.len) with
      | none => none
      | some v => some (v, r.drop t.len)
    else some (.nil, r.drop t.len)

/-- `isPrintable(b, rejectAsterisk, rejectAmpersand)` of encoding/asn1. -/
def isPrintableStrict (b : UInt8) : Bool := isPrintable b && !(b == 42) && !(b == 38)

/-- `makeField` for a string without parameters: PrintableString if possible, else UTF8String. -/
def marshalString (s : Bytes) : Option Bytes :=
  if s.all isPrintableStrict then some (encTLV 0 false 19 s)
  else if Utf.valid s then some (encTLV 0 false 12 s)
  else none

/-- `makeField` for an `interface{}`: that of the value in it. -/
def marshalAny : AnyValue → Option Bytes
  | .nil => none
  | .str s => marshalString s
  | .int n => marshalField bigInt {} n
  | .bits b => marshalField bits {} b
  | .oid o => marshalField oid {} o
  | .time t => marshalTime t
  | .octets b => marshalField octets {} b

/-! ## pkix -/

/-- `pkix.AttributeTypeAndValue` in encoding/asn1. -/
def atvAny : Codec AtvAny :=
  ⟨16, true,
   fun b _ => do
     let (o, b) ← parseField oid {} b
     let (v, _) ← parseAny b
     pure ⟨o, v⟩,
   fun a => do
     let e1 ← marshalField oid {} a.type
     let e2 ← marshalAny a.value
     pure (e1 ++ e2)⟩

/-- `pkix.RelativeDistinguishedNameSET`: the type name ends in SET. -/
def rdnSet : Codec (List AtvAny) := { Asn1.setOf atvAny with tag := 17 }

/-- `pkix.RDNSequence` -/
def rdnSequence : Codec (List (List AtvAny)) := seqOf rdnSet

/-- `pkix.Extension`: `Critical bool `asn1:"optional"`` -/
def extension : Codec Ext :=
  ⟨16, true,
   fun b _ => do
     let (id, b) ← parseField oid {} b
     let (c, b) ← parseField bool { opt := some false } b
     let (v, _) ← parseField octets {} b
     pure ⟨id, c, v⟩,
   fun e => do
     let e1 ← marshalField oid {} e.id
     let e2 ← marshalField bool { opt := some false } e.critical
     let e3 ← marshalField octets {} e.value
     pure (e1 ++ (e2 ++ e3))⟩

/-- A slice that can be nil: `none`. -/
def nilable {α : Type} (c : Codec (List α)) : Codec (Option (List α)) :=
  ⟨c.tag, c.compound, fun b f => (c.dec b f).map some, fun v => c.enc (v.getD [])⟩

/-- `pkix.RevokedCertificate` -/
structure Revoked where
  serialNumber : Option Int
  revocationTime : Time
  extensions : Option (List Ext) := none
  deriving DecidableEq, Repr

def revoked : Codec Revoked :=
  ⟨16, true,
   fun b _ => do
     let (n, b) ← parseField optInt {} b
     let (t, b) ← parseTimeField false b
     let (x, _) ← parseField (nilable (seqOf extension)) { opt := some none } b
     pure ⟨n, t, x⟩,
   fun r => do
     let e1 ← marshalField optInt {} r.serialNumber
     let e2 ← marshalTime r.revocationTime
     let e3 ← marshalField (nilable (seqOf extension)) { opt := some none } r.extensions
     pure (e1 ++ (e2 ++ e3))⟩

/-- `stripTagAndLength` -/
def stripTagAndLength (b : Bytes) : Bytes :=
  match parseHdr b with
  | some (_, r) => r
  | none => b

/-- `pkix.TBSCertificateList` -/
structure TbsCrl where
  raw : Bytes := []
  version : Int
  signature : AlgId
  issuer : List (List AtvAny)
  thisUpdate : Time
  nextUpdate : Time
  revoked : Option (List Revoked)
  extensions : Option (List Ext)
  deriving DecidableEq, Repr

def tbsCrl : Codec TbsCrl :=
  ⟨16, true,
   fun b full => do
     let (v, b) ← parseField goInt { opt := some 0 } b
     let (s, b) ← parseField algId {} b
     let (i, b) ← parseField rdnSequence {} b
     let (t, b) ← parseTimeField false b
     let (n, b) ← parseTimeField true b
     let (r, b) ← parseField (nilable (seqOf revoked)) { opt := some none } b
     let (x, _) ← parseField (nilable (seqOf extension)) { opt := some none, tag := some 0, explicit := true } b
     pure ⟨full, v, s, i, t, n, r, x⟩,
   fun c =>
     if c.raw ≠ [] then some (stripTagAndLength c.raw)
     else do
       let e1 ← marshalField goInt { opt := some 0 } c.version
       let e2 ← marshalField algId {} c.signature
       let e3 ← marshalField rdnSequence {} c.issuer
       let e4 ← marshalTime c.thisUpdate
       let e5 ← marshalOptTime c.nextUpdate
       let e6 ← marshalField (nilable (seqOf revoked)) { opt := some none } c.revoked
       let e7 ← marshalField (nilable (seqOf extension)) { opt := some none, tag := some 0, explicit := true } c.extensions
       pure (e1 ++ (e2 ++ (e3 ++ (e4 ++ (e5 ++ (e6 ++ e7))))))⟩

/-- `pkix.CertificateList` -/
structure Crl where
  tbs : TbsCrl
  signatureAlgorithm : AlgId
  signatureValue : BitString
  deriving DecidableEq, Repr

def crl : Codec Crl :=
  ⟨16, true,
   fun b _ => do
     let (t, b) ← parseField tbsCrl {} b
     let (a, b) ← parseField algId {} b
     let (s, _) ← parseField bits {} b
     pure ⟨t, a, s⟩,
   fun c => do
     let e1 ← marshalField tbsCrl {} c.tbs
     let e2 ← marshalField algId {} c.signatureAlgorithm
     let e3 ← marshalField bits {} c.signatureValue
     pure (e1 ++ (e2 ++ e3))⟩

/-! ## Certificates, for marshalling -/

/-- `tbsCertificate`: x509.go:167-179. The unique ids are never set when marshalling. -/
structure TbsCert where
  raw : Bytes := []
  version : Int
  serialNumber : Option Int
  signatureAlgorithm : AlgId
  issuer : RawValue
  notBefore : Time
  notAfter : Time
  subject : RawValue
  publicKey : Spki
  extensions : Option (List Ext)
  deriving DecidableEq, Repr

/-- The fields of `tbsCertificate` marshalled. `validity` (x509.go:185-187) is a struct of two times. -/
def encTbsCert (c : TbsCert) : Option Bytes :=
  if c.raw ≠ [] then some (stripTagAndLength c.raw)
  else do
    let e1 ← marshalField goInt { opt := some 0, tag := some 0, explicit := true } c.version
    let e2 ← marshalField optInt {} c.serialNumber
    let e3 ← marshalField algId {} c.signatureAlgorithm
    let e4 ← marshalRaw {} c.issuer
    let nb ← marshalTime c.notBefore
    let na ← marshalTime c.notAfter
    let e6 ← marshalRaw {} c.subject
    let e7 ← marshalField spki {} c.publicKey
    let e8 ← marshalField (nilable (seqOf extension)) { opt := some none, tag := some 3, explicit := true } c.extensions
    pure (e1 ++ (e2 ++ (e3 ++ (e4 ++ (encTLV 0 true 16 (nb ++ na) ++ (e6 ++ (e7 ++ e8)))))))

/-- `asn1.Marshal` of a `tbsCertificate`. -/
def marshalTbsCert (c : TbsCert) : Option Bytes := (encTbsCert c).map (encTLV 0 true 16)

/-- `asn1.Marshal` of a `certificate` (x509.go:160-165) with empty `Raw`. -/
def marshalCert (tbs : TbsCert) (algo : AlgId) (signature : BitString) : Option Bytes := do
  let e1 ← marshalTbsCert tbs
  let e2 ← marshalField algId {} algo
  let e3 ← marshalField bits {} signature
  pure (encTLV 0 true 16 (e1 ++ (e2 ++ e3)))

end MCrypto.X509
