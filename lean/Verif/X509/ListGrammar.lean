import Verif.X509.KeyGrammar
import Verif.X509.Pkix
/-
Specification of the DER of names with values of any type, extensions, times and certificate revocation lists
(RFC 5280 5.1) as the package reads them: which octets stand for which values.
-/
namespace MCrypto.X509Spec
open MCrypto MCrypto.Dg
open MCrypto.X509 (Time Ext AnyValue AtvAny Revoked zeroTime)

/-- A time: UTCTime or GeneralizedTime. -/
def TimeEl (t : Time) (e : Bytes) : Prop :=
  ∃ b, (El 0x17 b e ∧ UtcTimeText b t) ∨ (El 0x18 b e ∧ GenTimeText b t)

/-- A value of any type. Strings, small integers, bit strings, object identifiers, times and octet strings are
understood; other elements stand for no value. -/
def AnyIs (v : AnyValue) (e : Bytes) : Prop :=
  (∃ tag b s, El tag b e ∧ StringValue tag b s ∧ v = .str s) ∨
  (∃ n, Int64El n e ∧ v = .int n) ∨
  (∃ b bytes u, El 0x03 b e ∧ IsBits b bytes u ∧ v = .bits ⟨bytes, bytes.length * 8 - u⟩) ∨
  (∃ o, OidEl o e ∧ v = .oid o) ∨
  (∃ t, TimeEl t e ∧ v = .time t) ∨
  (∃ b, El 0x04 b e ∧ v = .octets b) ∨
  (AnyEl e ∧ (∀ tag ∈ ([2, 3, 4, 6, 12, 18, 19, 20, 22, 23, 24, 30] : List UInt8), e.head? ≠ some tag) ∧ v = .nil)

/-- AttributeTypeAndValue (RFC 5280 4.1.2.4). -/
def AtvEl (a : AtvAny) (e : Bytes) : Prop :=
  ∃ oe ve junk, El 0x30 (oe ++ (ve ++ junk)) e ∧ OidEl a.type oe ∧ AnyIs a.value ve

/-- RelativeDistinguishedName. -/
def RdnEl (as : List AtvAny) (e : Bytes) : Prop := ∃ body, El 0x31 body e ∧ Many AtvEl as body

/-- Name. -/
def NameEl (n : List (List AtvAny)) (e : Bytes) : Prop := ∃ body, El 0x30 body e ∧ Many RdnEl n body

/-- Extension (RFC 5280 4.1): not critical unless it says so. -/
def ExtEl (x : Ext) (e : Bytes) : Prop :=
  ∃ oe fe ve junk, El 0x30 (oe ++ (fe ++ (ve ++ junk))) e ∧ OidEl x.id oe ∧
    ((fe = [] ∧ x.critical = false) ∨ El 0x01 [if x.critical then 0xff else 0] fe) ∧ El 0x04 x.value ve

/-- Extensions. -/
def ExtsEl (xs : List Ext) (e : Bytes) : Prop := ∃ body, El 0x30 body e ∧ Many ExtEl xs body

/-- An entry of revokedCertificates: serial number, time, perhaps extensions; something may follow. -/
def RevokedEl (r : Revoked) (e : Bytes) : Prop :=
  ∃ ne te s junk n, El 0x30 (ne ++ (te ++ s)) e ∧ IntEl n ne ∧ r.serialNumber = some n ∧ TimeEl r.revocationTime te ∧
    ((∃ xe xs, s = xe ++ junk ∧ ExtsEl xs xe ∧ r.extensions = some xs) ∨
      (s = junk ∧ Goes junk ∧ junk.head? ≠ some 0x30 ∧ r.extensions = none))

/-- The contents of a revocation list. -/
structure CrlFields where
  rawTbs : Bytes
  version : Int
  sigOid : List Nat
  sigPar : Bytes
  issuer : List (List AtvAny)
  thisUpdate : Time
  nextUpdate : Time
  revoked : Option (List Revoked)
  extensions : Option (List Ext)
  algOid : List Nat
  algPar : Bytes
  signature : Bytes
  sigBits : Nat
  deriving DecidableEq

/-- The to-be-signed part (RFC 5280 5.1): version (0 if missing), algorithm, issuer, times (the zero time if the second
is missing), revoked certificates and explicitly tagged extensions; something may follow. -/
def TbsCrlEl (f : CrlFields) (e : Bytes) : Prop :=
  ∃ ve ae ie te s s1 s2 junk, El 0x30 (ve ++ (ae ++ (ie ++ (te ++ s)))) e ∧
    ((ve = [] ∧ f.version = 0) ∨ Int64El f.version ve) ∧ AlgEl f.sigOid f.sigPar ae ∧ NameEl f.issuer ie ∧
    TimeEl f.thisUpdate te ∧
    ((∃ ne, s = ne ++ s1 ∧ TimeEl f.nextUpdate ne) ∨
      (s = s1 ∧ Goes s ∧ s.head? ≠ some 0x17 ∧ s.head? ≠ some 0x18 ∧ f.nextUpdate = zeroTime)) ∧
    ((∃ re body rs, s1 = re ++ s2 ∧ El 0x30 body re ∧ Many RevokedEl rs body ∧ f.revoked = some rs) ∨
      (s1 = s2 ∧ Goes s1 ∧ s1.head? ≠ some 0x30 ∧ f.revoked = none)) ∧
    ((∃ xs, Expl 0xa0 (ExtsEl xs) s2 junk ∧ f.extensions = some xs) ∨
      (s2 = junk ∧ NoExpl 0xa0 0x80 0x30 s2 ∧ f.extensions = none))

/-- CertificateList (RFC 5280 5.1). The two algorithm identifiers need not agree; something may follow the signature in
the sequence. -/
def CrlDer (der : Bytes) (f : CrlFields) : Prop :=
  ∃ ae be junk b u, El 0x30 (f.rawTbs ++ (ae ++ (be ++ junk))) der ∧ TbsCrlEl f f.rawTbs ∧ AlgEl f.algOid f.algPar ae ∧
    El 0x03 b be ∧ IsBits b f.signature u ∧ f.sigBits = 8 * f.signature.length - u

end MCrypto.X509Spec
