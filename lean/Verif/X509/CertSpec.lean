import Verif.X509.ExtSpec
import Verif.X509.TimeSpec
import Verif.X509.KeysSpec
/-
Specification of the DER form of a certificate (RFC 5280 section 4.1) as the parser reads it: which octets stand for
which fields.
-/
namespace MCrypto.X509Spec
open MCrypto MCrypto.Asn1
open MCrypto.X509 (Time Atv Ext PubKey)

/-- An algorithm identifier: an object identifier and perhaps parameters, any element. -/
def AlgIdBody (body : Bytes) (o : Oid) (par : Bytes) : Prop :=
  ∃ oe tr, body = oe ++ (par ++ tr) ∧ OidElem o oe ∧ ((par = [] ∧ tr = []) ∨ ∃ tag b, Elem tag b par)

/-- A BIT STRING read as a number of octets: unused bits at the end are shifted out. -/
def BitsElem (e octets : Bytes) : Prop :=
  ∃ pad bytes, Elem 0x03 (pad :: bytes) e ∧ pad.toNat ≤ 7 ∧ (bytes = [] → pad = 0) ∧
    (bytes.getLastD 0).toNat % 2 ^ pad.toNat = 0 ∧
    octets.length = bytes.length ∧ ofBytes octets = ofBytes bytes / 2 ^ pad.toNat

/-- An attribute of a name: type and string. -/
def AtvElem (e : Bytes) (a : Atv) : Prop :=
  ∃ oe tag raw ve junk, Elem 0x30 (oe ++ (ve ++ junk)) e ∧ OidElem a.type oe ∧ Elem tag raw ve ∧ StringValue tag raw a.value

/-- A relative distinguished name: a set of attributes. -/
def RdnElem (e : Bytes) (as : List Atv) : Prop := ∃ body, Elem 0x31 body e ∧ Concat AtvElem as body

/-- A name: a sequence of relative distinguished names. -/
def NameDer (e : Bytes) (n : List (List Atv)) : Prop := ∃ body, Elem 0x30 body e ∧ Concat RdnElem n body

/-- Two decimal digits. -/
def Digits2 (b : Bytes) (n : Nat) : Prop := n < 100 ∧ b = [UInt8.ofNat (48 + n / 10), UInt8.ofNat (48 + n % 10)]

/-- A time zone: `Z`, or a sign, hours and minutes, not all zero. -/
def ZoneText (b : Bytes) (offset : Int) : Prop :=
  (b = [90] ∧ offset = 0) ∨
  ∃ hb h mb m, Digits2 hb h ∧ Digits2 mb m ∧ m < 60 ∧ (h ≠ 0 ∨ m ≠ 0) ∧
    ((b = 43 :: (hb ++ mb) ∧ offset = 60 * h + m) ∨ (b = 45 :: (hb ++ mb) ∧ offset = -(60 * h + m)))

/-- Month, day, hour, minute. -/
def DateText (b : Bytes) (t : Time) : Prop :=
  ∃ mo d h mi, b = mo ++ (d ++ (h ++ mi)) ∧ Digits2 mo t.month ∧ Digits2 d t.day ∧ Digits2 h t.hour ∧ Digits2 mi t.minute

/-- UTCTime: a two-digit year from 1950 on, with or without seconds. -/
def UtcTimeText (b : Bytes) (t : Time) : Prop :=
  ValidTime t ∧ ∃ y d s z yy, b = y ++ (d ++ (s ++ z)) ∧ Digits2 y yy ∧ t.year = (if yy < 50 then 2000 + yy else 1900 + yy) ∧
    DateText d t ∧ ((s = [] ∧ t.second = 0) ∨ Digits2 s t.second) ∧ ZoneText z t.offset

/-- GeneralizedTime: a four-digit year, and seconds. -/
def GenTimeText (b : Bytes) (t : Time) : Prop :=
  ValidTime t ∧ ∃ y y' d s z, b = y ++ (y' ++ (d ++ (s ++ z))) ∧ Digits2 y (t.year / 100) ∧ Digits2 y' (t.year % 100) ∧
    DateText d t ∧ Digits2 s t.second ∧ ZoneText z t.offset

/-- A time. -/
def TimeElem (e : Bytes) (t : Time) : Prop :=
  ∃ b, (Elem 0x17 b e ∧ UtcTimeText b t) ∨ (Elem 0x18 b e ∧ GenTimeText b t)

/-- The validity. -/
def ValidityDer (e : Bytes) (nb na : Time) : Prop :=
  ∃ a b junk, Elem 0x30 (a ++ (b ++ junk)) e ∧ TimeElem a nb ∧ TimeElem b na

/-- The SubjectPublicKeyInfo: algorithm, parameters, key. -/
def SpkiDer (e : Bytes) (o : Oid) (par key : Bytes) : Prop :=
  ∃ algE algBody bitsE junk, Elem 0x30 (algE ++ (bitsE ++ junk)) e ∧ Elem 0x30 algBody algE ∧ AlgIdBody algBody o par ∧
    BitsElem bitsE key

/-- The version: 1 by default. The largest 64-bit number wraps around when one is added. -/
def VersionDer (e : Bytes) (version : Int) : Prop :=
  (e = [] ∧ version = 1) ∨
  ∃ ie n, Elem 0xa0 ie e ∧ Elem 0x02 (Der.encInt n) ie ∧
    ((0 ≤ n ∧ n ≤ 2 ∧ version = n + 1) ∨ (n = 2 ^ 63 - 1 ∧ version = -2 ^ 63))

/-- An extension. -/
def ExtElem (e : Bytes) (x : Ext) : Prop :=
  ∃ oe fe ve junk, Elem 0x30 (oe ++ (fe ++ (ve ++ junk))) e ∧ OidElem x.id oe ∧
    ((fe = [] ∧ x.critical = false) ∨ Elem 0x01 [if x.critical then 0xff else 0] fe) ∧ Elem 0x04 x.value ve

/-- An element that may be missing, before `rest`. -/
def Maybe (tag : Der.Tag) (s rest : Bytes) : Prop :=
  (s = rest ∧ rest.head? ≠ some tag) ∨ ∃ b e, Elem tag b e ∧ s = e ++ rest

/-- What follows the key in the to-be-signed part: unique identifiers from version 2, extensions in version 3. -/
def ExtensionsDer (version : Int) (s : Bytes) (l : List Ext) : Prop :=
  if version ≤ 1 then l = []
  else ∃ s1 s2, Maybe 0xa1 s s1 ∧ Maybe 0xa2 s1 s2 ∧
    if version = 3 then
      (s2.head? ≠ some 0xa3 ∧ l = []) ∨
      ∃ xe seqE body tr junk, s2 = xe ++ junk ∧ Elem 0xa3 (seqE ++ tr) xe ∧ Elem 0x30 body seqE ∧ Concat ExtElem l body
    else l = []

/-- The contents of a certificate. -/
structure CertFields where
  rawTbs : Bytes
  version : Int
  serial : Int
  sigOid : Oid
  sigPar : Bytes
  rawIssuer : Bytes
  issuer : List (List Atv)
  notBefore : Time
  notAfter : Time
  rawSubject : Bytes
  subject : List (List Atv)
  rawSpki : Bytes
  keyOid : Oid
  keyPar : Bytes
  key : Bytes
  extensions : List Ext
  signature : Bytes

/-- A certificate. The same algorithm identifier appears inside and outside of the signed part; something may
follow the signature. -/
def CertDer (der : Bytes) (f : CertFields) : Prop :=
  ∃ algBody algE sigE junk verE serE valE rest,
    Elem 0x30 (f.rawTbs ++ (algE ++ (sigE ++ junk))) der ∧
    Elem 0x30 (verE ++ (serE ++ (algE ++ (f.rawIssuer ++ (valE ++ (f.rawSubject ++ (f.rawSpki ++ rest))))))) f.rawTbs ∧
    Elem 0x30 algBody algE ∧ AlgIdBody algBody f.sigOid f.sigPar ∧
    VersionDer verE f.version ∧ Elem 0x02 (Der.encInt f.serial) serE ∧
    NameDer f.rawIssuer f.issuer ∧ ValidityDer valE f.notBefore f.notAfter ∧ NameDer f.rawSubject f.subject ∧
    SpkiDer f.rawSpki f.keyOid f.keyPar f.key ∧ ExtensionsDer f.version rest f.extensions ∧ BitsElem sigE f.signature

/-- Curves by object identifier (RFC 5480 2.1.1.1, GM/T 0006). -/
def curveOid (c : Sm2.CurveId) (o : Oid) : Prop :=
  (c, o) ∈ [(X509.P224, [1, 3, 132, 0, 33]), (X509.P256, [1, 2, 840, 10045, 3, 1, 7]), (X509.P384, [1, 3, 132, 0, 34]),
    (X509.P521, [1, 3, 132, 0, 35]), (X509.SM2P256, [1, 2, 156, 10197, 1, 301])]

/-- The public key that an algorithm, parameters and key bits stand for; `nil` for an unknown algorithm. -/
def KeyDer (o : Oid) (par key : Bytes) (k : PubKey) : Prop :=
  if o = [1, 2, 840, 113549, 1, 1, 1] then                                                        -- RSA
    par = [5, 0] ∧ ∃ e ne ee junk tr n x, key = e ++ tr ∧ Elem 0x30 (ne ++ (ee ++ junk)) e ∧ Elem 0x02 (Der.encInt n) ne ∧
      Elem 0x02 (Der.encInt x) ee ∧ 0 < n ∧ 0 < x ∧ x < 2 ^ 63 ∧ k = .rsa ⟨n, x⟩
  else if o = [1, 2, 840, 10040, 4, 1] then                                                       -- DSA
    ∃ ye tr e pe qe ge junk tr' y p q g, key = ye ++ tr ∧ Elem 0x02 (Der.encInt y) ye ∧ par = e ++ tr' ∧
      Elem 0x30 (pe ++ (qe ++ (ge ++ junk))) e ∧ Elem 0x02 (Der.encInt p) pe ∧ Elem 0x02 (Der.encInt q) qe ∧
      Elem 0x02 (Der.encInt g) ge ∧ 0 < y ∧ 0 < p ∧ 0 < q ∧ 0 < g ∧ k = .dsa ⟨p, q, g, y⟩
  else if o = [1, 2, 840, 10045, 2, 1] then                                                       -- EC
    ∃ oe tr co c cp x y, par = oe ++ tr ∧ OidElem co oe ∧ curveOid c co ∧ X509.params c = some cp ∧
      key = 4 :: (beBytes cp.size x ++ beBytes cp.size y) ∧ Curve.isOnCurve cp.p cp.b (x, y) = true ∧
      k = ecPubKey ⟨c, x, y⟩
  else if o = [1, 3, 101, 112] then par = [] ∧ key.length = 32 ∧ k = .ed25519 key                 -- Ed25519
  else k = .nil

end MCrypto.X509Spec
