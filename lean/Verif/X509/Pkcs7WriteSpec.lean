import Verif.X509.KeyWriteSpec
import Verif.X509.CertSpec
import Verif.X509.Pkcs7
/-
Specification of the octets `NewSignedData` and `NewSignedDataCallBack` write (GB/T 35276 8, after RFC 2315 9). Nothing is left
open: for given certificate, content, time and signature there is at most one such octet string.
-/
namespace MCrypto.X509Spec
open MCrypto MCrypto.Dg
open MCrypto.X509 (Time Certificate)

/-- A time as it is written: UTCTime with seconds if the year is from 1950 to 2049, otherwise GeneralizedTime; the time
zone is that of the clock. -/
def TimeOut (t : Time) (e : Bytes) : Prop :=
  (1950 ≤ t.year ∧ t.year < 2050 ∧ ∃ y d s z, El 0x17 (y ++ (d ++ (s ++ z))) e ∧ Digits2 y (t.year % 100) ∧ DateText d t ∧
    Digits2 s t.second ∧ ZoneText z t.offset) ∨
  ((t.year < 1950 ∨ 2050 ≤ t.year) ∧ ∃ y y' d s z, El 0x18 (y ++ (y' ++ (d ++ (s ++ z)))) e ∧ Digits2 y (t.year / 100) ∧
    Digits2 y' (t.year % 100) ∧ DateText d t ∧ Digits2 s t.second ∧ ZoneText z t.offset)

/-- An attribute with one value. -/
def Attr1Out (o : List Nat) (V : Bytes → Prop) (e : Bytes) : Prop :=
  ∃ oe v se, El 0x30 (oe ++ se) e ∧ OidEl o oe ∧ El 0x31 v se ∧ V v

/-- The signed attributes in the order of DER: content type `data`, signing time, digest of the content. -/
def SignedAttrsOut (now : Time) (data : Bytes) (s : Bytes) : Prop :=
  ∃ a b c, s = a ++ (b ++ c) ∧
    Attr1Out [1, 2, 840, 113549, 1, 9, 3] (OidEl [1, 2, 156, 10197, 6, 1, 4, 2, 1]) a ∧
    Attr1Out [1, 2, 840, 113549, 1, 9, 5] (TimeOut now) b ∧
    Attr1Out [1, 2, 840, 113549, 1, 9, 4] (El 0x04 (Sm3.sum data)) c

/-- SignerInfo: version 1, issuer and serial number of the certificate, SM3, the signed attributes `attrs`, SM2 with SM3, the
signature. -/
def SignerOut (cert : Certificate) (attrs sig e : Bytes) : Prop :=
  ∃ ve ie ne n de ae ge xe, El 0x30 (ve ++ (ie ++ (de ++ (ae ++ (ge ++ xe))))) e ∧ IntEl 1 ve ∧ El 0x30 (cert.rawIssuer ++ ne) ie ∧
    cert.serialNumber = some n ∧ IntEl n ne ∧ AlgOut [1, 2, 156, 10197, 1, 401] [] de ∧ El 0xa0 attrs ae ∧
    AlgOut [1, 2, 156, 10197, 1, 301, 1] [] ge ∧ El 0x04 sig xe

/-- ContentInfo. -/
def ContentOut (o : List Nat) (c e : Bytes) : Prop := ∃ oe ce, El 0x30 (oe ++ ce) e ∧ OidEl o oe ∧ El 0xa0 c ce

/-- The signed data: version 1, SM3, the content, the certificate, no revocation lists, one signer. -/
def SignedDataOut (cert : Certificate) (data attrs sig w : Bytes) : Prop :=
  ∃ sd ve ds de ce dc certs crls ss se, ContentOut [1, 2, 156, 10197, 6, 1, 4, 2, 2] sd w ∧
    El 0x30 (ve ++ (ds ++ (ce ++ (certs ++ (crls ++ ss))))) sd ∧ IntEl 1 ve ∧
    El 0x31 de ds ∧ AlgOut [1, 2, 156, 10197, 1, 401] [] de ∧
    ContentOut [1, 2, 156, 10197, 6, 1, 4, 2, 1] dc ce ∧ El 0x04 data dc ∧
    El 0xa0 cert.raw certs ∧ El 0xa1 [] crls ∧ El 0x31 se ss ∧ SignerOut cert attrs sig se

end MCrypto.X509Spec
