import Verif.X509.KeyGrammar
import Verif.X509.StringSpec
import Verif.Pkcs12.CryptoSpec
/-
Specification of PKCS#12 files (RFC 7292 4) as the package reads them, in terms of octets: which octets, under which
password, stand for which bags, and what a bag holds.
-/
namespace MCrypto.P12Spec
open MCrypto MCrypto.Dg MCrypto.X509Spec
open MCrypto.X509 (PrivKey)

/-- An element of any type with contents `v`. -/
def Whole (v e : Bytes) : Prop := ∃ h, e = h ++ v ∧ Header h v.length

/-- The password as the standard wants it (RFC 7292 B.1): big-endian 16-bit characters and a zero character. There is
none unless all characters are in the Basic Multilingual Plane. -/
def BmpPassword (password pw : Bytes) : Prop :=
  (∀ r ∈ Utf.runes password, r ≤ 0xFFFF) ∧ pw = be16 (Utf.runes password ++ [0])

/-- pkcs-12PbeParams (RFC 7292 C): salt and iteration count; something may follow in the sequence. -/
def PbeParDer (salt : Bytes) (n : Int) (e : Bytes) : Prop :=
  ∃ se ne junk, El 0x30 (se ++ (ne ++ junk)) e ∧ El 0x04 salt se ∧ Int64El n ne

/-- `c` is `m` encrypted under `pw` with the algorithm `o` and parameters `par`: 3-key Triple DES or 40-bit RC2. -/
def PbeEncrypted (P : P12.Prims) (pw : Bytes) (o : List Nat) (par c m : Bytes) : Prop :=
  ∃ salt n, PbeParDer salt n par ∧
    ((o = [1, 2, 840, 113549, 1, 12, 1, 3] ∧ Encrypts (tdesE P salt pw n) (iv P salt pw n) m c) ∨
     (o = [1, 2, 840, 113549, 1, 12, 1, 6] ∧ Encrypts (rc2E P salt pw n) (iv P salt pw n) m c))

/-- ContentInfo (RFC 2315 7) with type `o` and contents `c` inside the explicit tag. -/
def ContentInfoEl (o : List Nat) (c e : Bytes) : Prop :=
  ∃ oe ce junk, El 0x30 (oe ++ (ce ++ junk)) e ∧ OidEl o oe ∧ El 0xa0 c ce

/-- MacData (RFC 7292 4) with SHA-1; the iteration count is 1 if missing. -/
def MacEl (digest salt : Bytes) (n : Int) (e : Bytes) : Prop :=
  ∃ di se s ae ge junk junk' par, El 0x30 (di ++ (se ++ s)) e ∧ El 0x30 (ae ++ (ge ++ junk)) di ∧
    AlgEl [1, 3, 14, 3, 2, 26] par ae ∧ El 0x04 digest ge ∧ El 0x04 salt se ∧
    ((∃ ne, s = ne ++ junk' ∧ Int64El n ne) ∨ (n = 1 ∧ s = junk' ∧ Goes s ∧ s.head? ≠ some 0x02))

/-- The safe in the ContentInfo `e` has the octets `d`, in the clear or encrypted (EncryptedData version 0). -/
def SafeIs (P : P12.Prims) (pw e d : Bytes) : Prop :=
  ∃ o c, ContentInfoEl o c e ∧
    ((o = [1, 2, 840, 113549, 1, 7, 1] ∧ El 0x04 d c) ∨
     (o = [1, 2, 840, 113549, 1, 7, 6] ∧ ∃ ve ie te ae xe junk junk' t alg par enc,
        El 0x30 (ve ++ (ie ++ junk)) c ∧ Int64El 0 ve ∧ El 0x30 (te ++ (ae ++ (xe ++ junk'))) ie ∧ OidEl t te ∧
        AlgEl alg par ae ∧ El 0x80 enc xe ∧ PbeEncrypted P pw alg par enc d))

/-- A SafeBag: type, octets inside the explicit tag of the value, attributes with the contents of their value. -/
structure Bag where
  id : List Nat
  value : Bytes
  attrs : List (List Nat × Bytes)

/-- PKCS12Attribute: type and one element (a SET by the standard). -/
def AttrEl (a : List Nat × Bytes) (e : Bytes) : Prop :=
  ∃ oe ve junk, El 0x30 (oe ++ (ve ++ junk)) e ∧ OidEl a.1 oe ∧ Whole a.2 ve

/-- SafeBag (RFC 7292 4.2). The value has an explicit tag, constructed or empty, that may not be the end of the bag if it is
empty; the attributes may be missing; something may follow. -/
def BagEl (b : Bag) (e : Bytes) : Prop :=
  ∃ oe ce s junk, El 0x30 (oe ++ (ce ++ s)) e ∧ OidEl b.id oe ∧
    ((El 0xa0 b.value ce ∧ b.value ++ s ≠ []) ∨ (b.value = [] ∧ El 0x80 [] ce ∧ s ≠ [])) ∧
    ((∃ se body, s = se ++ junk ∧ El 0x31 body se ∧ Many AttrEl b.attrs body) ∨
      (b.attrs = [] ∧ s = junk ∧ Goes s ∧ s.head? ≠ some 0x31))

/-- A SafeContents holding the bags. -/
def BagsEl (bs : List Bag) (e : Bytes) : Prop := ∃ body, El 0x30 body e ∧ Many BagEl bs body

/-- `data` is a PFX (RFC 7292 4), to the last octet, of version 3 with the bags `bags`, for the encoded password `pw`: its
MAC over the authenticated safe is right, and it has exactly two safes. `pw'` is the password in effect: `pw`, but
for the empty password (`pw` is 00 00) with which the MAC is wrong it is the absent one. -/
def PfxDer (P : P12.Prims) (data pw : Bytes) (bags : List Bag) (pw' : Bytes) : Prop :=
  ∃ ve ce me junk c auth digest salt n e1 e2 d1 d2 b1 b2,
    El 0x30 (ve ++ (ce ++ (me ++ junk))) data ∧ Int64El 3 ve ∧
    ContentInfoEl [1, 2, 840, 113549, 1, 7, 1] c ce ∧ Whole auth c ∧ MacEl digest salt n me ∧
    digest = mac P salt pw' n auth ∧ (pw' = pw ∨ (pw = [0, 0] ∧ pw' = [] ∧ digest ≠ mac P salt pw n auth)) ∧
    El 0x30 (e1 ++ e2) auth ∧ SafeIs P pw' e1 d1 ∧ SafeIs P pw' e2 d2 ∧ BagsEl b1 d1 ∧ BagsEl b2 d2 ∧ bags = b1 ++ b2

/-- CertBag (RFC 7292 4.2.3) with an X.509 certificate `raw`. -/
def CertBagDer (raw v : Bytes) : Prop :=
  ∃ oe s junk, El 0x30 (oe ++ s) v ∧ OidEl [1, 2, 840, 113549, 1, 9, 22, 1] oe ∧ Expl 0xa0 (El 0x04 raw) s junk

/-- EncryptedPrivateKeyInfo (RFC 5208 6) holding the private key `k` under the password. -/
def KeyBagDer (P : P12.Prims) (edPub : Bytes → Bytes) (pw : Bytes) (k : PrivKey) (v : Bytes) : Prop :=
  ∃ ae de junk alg par enc pk o par' key, El 0x30 (ae ++ (de ++ junk)) v ∧ AlgEl alg par ae ∧ El 0x04 enc de ∧
    PbeEncrypted P pw alg par enc pk ∧ AnyEl pk ∧ Pkcs8Der pk o par' key ∧ Pkcs8KeyIs edPub o par' key k

def certBagId : List Nat := [1, 2, 840, 113549, 1, 12, 10, 1, 3]
def keyBagId : List Nat := [1, 2, 840, 113549, 1, 12, 10, 1, 2]

/-- What the bags hold, in order: for a certificate bag the certificate, for a key bag the key; other bags are skipped. -/
inductive Contents {κ : Type} (P : P12.Prims) (edPub : Bytes → Bytes) (parseCerts : Bytes → Res (List κ)) (pw : Bytes) :
    List Bag → List (κ ⊕ PrivKey) → Prop
  | nil : Contents P edPub parseCerts pw [] []
  | cert (b : Bag) (bs : List Bag) (l : List (κ ⊕ PrivKey)) (raw : Bytes) (c : κ) : b.id = certBagId →
      CertBagDer raw b.value → parseCerts raw = .ok [c] → Contents P edPub parseCerts pw bs l →
      Contents P edPub parseCerts pw (b :: bs) (.inl c :: l)
  | key (b : Bag) (bs : List Bag) (l : List (κ ⊕ PrivKey)) (k : PrivKey) : b.id = keyBagId →
      KeyBagDer P edPub pw k b.value → Contents P edPub parseCerts pw bs l →
      Contents P edPub parseCerts pw (b :: bs) (.inr k :: l)
  | other (b : Bag) (bs : List Bag) (l : List (κ ⊕ PrivKey)) : b.id ≠ certBagId → b.id ≠ keyBagId →
      Contents P edPub parseCerts pw bs l → Contents P edPub parseCerts pw (b :: bs) l

/-- The hexadecimal digits. -/
def hexDigits : Bytes :=
  (['0', '1', '2', '3', '4', '5', '6', '7', '8', '9', 'a', 'b', 'c', 'd', 'e', 'f'].map fun c => UInt8.ofNat c.toNat)

/-- Lower-case hexadecimal. -/
def hex (b : Bytes) : Bytes := b.flatMap fun x => [hexDigits.getD (x.toNat / 16) 0, hexDigits.getD (x.toNat % 16) 0]

/-- The header of a PEM block for an attribute: friendly name and CSP name are BMPStrings (whatever their tag says), the
local key id is an OCTET STRING shown in hexadecimal. -/
def AttrText (a : List Nat × Bytes) (h : String × Bytes) : Prop :=
  (a.1 = [1, 2, 840, 113549, 1, 9, 20] ∧ h.1 = "friendlyName" ∧ ∃ s, Whole s a.2 ∧ StringValue 30 s h.2) ∨
  (a.1 = [1, 2, 840, 113549, 1, 9, 21] ∧ h.1 = "localKeyId" ∧ ∃ i, El 0x04 i a.2 ∧ h.2 = hex i) ∨
  (a.1 = [1, 3, 6, 1, 4, 1, 311, 17, 1] ∧ h.1 = "Microsoft CSP Name" ∧ ∃ s, Whole s a.2 ∧ StringValue 30 s h.2)

/-- A PEM block; the headers as a map. -/
structure Pem where
  type : String
  headers : String → Option Bytes
  bytes : Bytes

/-- The headers are those of the attributes; of two attributes of the same type the last one counts. -/
def HeadersAre (as : List (List Nat × Bytes)) (headers : String → Option Bytes) : Prop :=
  ∃ kvs, List.Forall₂ AttrText as kvs ∧ ∀ k, headers k = ((kvs.filter (·.1 = k)).getLast?).map (·.2)

/-- The PEM block for a bag: a certificate as it is, an RSA key as PKCS #1, an ECDSA key as SEC 1. There is none for other
keys and other bags, nor for a bag with an attribute that has no text. -/
def BlockIs (P : P12.Prims) (edPub : Bytes → Bytes) (pw : Bytes) (b : Bag) (p : Pem) : Prop :=
  HeadersAre b.attrs p.headers ∧
  ((b.id = certBagId ∧ p.type = "CERTIFICATE" ∧ CertBagDer p.bytes b.value) ∨
   (b.id = keyBagId ∧ p.type = "PRIVATE KEY" ∧
      ((∃ k, KeyBagDer P edPub pw (.rsa k) b.value ∧ X509.marshalPKCS1PrivateKey k = .ok p.bytes) ∨
       (∃ k, KeyBagDer P edPub pw (.ecdsa k) b.value ∧ X509.marshalECPrivateKey k = .ok p.bytes))))

end MCrypto.P12Spec
