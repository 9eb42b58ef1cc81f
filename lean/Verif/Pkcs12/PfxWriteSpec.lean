import Verif.Pkcs12.PfxGrammar
import Verif.X509.KeyWriteSpec
/-
Specification of the octets `pkcs12.Encode` writes (RFC 7292 4, RFC 5208 6, RFC 2315 7 and 13). In contrast to the grammar
of PfxGrammar.lean, which says what is accepted, nothing is left open here: for given arguments and salts there is at most
one such octet string.
-/
namespace MCrypto.P12Spec
open MCrypto MCrypto.Dg MCrypto.X509Spec
open MCrypto.X509 (PrivKey)

/-- An algorithm identifier with pkcs-12PbeParams (RFC 7292 C): the salt and 2048 iterations. -/
def PbeAlgOut (o : List Nat) (salt e : Bytes) : Prop :=
  ∃ par se ne, AlgOut o par e ∧ El 0x30 (se ++ ne) par ∧ El 0x04 salt se ∧ IntEl 2048 ne

/-- EncryptedPrivateKeyInfo (RFC 5208 6): the PrivateKeyInfo of the key, encrypted with 3-key Triple DES. -/
def KeyValueOut (P : P12.Prims) (key : PrivKey) (pw salt v : Bytes) : Prop :=
  ∃ ae ce m c, El 0x30 (ae ++ ce) v ∧ PbeAlgOut [1, 2, 840, 113549, 1, 12, 1, 3] salt ae ∧ El 0x04 c ce ∧ Pkcs8Out key m ∧
    Encrypts (tdesE P salt pw 2048) (iv P salt pw 2048) m c

/-- CertBag (RFC 7292 4.2.3) with an X.509 certificate. -/
def CertValueOut (raw v : Bytes) : Prop :=
  ∃ oe xe de, El 0x30 (oe ++ xe) v ∧ OidEl [1, 2, 840, 113549, 1, 9, 22, 1] oe ∧ El 0xa0 de xe ∧ El 0x04 raw de

/-- The attribute localKeyID: the SHA-1 of the leaf certificate. -/
def LocalKeyIdOut (P : P12.Prims) (leaf e : Bytes) : Prop :=
  ∃ oe se de, El 0x30 (oe ++ se) e ∧ OidEl [1, 2, 840, 113549, 1, 9, 21] oe ∧ El 0x31 de se ∧ El 0x04 (P.sha1 leaf) de

/-- SafeBag (RFC 7292 4.2): type, value, the set of the attributes (present even if empty). -/
def BagOut (id : List Nat) (v attrs e : Bytes) : Prop :=
  ∃ oe ve se, El 0x30 (oe ++ (ve ++ se)) e ∧ OidEl id oe ∧ El 0xa0 v ve ∧ El 0x31 attrs se

/-- The bag of a further certificate, without attributes. -/
def CaBagOut (raw e : Bytes) : Prop := ∃ v, CertValueOut raw v ∧ BagOut certBagId v [] e

/-- The certificate bags: the leaf with its localKeyID, then the further certificates in order. -/
def CertBagsOut (P : P12.Prims) (leaf : Bytes) (cas : List Bytes) (d : Bytes) : Prop :=
  ∃ a v l rest, El 0x30 (l ++ rest) d ∧ LocalKeyIdOut P leaf a ∧ CertValueOut leaf v ∧ BagOut certBagId v a l ∧
    Many CaBagOut cas rest

/-- The single key bag, with the localKeyID of the leaf. -/
def KeyBagsOut (P : P12.Prims) (key : PrivKey) (leaf pw salt d : Bytes) : Prop :=
  ∃ a v k, El 0x30 k d ∧ LocalKeyIdOut P leaf a ∧ KeyValueOut P key pw salt v ∧ BagOut keyBagId v a k

/-- ContentInfo (RFC 2315 7). -/
def ContentOut (o : List Nat) (c e : Bytes) : Prop := ∃ oe ce, El 0x30 (oe ++ ce) e ∧ OidEl o oe ∧ El 0xa0 c ce

/-- EncryptedData (RFC 2315 13): version 0, `d` encrypted with 40-bit RC2 in an implicit tag. -/
def EncryptedOut (P : P12.Prims) (pw salt d c : Bytes) : Prop :=
  ∃ ve ie te ae xe x, El 0x30 (ve ++ ie) c ∧ IntEl 0 ve ∧ El 0x30 (te ++ (ae ++ xe)) ie ∧
    OidEl [1, 2, 840, 113549, 1, 7, 1] te ∧ PbeAlgOut [1, 2, 840, 113549, 1, 12, 1, 6] salt ae ∧ El 0x80 x xe ∧
    Encrypts (rc2E P salt pw 2048) (iv P salt pw 2048) d x

/-- AuthenticatedSafe (RFC 7292 4.1): the certificates encrypted, then the key bag in the clear (its key is encrypted). -/
def AuthOut (P : P12.Prims) (key : PrivKey) (leaf : Bytes) (cas : List Bytes) (pw s1 s2 auth : Bytes) : Prop :=
  ∃ d1 d2 c1 c2 e1 e2, El 0x30 (e1 ++ e2) auth ∧
    CertBagsOut P leaf cas d1 ∧ EncryptedOut P pw s2 d1 c1 ∧ ContentOut [1, 2, 840, 113549, 1, 7, 6] c1 e1 ∧
    KeyBagsOut P key leaf pw s1 d2 ∧ El 0x04 d2 c2 ∧ ContentOut [1, 2, 840, 113549, 1, 7, 1] c2 e2

/-- MacData (RFC 7292 4): SHA-1 without parameters, the digest, the salt; the iteration count 1 is left out. -/
def MacOut (digest salt e : Bytes) : Prop :=
  ∃ di ae ge se, El 0x30 (di ++ se) e ∧ El 0x30 (ae ++ ge) di ∧ AlgOut [1, 3, 14, 3, 2, 26] [] ae ∧ El 0x04 digest ge ∧
    El 0x04 salt se

/-- PFX (RFC 7292 4): version 3, the authenticated safe, and its MAC with one iteration. -/
def PfxOut (P : P12.Prims) (key : PrivKey) (leaf : Bytes) (cas : List Bytes) (pw s1 s2 s3 w : Bytes) : Prop :=
  ∃ auth ve ce me c, El 0x30 (ve ++ (ce ++ me)) w ∧ IntEl 3 ve ∧ ContentOut [1, 2, 840, 113549, 1, 7, 1] c ce ∧
    El 0x04 auth c ∧ AuthOut P key leaf cas pw s1 s2 auth ∧ MacOut (mac P s3 pw 1 auth) s3 me

end MCrypto.P12Spec
