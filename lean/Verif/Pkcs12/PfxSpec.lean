import Verif.Pkcs12.Pfx
import Verif.Pkcs12.CryptoSpec
/-
What the PKCS#12 container properties (C35-C39, C66) talk about, independently of the functions that decide it.
-/
namespace MCrypto.P12Spec
open MCrypto Asn1 P12 MCrypto.X509

/-- The PFX `data` opens under `password` with the effective password `pw'` and the safe bags `bags`:
version 3, content type `data`, exactly two safes, and the MAC over the authenticated safe is the standard's
MAC (RFC 7292 appendix B) under the effective password. The effective password is the given one; only for
the empty password (encoded 00 00), and only when the MAC does not fit it, is it the absent one. -/
structure Opens (P : Prims) (data password : Bytes) (bags : List SafeBag) (pw' : Bytes) : Prop where
  opened : ∃ (pfx : PfxPdu) (auth : RawValue) (ci1 ci2 : ContentInfo) (d1 d2 : Bytes) (b1 b2 : List SafeBag),
    unmarshalAll pfxPdu data = .ok pfx ∧ pfx.version = 3 ∧
    pfx.authSafe.contentType = [1, 2, 840, 113549, 1, 7, 1] ∧
    unmarshalAllRaw pfx.authSafe.content.bytes = .ok auth ∧
    pfx.mac.mac.algorithm.algorithm = [1, 3, 14, 3, 2, 26] ∧
    pfx.mac.mac.digest = mac P pfx.mac.macSalt pw' pfx.mac.iterations auth.bytes ∧
    (pw' = password ∨ (password = [0, 0] ∧ pw' = [] ∧
      pfx.mac.mac.digest ≠ mac P pfx.mac.macSalt password pfx.mac.iterations auth.bytes)) ∧
    unmarshalAll (seqOf contentInfo) auth.bytes = .ok [ci1, ci2] ∧
    safeData P ci1 pw' = .ok d1 ∧ unmarshalAll (seqOf safeBag) d1 = .ok b1 ∧
    safeData P ci2 pw' = .ok d2 ∧ unmarshalAll (seqOf safeBag) d2 = .ok b2 ∧
    bags = b1 ++ b2

/-- The contents of a bag. -/
inductive Item (κ : Type) where
  | cert (c : κ)
  | key (k : PrivKey)
  | other

/-- What a bag holds: one certificate, a private key encrypted under the password, or something else. -/
inductive Holds {κ : Type} (P : Prims) (edPub : Bytes → Bytes) (parseCerts : Bytes → Res (List κ)) (pw : Bytes)
    (b : SafeBag) : Item κ → Prop where
  | cert (c : κ) (raw : Bytes) (hid : b.id = [1, 2, 840, 113549, 1, 12, 10, 1, 3])
      (hd : decodeCertBag b.value.bytes = .ok raw) (hp : parseCerts raw = .ok [c]) : Holds P edPub parseCerts pw b (.cert c)
  | key (k : PrivKey) (hid : b.id = [1, 2, 840, 113549, 1, 12, 10, 1, 2])
      (hd : decodePkcs8ShroudedKeyBag P edPub b.value.bytes pw = .ok k) : Holds P edPub parseCerts pw b (.key k)
  | other (h3 : b.id ≠ [1, 2, 840, 113549, 1, 12, 10, 1, 3]) (h2 : b.id ≠ [1, 2, 840, 113549, 1, 12, 10, 1, 2]) :
      Holds P edPub parseCerts pw b .other

/-- The certificates among the items, in order. -/
def certs {κ : Type} : List (Item κ) → List κ
  | [] => []
  | .cert c :: l => c :: certs l
  | _ :: l => certs l

/-- The keys among the items, in order. -/
def keys {κ : Type} : List (Item κ) → List PrivKey
  | [] => []
  | .key k :: l => k :: keys l
  | _ :: l => keys l

end MCrypto.P12Spec
