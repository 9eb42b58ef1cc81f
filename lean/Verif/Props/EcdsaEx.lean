import Verif.Props.EcdsaDocs
/-
C138: signatures are not unique; a published example.
-/
namespace MCrypto.Props
open MCrypto MCrypto.Curve MCrypto.X509 MCrypto.X509Spec MCrypto.Ecdsa MCrypto.EcdsaSpec

/-- **C138** Signatures are not unique: for every accepted signature (r, s) under a key pair the encoding of (r, n - s) is another one, accepted for the same
digest. So nobody can tell documents apart, or revoke them, by their signature. -/
theorem C138_second_signature {key : Sm2.PrivateKey} (hk : IsKeyPair key) (h0 : 0 < key.d) {c : CurveParams}
    (hc : params key.pub.curve = some c) (digest sig : Bytes) (h : verifyASN1 key.pub digest sig = true) :
    ∃ r s sig', DerSpec.IsSig sig r s ∧ DerSpec.IsSig sig' r (c.n - s) ∧ sig' ≠ sig ∧ verifyASN1 key.pub digest sig' = true := by
  obtain ⟨hon, c', hf, G, hc', hl, hG, hQ⟩ := keyPair_point hk h0
  rw [hc] at hc'
  obtain rfl := Option.some.inj hc'
  obtain ⟨hlen, c', _, Q, r, s, hc', hat, h1, h2⟩ := (C138_verify_iff hon digest sig).mp h
  rw [hc] at hc'
  obtain rfl := Option.some.inj hc'
  obtain rfl : Q = key.d • G := Rep.eq_of_eq (coef_ne hl) ((at_iff _ _).mp hat).2 ((at_iff _ _).mp hQ).2
  obtain ⟨g0, hG'⟩ := (at_iff _ _).mp hG
  have hn0 : c.n • key.d • G = 0 := by
    rw [smul_smul, Nat.mul_comm, mul_smul, ← order_base hl g0 hG', addOrderOf_nsmul_eq_zero, nsmul_zero]
  have hv := valid_neg hl hn0 h2
  obtain ⟨hr, hs, -⟩ := h2
  have hsz := order_size hc
  obtain ⟨b, -, b1, b2⟩ := Sm2.C10_roundtrip r (c.n - s) 66 (by decide) (by omega) (by omega)
  have hb := (Sm2.C11_accepts_iff _ _ _).mp b2
  refine ⟨r, s, b, h1, b1, ?_, ?_⟩
  · rintro rfl
    have := (Sm2.C11_accepts_iff _ _ _).mpr ⟨h1, hlen⟩
    rw [b2] at this
    have e := (Prod.mk.inj (Res.ok.inj this)).2
    have h2n : 2 ∣ c.n := by omega
    have := (Nat.prime_dvd_prime_iff_eq Nat.prime_two hl.n_prime).mp h2n
    have := hl.two_lt_n
    omega
  · exact (C138_verify_iff hon digest b).mpr ⟨hb.2, c, ⟨hl.p_prime⟩, _, r, _, hc, hQ, b1, hv⟩

/-! ## Example: RFC 6979 A.2.5, P-256 with SHA-256, message "sample" -/

def exEcKey : Sm2.PrivateKey :=
  ⟨⟨P256, 0x60fed4ba255a9d31c961eb74c6356d68c049b8923b61fa6ce669622e60f29fb6, 0x7903fe1008b8bc99a41ae9e95628bc64f2f1b20c2d7e9f5177a3c294d4462299⟩,
    0xC9AFA9D845BA75166B5C215767B1D6934E50C3DB36E89B127B8A622B120F6721⟩

def exEcDigest : Bytes := [175, 43, 219, 225, 170, 155, 110, 193, 226, 173, 225, 214, 148, 244, 31, 199, 26, 131, 29, 2, 104, 233, 137, 21, 98, 17, 61, 138, 98, 173, 209, 191]

/-- The octets of k - 1. -/
def exEcStream : Bytes := [0, 0, 0, 0, 0, 0, 0, 0, 166, 227, 197, 125, 208, 26, 190, 144, 8, 101, 56, 57, 131, 85, 221, 76, 59, 23, 170, 135, 51, 130, 176, 242, 77, 97, 41, 73, 61, 138, 173, 95]

def exEcSig : Bytes := [48, 70, 2, 33, 0, 239, 212, 139, 42, 172, 182, 168, 253, 17, 64, 221, 156, 212, 94, 129, 214, 157, 44, 135, 123, 86, 170, 249, 145, 195, 77, 14, 168, 78, 175, 55, 22, 2, 33, 0, 247, 203, 28, 148, 45, 101, 124, 65, 212, 54, 199, 161, 182, 226, 159, 101, 243, 233, 0, 219, 185, 175, 244, 6, 77, 196, 171, 47, 132, 58, 205, 168]

def exEcSig2 : Bytes := [48, 69, 2, 33, 0, 239, 212, 139, 42, 172, 182, 168, 253, 17, 64, 221, 156, 212, 94, 129, 214, 157, 44, 135, 123, 86, 170, 249, 145, 195, 77, 14, 168, 78, 175, 55, 22, 2, 32, 8, 52, 227, 106, 210, 154, 131, 191, 43, 201, 56, 94, 73, 29, 96, 153, 200, 253, 249, 209, 237, 103, 170, 126, 165, 245, 31, 147, 120, 40, 87, 169]

example : (match sign exEcKey exEcStream exEcDigest with | .ok s => s == exEcSig | _ => false) = true := by decide +kernel
example : verifyASN1 exEcKey.pub exEcDigest exEcSig = true := by decide +kernel
example : verifyASN1 exEcKey.pub exEcDigest exEcSig2 = true := by decide +kernel
example : verifyASN1 exEcKey.pub (exEcDigest.set 31 0) exEcSig = false := by decide +kernel
example : (match sign exEcKey (exEcStream.take 39) exEcDigest with | .err _ => true | _ => false) = true := by decide +kernel

theorem exEcKey_pair : IsKeyPair exEcKey := ⟨p256, rfl, by decide +kernel, by decide +kernel⟩


/-- The hypotheses of the theorems above hold for it. -/
example : Signed exEcKey.pub exEcDigest exEcSig :=
  (C138_verify_iff (keyPair_point exEcKey_pair (by decide +kernel)).1 _ _).mp (by decide +kernel)

/-- A digest longer than the order: the leading bits count (P-224 with 32 octets, and with any change in the last four). -/
example : hashToInt p224 exEcDigest = ofBytes (exEcDigest.take 28) := by decide +kernel
example : hashToInt p521 (List.replicate 66 255 ++ [1]) = 2 ^ 521 - 1 := by decide +kernel

end MCrypto.Props
