import Verif.Props.KeyWrite
import Verif.Props.Sm2Sign
/-
C130: how long signatures and keys of SM2 are, and the exact octets of the keys.
-/
namespace MCrypto.Props
open MCrypto MCrypto.Asn1 MCrypto.X509 MCrypto.X509Spec MCrypto.Dg MCrypto.Sm2 MCrypto.Curve

/-! ### Signatures -/

theorem encInt_bounds {r : Int} (h1 : 1 ≤ r) (h2 : r ≤ Curve.N - 1) : 1 ≤ (Der.encInt r).length ∧ (Der.encInt r).length ≤ 33 := by
  have h3 := encInt_length_le r
  have h4 := (byteLen_le_iff _ _).mpr (pow_bound r ⟨h1, h2⟩)
  refine ⟨?_, by omega⟩
  cases h : Der.encInt r with
  | nil =>
    exfalso
    unfold Der.encInt at h
    rw [if_neg (by omega), if_neg (by omega)] at h
    dsimp only at h
    rcases ite_or h with h | ⟨-, h⟩
    · cases h
    · have : ofBytes (toBytes r.toNat) = r.toNat := ofBytes_toBytes _
      rw [h] at this
      simp [ofBytes] at this
      omega
  | cons a l => simp

theorem short_tlv (t : Der.Tag) {b : Bytes} (h : b.length < 128) : Der.tlv t b = t :: UInt8.ofNat b.length :: b := by
  unfold Der.tlv Der.lenOctets
  rw [if_pos (by omega)]; rfl

theorem sig_size {sig : Bytes} {r s : Int} (hr : 1 ≤ r ∧ r ≤ Curve.N - 1) (hs : 1 ≤ s ∧ s ≤ Curve.N - 1) (h : unmarshalSign sig = .ok (r, s)) :
    8 ≤ sig.length ∧ sig.length ≤ 72 := by
  obtain ⟨rfl, -⟩ := (unmarshalSign_iff _ _ _).mp h
  have h1 := encInt_bounds hr.1 hr.2
  have h2 := encInt_bounds hs.1 hs.2
  have e1 := congrArg List.length (short_tlv Der.tagINTEGER (b := Der.encInt r) (by omega))
  have e2 := congrArg List.length (short_tlv Der.tagINTEGER (b := Der.encInt s) (by omega))
  simp only [List.length_cons] at e1 e2
  have e3 := congrArg List.length (short_tlv Der.tagSEQUENCE (b := Der.tlv Der.tagINTEGER (Der.encInt r) ++ Der.tlv Der.tagINTEGER (Der.encInt s))
    (by rw [List.length_append]; omega))
  simp only [List.length_cons, List.length_append] at e3
  omega

/-- **C130** A signature that `Sign` or `SignDigest` returns has 8 to 72 octets. -/
theorem C130_made (rd : Reader) (priv : PrivateKey) (msg uid digest sig : Bytes)
    (h : sign rd priv msg uid = .ok sig ∨ signDigest rd priv digest = .ok sig) : 8 ≤ sig.length ∧ sig.length ≤ 72 := by
  rcases h with h | h
  · obtain ⟨r, s, rd', h1, h2⟩ := sign_cases h
    have hv := C06_sign_valid rd priv (priv.pub.sm3Digest msg uid) r s rd' h1
    exact sig_size hv.1 hv.2.1 h2
  · unfold signDigest at h
    split at h
    · rename_i r s rd' h1
      have hv := C06_sign_valid rd priv digest r s rd' h1
      obtain ⟨b, g1, g2, g3⟩ := C10_roundtrip r s 32 (by decide) (pow_bound r hv.1) (pow_bound s hv.2.1)
      rw [g1] at h
      obtain rfl := Res.ok.inj h
      exact sig_size hv.1 hv.2.1 g3
    · cases h
    · cases h

/-- **C130** No other length is accepted by `Verify` or `VerifyDigest`. -/
theorem C130_accepted (pub : PublicKey) (msg uid digest sig : Bytes)
    (h : verify pub msg uid sig = true ∨ verifyDigest pub digest sig = true) : 8 ≤ sig.length ∧ sig.length ≤ 72 := by
  rcases h with h | h
  · unfold verify at h
    split at h
    · rename_i r s h1
      unfold verifyRS at h
      rcases ite_or h with g | ⟨hr, g⟩
      · cases g
      rcases ite_or g with g | ⟨hs, -⟩
      · cases g
      exact sig_size (by omega) (by omega) h1
    · cases h
  · unfold verifyDigest at h
    split at h
    · rename_i r s h1
      unfold verifyDigestRS at h
      rcases ite_or h with g | ⟨hr, g⟩
      · cases g
      rcases ite_or g with g | ⟨hs, -⟩
      · cases g
      exact sig_size (by omega) (by omega) h1
    · cases h

/-! ### Keys -/

theorem el_short (t : UInt8) {b : Bytes} (h : b.length < 128) : El t b (t :: UInt8.ofNat b.length :: b) := by
  have h2 : (2 : Nat) ^ 31 < 256 ^ 127 := by decide
  refine ⟨(DerSpec.isTLV_iff _ _ _ (by omega)).mpr (short_tlv t h).symm, by omega⟩

theorem el_mid (t : UInt8) {b : Bytes} (h1 : 128 ≤ b.length) (h : b.length < 256) : El t b (t :: 0x81 :: UInt8.ofNat b.length :: b) := by
  have h2 : (2 : Nat) ^ 31 < 256 ^ 127 := by decide
  refine ⟨(DerSpec.isTLV_iff _ _ _ (by omega)).mpr ?_, by omega⟩
  have e : Der.lenOctets b.length = [0x81, UInt8.ofNat b.length] := by
    have : ∀ n : Fin 256, 128 ≤ n.val → Der.lenOctets n.val = [0x81, UInt8.ofNat n.val] := by decide +kernel
    exact this ⟨b.length, h⟩ h1
  unfold Der.tlv
  rw [e]; rfl

theorem fixed_be {n : Nat} (h : n < 256 ^ 32) : Fixed 32 n (beBytes 32 n) := ⟨beBytes_length _ _, ofBytes_beBytes_of_lt h⟩

/-- id-ecPublicKey and sm2p256v1 as an AlgorithmIdentifier. -/
def sm2AlgOctets : Bytes := [0x30, 0x13, 0x06, 0x07, 0x2a, 0x86, 0x48, 0xce, 0x3d, 0x02, 0x01, 0x06, 0x08, 0x2a, 0x81, 0x1c, 0xcf, 0x55, 0x01, 0x82, 0x2d]

theorem oidEl_of {o : List Nat} {b e : Bytes} (he : e = 6 :: UInt8.ofNat b.length :: b) (hb : b.length < 128) (ho : decOid b = some o) : OidEl o e :=
  ⟨b, by rw [he]; exact el_short 6 hb, (isOid_iff _ _).mpr ho⟩

theorem sm2_curveEl : OidEl [1, 2, 156, 10197, 1, 301] [0x06, 0x08, 0x2a, 0x81, 0x1c, 0xcf, 0x55, 0x01, 0x82, 0x2d] :=
  oidEl_of (b := [0x2a, 0x81, 0x1c, 0xcf, 0x55, 0x01, 0x82, 0x2d]) rfl (by decide) (by decide +kernel)

theorem sm2_alg : AlgOut [1, 2, 840, 10045, 2, 1] [0x06, 0x08, 0x2a, 0x81, 0x1c, 0xcf, 0x55, 0x01, 0x82, 0x2d] sm2AlgOctets :=
  ⟨[0x06, 0x07, 0x2a, 0x86, 0x48, 0xce, 0x3d, 0x02, 0x01], el_short 0x30 (by decide),
    oidEl_of (b := [0x2a, 0x86, 0x48, 0xce, 0x3d, 0x02, 0x01]) rfl (by decide) (by decide +kernel)⟩

/-- The uncompressed point. -/
def pointOctets (x y : Nat) : Bytes := 4 :: (beBytes 32 x ++ beBytes 32 y)

theorem pointOctets_length (x y : Nat) : (pointOctets x y).length = 65 := by simp [pointOctets]

theorem sm2_point {x y : Nat} (hx : x < 256 ^ 32) (hy : y < 256 ^ 32) : PointOctets sm2p256 x y (pointOctets x y) :=
  ⟨_, _, rfl, fixed_be hx, fixed_be hy⟩

theorem sm2_params {k : Sm2.PublicKey} (h : k.curve = .sm2p256v1) : params k.curve = some sm2p256 ∧ curveOid k.curve [1, 2, 156, 10197, 1, 301] := by
  rw [h]
  exact ⟨rfl, by unfold curveOid; simp [SM2P256]⟩

/-- **C130** The SubjectPublicKeyInfo of an SM2 key: always 91 octets, 27 fixed ones and the two coordinates. -/
theorem C130_spki (k : Sm2.PublicKey) (hc : k.curve = .sm2p256v1) (hx : k.x < 256 ^ 32) (hy : k.y < 256 ^ 32) :
    marshalPKIXPublicKey (.sm2 k) = .ok ([0x30, 0x59, 0x30, 0x13, 0x06, 0x07, 0x2a, 0x86, 0x48, 0xce, 0x3d, 0x02, 0x01, 0x06, 0x08, 0x2a, 0x81, 0x1c,
      0xcf, 0x55, 0x01, 0x82, 0x2d, 0x03, 0x42, 0x00, 0x04] ++ (beBytes 32 k.x ++ beBytes 32 k.y)) := by
  obtain ⟨hp, ho⟩ := sm2_params hc
  rw [C110_pkix _ _ (by simp)]
  have hl := pointOctets_length k.x k.y
  have b1 : El 0x03 (0 :: pointOctets k.x k.y) (0x03 :: 0x42 :: 0 :: pointOctets k.x k.y) := by
    have := el_short 0x03 (b := 0 :: pointOctets k.x k.y) (by simp [hl])
    simpa [hl] using this
  have b2 := el_short 0x30 (b := sm2AlgOctets ++ (0x03 :: 0x42 :: 0 :: pointOctets k.x k.y)) (by simp [hl, sm2AlgOctets])
  have e : (sm2AlgOctets ++ (0x03 :: 0x42 :: 0 :: pointOctets k.x k.y)).length = 0x59 := by simp [hl, sm2AlgOctets]
  rw [e] at b2
  exact ⟨pointOctets k.x k.y, _, _, _, _, b2, sm2_alg, b1, rfl, ⟨_, ho, sm2_curveEl⟩, sm2p256, hp, sm2_point hx hy⟩

/-- The octets of the ECPrivateKey of an SM2 key. -/
def sm2Sec1 (d x y : Nat) : Bytes :=
  [0x30, 0x77, 0x02, 0x01, 0x01, 0x04, 0x20] ++ (beBytes 32 d ++ ([0xa0, 0x0a, 0x06, 0x08, 0x2a, 0x81, 0x1c, 0xcf, 0x55, 0x01, 0x82, 0x2d,
    0xa1, 0x44, 0x03, 0x42, 0x00] ++ pointOctets x y))

theorem sm2Sec1_length (d x y : Nat) : (sm2Sec1 d x y).length = 121 := by simp [sm2Sec1, pointOctets_length]

theorem byteLen_N : byteLen Curve.N = 32 := by decide +kernel

theorem sm2_ecPrivOut (k : Sm2.PrivateKey) (hc : k.pub.curve = .sm2p256v1) (hd : k.d < 256 ^ 32) (hx : k.pub.x < 256 ^ 32) (hy : k.pub.y < 256 ^ 32) :
    EcPrivOut k (some [1, 2, 156, 10197, 1, 301]) (sm2Sec1 k.d k.pub.x k.pub.y) := by
  obtain ⟨hp, ho⟩ := sm2_params hc
  have hl := pointOctets_length k.pub.x k.pub.y
  have b1 : El 0x03 (0 :: pointOctets k.pub.x k.pub.y) (0x03 :: 0x42 :: 0 :: pointOctets k.pub.x k.pub.y) := by
    have := el_short 0x03 (b := 0 :: pointOctets k.pub.x k.pub.y) (by simp [hl])
    simpa [hl] using this
  have b2 : El 0xa1 (0x03 :: 0x42 :: 0 :: pointOctets k.pub.x k.pub.y) (0xa1 :: 0x44 :: 0x03 :: 0x42 :: 0 :: pointOctets k.pub.x k.pub.y) := by
    have := el_short 0xa1 (b := 0x03 :: 0x42 :: 0 :: pointOctets k.pub.x k.pub.y) (by simp [hl])
    simpa [hl] using this
  have b3 : El 0xa0 [0x06, 0x08, 0x2a, 0x81, 0x1c, 0xcf, 0x55, 0x01, 0x82, 0x2d]
      [0xa0, 0x0a, 0x06, 0x08, 0x2a, 0x81, 0x1c, 0xcf, 0x55, 0x01, 0x82, 0x2d] := el_short 0xa0 (by decide)
  have b4 : El 0x04 (beBytes 32 k.d) (0x04 :: 0x20 :: beBytes 32 k.d) := by
    have := el_short 0x04 (b := beBytes 32 k.d) (by simp)
    simpa using this
  have b5 : IntEl 1 [2, 1, 1] := ⟨[1], el_short 2 (by decide), (DerSpec.isInt_iff _ _).mpr (by decide)⟩
  have b6 := el_short 0x30 (b := [2, 1, 1] ++ ((0x04 :: 0x20 :: beBytes 32 k.d) ++ ([0xa0, 0x0a, 0x06, 0x08, 0x2a, 0x81, 0x1c, 0xcf, 0x55, 0x01, 0x82, 0x2d] ++
    (0xa1 :: 0x44 :: 0x03 :: 0x42 :: 0 :: pointOctets k.pub.x k.pub.y)))) (by simp [hl])
  have e : ([2, 1, 1] ++ ((0x04 :: 0x20 :: beBytes 32 k.d) ++ ([0xa0, 0x0a, 0x06, 0x08, 0x2a, 0x81, 0x1c, 0xcf, 0x55, 0x01, 0x82, 0x2d] ++
    (0xa1 :: 0x44 :: 0x03 :: 0x42 :: 0 :: pointOctets k.pub.x k.pub.y))) : Bytes).length = 0x77 := by simp [hl]
  rw [e] at b6
  refine ⟨sm2p256, _, _, _, _, _, _, _, hp, b6, b5, b4, ?_, ⟨_, b3, sm2_curveEl⟩, b2, b1, sm2_point hx hy⟩
  rw [show byteLen sm2p256.n = 32 from byteLen_N]
  exact fixed_be hd

/-- **C130** The SEC 1 form of an SM2 private key: always 121 octets, in which only the 32 octets of D and the 64 of the point vary. -/
theorem C130_sec1 (k : Sm2.PrivateKey) (hc : k.pub.curve = .sm2p256v1) (hd : k.d < 256 ^ 32) (hx : k.pub.x < 256 ^ 32) (hy : k.pub.y < 256 ^ 32) :
    marshalECPrivateKey k = .ok (sm2Sec1 k.d k.pub.x k.pub.y) :=
  (C110_sec1 _ _).mpr ⟨_, (sm2_params hc).2, sm2_ecPrivOut k hc hd hx hy⟩

/-- **C130** The PKCS#8 form of an SM2 private key: always 150 octets. -/
theorem C130_pkcs8 (k : Sm2.PrivateKey) (hc : k.pub.curve = .sm2p256v1) (hd : k.d < 256 ^ 32) (hx : k.pub.x < 256 ^ 32) (hy : k.pub.y < 256 ^ 32) :
    marshalPKCS8PrivateKey (.sm2 k) = .ok ([0x30, 0x81, 0x93, 0x02, 0x01, 0x00, 0x30, 0x13, 0x06, 0x07, 0x2a, 0x86, 0x48, 0xce, 0x3d, 0x02, 0x01,
      0x06, 0x08, 0x2a, 0x81, 0x1c, 0xcf, 0x55, 0x01, 0x82, 0x2d, 0x04, 0x79] ++ sm2Sec1 k.d k.pub.x k.pub.y) := by
  have hl := sm2Sec1_length k.d k.pub.x k.pub.y
  rw [C110_pkcs8 _ _ (by simp [hl]) (by intro r h; cases h)]
  have b1 : El 0x04 (sm2Sec1 k.d k.pub.x k.pub.y) (0x04 :: 0x79 :: sm2Sec1 k.d k.pub.x k.pub.y) := by
    have := el_short 0x04 (b := sm2Sec1 k.d k.pub.x k.pub.y) (by omega)
    simpa [hl] using this
  have b2 : IntEl 0 [2, 1, 0] := ⟨[0], el_short 2 (by decide), (DerSpec.isInt_iff _ _).mpr (by decide)⟩
  have e : ([2, 1, 0] ++ (sm2AlgOctets ++ (0x04 :: 0x79 :: sm2Sec1 k.d k.pub.x k.pub.y))).length = 0x93 := by simp [hl, sm2AlgOctets]
  have b3 := el_mid 0x30 (b := [2, 1, 0] ++ (sm2AlgOctets ++ (0x04 :: 0x79 :: sm2Sec1 k.d k.pub.x k.pub.y))) (by rw [e]; decide) (by rw [e]; decide)
  rw [e] at b3
  exact ⟨_, _, _, _, _, _, b3, b2, sm2_alg, b1, rfl, ⟨_, (sm2_params hc).2, sm2_curveEl⟩, sm2_ecPrivOut k hc hd hx hy⟩

/-- The hypotheses are met by every key that `GenerateKey` makes. -/
theorem C130_generated (rd rd' : Reader) (k : Sm2.PrivateKey) (h : Sm2.generateKey rd = .ok (k, rd')) :
    k.pub.curve = .sm2p256v1 ∧ k.d < 256 ^ 32 ∧ k.pub.x < 256 ^ 32 ∧ k.pub.y < 256 ^ 32 := by
  have hN := Curve.N_lt
  have hP : Curve.P < 256 ^ 32 := by decide +kernel
  rcases Sm2.C23_generateKey rd with ⟨j, key, _, h2, _, h4, _, h6, h7⟩ | ⟨_, h2⟩
  · rw [h2] at h
    simp only [Res.ok.injEq, Prod.mk.injEq] at h
    obtain ⟨rfl, -⟩ := h
    unfold Sm2Spec.KeyPair Sm2Spec.Represents at h6
    have := Rep.lt h6
    dsimp only at this
    exact ⟨h7, by omega, by omega, by omega⟩
  · rw [h2] at h; cases h

/-- Keys of every number below the order are generated, and their PKCS#8 form can be given. -/
example : ∃ rd k rd', Sm2.generateKey rd = .ok (k, rd') ∧ k.d = 5 ∧ ∃ w, marshalPKCS8PrivateKey (.sm2 k) = .ok w ∧ w.length = 150 := by
  obtain ⟨rd, k, rd', h1, h2⟩ := Sm2.C23_surjective 5 (by decide +kernel)
  obtain ⟨a, b, c, d⟩ := C130_generated rd rd' k h1
  exact ⟨rd, k, rd', h1, h2, _, C130_pkcs8 k a b c d, by simp [sm2Sec1_length]⟩

/-- Both bounds of the length of a signature are reached by pairs in the range. -/
example : (∃ b, marshalSign 1 1 = .ok b ∧ b.length = 8) ∧
    (∃ b, marshalSign (Curve.N - 1 : Nat) (Curve.N - 1 : Nat) = .ok b ∧ b.length = 72) := by
  have h1 : (match marshalSign 1 1 with | .ok b => b.length | _ => 0) = 8 := by decide +kernel
  have h2 : (match marshalSign (Curve.N - 1 : Nat) (Curve.N - 1 : Nat) with | .ok b => b.length | _ => 0) = 72 := by decide +kernel
  constructor
  · cases h : marshalSign 1 1 with
    | ok b => rw [h] at h1; exact ⟨b, rfl, h1⟩
    | err e => rw [h] at h1; cases h1
    | panic => rw [h] at h1; cases h1
  · cases h : marshalSign (Curve.N - 1 : Nat) (Curve.N - 1 : Nat) with
    | ok b => rw [h] at h2; exact ⟨b, rfl, h2⟩
    | err e => rw [h] at h2; cases h2
    | panic => rw [h] at h2; cases h2

end MCrypto.Props
