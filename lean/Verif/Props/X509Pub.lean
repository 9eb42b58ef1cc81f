import Verif.Props.X509Keys
/-
C56: PKIX public keys; concrete cases for C53-C56.
-/
namespace MCrypto.X509
open MCrypto MCrypto.Curve MCrypto.Asn1 MCrypto.X509Spec
open MCrypto.Sm2 (CurveId)

theorem encTLV_seq (b : Bytes) : encTLV 0 true 16 b = Der.tlv Der.tagSEQUENCE b := rfl
theorem encTLV_int (b : Bytes) : encTLV 0 false 2 b = Der.tlv Der.tagINTEGER b := rfl
theorem encTLV_oid (b : Bytes) : encTLV 0 false 6 b = Der.tlv Der.tagOID b := rfl

theorem rightAlign_octets (b : Bytes) : rightAlign ⟨b, b.length * 8⟩ = b := by
  unfold rightAlign; rw [if_pos (by simp)]

theorem spki_marshal {alg : AlgId} {ab : Bytes} (ha : algId.enc alg = some ab) (key : Bytes)
    (hl : ab.length + key.length < 2 ^ 30) :
    ∃ e, marshal spki ⟨alg, ⟨key, 8 * key.length⟩⟩ = some e ∧ e.length ≤ ab.length + key.length + 60 := by
  obtain ⟨e1, h1⟩ := marshalField_isSome algId {} alg ⟨_, ha⟩
  have hb2 : bits.enc ⟨key, 8 * key.length⟩ = some (0 :: key) := by simp [bits, encBits]
  obtain ⟨e2, h2⟩ := marshalField_isSome bits {} ⟨key, 8 * key.length⟩ ⟨_, hb2⟩
  have l1 := marshalField_length h1 ha (by omega) (by decide) (by simp)
  have l2 := marshalField_length h2 hb2 (by simp; omega) (by decide) (by simp)
  simp only [List.length_cons] at l2
  have henc : spki.enc ⟨alg, ⟨key, 8 * key.length⟩⟩ = some (e1 ++ e2) := by
    simp only [spki, h1, h2, Option.bind_eq_bind, Option.bind_some, Option.pure_def]
  obtain ⟨e, he⟩ := marshalField_isSome spki {} ⟨alg, ⟨key, 8 * key.length⟩⟩ ⟨_, henc⟩
  have l := marshalField_length he henc (by simp only [List.length_append]; omega) (by decide) (by simp)
  simp only [List.length_append] at l
  exact ⟨e, he, by omega⟩

theorem readOID_enc {o : Oid} (ho : OidOk o) {ob : Bytes} (he : encOid o = some ob) (hl : ob.length < 2 ^ 30) :
    readOID (encTLV 0 false 6 ob) = some (o, []) := by
  unfold readOID
  have := Der.readASN1_tlv Der.tagOID ob [] (by decide) (by omega)
  rw [List.append_nil] at this
  rw [encTLV_oid, this]
  simp only []
  have := oid_law ho ob [] he
  rw [show oid.dec ob [] = decOid ob from rfl] at this
  rw [this]

/-- The parser on what the encoder writes for an EC public key whose coordinates fit. -/
theorem pkix_ec {k : Sm2.PublicKey} {c : CurveParams} (hc : params k.curve = some c) (hx : k.x < 256 ^ c.size)
    (hy : k.y < 256 ^ c.size) :
    ∃ pb alg b, marshalECPub k = .ok (pb, alg) ∧ marshal spki ⟨alg, ⟨pb, 8 * pb.length⟩⟩ = some b ∧
      parsePKIXPublicKey b = match ellipticUnmarshal c (4 :: (beBytes c.size k.x ++ beBytes c.size k.y)) with
        | none => .err "x509: failed to unmarshal elliptic curve point"
        | some q => .ok (ecPubKey ⟨k.curve, q.1, q.2⟩) := by
  obtain ⟨o, ho, hok⟩ := oid_of_params hc
  obtain ⟨ob, he, hobl, _, _⟩ := curveOid_enc ho
  have hg := good_of_params hc
  have hs := hg.size_le
  have hraw : marshalRaw { opt := some {} } { full := encTLV 0 false 6 ob } = some (encTLV 0 false 6 ob) :=
    marshalRaw_full _ _ (encTLV_ne_nil _ _ _ _) (by
      intro hh; injection hh with hh; injection hh with _ _ _ _ hh; exact encTLV_ne_nil _ _ _ _ hh.symm)
  have hlen := encTLV_length_le 0 false 6 ob (by decide) (by omega)
  have hec : ∃ x, encOid oidPublicKeyECDSA = some x ∧ x.length ≤ 10 := ⟨_, rfl, by decide⟩
  obtain ⟨x, hx', hxl⟩ := hec
  obtain ⟨ab, hab, habl⟩ := algId_enc_len hx' (by omega) { full := encTLV 0 false 6 ob } hraw
  have hpl : (4 :: (beBytes c.size k.x ++ beBytes c.size k.y)).length = 1 + 2 * c.size := by simp; omega
  obtain ⟨b, hb, hbl⟩ := spki_marshal hab (4 :: (beBytes c.size k.x ++ beBytes c.size k.y)) (by rw [hpl]; omega)
  rw [hpl] at hbl
  refine ⟨_, ⟨oidPublicKeyECDSA, { full := encTLV 0 false 6 ob }⟩, b, ?_, hb, ?_⟩
  · unfold marshalECPub
    rw [ho, hc]
    simp only [ellipticMarshal_ok hx hy, marshal_oid he, Res.ofOption, Res.bind_ok, Res.pure_eq]
  · have hto := unmarshal_to [] (spki_to (algId_oid_to oid_ecdsa_ok he)
      (4 :: (beBytes c.size k.x ++ beBytes c.size k.y))) hb (by omega) (by decide)
    rw [List.append_nil] at hto
    unfold parsePKIXPublicKey
    rw [hto]
    simp only [List.length_nil, ne_eq, not_true_eq_false, if_false]
    have halgo : getPublicKeyAlgorithmFromOID oidPublicKeyECDSA = .ecdsa := by decide
    rw [halgo, if_neg (by decide)]
    unfold parsePublicKey
    simp only []
    rw [rightAlign_octets]
    unfold parseECPub
    simp only [rawOf]
    rw [readOID_enc hok he (by omega)]
    simp only [(oidFromNamedCurve_iff _ _).mp ho, Option.bind_some, hc]
    cases ellipticUnmarshal c (4 :: (beBytes c.size k.x ++ beBytes c.size k.y)) with
    | none => rfl
    | some q => simp only [ecPubKey]; split <;> rfl

theorem onCurve_fits {k : Sm2.PublicKey} {c : CurveParams} (hc : params k.curve = some c)
    (h : isOnCurve c.p c.b (k.x, k.y) = true) : k.x < 256 ^ c.size ∧ k.y < 256 ^ c.size := by
  have hg := good_of_params hc
  unfold isOnCurve at h
  simp only [Bool.and_eq_true, decide_eq_true_eq] at h
  exact ⟨Nat.lt_trans h.1.1 hg.psize, Nat.lt_trans h.1.2 hg.psize⟩

/-- C56: public keys on a known curve round-trip; the Go type is the one that belongs to the curve. -/
theorem C56_pkix_ec_roundtrip (k : Sm2.PublicKey) (h : OnCurve k) :
    ∃ b, (marshalPKIXPublicKey (.ecdsa k) = .ok b ∧ marshalPKIXPublicKey (.sm2 k) = .ok b) ∧
      parsePKIXPublicKey b = .ok (ecPubKey k) := by
  obtain ⟨c, hc, hon⟩ := h
  obtain ⟨f1, f2⟩ := onCurve_fits hc hon
  obtain ⟨pb, alg, b, h1, h2, h3⟩ := pkix_ec hc f1 f2
  refine ⟨b, ⟨?_, ?_⟩, ?_⟩
  · simp only [marshalPKIXPublicKey, marshalPublicKey, h1, Res.bind_ok, h2, Res.pure_eq, Option.getD_some]
  · simp only [marshalPKIXPublicKey, marshalPublicKey, h1, Res.bind_ok, h2, Res.pure_eq, Option.getD_some]
  · rw [h3, ellipticUnmarshal_marshal (good_of_params hc).psize hon]

/-- C56 for SM2. -/
theorem C56_pkix_sm2_roundtrip (k : Sm2.PublicKey) (hs : k.curve = .sm2p256v1)
    (h : isOnCurve P B (k.x, k.y) = true) :
    ∃ b, marshalPKIXPublicKey (.sm2 k) = .ok b ∧ parsePKIXPublicKey b = .ok (.sm2 k) := by
  obtain ⟨b, ⟨_, h1⟩, h2⟩ := C56_pkix_ec_roundtrip k ⟨sm2p256, by rw [hs]; rfl, h⟩
  refine ⟨b, h1, ?_⟩
  rw [h2]; unfold ecPubKey; rw [if_pos hs]

/-- C56: the public key of every generated SM2 key other than D = 0 round-trips. -/
theorem C56_pkix_generated (rd rd' : Reader) (k : Sm2.PrivateKey) (h : Sm2.generateKey rd = .ok (k, rd'))
    (h0 : k.d ≠ 0) :
    ∃ b, marshalPKIXPublicKey (.sm2 k.pub) = .ok b ∧ parsePKIXPublicKey b = .ok (.sm2 k.pub) := by
  obtain ⟨_, _, h3⟩ := Sm2.C23_valid_partial rd rd' k h
  refine C56_pkix_sm2_roundtrip k.pub ?_ (h3 h0)
  rcases Sm2.C23_generateKey rd with ⟨j, key, _, h2, _, _, _, _, h7⟩ | ⟨_, h2⟩
  · rw [h2] at h
    simp only [Res.ok.injEq, Prod.mk.injEq] at h
    obtain ⟨rfl, -⟩ := h
    exact h7
  · rw [h2] at h; cases h

/-- C56: the encoder does not look whether the point is on the curve; the parser rejects what it wrote
exactly when it is not. -/
theorem C56_pkix_off_curve (k : Sm2.PublicKey) (c : CurveParams) (hc : params k.curve = some c)
    (hx : k.x < 256 ^ c.size) (hy : k.y < 256 ^ c.size) :
    ∃ b, marshalPKIXPublicKey (.sm2 k) = .ok b ∧
      ((∃ e, parsePKIXPublicKey b = .err e) ↔ isOnCurve c.p c.b (k.x, k.y) = false) := by
  obtain ⟨pb, alg, b, h1, h2, h3⟩ := pkix_ec hc hx hy
  refine ⟨b, ?_, ?_⟩
  · simp only [marshalPKIXPublicKey, marshalPublicKey, h1, Res.bind_ok, h2, Res.pure_eq, Option.getD_some]
  · rw [h3]
    constructor
    · rintro ⟨e, he⟩
      by_contra hon
      rw [Bool.not_eq_false] at hon
      rw [ellipticUnmarshal_marshal (good_of_params hc).psize hon] at he
      cases he
    · intro hoff
      match hu : ellipticUnmarshal c (4 :: (beBytes c.size k.x ++ beBytes c.size k.y)) with
      | none => exact ⟨_, rfl⟩
      | some q =>
        exfalso
        obtain ⟨hq, hon⟩ := ellipticUnmarshal_sound hu
        injection hq with _ hq
        have h1' := congrArg (List.take c.size) hq
        rw [List.take_left' (by simp), List.take_left' (by simp)] at h1'
        have h2' := congrArg (List.drop c.size) hq
        rw [List.drop_left' (by simp), List.drop_left' (by simp)] at h2'
        have hq' : q.1 < c.p ∧ q.2 < c.p := by
          unfold isOnCurve at hon
          simp only [Bool.and_eq_true, decide_eq_true_eq] at hon
          exact ⟨hon.1.1, hon.1.2⟩
        have hg := (good_of_params hc).psize
        have e1 := congrArg ofBytes h1'
        rw [ofBytes_beBytes_of_lt hx, ofBytes_beBytes_of_lt (by omega)] at e1
        have e2 := congrArg ofBytes h2'
        rw [ofBytes_beBytes_of_lt hy, ofBytes_beBytes_of_lt (by omega)] at e2
        rw [e1, e2] at hoff
        rw [hoff] at hon
        cases hon

/-- C56: whatever `ParsePKIXPublicKey` accepts is a sound key: a point on its curve with the Go type of that
curve, an RSA key with positive modulus and exponent, a 32-byte Ed25519 key, or a DSA key with positive
numbers; and never a panic. -/
theorem C56_pkix_sound (der : Bytes) :
    parsePKIXPublicKey der ≠ .panic ∧ ∀ key, parsePKIXPublicKey der = .ok key →
      (∃ k, key = ecPubKey k ∧ OnCurve k) ∨ (∃ k, key = .rsa k ∧ 0 < k.n ∧ 0 < k.e) ∨
      (∃ b, key = .ed25519 b ∧ b.length = 32) ∨
      (∃ k, key = .dsa k ∧ 0 < k.p ∧ 0 < k.q ∧ 0 < k.g ∧ 0 < k.y) := by
  unfold parsePKIXPublicKey
  split
  · exact ⟨by simp, by rintro key h; cases h⟩
  · rename_i pki rest _
    split
    · exact ⟨by simp, by rintro key h; cases h⟩
    · simp only []
      split
      · exact ⟨by simp, by rintro key h; cases h⟩
      · rename_i hun
        unfold parsePublicKey
        match halg : getPublicKeyAlgorithmFromOID pki.algo.algorithm with
        | .unknown => exact absurd halg hun
        | .rsa =>
          simp only []
          unfold parseRSAPub
          refine ⟨?_, ?_⟩
          · repeat' split
            all_goals simp
          · intro key h
            split at h
            · cases h
            · split at h
              · cases h
              · split at h
                · cases h
                · split at h
                  · cases h
                  · split at h
                    · cases h
                    · split at h
                      · cases h
                      · injection h with h
                        exact Or.inr (Or.inl ⟨_, h.symm, by simp only []; omega, by simp only []; omega⟩)
        | .ecdsa =>
          simp only []
          unfold parseECPub
          refine ⟨?_, ?_⟩
          · repeat' split
            all_goals simp
          · intro key h
            split at h
            · cases h
            · rename_i o _ _
              match hn : namedCurveFromOID o with
              | none => rw [hn] at h; cases h
              | some curve =>
                rw [hn] at h
                match hp : params curve with
                | none => simp [hp] at h
                | some c =>
                  simp only [Option.bind_some, hp] at h
                  split at h
                  · cases h
                  · rename_i q hq
                    obtain ⟨_, hon⟩ := ellipticUnmarshal_sound hq
                    left
                    refine ⟨⟨curve, q.1, q.2⟩, ?_, c, hp, hon⟩
                    unfold ecPubKey
                    simp only []
                    split at h
                    · rename_i hcv; injection h with h; rw [if_pos hcv, h]
                    · rename_i hcv; injection h with h; rw [if_neg hcv, h]
        | .ed25519 =>
          simp only []
          unfold parseEdPub
          refine ⟨?_, ?_⟩
          · repeat' split
            all_goals simp
          · intro key h
            split at h
            · cases h
            · split at h
              · cases h
              · rename_i h32
                injection h with h
                exact Or.inr (Or.inr (Or.inl ⟨_, h.symm, by omega⟩))
        | .dsa =>
          simp only []
          unfold parseDSAPub
          refine ⟨?_, ?_⟩
          · repeat' split
            all_goals simp
          · intro key h
            split at h
            · cases h
            · split at h
              · cases h
              · split at h
                · cases h
                · injection h with h
                  refine Or.inr (Or.inr (Or.inr ⟨_, h.symm, ?_⟩))
                  simp only []
                  omega

/-- C56: trailing data is rejected. -/
theorem C56_pkix_trailing (der t : Bytes) (k : PubKey) (h : parsePKIXPublicKey der = .ok k) (ht : t ≠ []) :
    ∃ e, parsePKIXPublicKey (der ++ t) = .err e := by
  unfold parsePKIXPublicKey at h ⊢
  match hu : unmarshal spki der with
  | none => rw [hu] at h; cases h
  | some (pki, rest) =>
    rw [unmarshal_append _ _ t hu]
    simp only []
    rw [if_pos (by
      rw [List.length_append]
      have := List.length_pos_of_ne_nil ht
      omega)]
    exact ⟨_, rfl⟩

/-- C56: RSA public keys with positive modulus and exponent round-trip. -/
theorem C56_pkix_rsa_roundtrip (k : RsaPub) (hn : 0 < k.n) (he : 0 < k.e) (he2 : k.e < 2 ^ 63)
    (hl : (Der.encInt k.n).length < 2 ^ 29) :
    ∃ b, marshalPKIXPublicKey (.rsa k) = .ok b ∧ parsePKIXPublicKey b = .ok (.rsa k) := by
  have hel : (Der.encInt k.e).length ≤ 8 := encInt_length_int64 k.e (by omega) he2
  have hn1 : marshalField bigInt {} k.n = some (encTLV 0 false 2 (Der.encInt k.n)) := by
    unfold marshalField; rw [if_neg (by simp)]; rfl
  have he1 : marshalField goInt {} k.e = some (encTLV 0 false 2 (Der.encInt k.e)) := by
    unfold marshalField; rw [if_neg (by simp)]; rfl
  have l1 := encTLV_length_le 0 false 2 (Der.encInt k.n) (by decide) (by omega)
  have l2 := encTLV_length_le 0 false 2 (Der.encInt k.e) (by decide) (by omega)
  have hpub : marshal pkcs1Pub k = some (encTLV 0 true 16
      (encTLV 0 false 2 (Der.encInt k.n) ++ encTLV 0 false 2 (Der.encInt k.e))) := by
    unfold marshal marshalField
    rw [if_neg (by simp)]
    simp only [pkcs1Pub, hn1, he1, Option.bind_eq_bind, Option.bind_some, Option.pure_def]
    rfl
  generalize hbody : encTLV 0 false 2 (Der.encInt k.n) ++ encTLV 0 false 2 (Der.encInt k.e) = body at hpub
  have hbl : body.length ≤ (Der.encInt k.n).length + 20 := by
    rw [← hbody, List.length_append]; omega
  have l3 := encTLV_length_le 0 true 16 body (by decide) (by omega)
  have hec : ∃ x, encOid oidPublicKeyRSA = some x ∧ x.length ≤ 10 := ⟨_, rfl, by decide⟩
  obtain ⟨x, hx, hxl⟩ := hec
  obtain ⟨ab, hab, habl⟩ := algId_enc_len hx (by omega) nullRaw (pb := [5, 0]) (by decide)
  simp only [List.length_cons, List.length_nil] at habl
  obtain ⟨b, hb, hbbl⟩ := spki_marshal hab (encTLV 0 true 16 body) (by omega)
  refine ⟨b, ?_, ?_⟩
  · simp only [marshalPKIXPublicKey, marshalPublicKey, hpub, Res.ofOption, Res.bind_ok, hb, Res.pure_eq,
      Option.getD_some]
  · have hto := unmarshal_to [] (spki_to (algId_null_to oid_rsa_ok) (encTLV 0 true 16 body)) hb (by omega) (by decide)
    rw [List.append_nil] at hto
    unfold parsePKIXPublicKey
    rw [hto]
    simp only [List.length_nil, ne_eq, not_true_eq_false, if_false]
    have halgo : getPublicKeyAlgorithmFromOID oidPublicKeyRSA = .rsa := by decide
    rw [halgo, if_neg (by decide)]
    unfold parsePublicKey
    simp only []
    rw [rightAlign_octets]
    unfold parseRSAPub
    have hpar : (rawOf 0 false 5 []).full = [5, 0] := by decide
    have hrd := Der.readASN1_tlv Der.tagSEQUENCE body [] (by decide) (by omega)
    rw [List.append_nil] at hrd
    have hri := Der.readInt_enc k.n (Der.tlv Der.tagINTEGER (Der.encInt k.e)) (by omega)
    have hre := Der.readASN1_tlv Der.tagINTEGER (Der.encInt k.e) [] (by decide) (by omega)
    rw [List.append_nil] at hre
    rw [hpar, if_neg (by simp), encTLV_seq, hrd, ← hbody]
    simp only []
    rw [encTLV_int, encTLV_int, hri]
    simp only []
    unfold readGoInt
    rw [hre]
    simp only []
    rw [if_neg (by omega), Der.decInt_encInt]
    simp only []
    rw [if_neg (by omega), if_neg (by omega)]

/-- C56: Ed25519 public keys of 32 bytes round-trip. -/
theorem C56_pkix_ed25519_roundtrip (k : Bytes) (h : k.length = 32) :
    ∃ b, marshalPKIXPublicKey (.ed25519 k) = .ok b ∧ parsePKIXPublicKey b = .ok (.ed25519 k) := by
  have hec : ∃ x, encOid oidPublicKeyEd25519 = some x ∧ x.length ≤ 10 := ⟨_, rfl, by decide⟩
  obtain ⟨x, hx, hxl⟩ := hec
  obtain ⟨ab, hab, habl⟩ := algId_enc_len hx (by omega) {} (pb := []) (by unfold marshalRaw; rw [if_pos rfl])
  simp only [List.length_nil] at habl
  obtain ⟨b, hb, hbbl⟩ := spki_marshal hab k (by omega)
  refine ⟨b, ?_, ?_⟩
  · simp only [marshalPKIXPublicKey, marshalPublicKey, Res.bind_ok, hb, Res.pure_eq, Option.getD_some]
  · have hto := unmarshal_to [] (spki_to (algId_to_none oid_ed_ok) k) hb (by omega) (by decide)
    rw [List.append_nil] at hto
    unfold parsePKIXPublicKey
    rw [hto]
    simp only [List.length_nil, ne_eq, not_true_eq_false, if_false]
    have halgo : getPublicKeyAlgorithmFromOID oidPublicKeyEd25519 = .ed25519 := by decide
    rw [halgo, if_neg (by decide)]
    unfold parsePublicKey
    simp only []
    rw [rightAlign_octets]
    unfold parseEdPub
    simp only [List.length_nil, ne_eq, not_true_eq_false, if_false]
    rw [if_neg (by omega)]

/-- C56: other key types are an error. -/
theorem C56_pkix_other (k : DsaPub) (n : Nat) :
    (∃ e, marshalPKIXPublicKey (.dsa k) = .err e) ∧ ∃ e, marshalPKIXPublicKey (.other n) = .err e :=
  ⟨⟨_, rfl⟩, ⟨_, rfl⟩⟩

/-! ## Concrete cases -/

/-- A key pair as in C53, C54: D = 2 on sm2p256v1 and on P-521. -/
example : IsKeyPair (ecKeyOf SM2P256 sm2p256 2) := ecKeyOf_isKeyPair rfl (by decide +kernel)
example : IsKeyPair (ecKeyOf P521 p521 5) := ecKeyOf_isKeyPair rfl (by decide +kernel)

/-- The base point of each curve is on the curve. -/
example : OnCurve ⟨SM2P256, G.1, G.2⟩ := ⟨sm2p256, rfl, by decide +kernel⟩
example : OnCurve ⟨P224, p224.g.1, p224.g.2⟩ := ⟨p224, rfl, by decide +kernel⟩
example : OnCurve ⟨P256, p256.g.1, p256.g.2⟩ := ⟨p256, rfl, by decide +kernel⟩
example : OnCurve ⟨P384, p384.g.1, p384.g.2⟩ := ⟨p384, rfl, by decide +kernel⟩
example : OnCurve ⟨P521, p521.g.1, p521.g.2⟩ := ⟨p521, rfl, by decide +kernel⟩

/-- Executing encoder and parser on a concrete SM2 key. -/
example : (marshalPKCS8PrivateKey (.sm2 (ecKeyOf SM2P256 sm2p256 3))).isOk = true := by decide +kernel
example : ∃ b, marshalPKCS8PrivateKey (.sm2 (ecKeyOf SM2P256 sm2p256 3)) = .ok b ∧ b.length = 150 ∧
    parsePKCS8PrivateKey (fun _ => []) b = .ok (.sm2 (ecKeyOf SM2P256 sm2p256 3)) :=
  ⟨(match marshalPKCS8PrivateKey (.sm2 (ecKeyOf SM2P256 sm2p256 3)) with | .ok b => b | _ => []),
    by decide +kernel, by decide +kernel, by decide +kernel⟩

/-- A toy RSA key: p = 11, q = 23, e = 3, d = 147. -/
def toyRsa : RsaPriv := ⟨⟨253, 3⟩, 147, [11, 23]⟩
example : IsRsaKey toyRsa := (rsaValidate_iff toyRsa).mp (by decide +kernel)
example : Factors toyRsa.primes := Or.inl rfl
example : marshalPKCS1PrivateKey toyRsa = .ok
    [0x30, 0x1d, 2, 1, 0, 2, 2, 0, 253, 2, 1, 3, 2, 2, 0, 147, 2, 1, 11, 2, 1, 23, 2, 1, 7, 2, 1, 15, 2, 1, 1] := by
  decide +kernel

/-- A three-prime key. -/
def toyRsa3 : RsaPriv := ⟨⟨11 * 23 * 5, 3⟩, 147, [11, 23, 5]⟩
example : IsRsaKey toyRsa3 := (rsaValidate_iff toyRsa3).mp (by decide +kernel)
example : Factors toyRsa3.primes := Or.inr (by decide)

/-- The hypothesis on the factors is needed: with a repeated third factor (`Validate` accepts it) the encoder
drops the Marshal error and returns no bytes at all, which then do not parse. -/
theorem C55_pkcs1_repeated_factor : ∃ k, IsRsaKey k ∧ marshalPKCS1PrivateKey k = .ok [] ∧
    ∃ e, parsePKCS1PrivateKey [] = .err e :=
  ⟨⟨⟨45, 3⟩, 3, [3, 5, 3]⟩, (rsaValidate_iff _).mp (by decide +kernel), by decide +kernel, ⟨_, rfl⟩⟩

/-- Two encodings of the same Ed25519 key, the second with 255 bits. -/
def edA : Bytes := [0x30, 0x2a, 0x30, 5, 6, 3, 0x2b, 0x65, 0x70, 3, 33, 0] ++ List.replicate 31 0 ++ [1]
def edB : Bytes := [0x30, 0x2a, 0x30, 5, 6, 3, 0x2b, 0x65, 0x70, 3, 33, 1] ++ List.replicate 31 0 ++ [2]

/-- Bit strings with unused bits are shifted right, so a key has encodings that `MarshalPKIXPublicKey` does
not produce. -/
theorem C56_pkix_not_canonical : edA ≠ edB ∧ ∃ k, parsePKIXPublicKey edA = .ok k ∧ parsePKIXPublicKey edB = .ok k :=
  ⟨by decide +kernel, .ed25519 (List.replicate 31 0 ++ [1]), by decide +kernel, by decide +kernel⟩

end MCrypto.X509
