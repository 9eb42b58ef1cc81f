import Verif.Pkcs12.PfxLemmas
/-
`Encode` followed by `getSafeContents` and the bag decoders (no property statements here).
-/
namespace MCrypto

namespace P12
open MCrypto Asn1 MCrypto.X509

theorem readSalt_ok {rnd : Reader} {s : Bytes} {rnd' : Reader} (h : readSalt rnd = .ok (s, rnd')) :
    8 ≤ rnd.length ∧ s = rnd.take 8 ∧ rnd' = rnd.drop 8 ∧ s.length = 8 := by
  unfold readSalt readFull at h
  split at h
  · rename_i hl
    simp only [Res.ok.injEq, Prod.mk.injEq] at h
    obtain ⟨rfl, rfl⟩ := h
    exact ⟨hl, rfl, rfl, by simp; omega⟩
  · split at h <;> cases h

theorem readSalt_some {rnd : Reader} (h : 8 ≤ rnd.length) : readSalt rnd = .ok (rnd.take 8, rnd.drop 8) := by
  unfold readSalt readFull
  rw [if_pos h]

theorem oid_ok_data : OidOk oidDataContentType := ⟨_, _, _, rfl, by decide, by decide⟩
theorem oid_ok_enc : OidOk oidEncryptedDataContentType := ⟨_, _, _, rfl, by decide, by decide⟩
theorem oid_ok_lkid : OidOk oidLocalKeyID := ⟨_, _, _, rfl, by decide, by decide⟩
theorem oid_ok_certtype : OidOk oidCertTypeX509Certificate := ⟨_, _, _, rfl, by decide, by decide⟩
theorem oid_ok_keybag : OidOk oidPKCS8ShroundedKeyBag := ⟨_, _, _, rfl, by decide, by decide⟩
theorem oid_ok_certbag : OidOk oidCertBag := ⟨_, _, _, rfl, by decide, by decide⟩
theorem oid_ok_3des : OidOk oid3DES := ⟨_, _, _, rfl, by decide, by decide⟩
theorem oid_ok_rc2 : OidOk oidRC2_40 := ⟨_, _, _, rfl, by decide, by decide⟩
theorem oid_ok_sha1 : OidOk oidSHA1 := ⟨_, _, _, rfl, by decide, by decide⟩

/-- The algorithm identifier with marshalled parameters, and what it is parsed as. -/
theorem pbeAlg_to {o : Oid} (ho : OidOk o) {salt pb : Bytes} (hs : salt.length = 8)
    (h : marshal pbeParams ⟨salt, 2048⟩ = some pb) :
    ∃ a' : AlgId, algId.To ⟨o, { full := pb }⟩ a' ∧ a'.algorithm = o ∧ a'.parameters.full = pb := by
  obtain ⟨_, body, rfl⟩ := pbe_params hs h
  rcases RawIs.full (p := { opt := some {} }) (e := encTLV 0 true 16 body) rfl with hr | hr
  · exact ⟨_, algId_to ho hr (by decide) (by decide), rfl, rfl⟩
  · injection hr with hr
    have := congrArg RawValue.full hr
    exact absurd this.symm (encTLV_ne_nil _ _ _ _)

theorem unmarshalAllRaw_encTLV (cls : Nat) (comp : Bool) (tag : Nat) (body : Bytes) (hc : cls < 4)
    (ht : tag ≤ 2147483647) (hl : body.length < 2 ^ 31) :
    unmarshalAllRaw (encTLV cls comp tag body) = .ok (rawOf cls comp tag body) := by
  unfold unmarshalAllRaw
  have := parseRaw_encTLV {} cls comp tag body [] hc ht hl (by rw [if_neg (by simp)]; exact Or.inl rfl)
  rw [List.append_nil] at this
  rw [this]; rfl

theorem pbRoundtrip (P : Prims) (alg : AlgId) (m pw c : Bytes) (h : pbEncrypt P alg m pw = .ok c) :
    pbDecrypt P alg c pw = .ok m ∧ m.length < c.length := by
  obtain ⟨t, ps, ha, hp⟩ := pbEncrypt_cases P alg m pw c h
  obtain ⟨c', hc', hl, he⟩ := pbEncrypt_ok P t alg m pw ps ha hp
  rw [h] at hc'
  injection hc' with hc'
  subst hc'
  exact ⟨(pbDecrypt_iff P t alg c pw ps ha hp m).mpr he, by omega⟩

/-! ### Bags -/

theorem keyBag_roundtrip (P : Prims) (edPub : Bytes → Bytes) {key : PrivKey} {pw : Bytes} {rnd rnd' : Reader}
    {d : Bytes} (h : encodePkcs8ShroudedKeyBag P key pw rnd = .ok (d, rnd')) (hl : d.length < 2 ^ 31) :
    ∃ kb, marshalPKCS8PrivateKey key = .ok kb ∧ rnd' = rnd.drop 8 ∧ 8 ≤ rnd.length ∧ d ≠ [] ∧ ∀ key',
      parsePKCS8PrivateKey edPub kb = .ok key' → decodePkcs8ShroudedKeyBag P edPub d pw = .ok key' := by
  unfold encodePkcs8ShroudedKeyBag at h
  simp only [Res.bind_eq_ok, Res.pure_eq, Prod.exists, Res.ok.injEq, Prod.mk.injEq] at h
  obtain ⟨kb, hkb, salt, rnd1, hsalt, pb, hpb, data, hdata, d', hd', rfl, rfl⟩ := h
  obtain ⟨hr1, _, hr2, hs8⟩ := readSalt_ok hsalt
  have hpb := marshalR_ok hpb
  have hd' := marshalR_ok hd'
  refine ⟨kb, hkb, hr2, hr1, marshal_ne_nil hd', fun key' hk => ?_⟩
  obtain ⟨a', hto, ha1, ha2⟩ := pbeAlg_to oid_ok_3des hs8 hpb
  have hu := unmarshalAll_to (encryptedPrivateKeyInfo_to hto data) hd' hl
  obtain ⟨hdec, hlen⟩ := pbRoundtrip P _ _ _ _ hdata
  have hdl := encryptedPrivateKeyInfo_lt hd'
  unfold decodePkcs8ShroudedKeyBag
  rw [hu, Res.bind_ok]
  simp only []
  rw [pbDecrypt_congr P (a' := ⟨oid3DES, { full := pb }⟩) ha1 ha2, hdec, Res.bind_ok]
  have : ∃ body, kb = encTLV 0 true 16 body := by
    unfold marshalPKCS8PrivateKey at hkb
    simp only [Res.bind_eq_ok] at hkb
    obtain ⟨s, _, hs⟩ := hkb
    unfold Res.ofOption at hs
    split at hs
    · rename_i a ha
      injection hs with hs
      subst hs
      obtain ⟨body, _, hb⟩ := marshal_tlv _ _ _ ha
      exact ⟨body, hb⟩
    · cases hs
  obtain ⟨body, rfl⟩ := this
  have hbl := encTLV_length_lt 0 true 16 body
  rw [unmarshalAllRaw_encTLV _ _ _ _ (by decide) (by decide) (by omega), Res.bind_ok, hk]

theorem certBag_roundtrip {raw d : Bytes} (h : encodeCertBag raw = .ok d) (hl : d.length < 2 ^ 31) :
    decodeCertBag d = .ok raw := by
  have h := marshalR_ok h
  unfold decodeCertBag
  rw [unmarshalAll_to (certBag_to oid_ok_certtype raw) h hl, Res.bind_ok]
  simp

/-- What one bag made by `Encode` is parsed as: same type, same contents. -/
structure BagTo (b b' : SafeBag) : Prop where
  conv : safeBag.To b b'
  id : b'.id = b.id
  bytes : b'.value.bytes = b.value.bytes
  val : ∃ v, b.value = ctx0 v

theorem bagTo_mk {o : Oid} (ho : OidOk o) {v : Bytes} (hv : v ≠ []) {l l' : List Attribute} (h1 : l.length ≤ 1)
    (hto : List.Forall₂ attrC.To l l') : BagTo ⟨o, ctx0 v, some l⟩ ⟨o, rawOf 2 true 0 v, some l'⟩ :=
  ⟨safeBag_to ho hv (attributes_to h1 hto), rfl, rfl, v, rfl⟩

/-! ### Safe contents -/

theorem seqOf_to_safe {bags bags' : List SafeBag} (h : List.Forall₂ BagTo bags bags') :
    (seqOf safeBag).To bags bags' :=
  seqOf_to safeBag (by decide) _ _ (h.imp fun _ _ h => h.conv)

theorem makeSafeContents_to (P : Prims) {bags bags' : List SafeBag} (hb : List.Forall₂ BagTo bags bags')
    {opw : Option Bytes} {rnd rnd' : Reader} {ci : ContentInfo} {e : Bytes}
    (h : makeSafeContents P bags opw rnd = .ok (ci, rnd')) (he : marshal contentInfo ci = some e)
    (hl : e.length < 2 ^ 31) (pw : Bytes) (hpw : ∀ p, opw = some p → p = pw) :
    ∃ ci' data, contentInfo.To ci ci' ∧ safeData P ci' pw = .ok data ∧
      marshal (seqOf safeBag) bags = some data ∧ data.length < e.length ∧
      unmarshalAll (seqOf safeBag) data = .ok bags' := by
  unfold makeSafeContents at h
  simp only [Res.bind_eq_ok] at h
  obtain ⟨data, hdata, h⟩ := h
  have hdata := marshalR_ok hdata
  cases opw with
  | none =>
    simp only [Res.bind_eq_ok, Res.pure_eq, Res.ok.injEq, Prod.mk.injEq] at h
    obtain ⟨c, hc, rfl, rfl⟩ := h
    have hc := marshalR_ok hc
    have l1 := contentInfo_lt he
    have l2 := octets_lt hc
    refine ⟨_, data, contentInfo_to oid_ok_data (marshal_ne_nil hc), ?_, hdata, by omega,
      unmarshalAll_to (seqOf_to_safe hb) hdata (by omega)⟩
    unfold safeData
    rw [if_pos rfl]
    exact unmarshalAll_to (octets_to data) hc (show c.length < 2 ^ 31 by omega)
  | some p =>
    have := hpw p rfl
    subst this
    simp only [Res.bind_eq_ok, Res.pure_eq, Prod.exists, Res.ok.injEq, Prod.mk.injEq] at h
    obtain ⟨salt, rnd1, hsalt, pb, hpb, enc, henc, c, hc, rfl, rfl⟩ := h
    obtain ⟨_, _, _, hs8⟩ := readSalt_ok hsalt
    have hpb := marshalR_ok hpb
    have hc := marshalR_ok hc
    obtain ⟨hdec, hlen⟩ := pbRoundtrip P _ _ _ _ henc
    have hne : enc ≠ [] := by intro hh; subst hh; simp at hlen
    have l1 := contentInfo_lt he
    have l2 := encryptedData_lt hne hc
    obtain ⟨a', hto, ha1, ha2⟩ := pbeAlg_to oid_ok_rc2 hs8 hpb
    refine ⟨_, data, contentInfo_to oid_ok_enc (marshal_ne_nil hc), ?_, hdata, by omega,
      unmarshalAll_to (seqOf_to_safe hb) hdata (by omega)⟩
    unfold safeData
    rw [if_neg (show ¬ oidEncryptedDataContentType = oidDataContentType by decide), if_pos rfl]
    have hu := unmarshalAll_to (encryptedData_to (encryptedContentInfo_to oid_ok_data hto enc)) hc (by omega)
    show (unmarshalAll encryptedData c >>= fun ed => _) = _
    rw [hu, Res.bind_ok]
    simp only [ne_eq, not_true_eq_false, if_false]
    rw [pbDecrypt_congr P (a' := ⟨oidRC2_40, { full := pb }⟩) ha1 ha2, hdec]

end P12
end MCrypto
