import Verif.Pkcs12.PfxMain
import Verif.Pkcs12.PfxSpec
import Verif.Props.P12Crypto
import Verif.Props.X509Keys
/-
Properties C35-C39 and C66: the PKCS#12 container. `P` are the standard-library primitives,
`parseCerts` is `x509.ParseCertificates`, `edPub` the Ed25519 public key of a seed.
-/
namespace MCrypto.Props
open MCrypto Asn1 P12 MCrypto.X509 MCrypto.X509Spec

/-! ### C35 Encode / Decode round-trip -/

/-- C35: decoding what `Encode` returned, with the same password, gives the key, the leaf certificate and the CA
certificates in order: for every password, every key that PKCS#8 gives back, every certificate that parses
and every source of randomness. (Outputs of 2 GiB or more are outside what the ASN.1 parser reads.) -/
theorem C35_encode_decodeAll {κ : Type} (P : Prims) (edPub : Bytes → Bytes) (parseCerts : Bytes → Res (List κ))
    (key : PrivKey) (leaf : Bytes) (cas : List Bytes) (password : Bytes) (rnd rnd' : Reader) (pfx : Bytes)
    (h : encode P key leaf cas password rnd = .ok (pfx, rnd')) (hlen : pfx.length < 2 ^ 31)
    (hk : ∀ kb, marshalPKCS8PrivateKey key = .ok kb → parsePKCS8PrivateKey edPub kb = .ok key)
    (c : κ) (hc : parseCerts leaf = .ok [c]) (cs : List κ)
    (hcs : List.Forall₂ (fun raw c => parseCerts raw = .ok [c]) cas cs) :
    decodeAll P edPub parseCerts pfx password = .ok (key, c :: cs) := by
  obtain ⟨pw, lb, cb, kb, kd, h1, h2, h3, h4, h5, h6, h7⟩ := encode_getSafeContents P edPub h hlen
  unfold decodeAll decodeWith
  rw [h1, Res.bind_ok, h3, Res.bind_ok]
  simp only []
  rw [decodeBags_append]
  obtain ⟨dup, hd⟩ := (decodeBags_certs P edPub parseCerts pw (.cons h4 h5) (.cons hc hcs) {}).1
  rw [hd, Res.bind_ok, decodeBags, decodeBag_key P edPub parseCerts true pw h6 (h7 _ (hk _ h2)), Res.bind_ok,
    decodeBags, Res.bind_ok]
  simp [finish]

/-- C35: `Decode` (one certificate) gives the key and the leaf back when there are no CA certificates. -/
theorem C35_encode_decode {κ : Type} (P : Prims) (edPub : Bytes → Bytes) (parseCerts : Bytes → Res (List κ))
    (key : PrivKey) (leaf : Bytes) (password : Bytes) (rnd rnd' : Reader) (pfx : Bytes)
    (h : encode P key leaf [] password rnd = .ok (pfx, rnd')) (hlen : pfx.length < 2 ^ 31)
    (hk : ∀ kb, marshalPKCS8PrivateKey key = .ok kb → parsePKCS8PrivateKey edPub kb = .ok key)
    (c : κ) (hc : parseCerts leaf = .ok [c]) :
    decode P edPub parseCerts pfx password = .ok (key, c) := by
  obtain ⟨pw, lb, cb, kb, kd, h1, h2, h3, h4, h5, h6, h7⟩ := encode_getSafeContents P edPub h hlen
  unfold decode decodeWith
  rw [h1, Res.bind_ok, h3, Res.bind_ok]
  simp only []
  rw [decodeBags_append]
  obtain ⟨dup, hd⟩ := (decodeBags_certs P edPub parseCerts pw (.cons h4 h5) (.cons hc .nil) {}).2
  rw [hd, Res.bind_ok, decodeBags, decodeBag_key P edPub parseCerts false pw h6 (h7 _ (hk _ h2)), Res.bind_ok,
    decodeBags, Res.bind_ok]
  simp [finish]

/-- C35: with CA certificates `Decode` succeeds as well, but returns the LAST CA certificate as the
certificate of the key, not the leaf. -/
theorem C35_decode_returns_last_ca {κ : Type} (P : Prims) (edPub : Bytes → Bytes) (parseCerts : Bytes → Res (List κ))
    (key : PrivKey) (leaf : Bytes) (cas : List Bytes) (password : Bytes) (rnd rnd' : Reader) (pfx : Bytes)
    (h : encode P key leaf cas password rnd = .ok (pfx, rnd')) (hlen : pfx.length < 2 ^ 31)
    (hk : ∀ kb, marshalPKCS8PrivateKey key = .ok kb → parsePKCS8PrivateKey edPub kb = .ok key)
    (c : κ) (hc : parseCerts leaf = .ok [c]) (cs : List κ) (last : κ)
    (hcs : List.Forall₂ (fun raw c => parseCerts raw = .ok [c]) cas (cs ++ [last])) :
    decode P edPub parseCerts pfx password = .ok (key, last) := by
  obtain ⟨pw, lb, cb, kb, kd, h1, h2, h3, h4, h5, h6, h7⟩ := encode_getSafeContents P edPub h hlen
  unfold decode decodeWith
  rw [h1, Res.bind_ok, h3, Res.bind_ok]
  simp only []
  rw [decodeBags_append]
  obtain ⟨dup, hd⟩ := (decodeBags_certs P edPub parseCerts pw (.cons h4 h5) (.cons hc hcs) {}).2
  rw [hd, Res.bind_ok, decodeBags, decodeBag_key P edPub parseCerts false pw h6 (h7 _ (hk _ h2)), Res.bind_ok,
    decodeBags, Res.bind_ok]
  have : (c :: (cs ++ [last])).getLast? = some last := by
    rw [← List.cons_append, List.getLast?_append]; rfl
  simp [finish, this]

theorem marshalR_isOk {α : Type} [DecidableEq α] {c : Codec α} {v : α} (h : ∃ b, c.enc v = some b) :
    ∃ e, marshalR c v = .ok e := by
  obtain ⟨e, he⟩ := marshalField_isSome c {} v h
  exact ⟨e, by unfold marshalR Asn1.marshal; rw [he]; rfl⟩

theorem marshalRaw_isSome (p : Params RawValue) (v : RawValue) : ∃ e, marshalRaw p v = some e := by
  unfold marshalRaw
  split
  · exact ⟨_, rfl⟩
  · split <;> exact ⟨_, rfl⟩

theorem oid_isSome {o : Oid} (h : OidOk o) (p : Params Oid) : ∃ e, marshalField oid p o = some e :=
  marshalField_isSome _ _ _ (encOid_ok h)

theorem octets_isSome (b : Bytes) (p : Params Bytes) : ∃ e, marshalField octets p b = some e :=
  marshalField_isSome _ _ _ ⟨_, rfl⟩

theorem goInt_isSome (b : Int) (p : Params Int) : ∃ e, marshalField goInt p b = some e :=
  marshalField_isSome _ _ _ ⟨_, rfl⟩

theorem contentInfo_enc {o : Oid} (h : OidOk o) (v : RawValue) : ∃ b, contentInfo.enc ⟨o, v⟩ = some b := by
  obtain ⟨e1, h1⟩ := oid_isSome h {}
  obtain ⟨e2, h2⟩ := marshalRaw_isSome contentParams v
  exact ⟨_, by simp only [contentInfo, h1, h2, Option.bind_eq_bind, Option.bind_some, Option.pure_def]; rfl⟩

theorem attrC_enc {o : Oid} (h : OidOk o) (v : RawValue) : ∃ b, attrC.enc ⟨o, v⟩ = some b := by
  obtain ⟨e1, h1⟩ := oid_isSome h {}
  obtain ⟨e2, h2⟩ := marshalRaw_isSome { set := true } v
  exact ⟨_, by simp only [attrC, h1, h2, Option.bind_eq_bind, Option.bind_some, Option.pure_def]; rfl⟩

theorem safeBag_enc {o : Oid} (h : OidOk o) (v : RawValue) (l : List Attribute)
    (hl : ∀ a ∈ l, OidOk a.id) : ∃ b, safeBag.enc ⟨o, v, some l⟩ = some b := by
  obtain ⟨e1, h1⟩ := oid_isSome h {}
  obtain ⟨e2, h2⟩ := marshalRaw_isSome bagValueParams v
  obtain ⟨es, hes⟩ := marshalElems_some (marshalField attrC {}) l
    (fun a ha => marshalField_isSome _ _ _ (attrC_enc (hl a ha) a.value))
  obtain ⟨e3, h3⟩ := marshalField_isSome attributes bagAttrParams (some l)
    ⟨_, by simp only [attributes, Option.getD_some, Asn1.setOf, hes, Option.map_some]; rfl⟩
  exact ⟨_, by simp only [safeBag, h1, h2, h3, Option.bind_eq_bind, Option.bind_some, Option.pure_def]; rfl⟩

theorem seqOf_enc {α : Type} [DecidableEq α] {c : Codec α} {l : List α} (h : ∀ v ∈ l, ∃ b, c.enc v = some b) :
    ∃ b, (seqOf c).enc l = some b := by
  obtain ⟨es, hes⟩ := marshalElems_some (marshalField c {}) l (fun a ha => marshalField_isSome _ _ _ (h a ha))
  exact ⟨_, by simp only [seqOf, hes, Option.map_some]; rfl⟩

theorem certBag_enc (raw : Bytes) : ∃ d, encodeCertBag raw = .ok d := by
  apply marshalR_isOk
  obtain ⟨e1, h1⟩ := oid_isSome oid_ok_certtype {}
  obtain ⟨e2, h2⟩ := octets_isSome raw { tag := some 0, explicit := true }
  exact ⟨_, by simp only [certBag, h1, h2, Option.bind_eq_bind, Option.bind_some, Option.pure_def]; rfl⟩

theorem makeCaBags_ok (cas : List Bytes) : ∃ bs, makeCaBags cas = .ok bs ∧
    ∀ b ∈ bs, ∃ v, b = ⟨oidCertBag, v, some []⟩ := by
  induction cas with
  | nil => exact ⟨[], rfl, by simp⟩
  | cons raw cas ih =>
    obtain ⟨bs, h1, h2⟩ := ih
    obtain ⟨d, hd⟩ := certBag_enc raw
    refine ⟨⟨oidCertBag, ctx0 d, some []⟩ :: bs, ?_, ?_⟩
    · rw [makeCaBags]
      unfold makeCertBag
      rw [hd]
      simp only [Res.bind_ok, Res.pure_eq, h1]
    · intro b hb
      rcases List.mem_cons.mp hb with rfl | hb
      · exact ⟨_, rfl⟩
      · exact h2 b hb

theorem algId_full_enc {o : Oid} (h : OidOk o) (v : RawValue) : ∃ e, marshalField algId {} ⟨o, v⟩ = some e :=
  marshalField_isSome _ _ _ (algId_enc h v)

/-- Encryption with fresh parameters always succeeds. -/
theorem pbEncrypt_fresh (P : Prims) (t : CipherType) (salt m pw : Bytes) (hs : salt.length = 8) :
    ∃ pb c, marshalR pbeParams ⟨salt, 2048⟩ = .ok pb ∧ pbEncrypt P ⟨t.oid, { full := pb }⟩ m pw = .ok c := by
  obtain ⟨pb, hpb⟩ := marshal_pbeParams ⟨salt, 2048⟩
  obtain ⟨hu, _⟩ := pbe_params hs hpb
  obtain ⟨c, hc, _⟩ := pbEncrypt_ok P t ⟨t.oid, { full := pb }⟩ m pw ⟨salt, 2048⟩ rfl hu
  exact ⟨pb, c, by unfold marshalR; rw [hpb]; rfl, hc⟩

/-- C35: when `Encode` succeeds: exactly when the password has no character outside the BMP, the key can be
marshalled to PKCS#8 and 24 random bytes are available. It uses those 24 bytes and leaves the others. -/
theorem C35_encode_succeeds_iff (P : Prims) (key : PrivKey) (leaf : Bytes) (cas : List Bytes) (password : Bytes)
    (rnd : Reader) :
    (∃ pfx rnd', encode P key leaf cas password rnd = .ok (pfx, rnd')) ↔
      (∃ pw, bmpString password = .ok pw) ∧ (∃ kb, marshalPKCS8PrivateKey key = .ok kb) ∧ 24 ≤ rnd.length := by
  constructor
  · rintro ⟨pfx, rnd', h⟩
    unfold encode at h
    simp only [Res.bind_eq_ok, Res.pure_eq, Prod.exists, Res.ok.injEq, Prod.mk.injEq] at h
    obtain ⟨pw, hpw, attr, hattr, lb, hlb, cbs, hcbs, kv, rnd1, hkv, safe0, rnd2, hs0, safe1, rnd3, hs1, auth, hauth,
      salt, rnd4, hsalt, md, hmd, content, hcontent, pfx', hpfx, rfl, rfl⟩ := h
    unfold encodePkcs8ShroudedKeyBag at hkv
    simp only [Res.bind_eq_ok, Res.pure_eq, Prod.exists, Res.ok.injEq, Prod.mk.injEq] at hkv
    obtain ⟨kb, hkb, salt1, r1, hsalt1, pb, hpb, data, hdata, d', hd', rfl, rfl⟩ := hkv
    unfold makeSafeContents at hs0 hs1
    simp only [Res.bind_eq_ok, Res.pure_eq, Prod.exists, Res.ok.injEq, Prod.mk.injEq] at hs0 hs1
    obtain ⟨data0, _, salt2, r2, hsalt2, pb2, _, enc, _, c2, _, rfl, rfl⟩ := hs0
    obtain ⟨data1, _, c1, _, rfl, rfl⟩ := hs1
    obtain ⟨a1, _, rfl, _⟩ := readSalt_ok hsalt1
    obtain ⟨a2, _, rfl, _⟩ := readSalt_ok hsalt2
    obtain ⟨a3, _, _, _⟩ := readSalt_ok hsalt
    simp only [List.length_drop] at a2 a3
    exact ⟨⟨pw, hpw⟩, ⟨kb, hkb⟩, by omega⟩
  · rintro ⟨⟨pw, hpw⟩, ⟨kb, hkb⟩, hr⟩
    obtain ⟨fp, hfp⟩ := marshalR_isOk (c := octets) (v := P.sha1 leaf) ⟨_, rfl⟩
    obtain ⟨dl, hdl⟩ := certBag_enc leaf
    obtain ⟨cbs, hcbs, hcbs'⟩ := makeCaBags_ok cas
    have s1 := readSalt_some (rnd := rnd) (by omega)
    have s2 := readSalt_some (rnd := rnd.drop 8) (by simp; omega)
    have s3 := readSalt_some (rnd := (rnd.drop 8).drop 8) (by simp; omega)
    obtain ⟨pb1, c1, hpb1, hc1⟩ := pbEncrypt_fresh P .tdes (rnd.take 8) kb pw (by simp; omega)
    obtain ⟨kv, hkv⟩ := marshalR_isOk (c := encryptedPrivateKeyInfo) (v := ⟨⟨oid3DES, { full := pb1 }⟩, c1⟩) (by
      obtain ⟨e1, h1⟩ := algId_full_enc oid_ok_3des { full := pb1 }
      obtain ⟨e2, h2⟩ := octets_isSome c1 {}
      exact ⟨_, by simp only [encryptedPrivateKeyInfo, h1, h2, Option.bind_eq_bind, Option.bind_some, Option.pure_def]; rfl⟩)
    have hattrs : ∀ a ∈ [(⟨oidLocalKeyID, ⟨0, 17, true, fp, []⟩⟩ : Attribute)], OidOk a.id := by
      intro a ha; simp only [List.mem_singleton] at ha; subst ha; exact oid_ok_lkid
    obtain ⟨data0, hdata0⟩ := marshalR_isOk (seqOf_enc (c := safeBag)
      (l := ⟨oidCertBag, ctx0 dl, some [⟨oidLocalKeyID, ⟨0, 17, true, fp, []⟩⟩]⟩ :: cbs) (by
        intro v hv
        rcases List.mem_cons.mp hv with rfl | hv
        · exact safeBag_enc oid_ok_certbag _ _ hattrs
        · obtain ⟨w, rfl⟩ := hcbs' v hv
          exact safeBag_enc oid_ok_certbag _ _ (by simp)))
    obtain ⟨pb2, c2, hpb2, hc2⟩ := pbEncrypt_fresh P .rc2 ((rnd.drop 8).take 8) data0 pw (by simp; omega)
    obtain ⟨ed, hed⟩ := marshalR_isOk (c := encryptedData)
      (v := ⟨0, oidDataContentType, ⟨oidRC2_40, { full := pb2 }⟩, c2⟩) (by
        obtain ⟨e1, h1⟩ := oid_isSome oid_ok_data {}
        obtain ⟨e2, h2⟩ := algId_full_enc oid_ok_rc2 { full := pb2 }
        obtain ⟨e3, h3⟩ := octets_isSome c2 { opt := some [], tag := some 0 }
        obtain ⟨e4, h4⟩ := marshalField_isSome encryptedContentInfo {} ⟨oidDataContentType, ⟨oidRC2_40, { full := pb2 }⟩, c2⟩
          ⟨_, by simp only [encryptedContentInfo, h1, h2, h3, Option.bind_eq_bind, Option.bind_some, Option.pure_def]; rfl⟩
        obtain ⟨e5, h5⟩ := goInt_isSome 0 {}
        exact ⟨_, by simp only [encryptedData, h4, h5, Option.bind_eq_bind, Option.bind_some, Option.pure_def]; rfl⟩)
    obtain ⟨data1, hdata1⟩ := marshalR_isOk (seqOf_enc (c := safeBag)
      (l := [⟨oidPKCS8ShroundedKeyBag, ctx0 kv, some [⟨oidLocalKeyID, ⟨0, 17, true, fp, []⟩⟩]⟩]) (by
        intro v hv
        simp only [List.mem_singleton] at hv
        subst hv
        exact safeBag_enc oid_ok_keybag _ _ hattrs))
    obtain ⟨ct1, hct1⟩ := marshalR_isOk (c := octets) (v := data1) ⟨_, rfl⟩
    obtain ⟨auth, hauth⟩ := marshalR_isOk (seqOf_enc (c := contentInfo)
      (l := [⟨oidEncryptedDataContentType, ctx0 ed⟩, ⟨oidDataContentType, ctx0 ct1⟩]) (by
        intro v hv
        simp only [List.mem_cons, List.not_mem_nil, or_false] at hv
        rcases hv with rfl | rfl
        · exact contentInfo_enc oid_ok_enc _
        · exact contentInfo_enc oid_ok_data _))
    obtain ⟨md, hmd, hmd2, _⟩ := C34_compute_verify P ⟨⟨⟨oidSHA1, {}⟩, []⟩, ((rnd.drop 8).drop 8).take 8, 1⟩ auth pw rfl
    obtain ⟨content, hcontent⟩ := marshalR_isOk (c := octets) (v := auth) ⟨_, rfl⟩
    obtain ⟨pfx, hpfx⟩ := marshalR_isOk (c := pfxPdu) (v := ⟨3, ⟨oidDataContentType, ctx0 content⟩, md⟩) (by
      obtain ⟨e1, h1⟩ := goInt_isSome 3 {}
      obtain ⟨e2, h2⟩ := marshalField_isSome contentInfo {} _ (contentInfo_enc oid_ok_data (ctx0 content))
      have hdi : ∃ b, macData.enc md = some b := by
        rw [hmd2]
        obtain ⟨e1, h1⟩ := algId_full_enc oid_ok_sha1 {}
        obtain ⟨e2, h2⟩ := octets_isSome (P12Spec.mac P (((rnd.drop 8).drop 8).take 8) pw 1 auth) {}
        obtain ⟨e3, h3⟩ := marshalField_isSome digestInfo {}
          ⟨⟨oidSHA1, {}⟩, P12Spec.mac P (((rnd.drop 8).drop 8).take 8) pw 1 auth⟩
          ⟨_, by simp only [digestInfo, h1, h2, Option.bind_eq_bind, Option.bind_some, Option.pure_def]; rfl⟩
        obtain ⟨e4, h4⟩ := octets_isSome (((rnd.drop 8).drop 8).take 8) {}
        obtain ⟨e5, h5⟩ := goInt_isSome 1 { opt := some 1 }
        exact ⟨_, by simp only [macData, h3, h4, h5, Option.bind_eq_bind, Option.bind_some, Option.pure_def]; rfl⟩
      obtain ⟨e3, h3⟩ := marshalField_isSome macData { opt := some {} } md hdi
      exact ⟨_, by simp only [pfxPdu, h1, h2, h3, Option.bind_eq_bind, Option.bind_some, Option.pure_def]; rfl⟩)
    refine ⟨pfx, ((rnd.drop 8).drop 8).drop 8, ?_⟩
    unfold encode localKeyIdAttr makeCertBag encodePkcs8ShroudedKeyBag makeSafeContents
    have hc1' : pbEncrypt P ⟨oid3DES, { full := pb1 }⟩ kb pw = .ok c1 := hc1
    have hc2' : pbEncrypt P ⟨oidRC2_40, { full := pb2 }⟩ data0 pw = .ok c2 := hc2
    simp only [hpw, hfp, hdl, hcbs, hkb, s1, hpb1, hc1', hkv, hdata0, s2, hpb2, hc2', hed, hdata1, hct1, hauth, s3, hmd,
      hcontent, hpfx, Res.bind_ok, Res.pure_eq]

end MCrypto.Props
