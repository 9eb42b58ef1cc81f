import Verif.Pkcs12.QueriesLemmas
import Verif.Pkcs12.PfxMain
/-
How often `Encode` hashes, and how often opening one of its files does (no property statements here).
-/
namespace MCrypto.P12
open MCrypto Asn1 MCrypto.X509 Q

theorem cipher2048 (P : Prims) (t : CipherType) (alg : AlgId) (pw : Bytes) {salt pb : Bytes} (hs : salt.length = 8)
    (ht : cipherTypeFor alg.algorithm = .ok t) (hpb : marshal pbeParams ⟨salt, 2048⟩ = some pb) (hf : alg.parameters.full = pb) :
    (asked P.sha1 (pbeCipherForQ P alg pw)).length = cipherBlocks t * 2048 := by
  have hp : unmarshalAll pbeParams alg.parameters.full = .ok ⟨salt, 2048⟩ := by
    rw [hf]; exact (pbe_params hs hpb).1
  rw [asked_pbeCipherForQ P t alg pw _ ht hp]; rfl

theorem type_3des : cipherTypeFor oid3DES = .ok .tdes := rfl
theorem type_rc2 : cipherTypeFor oidRC2_40 = .ok .rc2 := rfl

theorem keyBag_cost (P : Prims) (edPub : Bytes → Bytes) {key : PrivKey} {pw : Bytes} {rnd rnd' : Reader}
    {d : Bytes} (h : encodePkcs8ShroudedKeyBag P key pw rnd = .ok (d, rnd')) (hl : d.length < 2 ^ 31) :
    (asked P.sha1 (decodePkcs8ShroudedKeyBagQ P edPub d pw)).length = 6144 := by
  unfold encodePkcs8ShroudedKeyBag at h
  simp only [Res.bind_eq_ok, Res.pure_eq, Prod.exists, Res.ok.injEq, Prod.mk.injEq] at h
  obtain ⟨kb, hkb, salt, rnd1, hsalt, pb, hpb, data, hdata, d', hd', rfl, rfl⟩ := h
  obtain ⟨hr1, _, hr2, hs8⟩ := readSalt_ok hsalt
  have hpb := marshalR_ok hpb
  have hd' := marshalR_ok hd'
  obtain ⟨a', hto, ha1, ha2⟩ := pbeAlg_to oid_ok_3des hs8 hpb
  have hu := unmarshalAll_to (encryptedPrivateKeyInfo_to hto data) hd' hl
  unfold decodePkcs8ShroudedKeyBagQ
  rw [asked_bind, run_ret, asked_ret, hu, then'_ok, List.nil_append, asked_bind, asked_pbDecryptQ]
  simp only []
  rw [List.length_append, cipher2048 P .tdes a' pw hs8 (by rw [ha1]; rfl) hpb ha2]
  cases run P.sha1 (pbDecryptQ P a' data pw) with
  | ok x =>
    rw [then'_ok, asked_bind, asked_ret, run_ret]
    rw [then'_ret P.sha1 (unmarshalAllRaw x) fun _ => parsePKCS8PrivateKey edPub x]; rfl
  | err e => rfl
  | panic => rfl

theorem safe_cost (P : Prims) {bags bags' : List SafeBag} (hb : List.Forall₂ BagTo bags bags')
    {opw : Option Bytes} {rnd rnd' : Reader} {ci : ContentInfo} {e : Bytes}
    (h : makeSafeContents P bags opw rnd = .ok (ci, rnd')) (he : marshal contentInfo ci = some e)
    (hl : e.length < 2 ^ 31) (pw : Bytes) (hpw : ∀ p, opw = some p → p = pw) :
    ∃ ci' data, contentInfo.To ci ci' ∧ safeData P ci' pw = .ok data ∧
      marshal (seqOf safeBag) bags = some data ∧ data.length < e.length ∧
      unmarshalAll (seqOf safeBag) data = .ok bags' ∧
      (asked P.sha1 (safeDataQ P ci' pw)).length = if opw = none then 0 else 4096 := by
  unfold makeSafeContents at h
  simp only [Res.bind_eq_ok] at h
  obtain ⟨data, hdata, h⟩ := h
  have hdata := marshalR_ok hdata
  cases opw with
  | none =>
    simp only [Res.bind_eq_ok, Res.pure_eq, Res.ok.injEq, Prod.mk.injEq] at h
    obtain ⟨c, hc, rfl, rfl⟩ := h
    have hc := marshalR_ok hc
    have l1 := contentInfo_lt he
    have l2 := octets_lt hc
    refine ⟨_, data, contentInfo_to oid_ok_data (marshal_ne_nil hc), ?_, hdata, by omega,
      unmarshalAll_to (seqOf_to_safe hb) hdata (by omega), ?_⟩
    · unfold safeData
      rw [if_pos rfl]
      exact unmarshalAll_to (octets_to data) hc (show c.length < 2 ^ 31 by omega)
    · unfold safeDataQ
      rw [if_pos rfl, if_pos rfl]; rfl
  | some p =>
    have := hpw p rfl
    subst this
    simp only [Res.bind_eq_ok, Res.pure_eq, Prod.exists, Res.ok.injEq, Prod.mk.injEq] at h
    obtain ⟨salt, rnd1, hsalt, pb, hpb, enc, henc, c, hc, rfl, rfl⟩ := h
    obtain ⟨_, _, _, hs8⟩ := readSalt_ok hsalt
    have hpb := marshalR_ok hpb
    have hc := marshalR_ok hc
    obtain ⟨hdec, hlen⟩ := pbRoundtrip P _ _ _ _ henc
    have hne : enc ≠ [] := by intro hh; subst hh; simp at hlen
    have l1 := contentInfo_lt he
    have l2 := encryptedData_lt hne hc
    obtain ⟨a', hto, ha1, ha2⟩ := pbeAlg_to oid_ok_rc2 hs8 hpb
    have hu := unmarshalAll_to (encryptedData_to (encryptedContentInfo_to oid_ok_data hto enc)) hc (by omega)
    refine ⟨_, data, contentInfo_to oid_ok_enc (marshal_ne_nil hc), ?_, hdata, by omega,
      unmarshalAll_to (seqOf_to_safe hb) hdata (by omega), ?_⟩
    · unfold safeData
      rw [if_neg (show ¬ oidEncryptedDataContentType = oidDataContentType by decide), if_pos rfl]
      show (unmarshalAll encryptedData c >>= fun ed => _) = _
      rw [hu, Res.bind_ok]
      simp only [ne_eq, not_true_eq_false, if_false]
      rw [pbDecrypt_congr P (a' := ⟨oidRC2_40, { full := pb }⟩) ha1 ha2, hdec]
    · unfold safeDataQ
      rw [if_neg (show ¬ oidEncryptedDataContentType = oidDataContentType by decide), if_pos rfl, asked_bind, run_ret, asked_ret]
      rw [show unmarshalAll encryptedData (rawOf 2 true 0 c).bytes = _ from hu, then'_ok]
      simp only [ne_eq, not_true_eq_false, if_false, List.nil_append]
      rw [asked_pbDecryptQ, cipher2048 P .rc2 a' p hs8 (by rw [ha1]; exact type_rc2) hpb ha2, if_neg (by simp)]
      rfl

/-- An `Encode`d file, piece by piece. -/
structure EncodedParts (P : Prims) (edPub : Bytes → Bytes) (leaf : Bytes) (cas : List Bytes) (pfx pw : Bytes)
    (leafBag : SafeBag) (caBags : List SafeBag) (keyBag : SafeBag) : Prop where
  parts : ∃ auth content dg salt ci0 ci1 data0 data1,
    unmarshalAll pfxPdu pfx = .ok ⟨3, ⟨oidDataContentType, rawOf 2 true 0 content⟩, ⟨⟨⟨oidSHA1, {}⟩, dg⟩, salt, 1⟩⟩ ∧
    unmarshalAllRaw content = .ok (rawOf 0 false 4 auth) ∧
    verifyMac P ⟨⟨⟨oidSHA1, {}⟩, dg⟩, salt, 1⟩ auth pw = .ok () ∧
    unmarshalAll (seqOf contentInfo) auth = .ok [ci0, ci1] ∧
    safeData P ci0 pw = .ok data0 ∧ unmarshalAll (seqOf safeBag) data0 = .ok (leafBag :: caBags) ∧
    safeData P ci1 pw = .ok data1 ∧ unmarshalAll (seqOf safeBag) data1 = .ok [keyBag] ∧
    (asked P.sha1 (safeDataQ P ci0 pw)).length = 4096 ∧ (asked P.sha1 (safeDataQ P ci1 pw)).length = 0
  leaf : IsCertBag leaf leafBag
  cas : List.Forall₂ IsCertBag cas caBags
  keyId : keyBag.id = oidPKCS8ShroundedKeyBag
  key : (asked P.sha1 (decodePkcs8ShroudedKeyBagQ P edPub keyBag.value.bytes pw)).length = 6144

theorem encode_parts (P : Prims) (edPub : Bytes → Bytes) {key : PrivKey} {leaf : Bytes} {cas : List Bytes}
    {password : Bytes} {rnd rnd' : Reader} {pfx : Bytes}
    (h : encode P key leaf cas password rnd = .ok (pfx, rnd')) (hlen : pfx.length < 2 ^ 31) :
    ∃ pw leafBag caBags keyBag, bmpString password = .ok pw ∧ EncodedParts P edPub leaf cas pfx pw leafBag caBags keyBag := by
  unfold encode at h
  simp only [Res.bind_eq_ok, Res.pure_eq, Prod.exists, Res.ok.injEq, Prod.mk.injEq] at h
  obtain ⟨pw, hpw, attr, hattr, lb, hlb, cbs, hcbs, kv, rnd1, hkv, safe0, rnd2, hs0, safe1, rnd3, hs1, auth, hauth,
    salt, rnd4, hsalt, md, hmd, content, hcontent, pfx', hpfx, rfl, rfl⟩ := h
  unfold localKeyIdAttr at hattr
  simp only [Res.bind_eq_ok, Res.pure_eq, Res.ok.injEq] at hattr
  obtain ⟨fp, hfp, rfl⟩ := hattr
  have hato := attrC_to oid_ok_lkid fp
  have hlato : List.Forall₂ attrC.To [⟨oidLocalKeyID, ⟨0, 17, true, fp, []⟩⟩] [⟨oidLocalKeyID, rawOf 0 true 17 fp⟩] :=
    .cons hato .nil
  have hauth := marshalR_ok hauth
  have hcontent := marshalR_ok hcontent
  have hpfx := marshalR_ok hpfx
  have l1 := pfxPdu_lt hpfx
  have l2 := octets_lt hcontent
  obtain ⟨dl, lb', e1, e2, e3, e4, e5, e6⟩ := makeCertBag_to hlb (by simp) hlato
  obtain ⟨cbs', f1, f2, f3, f4⟩ := makeCaBags_to hcbs
  obtain ⟨x0, hx0, hx0l⟩ := seqOf_mem_lt hauth safe0 (by simp)
  obtain ⟨x1, hx1, hx1l⟩ := seqOf_mem_lt hauth safe1 (by simp)
  have hkv_ne : kv ≠ [] := by
    have hkv := hkv
    unfold encodePkcs8ShroudedKeyBag at hkv
    simp only [Res.bind_eq_ok, Res.pure_eq, Prod.exists, Res.ok.injEq, Prod.mk.injEq] at hkv
    obtain ⟨kb, hkb, salt, rnd1, hsalt, pb, hpb, data, hdata, d', hd', rfl, rfl⟩ := hkv
    exact marshal_ne_nil (marshalR_ok hd')
  obtain ⟨ci0, data0, g1, g2, g3, g4, g5, g6⟩ := safe_cost P (.cons e2 f1) hs0 hx0 (by omega) pw
    (fun p hp => by injection hp with hp; exact hp.symm)
  obtain ⟨ci1, data1, k1, k2, k3, k4, k5, k6⟩ := safe_cost P
    (.cons (bagTo_mk oid_ok_keybag hkv_ne (by simp) hlato) .nil) hs1 hx1 (by omega) pw (fun p hp => by cases hp)
  have hkvl := certBags_len k3 (List.mem_cons_self) rfl
  unfold computeMac at hmd
  rw [if_neg (by simp)] at hmd
  simp only [Res.bind_eq_ok, Res.pure_eq, Res.ok.injEq] at hmd
  obtain ⟨dg, hdg, rfl⟩ := hmd
  have hmto := macData_to (digestInfo_to (algId_to_none oid_ok_sha1) dg) salt 1 (by decide) (by decide)
  have hne : (⟨⟨⟨oidSHA1, {}⟩, dg⟩, salt, 1⟩ : MacData) ≠ {} := by
    intro hh
    have := congrArg MacData.iterations hh
    simp at this
  have hu := unmarshalAll_to (pfxPdu_to (contentInfo_to oid_ok_data (marshal_ne_nil hcontent)) hmto hne) hpfx hlen
  have hcb : content = encTLV 0 false 4 auth := by
    obtain ⟨body, hb, rfl⟩ := marshal_tlv _ _ _ hcontent
    simp only [octets, Option.some.injEq] at hb
    subst hb; rfl
  have hraw : unmarshalAllRaw content = .ok (rawOf 0 false 4 auth) := by
    rw [hcb]
    exact unmarshalAllRaw_encTLV _ _ _ _ (by decide) (by decide) (by omega)
  refine ⟨pw, lb', cbs', ⟨oidPKCS8ShroundedKeyBag, rawOf 2 true 0 kv, some [⟨oidLocalKeyID, rawOf 0 true 17 fp⟩]⟩, hpw, ⟨?_, ?_, ?_, rfl, ?_⟩⟩
  · refine ⟨auth, content, dg, salt, ci0, ci1, data0, data1, hu, hraw, ?_,
      unmarshalAll_to (seqOf_to contentInfo (by decide) _ _ (.cons g1 (.cons k1 .nil))) hauth (by omega), g2, g5, k2, k5, g6, k6⟩
    unfold verifyMac
    rw [if_neg (by simp)]
    have : macOf P ⟨⟨⟨oidSHA1, {}⟩, dg⟩, salt, 1⟩ auth pw = .ok dg := hdg
    rw [this, Res.bind_ok]
    simp
  · have := certBags_len g3 (List.mem_cons_self) e5
    exact ⟨e3, dl, e1, e4, by omega⟩
  · exact isCertBags (by omega) f2 f3 g3 fun b hb => by simp [hb]
  · exact keyBag_cost P edPub hkv (show kv.length < 2 ^ 31 by omega)

end MCrypto.P12
