import Verif.Pkcs12.PfxRoundtrip
/-
`Encode` then `getSafeContents` then the loop over the bags (no property statements here).
-/
namespace MCrypto.P12
open MCrypto Asn1 MCrypto.X509

/-- The parsed form of a certificate bag. -/
def IsCertBag (raw : Bytes) (b : SafeBag) : Prop :=
  b.id = oidCertBag ∧ ∃ d, encodeCertBag raw = .ok d ∧ b.value.bytes = d ∧ d.length < 2 ^ 31

theorem makeCertBag_to {raw : Bytes} {l l' : List Attribute} {b : SafeBag}
    (h : makeCertBag raw (some l) = .ok b) (h1 : l.length ≤ 1) (hto : List.Forall₂ attrC.To l l') :
    ∃ d b', encodeCertBag raw = .ok d ∧ BagTo b b' ∧ b'.id = oidCertBag ∧ b'.value.bytes = d ∧ b.value = ctx0 d ∧
      b'.attrs = some l' := by
  unfold makeCertBag at h
  simp only [Res.bind_eq_ok, Res.pure_eq, Res.ok.injEq] at h
  obtain ⟨v, hv, rfl⟩ := h
  exact ⟨v, _, hv, bagTo_mk oid_ok_certbag (marshal_ne_nil (marshalR_ok hv)) h1 hto, rfl, rfl, rfl, rfl⟩

/-- A bag of the input list with the bag it is parsed as. -/
def CertBagTo (raw : Bytes) (b b' : SafeBag) : Prop :=
  ∃ d, encodeCertBag raw = .ok d ∧ BagTo b b' ∧ b'.id = oidCertBag ∧ b'.value.bytes = d ∧ b.value = ctx0 d

theorem makeCaBags_to {cas : List Bytes} {bs : List SafeBag} (h : makeCaBags cas = .ok bs) :
    ∃ bs', List.Forall₂ BagTo bs bs' ∧ List.Forall₂ (fun raw (p : SafeBag × SafeBag) => CertBagTo raw p.1 p.2) cas (bs.zip bs')
      ∧ bs.length = bs'.length ∧ ∀ b ∈ bs', b.attrs = some [] := by
  induction cas generalizing bs with
  | nil =>
    rw [makeCaBags] at h
    injection h with h
    subst h
    exact ⟨[], .nil, .nil, rfl, by simp⟩
  | cons raw cas ih =>
    rw [makeCaBags] at h
    simp only [Res.bind_eq_ok, Res.pure_eq, Res.ok.injEq] at h
    obtain ⟨b, hb, bs0, hbs, rfl⟩ := h
    obtain ⟨d, b', h1, h2, h3, h4, h5, h9⟩ := makeCertBag_to hb (by simp) .nil
    obtain ⟨bs', h6, h7, h8, h10⟩ := ih hbs
    exact ⟨b' :: bs', .cons h2 h6, .cons ⟨d, h1, h2, h3, h4, h5⟩ h7, by simp [h8], by
      intro x hx
      rcases List.mem_cons.mp hx with rfl | hx
      · exact h9
      · exact h10 x hx⟩

theorem certBags_len {l : List SafeBag} {data : Bytes} (h : marshal (seqOf safeBag) l = some data)
    {b : SafeBag} (hb : b ∈ l) {d : Bytes} (hd : b.value = ctx0 d) : d.length < data.length := by
  obtain ⟨x, hx, hxl⟩ := seqOf_mem_lt h b hb
  obtain ⟨i, v, a⟩ := b
  simp only [] at hd
  subst hd
  have := safeBag_lt hx
  omega

theorem isCertBags {cas : List Bytes} {bs bs' l : List SafeBag} {data : Bytes} (hl : data.length < 2 ^ 31)
    (h : List.Forall₂ (fun raw (p : SafeBag × SafeBag) => CertBagTo raw p.1 p.2) cas (bs.zip bs'))
    (hlen : bs.length = bs'.length)
    (hm : marshal (seqOf safeBag) l = some data) (hsub : ∀ b ∈ bs, b ∈ l) : List.Forall₂ IsCertBag cas bs' := by
  induction cas generalizing bs bs' with
  | nil =>
    cases bs with
    | nil => cases bs' with
      | nil => exact .nil
      | cons => simp at hlen
    | cons => cases bs' with
      | nil => simp at hlen
      | cons => cases h
  | cons raw cas ih =>
    cases bs with
    | nil => cases h
    | cons b bs =>
      cases bs' with
      | nil => cases h
      | cons b' bs' =>
        cases h with
        | cons h1 h2 =>
          obtain ⟨d, hd1, _, hd3, hd4, hd5⟩ := h1
          refine .cons ⟨hd3, d, hd1, hd4, ?_⟩ (ih h2 (by simpa using hlen) fun x hx => hsub x (by simp [hx]))
          have := certBags_len hm (hsub b (by simp)) hd5
          omega

/-- `Encode`, then `getSafeContents` with the same password; with the attributes of the bags. -/
theorem encode_getSafeContents' (P : Prims) (edPub : Bytes → Bytes) {key : PrivKey} {leaf : Bytes} {cas : List Bytes}
    {password : Bytes} {rnd rnd' : Reader} {pfx : Bytes}
    (h : encode P key leaf cas password rnd = .ok (pfx, rnd')) (hlen : pfx.length < 2 ^ 31) :
    ∃ pw leafBag caBags keyBag kb, bmpString password = .ok pw ∧ marshalPKCS8PrivateKey key = .ok kb ∧
      getSafeContents P pfx pw = .ok (leafBag :: caBags ++ [keyBag], pw) ∧
      IsCertBag leaf leafBag ∧ List.Forall₂ IsCertBag cas caBags ∧ keyBag.id = oidPKCS8ShroundedKeyBag ∧
      (∀ key', parsePKCS8PrivateKey edPub kb = .ok key' →
        decodePkcs8ShroudedKeyBag P edPub keyBag.value.bytes pw = .ok key') ∧
      ∃ fp, marshal octets (P.sha1 leaf) = some fp ∧ leafBag.attrs = some [⟨oidLocalKeyID, rawOf 0 true 17 fp⟩] ∧
        keyBag.attrs = some [⟨oidLocalKeyID, rawOf 0 true 17 fp⟩] ∧ ∀ b ∈ caBags, b.attrs = some [] := by
  unfold encode at h
  simp only [Res.bind_eq_ok, Res.pure_eq, Prod.exists, Res.ok.injEq, Prod.mk.injEq] at h
  obtain ⟨pw, hpw, attr, hattr, lb, hlb, cbs, hcbs, kv, rnd1, hkv, safe0, rnd2, hs0, safe1, rnd3, hs1, auth, hauth,
    salt, rnd4, hsalt, md, hmd, content, hcontent, pfx', hpfx, rfl, rfl⟩ := h
  -- the attribute
  unfold localKeyIdAttr at hattr
  simp only [Res.bind_eq_ok, Res.pure_eq, Res.ok.injEq] at hattr
  obtain ⟨fp, hfp, rfl⟩ := hattr
  have hato := attrC_to oid_ok_lkid fp
  have hlato : List.Forall₂ attrC.To [⟨oidLocalKeyID, ⟨0, 17, true, fp, []⟩⟩] [⟨oidLocalKeyID, rawOf 0 true 17 fp⟩] :=
    .cons hato .nil
  have hauth := marshalR_ok hauth
  have hcontent := marshalR_ok hcontent
  have hpfx := marshalR_ok hpfx
  have l1 := pfxPdu_lt hpfx
  have l2 := octets_lt hcontent
  -- the bags
  obtain ⟨dl, lb', e1, e2, e3, e4, e5, e6⟩ := makeCertBag_to hlb (by simp) hlato
  obtain ⟨cbs', f1, f2, f3, f4⟩ := makeCaBags_to hcbs
  obtain ⟨x0, hx0, hx0l⟩ := seqOf_mem_lt hauth safe0 (by simp)
  obtain ⟨x1, hx1, hx1l⟩ := seqOf_mem_lt hauth safe1 (by simp)
  have hkv_ne : kv ≠ [] := by
    unfold encodePkcs8ShroudedKeyBag at hkv
    simp only [Res.bind_eq_ok, Res.pure_eq, Prod.exists, Res.ok.injEq, Prod.mk.injEq] at hkv
    obtain ⟨kb, hkb, salt, rnd1, hsalt, pb, hpb, data, hdata, d', hd', rfl, rfl⟩ := hkv
    exact marshal_ne_nil (marshalR_ok hd')
  obtain ⟨ci0, data0, g1, g2, g3, g4, g5⟩ := makeSafeContents_to P (.cons e2 f1) hs0 hx0 (by omega) pw
    (fun p hp => by injection hp with hp; exact hp.symm)
  obtain ⟨ci1, data1, k1, k2, k3, k4, k5⟩ := makeSafeContents_to P
    (.cons (bagTo_mk oid_ok_keybag hkv_ne (by simp) hlato) .nil) hs1 hx1 (by omega) pw (fun p hp => by cases hp)
  have hkvl := certBags_len k3 (List.mem_cons_self) rfl
  obtain ⟨kb, m1, m2, m3, m4, m5⟩ := keyBag_roundtrip P edPub hkv (by omega)
  refine ⟨pw, lb', cbs', ⟨oidPKCS8ShroundedKeyBag, rawOf 2 true 0 kv, some [⟨oidLocalKeyID, rawOf 0 true 17 fp⟩]⟩, kb, hpw, m1, ?_, ⟨e3, dl, e1, e4, ?_⟩, ?_, rfl, ?_,
    fp, marshalR_ok hfp, e6, rfl, f4⟩
  · -- MAC
    unfold computeMac at hmd
    rw [if_neg (by simp)] at hmd
    simp only [Res.bind_eq_ok, Res.pure_eq, Res.ok.injEq] at hmd
    obtain ⟨dg, hdg, rfl⟩ := hmd
    have hmto := macData_to (digestInfo_to (algId_to_none oid_ok_sha1) dg) salt 1 (by decide) (by decide)
    have hne : (⟨⟨⟨oidSHA1, {}⟩, dg⟩, salt, 1⟩ : MacData) ≠ {} := by
      intro hh
      have := congrArg MacData.iterations hh
      simp at this
    have hu := unmarshalAll_to (pfxPdu_to (contentInfo_to oid_ok_data (marshal_ne_nil hcontent)) hmto hne) hpfx hlen
    have hcb : content = encTLV 0 false 4 auth := by
      obtain ⟨body, hb, rfl⟩ := marshal_tlv _ _ _ hcontent
      simp only [octets, Option.some.injEq] at hb
      subst hb; rfl
    have hraw : unmarshalAllRaw content = .ok (rawOf 0 false 4 auth) := by
      rw [hcb]
      exact unmarshalAllRaw_encTLV _ _ _ _ (by decide) (by decide) (by omega)
    unfold getSafeContents
    rw [hu, Res.bind_ok]
    simp only [ne_eq, not_true_eq_false, if_false]
    have hcont : (rawOf 2 true 0 content).bytes = content := rfl
    have hauthb : (rawOf 0 false 4 auth).bytes = auth := rfl
    rw [hcont, hraw, Res.bind_ok, hauthb, if_neg (by decide)]
    have hck : checkMac P ⟨⟨⟨oidSHA1, {}⟩, dg⟩, salt, 1⟩ auth pw = .ok pw := by
      unfold checkMac verifyMac
      rw [if_neg (by simp)]
      have : macOf P ⟨⟨⟨oidSHA1, {}⟩, dg⟩, salt, 1⟩ auth pw = .ok dg := hdg
      rw [this, Res.bind_ok]
      simp
    rw [hck, Res.bind_ok, unmarshalAll_to (seqOf_to contentInfo (by decide) _ _ (.cons g1 (.cons k1 .nil))) hauth
      (by omega), Res.bind_ok, if_neg (by simp)]
    simp only [collectBags, g2, g5, k2, k5, Res.bind_ok, List.nil_append, Res.pure_eq]
  · have := certBags_len g3 (List.mem_cons_self) e5
    omega
  · exact isCertBags (by omega) f2 f3 g3 fun b hb => by simp [hb]
  · exact m5

/-- `Encode`, then `getSafeContents` with the same password. -/
theorem encode_getSafeContents (P : Prims) (edPub : Bytes → Bytes) {key : PrivKey} {leaf : Bytes} {cas : List Bytes}
    {password : Bytes} {rnd rnd' : Reader} {pfx : Bytes}
    (h : encode P key leaf cas password rnd = .ok (pfx, rnd')) (hlen : pfx.length < 2 ^ 31) :
    ∃ pw leafBag caBags keyBag kb, bmpString password = .ok pw ∧ marshalPKCS8PrivateKey key = .ok kb ∧
      getSafeContents P pfx pw = .ok (leafBag :: caBags ++ [keyBag], pw) ∧
      IsCertBag leaf leafBag ∧ List.Forall₂ IsCertBag cas caBags ∧ keyBag.id = oidPKCS8ShroundedKeyBag ∧
      ∀ key', parsePKCS8PrivateKey edPub kb = .ok key' →
        decodePkcs8ShroudedKeyBag P edPub keyBag.value.bytes pw = .ok key' := by
  obtain ⟨pw, lb, cb, kb, kd, h1, h2, h3, h4, h5, h6, h7, -⟩ := encode_getSafeContents' P edPub h hlen
  exact ⟨pw, lb, cb, kb, kd, h1, h2, h3, h4, h5, h6, h7⟩

/-! ### The loop over the bags -/

theorem decodeBag_cert {κ : Type} (P : Prims) (edPub : Bytes → Bytes) (parseCerts : Bytes → Res (List κ)) (keep : Bool)
    (pw : Bytes) {raw : Bytes} {b : SafeBag} (hb : IsCertBag raw b) {c : κ} (hc : parseCerts raw = .ok [c])
    (s : DecState κ) : decodeBag P edPub parseCerts keep pw b s =
      .ok { s with certs := if keep then s.certs ++ [c] else [c], dup := if s.certs.length ≠ 0 then true else s.dup } := by
  obtain ⟨h1, d, h2, h3, h4⟩ := hb
  unfold decodeBag
  rw [if_pos h1, h3, certBag_roundtrip h2 h4]
  simp only [Res.bind_ok, hc]

theorem decodeBags_append {κ : Type} (P : Prims) (edPub : Bytes → Bytes) (parseCerts : Bytes → Res (List κ))
    (keep : Bool) (pw : Bytes) (l l' : List SafeBag) (s : DecState κ) :
    decodeBags P edPub parseCerts keep pw (l ++ l') s =
      (decodeBags P edPub parseCerts keep pw l s >>= decodeBags P edPub parseCerts keep pw l') := by
  induction l generalizing s with
  | nil => rfl
  | cons b l ih =>
    rw [List.cons_append, decodeBags, decodeBags]
    cases decodeBag P edPub parseCerts keep pw b s with
    | ok s' => simp only [Res.bind_ok]; exact ih s'
    | err e => rfl
    | panic => rfl

theorem decodeBags_certs {κ : Type} (P : Prims) (edPub : Bytes → Bytes) (parseCerts : Bytes → Res (List κ))
    (pw : Bytes) {raws : List Bytes} {bs : List SafeBag} (hb : List.Forall₂ IsCertBag raws bs) {cs : List κ}
    (hc : List.Forall₂ (fun raw c => parseCerts raw = .ok [c]) raws cs) (s : DecState κ) :
    (∃ dup, decodeBags P edPub parseCerts true pw bs s = .ok { s with certs := s.certs ++ cs, dup := dup }) ∧
    (∃ dup, decodeBags P edPub parseCerts false pw bs s =
      .ok { s with certs := if cs = [] then s.certs else cs.getLast?.toList, dup := dup }) := by
  induction hb generalizing cs s with
  | nil =>
    cases hc
    exact ⟨⟨s.dup, by simp [decodeBags]⟩, ⟨s.dup, by simp [decodeBags]⟩⟩
  | cons h1 _ ih =>
    cases hc with
    | cons hc1 hc2 =>
      rename_i c cs
      constructor
      · rw [decodeBags, decodeBag_cert P edPub parseCerts true pw h1 hc1, Res.bind_ok]
        obtain ⟨dup, hd⟩ := (ih hc2 { s with certs := s.certs ++ [c], dup := if s.certs.length ≠ 0 then true else s.dup }).1
        exact ⟨dup, by simp only [if_true]; rw [hd]; simp⟩
      · rw [decodeBags, decodeBag_cert P edPub parseCerts false pw h1 hc1, Res.bind_ok]
        obtain ⟨dup, hd⟩ := (ih hc2 { s with certs := [c], dup := if s.certs.length ≠ 0 then true else s.dup }).2
        refine ⟨dup, ?_⟩
        simp only [Bool.false_eq_true, if_false]
        rw [hd]
        cases cs with
        | nil => simp
        | cons c' cs => simp [List.getLast?_cons_cons]

theorem decodeBag_key {κ : Type} (P : Prims) (edPub : Bytes → Bytes) (parseCerts : Bytes → Res (List κ)) (keep : Bool)
    (pw : Bytes) {b : SafeBag} (hb : b.id = oidPKCS8ShroundedKeyBag) {k : PrivKey}
    (hk : decodePkcs8ShroudedKeyBag P edPub b.value.bytes pw = .ok k) (s : DecState κ) :
    decodeBag P edPub parseCerts keep pw b s = .ok { s with key := some k, dup := false } := by
  unfold decodeBag
  rw [if_neg (by rw [hb]; decide), if_pos hb, hk, Res.bind_ok]

end MCrypto.P12
