import Verif.Pkcs12.Pfx
import Verif.Pkcs12.CryptoLemmas2
import Verif.Asn1.To
/-
Round trips of the structures of PKCS#12 (no property statements here).
-/
namespace MCrypto.P12
open MCrypto Asn1 MCrypto.X509

theorem unmarshalAll_to {α : Type} [DecidableEq α] {c : Codec α} {v v' : α} {e : Bytes}
    (hto : c.To v v') (hm : marshal c v = some e) (hlen : e.length < 2 ^ 31) (hct : c.tag ≤ 2147483647 := by decide) :
    unmarshalAll c e = .ok v' := by
  have := unmarshal_to [] hto hm hlen hct
  rw [List.append_nil] at this
  unfold unmarshalAll
  rw [this]; rfl

theorem marshalR_ok {α : Type} [DecidableEq α] {c : Codec α} {v : α} {e : Bytes} (h : marshalR c v = .ok e) :
    marshal c v = some e := by
  unfold marshalR Res.ofOption at h
  split at h
  · rename_i a ha
    injection h with h
    rw [ha, h]
  · cases h

theorem ctx0_marshal (p : Params RawValue) (hp : p.opt = none ∨ p.opt = some {}) (b : Bytes) :
    RawIs p (ctx0 b) 2 true 0 b := by
  apply RawIs.parts
  rcases hp with h | h <;> rw [h]
  · simp
  · intro hh; injection hh with hh; injection hh with hh; cases hh

/-! ### Codecs -/

theorem contentInfo_to {o : Oid} (ho : OidOk o) {b : Bytes} (hb : b ≠ []) :
    contentInfo.To ⟨o, ctx0 b⟩ ⟨o, rawOf 2 true 0 b⟩ := by
  intro body full h hl
  simp only [contentInfo, Option.pure_def, Option.bind_eq_bind, Option.bind_eq_some_iff] at h ⊢
  obtain ⟨e1, h1, e2, h2, hb'⟩ := h
  injection hb' with hb'
  subst hb'
  rw [List.length_append] at hl
  refine ⟨_, parseField_plain e2 (oid_to ho) h1 (by omega), (rawOf 2 true 0 b, []), ?_, rfl⟩
  have := parseRaw_to [] (ctx0_marshal contentParams (Or.inr rfl) b) h2 (by omega) (by decide) (by decide)
    (by rw [if_pos (by decide)]; exact ⟨rfl, rfl, rfl, hb⟩)
  rwa [List.append_nil] at this

theorem digestInfo_to {a a' : AlgId} (ha : algId.To a a') (d : Bytes) :
    digestInfo.To ⟨a, d⟩ ⟨a', d⟩ := by
  intro body full h hl
  simp only [digestInfo, Option.pure_def, Option.bind_eq_bind, Option.bind_eq_some_iff] at h ⊢
  obtain ⟨e1, h1, e2, h2, hb⟩ := h
  injection hb with hb
  subst hb
  simp only [List.length_append] at hl
  exact ⟨_, parseField_plain _ ha h1 (by omega), _, parseField_last (octets_to d) h2 (by dsimp only; omega), rfl⟩

theorem macData_to {m m' : DigestInfo} (hm : digestInfo.To m m') (s : Bytes) (n : Int)
    (hn1 : -(2 ^ 63 : Int) ≤ n) (hn2 : n < 2 ^ 63) : macData.To ⟨m, s, n⟩ ⟨m', s, n⟩ := by
  intro body full h hl
  simp only [macData, Option.pure_def, Option.bind_eq_bind, Option.bind_eq_some_iff] at h ⊢
  obtain ⟨e1, h1, e2, h2, e3, h3, hb⟩ := h
  injection hb with hb
  subst hb
  simp only [List.length_append] at hl
  refine ⟨_, parseField_plain _ hm h1 (by omega), _, parseField_plain _ (octets_to s) h2 (by omega), (n, []), ?_, rfl⟩
  have := parseField_opt [] rfl (fun _ => goInt_to n hn1 hn2) id h3 (fun _ => skips_nil _ _) (by omega)
  rwa [List.append_nil] at this

theorem pfxPdu_to {a a' : ContentInfo} (ha : contentInfo.To a a') {m m' : MacData} (hm : macData.To m m')
    (hne : m ≠ {}) : pfxPdu.To ⟨3, a, m⟩ ⟨3, a', m'⟩ := by
  intro body full h hl
  simp only [pfxPdu, Option.pure_def, Option.bind_eq_bind, Option.bind_eq_some_iff] at h ⊢
  obtain ⟨e1, h1, e2, h2, e3, h3, hb⟩ := h
  injection hb with hb
  subst hb
  simp only [List.length_append] at hl
  refine ⟨_, parseField_plain _ (goInt_to 3 (by omega) (by omega)) h1 (by omega), _, parseField_plain _ ha h2 (by omega),
    (m', []), ?_, rfl⟩
  have := parseField_opt [] rfl (fun _ => hm) (fun hh => absurd hh hne) h3 (fun _ => skips_nil _ _) (by omega)
  rwa [List.append_nil] at this

theorem encryptedContentInfo_to {o : Oid} (ho : OidOk o) {a a' : AlgId} (ha : algId.To a a') (c : Bytes) :
    encryptedContentInfo.To ⟨o, a, c⟩ ⟨o, a', c⟩ := by
  intro body full h hl
  simp only [encryptedContentInfo, Option.pure_def, Option.bind_eq_bind, Option.bind_eq_some_iff] at h ⊢
  obtain ⟨e1, h1, e2, h2, e3, h3, hb⟩ := h
  injection hb with hb
  subst hb
  simp only [List.length_append] at hl
  refine ⟨_, parseField_plain _ (oid_to ho) h1 (by omega), _, parseField_plain _ ha h2 (by omega), (c, []), ?_, rfl⟩
  have := parseField_opt [] rfl (fun _ => octets_to c) id h3 (fun _ => skips_nil _ _) (by omega)
  rwa [List.append_nil] at this

theorem encryptedData_to {i i' : EncryptedContentInfo} (hi : encryptedContentInfo.To i i') :
    encryptedData.To ⟨0, i⟩ ⟨0, i'⟩ := by
  intro body full h hl
  simp only [encryptedData, Option.pure_def, Option.bind_eq_bind, Option.bind_eq_some_iff] at h ⊢
  obtain ⟨e1, h1, e2, h2, hb⟩ := h
  injection hb with hb
  subst hb
  simp only [List.length_append] at hl
  exact ⟨_, parseField_plain _ (goInt_to 0 (by omega) (by omega)) h1 (by omega), _,
    parseField_last hi h2 (by dsimp only; omega), rfl⟩

theorem encryptedPrivateKeyInfo_to {a a' : AlgId} (ha : algId.To a a') (d : Bytes) :
    encryptedPrivateKeyInfo.To ⟨a, d⟩ ⟨a', d⟩ := by
  intro body full h hl
  simp only [encryptedPrivateKeyInfo, Option.pure_def, Option.bind_eq_bind, Option.bind_eq_some_iff] at h ⊢
  obtain ⟨e1, h1, e2, h2, hb⟩ := h
  injection hb with hb
  subst hb
  simp only [List.length_append] at hl
  exact ⟨_, parseField_plain _ ha h1 (by omega), _, parseField_last (octets_to d) h2 (by dsimp only; omega), rfl⟩

theorem certBag_to {o : Oid} (ho : OidOk o) (d : Bytes) : certBag.To ⟨o, d⟩ ⟨o, d⟩ := by
  intro body full h hl
  simp only [certBag, Option.pure_def, Option.bind_eq_bind, Option.bind_eq_some_iff] at h ⊢
  obtain ⟨e1, h1, e2, h2, hb⟩ := h
  injection hb with hb
  subst hb
  simp only [List.length_append] at hl
  refine ⟨_, parseField_plain _ (oid_to ho) h1 (by omega), (d, []), ?_, rfl⟩
  have := parseField_to [] (octets_to d) h2 (by simp) (by omega) (by decide) (by simp) (by simp)
  rwa [List.append_nil] at this

theorem attrC_to {o : Oid} (ho : OidOk o) (b : Bytes) :
    attrC.To ⟨o, ⟨0, 17, true, b, []⟩⟩ ⟨o, rawOf 0 true 17 b⟩ := by
  intro body full h hl
  simp only [attrC, Option.pure_def, Option.bind_eq_bind, Option.bind_eq_some_iff] at h ⊢
  obtain ⟨e1, h1, e2, h2, hb⟩ := h
  injection hb with hb
  subst hb
  simp only [List.length_append] at hl
  refine ⟨_, parseField_plain _ (oid_to ho) h1 (by omega), (rawOf 0 true 17 b, []), ?_, rfl⟩
  have := parseRaw_to [] (RawIs.parts (p := { set := true }) 0 17 true b (by simp)) h2 (by omega) (by decide) (by decide)
    (by rw [if_neg (by simp)]; exact Or.inl rfl)
  rwa [List.append_nil] at this

/-- An attribute list of at most one element (nothing to sort). -/
theorem attributes_to {l l' : List Attribute} (h1 : l.length ≤ 1) (hto : List.Forall₂ attrC.To l l') :
    attributes.To (some l) (some l') := by
  intro body full h hl
  have hs : (Asn1.setOf attrC).enc l = (seqOf attrC).enc l := by
    simp only [Asn1.setOf, seqOf]
    match hm : marshalElems (marshalField attrC {}) l with
    | none => rfl
    | some es =>
      have : es.length = l.length := by
        clear hto h hl h1
        induction l generalizing es with
        | nil => rw [marshalElems] at hm; injection hm with hm; subst hm; rfl
        | cons a l ih =>
          obtain ⟨e, es', h1, h2, rfl⟩ := marshalElems_cons _ _ _ _ hm
          simp only [List.length_cons, ih es' h2]
      match es, this with
      | [], _ => simp [sortBy]
      | [e], _ => simp [sortBy, insertBy]
      | _ :: _ :: _, this => simp at this; omega
  simp only [attributes, Option.getD_some, hs] at h ⊢
  have := seqOf_to attrC (by decide) l l' hto body full h hl
  show Option.map some ((seqOf attrC).dec body full) = _
  rw [this]; rfl

theorem safeBag_to {o : Oid} (ho : OidOk o) {b : Bytes} (hb : b ≠ []) {a a' : List Attribute}
    (ha : attributes.To (some a) (some a')) :
    safeBag.To ⟨o, ctx0 b, some a⟩ ⟨o, rawOf 2 true 0 b, some a'⟩ := by
  intro body full h hl
  simp only [safeBag, Option.pure_def, Option.bind_eq_bind, Option.bind_eq_some_iff] at h ⊢
  obtain ⟨e1, h1, e2, h2, e3, h3, hb'⟩ := h
  injection hb' with hb'
  subst hb'
  simp only [List.length_append] at hl
  refine ⟨_, parseField_plain _ (oid_to ho) h1 (by omega), (rawOf 2 true 0 b, e3), ?_, (some a', []), ?_, rfl⟩
  · exact parseRaw_to e3 (ctx0_marshal bagValueParams (Or.inl rfl) b) h2 (by omega) (by decide) (by decide)
      (by rw [if_pos (by decide)]; exact ⟨rfl, rfl, rfl, hb⟩)
  · have := parseField_to [] ha h3 (by simp [bagAttrParams]) (by omega) (by decide) (by simp [bagAttrParams])
      (by simp [bagAttrParams])
    rwa [List.append_nil] at this

/-! ### Lengths of nested parts -/

theorem marshal_lt {α : Type} [DecidableEq α] {c : Codec α} {v : α} {e : Bytes} (h : marshal c v = some e) :
    ∃ body, c.enc v = some body ∧ body.length < e.length := marshalField_some c {} v e h (by simp)

theorem octets_lt {b e : Bytes} (h : marshal octets b = some e) : b.length < e.length := by
  obtain ⟨body, hb, hl⟩ := marshal_lt h
  simp only [octets, Option.some.injEq] at hb
  subst hb; exact hl

theorem ctx0_lt {p : Params RawValue} (hp : p.opt = none ∨ p.opt = some {}) {b e : Bytes}
    (h : marshalRaw p (ctx0 b) = some e) : b.length < e.length := by
  have h' := ctx0_marshal p hp b
  unfold RawIs at h'
  rw [h'] at h
  injection h with h
  subst h
  exact encTLV_length_lt 2 true 0 b

theorem contentInfo_lt {o : Oid} {b e : Bytes} (h : marshal contentInfo ⟨o, ctx0 b⟩ = some e) : b.length < e.length := by
  obtain ⟨body, hb, hl⟩ := marshal_lt h
  simp only [contentInfo, Option.pure_def, Option.bind_eq_bind, Option.bind_eq_some_iff] at hb
  obtain ⟨e1, h1, e2, h2, hb⟩ := hb
  injection hb with hb
  subst hb
  have := ctx0_lt (Or.inr rfl) h2
  simp only [List.length_append] at hl
  omega

theorem pfxPdu_lt {o : Oid} {b e : Bytes} {m : MacData} (h : marshal pfxPdu ⟨3, ⟨o, ctx0 b⟩, m⟩ = some e) :
    b.length < e.length := by
  obtain ⟨body, hb, hl⟩ := marshal_lt h
  simp only [pfxPdu, Option.pure_def, Option.bind_eq_bind, Option.bind_eq_some_iff] at hb
  obtain ⟨e1, h1, e2, h2, e3, h3, hb⟩ := hb
  injection hb with hb
  subst hb
  have := contentInfo_lt h2
  simp only [List.length_append] at hl
  omega

theorem safeBag_lt {o : Oid} {b e : Bytes} {a : Option (List Attribute)} (h : marshal safeBag ⟨o, ctx0 b, a⟩ = some e) :
    b.length < e.length := by
  obtain ⟨body, hb, hl⟩ := marshal_lt h
  simp only [safeBag, Option.pure_def, Option.bind_eq_bind, Option.bind_eq_some_iff] at hb
  obtain ⟨e1, h1, e2, h2, e3, h3, hb⟩ := hb
  injection hb with hb
  subst hb
  have := ctx0_lt (Or.inl rfl) h2
  simp only [List.length_append] at hl
  omega

theorem certBag_lt {o : Oid} {b e : Bytes} (h : marshal certBag ⟨o, b⟩ = some e) : b.length < e.length := by
  obtain ⟨body, hb, hl⟩ := marshal_lt h
  simp only [certBag, Option.pure_def, Option.bind_eq_bind, Option.bind_eq_some_iff] at hb
  obtain ⟨e1, h1, e2, h2, hb⟩ := hb
  injection hb with hb
  subst hb
  obtain ⟨bd, hbd, hlt⟩ := marshalField_some _ _ _ _ h2 (by simp)
  simp only [octets, Option.some.injEq] at hbd
  subst hbd
  simp only [List.length_append] at hl
  omega

theorem encryptedPrivateKeyInfo_lt {a : AlgId} {d e : Bytes} (h : marshal encryptedPrivateKeyInfo ⟨a, d⟩ = some e) :
    d.length < e.length := by
  obtain ⟨body, hb, hl⟩ := marshal_lt h
  simp only [encryptedPrivateKeyInfo, Option.pure_def, Option.bind_eq_bind, Option.bind_eq_some_iff] at hb
  obtain ⟨e1, h1, e2, h2, hb⟩ := hb
  injection hb with hb
  subst hb
  have := octets_lt h2
  simp only [List.length_append] at hl
  omega

theorem encryptedData_lt {o : Oid} {a : AlgId} {d e : Bytes} (hd : d ≠ [])
    (h : marshal encryptedData ⟨0, o, a, d⟩ = some e) : d.length < e.length := by
  obtain ⟨body, hb, hl⟩ := marshal_lt h
  simp only [encryptedData, Option.pure_def, Option.bind_eq_bind, Option.bind_eq_some_iff] at hb
  obtain ⟨e1, h1, e2, h2, hb⟩ := hb
  injection hb with hb
  subst hb
  obtain ⟨body, hb, hl2⟩ := marshal_lt h2
  simp only [encryptedContentInfo, Option.pure_def, Option.bind_eq_bind, Option.bind_eq_some_iff] at hb
  obtain ⟨e3, h3, e4, h4, e5, h5, hb⟩ := hb
  injection hb with hb
  subst hb
  obtain ⟨bd, hbd, hlt⟩ := marshalField_some _ _ _ _ h5 (by
    intro hh; injection hh with hh; exact hd hh.symm)
  simp only [octets, Option.some.injEq] at hbd
  subst hbd
  simp only [List.length_append] at hl hl2
  omega

theorem seqOf_mem_lt {α : Type} [DecidableEq α] {c : Codec α} {l : List α} {e : Bytes}
    (h : marshal (seqOf c) l = some e) : ∀ v ∈ l, ∃ x, marshal c v = some x ∧ x.length < e.length := by
  obtain ⟨body, hb, hl⟩ := marshal_lt h
  simp only [seqOf] at hb
  match hm : marshalElems (marshalField c {}) l with
  | none => rw [hm] at hb; cases hb
  | some es =>
    rw [hm] at hb
    injection hb with hb
    subst hb
    clear h
    have : ∀ v ∈ l, ∃ x, marshal c v = some x ∧ x.length ≤ es.flatten.length := by
      clear hl
      induction l generalizing es with
      | nil => simp
      | cons a l ih =>
        obtain ⟨x, es', h1, h2, rfl⟩ := marshalElems_cons _ _ _ _ hm
        intro v hv
        simp only [List.flatten_cons, List.length_append]
        rcases List.mem_cons.mp hv with rfl | hv
        · exact ⟨x, h1, by omega⟩
        · obtain ⟨y, hy, hyl⟩ := ih es' h2 v hv
          exact ⟨y, hy, by omega⟩
    intro v hv
    obtain ⟨x, hx, hxl⟩ := this v hv
    exact ⟨x, hx, by omega⟩

theorem marshal_ne_nil {α : Type} [DecidableEq α] {c : Codec α} {v : α} {e : Bytes} (h : marshal c v = some e) :
    e ≠ [] := by
  obtain ⟨body, _, hl⟩ := marshal_lt h
  intro hh; subst hh; simp at hl

/-! ### Encryption with marshalled parameters -/

theorem pbe_params {salt pb : Bytes} (hs : salt.length = 8) (h : marshal pbeParams ⟨salt, 2048⟩ = some pb) :
    unmarshalAll pbeParams pb = .ok ⟨salt, 2048⟩ ∧ ∃ body, pb = encTLV 0 true 16 body := by
  have hlaw := pbeParams_law ⟨salt, 2048⟩ (by simp) (by simp) (by simp only []; omega)
  obtain ⟨body, hb, rfl⟩ := marshal_tlv _ _ _ h
  refine ⟨unmarshalAll_marshal _ _ _ hlaw h ?_ (by decide), body, rfl⟩
  have hbody : body = encTLV 0 false 4 salt ++ encTLV 0 false 2 (Der.encInt 2048) := by
    have : pbeParams.enc ⟨salt, 2048⟩ = some (encTLV 0 false 4 salt ++ encTLV 0 false 2 (Der.encInt 2048)) := rfl
    rw [this] at hb
    injection hb with hb
    exact hb.symm
  have l1 := encTLV_length_le 0 false 4 salt (by decide) (by omega)
  have i8 := encInt_length_int64 2048 (by decide) (by decide)
  have l2 := encTLV_length_le 0 false 2 (Der.encInt 2048) (by decide) (by omega)
  have l3 : body.length < 100 := by rw [hbody, List.length_append]; omega
  have l4 := encTLV_length_le 0 true 16 body (by decide) (by omega)
  have : (encTLV 0 pbeParams.compound pbeParams.tag body).length = (encTLV 0 true 16 body).length := rfl
  omega

theorem pbDecrypt_congr (P : Prims) {a a' : AlgId} (h1 : a.algorithm = a'.algorithm)
    (h2 : a.parameters.full = a'.parameters.full) (d pw : Bytes) : pbDecrypt P a d pw = pbDecrypt P a' d pw := by
  unfold pbDecrypt pbeCipherFor
  rw [h1, h2]

end MCrypto.P12
