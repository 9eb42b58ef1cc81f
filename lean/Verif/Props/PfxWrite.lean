import Verif.Pkcs12.PfxWriteSpec
import Verif.Props.KeyWrite
import Verif.Props.P12Der
import Verif.Props.P12Pfx
/-
C111: exactly which octets `pkcs12.Encode` returns (pkcs12/pkcs12.go:405-550, pkcs12/safebags.go:49-98).
-/
namespace MCrypto.Props
open MCrypto MCrypto.Asn1 MCrypto.X509 MCrypto.X509Spec MCrypto.Dg MCrypto.P12 MCrypto.P12Spec

theorem marshalR_iff {α : Type} [DecidableEq α] {c : Codec α} {v : α} {e : Bytes} : marshalR c v = .ok e ↔ marshalField c {} v = some e := by
  unfold marshalR; rw [ofOption_ok']; rfl

theorem ctx0_raw {p : Params RawValue} (hp : p.opt = none ∨ p.opt = some {}) {v e : Bytes} (hl : e.length < 2 ^ 31) :
    marshalRaw p (ctx0 v) = some e ↔ El 0xa0 v e := by
  rw [marshalRaw_parts _ _ rfl (by rcases hp with h | h <;> rw [h] <;> simp [ctx0])]
  simp only [ctx0, Option.some.injEq, show (0xa0 : UInt8) = octet 2 true 0 by decide, el_iff 2 true 0 (by decide)]
  constructor
  · rintro rfl; exact ⟨rfl, Nat.lt_trans (encTLV_length_lt _ _ _ _) hl⟩
  · rintro ⟨rfl, -⟩; rfl

theorem set_raw {v e : Bytes} (hl : e.length < 2 ^ 31) :
    marshalRaw { set := true } ⟨0, 17, true, v, []⟩ = some e ↔ El 0x31 v e := by
  rw [marshalRaw_parts _ _ rfl (by simp)]
  simp only [Option.some.injEq, show (0x31 : UInt8) = octet 0 true 17 by decide, el_iff 0 true 17 (by decide)]
  constructor
  · rintro rfl; exact ⟨rfl, Nat.lt_trans (encTLV_length_lt _ _ _ _) hl⟩
  · rintro ⟨rfl, -⟩; rfl

/-- A structure: contents to element. -/
theorem seq_out {α : Type} [DecidableEq α] {c : Codec α} {v : α} {Q : Bytes → Prop} (hc : c.tag = 16) (hcc : c.compound = true)
    (h : ∀ body : Bytes, body.length < 2 ^ 31 → (c.enc v = some body ↔ Q body)) {e : Bytes} (hl : e.length < 2 ^ 31) :
    marshalField c {} v = some e ↔ ∃ body, El 0x30 body e ∧ Q body := by
  rw [mf_iff 0x30 (by omega) (by rw [hc, hcc]; decide) hl]
  constructor
  · rintro ⟨b, h1, h2⟩; exact ⟨b, h2, (h b h2.2).mp h1⟩
  · rintro ⟨b, h2, h1⟩; exact ⟨b, (h b h2.2).mpr h1, h2⟩

theorem marshalElems_iff {α : Type} {mf : α → Option Bytes} : ∀ (l : List α) (es : List Bytes),
    marshalElems mf l = some es ↔ List.Forall₂ (fun e v => mf v = some e) es l := by
  intro l
  induction l with
  | nil => intro es; simp [marshalElems, eq_comm]
  | cons v l ih =>
    intro es
    simp only [marshalElems]
    constructor
    · intro h
      split at h
      · rename_i e es' h1 h2
        obtain rfl := Option.some.inj h
        exact .cons h1 ((ih _).mp h2)
      · cases h
    · intro h
      cases h with
      | cons h1 h2 => rw [h1, (ih _).mpr h2]

theorem forall₂_congr_len {α : Type} {R S : Bytes → α → Prop} {es : List Bytes} {l : List α} (hl : es.flatten.length < 2 ^ 31)
    (h : ∀ e v, v ∈ l → e.length < 2 ^ 31 → (R e v ↔ S e v)) : List.Forall₂ R es l ↔ List.Forall₂ S es l := by
  induction es generalizing l with
  | nil => cases l <;> simp
  | cons e es ih =>
    cases l with
    | nil => simp
    | cons v l =>
      simp only [List.flatten_cons, List.length_append] at hl
      simp only [List.forall₂_cons]
      rw [h e v (by simp) (by omega), ih (by omega) (fun e v hv => h e v (by simp [hv]))]

/-- A slice: the elements one after the other. -/
theorem seqOf_out {α : Type} [DecidableEq α] {c : Codec α} {l : List α} {R : α → Bytes → Prop}
    (h : ∀ v ∈ l, ∀ e : Bytes, e.length < 2 ^ 31 → (marshalField c {} v = some e ↔ R v e)) {e : Bytes} (hl : e.length < 2 ^ 31) :
    marshalField (seqOf c) {} l = some e ↔ ∃ body, El 0x30 body e ∧ Many R l body := by
  refine seq_out rfl rfl ?_ hl
  intro body hb
  simp only [seqOf, Option.map_eq_some_iff, marshalElems_iff, Many]
  constructor
  · rintro ⟨es, h1, rfl⟩
    exact ⟨es, rfl, (forall₂_congr_len hb (fun e v hv => h v hv e)).mp h1⟩
  · rintro ⟨es, rfl, h1⟩
    exact ⟨es, (forall₂_congr_len hb (fun e v hv => h v hv e)).mpr h1, rfl⟩

/-! ## Password-based encryption -/

theorem pbePar_out {salt e : Bytes} (hl : e.length < 2 ^ 31) :
    marshalField pbeParams {} ⟨salt, 2048⟩ = some e ↔ ∃ se ne, El 0x30 (se ++ ne) e ∧ El 0x04 salt se ∧ IntEl 2048 ne := by
  rw [seq_out (Q := fun b => ∃ se ne, b = se ++ ne ∧ El 0x04 salt se ∧ IntEl 2048 ne) rfl rfl ?_ hl]
  · constructor
    · rintro ⟨_, h, se, ne, rfl, g⟩; exact ⟨se, ne, h, g⟩
    · rintro ⟨se, ne, h, g⟩; exact ⟨_, h, se, ne, rfl, g⟩
  · intro body hb
    simp only [pbeParams, Option.pure_def, Option.bind_eq_bind, Option.bind_eq_some_iff, Option.some.injEq]
    constructor
    · rintro ⟨e1, h1, e2, h2, rfl⟩
      simp only [List.length_append] at hb
      exact ⟨e1, e2, rfl, (octets_mf (by omega)).mp h1, (goInt_mf (by omega)).mp h2⟩
    · rintro ⟨e1, e2, rfl, h1, h2⟩
      simp only [List.length_append] at hb
      exact ⟨e1, (octets_mf (by omega)).mpr h1, e2, (goInt_mf (by omega)).mpr h2, rfl⟩

theorem el_ne_nil {t : UInt8} {b e : Bytes} (h : El t b e) : e ≠ [] := by
  obtain ⟨⟨l, -, rfl⟩, -⟩ := h; simp

theorem pbeAlg_out {o : Oid} (ho : OidOk o) {salt par e : Bytes} (hp : marshalField pbeParams {} ⟨salt, 2048⟩ = some par)
    (hl : e.length < 2 ^ 31) : marshalField algId {} ⟨o, { full := par }⟩ = some e ↔ PbeAlgOut o salt e := by
  have hne : par ≠ [] := marshal_ne_nil hp
  rw [algId_out ho (full_par hne) hl]
  have hlen : AlgOut o par e → par.length < 2 ^ 31 := by
    rintro ⟨oe, h, -⟩
    have := h.2
    simp only [List.length_append] at this
    omega
  constructor
  · intro h
    obtain ⟨se, ne, g⟩ := (pbePar_out (hlen h)).mp hp
    exact ⟨par, se, ne, h, g⟩
  · rintro ⟨par', se, ne, h, g⟩
    have hl' : par'.length < 2 ^ 31 := by
      obtain ⟨oe, h, -⟩ := h
      have := h.2
      simp only [List.length_append] at this
      omega
    have := (pbePar_out hl').mpr ⟨se, ne, g⟩
    rw [hp] at this
    rw [Option.some.inj this]
    exact h

theorem encrypts_unique {E : Bytes → Bytes} {i m c c' : Bytes} (h : Encrypts E i m c) (h' : Encrypts E i m c') : c = c' := by
  obtain ⟨k, a1, a2, a3, rfl⟩ := h
  obtain ⟨k', b1, b2, b3, rfl⟩ := h'
  have : k = k' := by omega
  rw [this]

theorem pbEncrypt_iff (P : Prims) (t : CipherType) {salt par m pw c : Bytes} (hs : salt.length = 8)
    (hp : marshalField pbeParams {} ⟨salt, 2048⟩ = some par) :
    pbEncrypt P ⟨t.oid, { full := par }⟩ m pw = .ok c ↔ Encrypts (specE P t salt pw 2048) (iv P salt pw 2048) m c := by
  obtain ⟨c', h1, h2, h3⟩ := pbEncrypt_ok P t ⟨t.oid, { full := par }⟩ m pw ⟨salt, 2048⟩ rfl (pbe_params hs hp).1
  rw [h1]
  constructor
  · intro h; obtain rfl := Res.ok.inj h; exact h3
  · intro h; rw [encrypts_unique h h3]

theorem encrypts_length {P : Prims} {t : CipherType} {salt m pw c : Bytes} (hs : salt.length = 8)
    (h : Encrypts (specE P t salt pw 2048) (iv P salt pw 2048) m c) : m.length < c.length := by
  obtain ⟨par, hp⟩ := marshal_pbeParams ⟨salt, 2048⟩
  exact (pbRoundtrip P _ _ _ _ ((pbEncrypt_iff P t hs hp).mpr h)).2

/-! ## Bags -/

theorem oid_mf' {o : Oid} (ho : OidOk o) {e : Bytes} (hl : e.length < 2 ^ 31) : marshalField oid {} o = some e ↔ OidEl o e := oid_mf ho hl

/-- A structure of two fields. -/
theorem two_out {α : Type} [DecidableEq α] {c : Codec α} {v : α} {A B : Bytes → Prop} {f g : Option Bytes} (hc : c.tag = 16)
    (hcc : c.compound = true) (he : c.enc v = f.bind fun a => g.bind fun b => some (a ++ b))
    (hf : ∀ e : Bytes, e.length < 2 ^ 31 → (f = some e ↔ A e)) (hg : ∀ e : Bytes, e.length < 2 ^ 31 → (g = some e ↔ B e))
    {e : Bytes} (hl : e.length < 2 ^ 31) : marshalField c {} v = some e ↔ ∃ x y, El 0x30 (x ++ y) e ∧ A x ∧ B y := by
  rw [seq_out (Q := fun b => ∃ x y, b = x ++ y ∧ A x ∧ B y) hc hcc ?_ hl]
  · constructor
    · rintro ⟨_, h, x, y, rfl, g⟩; exact ⟨x, y, h, g⟩
    · rintro ⟨x, y, h, g⟩; exact ⟨_, h, x, y, rfl, g⟩
  · intro body hb
    simp only [he, Option.bind_eq_some_iff, Option.some.injEq]
    constructor
    · rintro ⟨e1, h1, e2, h2, rfl⟩
      simp only [List.length_append] at hb
      exact ⟨e1, e2, rfl, (hf _ (by omega)).mp h1, (hg _ (by omega)).mp h2⟩
    · rintro ⟨e1, e2, rfl, h1, h2⟩
      simp only [List.length_append] at hb
      exact ⟨e1, (hf _ (by omega)).mpr h1, e2, (hg _ (by omega)).mpr h2, rfl⟩

/-- A structure of three fields. -/
theorem three_out {α : Type} [DecidableEq α] {c : Codec α} {v : α} {A B C : Bytes → Prop} {f g h : Option Bytes} (hc : c.tag = 16)
    (hcc : c.compound = true) (he : c.enc v = f.bind fun a => g.bind fun b => h.bind fun d => some (a ++ (b ++ d)))
    (hf : ∀ e : Bytes, e.length < 2 ^ 31 → (f = some e ↔ A e)) (hg : ∀ e : Bytes, e.length < 2 ^ 31 → (g = some e ↔ B e))
    (hh : ∀ e : Bytes, e.length < 2 ^ 31 → (h = some e ↔ C e))
    {e : Bytes} (hl : e.length < 2 ^ 31) : marshalField c {} v = some e ↔ ∃ x y z, El 0x30 (x ++ (y ++ z)) e ∧ A x ∧ B y ∧ C z := by
  rw [seq_out (Q := fun b => ∃ x y z, b = x ++ (y ++ z) ∧ A x ∧ B y ∧ C z) hc hcc ?_ hl]
  · constructor
    · rintro ⟨_, h, x, y, z, rfl, g⟩; exact ⟨x, y, z, h, g⟩
    · rintro ⟨x, y, z, h, g⟩; exact ⟨_, h, x, y, z, rfl, g⟩
  · intro body hb
    simp only [he, Option.bind_eq_some_iff, Option.some.injEq]
    constructor
    · rintro ⟨e1, h1, e2, h2, e3, h3, rfl⟩
      simp only [List.length_append] at hb
      exact ⟨e1, e2, e3, rfl, (hf _ (by omega)).mp h1, (hg _ (by omega)).mp h2, (hh _ (by omega)).mp h3⟩
    · rintro ⟨e1, e2, e3, rfl, h1, h2, h3⟩
      simp only [List.length_append] at hb
      exact ⟨e1, (hf _ (by omega)).mpr h1, e2, (hg _ (by omega)).mpr h2, e3, (hh _ (by omega)).mpr h3, rfl⟩

theorem octets_expl {v e : Bytes} (hl : e.length < 2 ^ 31) :
    marshalField octets { tag := some 0, explicit := true } v = some e ↔ ∃ de, El 0xa0 de e ∧ El 0x04 v de := by
  unfold marshalField
  rw [if_neg (by simp)]
  simp only [octets, Bool.false_eq_true, if_false, if_true, Option.some.injEq, show (0xa0 : UInt8) = octet 2 true 0 by decide,
    show (0x04 : UInt8) = octet 0 false 4 by decide, el_iff 2 true 0 (by decide), el_iff 0 false 4 (by decide)]
  constructor
  · rintro rfl
    have h1 := encTLV_length_lt 2 true 0 (encTLV 0 false 4 v)
    have h2 := encTLV_length_lt 0 false 4 v
    exact ⟨_, ⟨rfl, by omega⟩, rfl, by omega⟩
  · rintro ⟨_, ⟨rfl, -⟩, rfl, -⟩; rfl

theorem certValue_out {raw v : Bytes} (hl : v.length < 2 ^ 31) : encodeCertBag raw = .ok v ↔ CertValueOut raw v := by
  unfold encodeCertBag
  rw [marshalR_iff, two_out (A := OidEl oidCertTypeX509Certificate) (B := fun e => ∃ de, El 0xa0 de e ∧ El 0x04 raw de) rfl rfl rfl
    (fun e he => oid_mf oid_ok_certtype he) (fun e he => octets_expl he) hl]
  constructor
  · rintro ⟨x, y, h1, h2, de, h3, h4⟩; exact ⟨x, y, de, h1, h2, h3, h4⟩
  · rintro ⟨x, y, de, h1, h2, h3, h4⟩; exact ⟨x, y, h1, h2, de, h3, h4⟩

theorem attr_out {P : Prims} {leaf : Bytes} {a : Attribute} (h : localKeyIdAttr P leaf = .ok a) {e : Bytes} (hl : e.length < 2 ^ 31) :
    marshalField attrC {} a = some e ↔ LocalKeyIdOut P leaf e := by
  unfold localKeyIdAttr at h
  simp only [Res.bind_eq_ok, Res.pure_eq, Res.ok.injEq, marshalR_iff] at h
  obtain ⟨fp, h1, rfl⟩ := h
  have hfp : El 0x04 (P.sha1 leaf) fp := by
    obtain ⟨body, h2, h3⟩ := marshal_tlv _ _ _ h1
    simp only [octets, Option.some.injEq] at h2
    subst h2
    refine (octets_mf ?_).mp h1
    have := encTLV_length_le 0 false 4 (P.sha1 leaf) (by decide) (by rw [P.sha1_length]; decide)
    rw [P.sha1_length] at this
    rw [h3]
    exact Nat.lt_of_le_of_lt this (by decide)
  rw [two_out (A := OidEl oidLocalKeyID) (B := fun e => El 0x31 fp e) rfl rfl rfl
    (fun e he => oid_mf oid_ok_lkid he) (fun e he => set_raw he) hl]
  constructor
  · rintro ⟨x, y, g1, g2, g3⟩; exact ⟨x, y, fp, g1, g2, g3, hfp⟩
  · rintro ⟨x, y, fp', g1, g2, g3, g4⟩
    obtain rfl := Option.some.inj (((octets_mf (by have := g3.2; omega)).mpr g4).symm.trans h1)
    exact ⟨x, y, g1, g2, g3⟩

theorem attrs_mf {l : List Attribute} {e : Bytes} (hl : e.length < 2 ^ 31) : marshalField attributes bagAttrParams (some l) = some e ↔
    ∃ body, (Asn1.setOf attrC).enc l = some body ∧ El 0x31 body e := by
  unfold marshalField
  rw [if_neg (by simp [bagAttrParams])]
  have : attributes.enc (some l) = (Asn1.setOf attrC).enc l := rfl
  rw [this]
  simp only [bagAttrParams, if_true]
  cases (Asn1.setOf attrC).enc l with
  | none => simp
  | some body =>
    simp only [Option.some.injEq, show (0x31 : UInt8) = octet 0 true 17 by decide, el_iff 0 true 17 (by decide), attributes]
    constructor
    · rintro rfl; exact ⟨body, rfl, rfl, Nat.lt_trans (encTLV_length_lt _ _ _ _) hl⟩
    · rintro ⟨b, rfl, rfl, -⟩; rfl

theorem attrs_empty {e : Bytes} (hl : e.length < 2 ^ 31) : marshalField attributes bagAttrParams (some []) = some e ↔ El 0x31 [] e := by
  rw [attrs_mf hl]
  have : (Asn1.setOf attrC).enc [] = some [] := rfl
  rw [this]
  constructor
  · rintro ⟨b, h, h'⟩; obtain rfl := Option.some.inj h; exact h'
  · intro h; exact ⟨_, rfl, h⟩

theorem attrs_one {P : Prims} {leaf : Bytes} {a : Attribute} (h : localKeyIdAttr P leaf = .ok a) {e : Bytes} (hl : e.length < 2 ^ 31) :
    marshalField attributes bagAttrParams (some [a]) = some e ↔ ∃ ae, LocalKeyIdOut P leaf ae ∧ El 0x31 ae e := by
  rw [attrs_mf hl]
  have : (Asn1.setOf attrC).enc [a] = marshalField attrC {} a := by
    simp only [Asn1.setOf, marshalElems]
    cases marshalField attrC {} a with
    | none => rfl
    | some x => simp [sortBy, insertBy]
  rw [this]
  constructor
  · rintro ⟨b, g1, g2⟩; exact ⟨b, (attr_out h g2.2).mp g1, g2⟩
  · rintro ⟨b, g1, g2⟩; exact ⟨b, (attr_out h g2.2).mpr g1, g2⟩

theorem bag_out {id : Oid} (hid : OidOk id) {v : Bytes} {attrs : Option (List Attribute)} {A : Bytes → Prop}
    (ha : ∀ e : Bytes, e.length < 2 ^ 31 → (marshalField attributes bagAttrParams attrs = some e ↔ A e)) {e : Bytes} (hl : e.length < 2 ^ 31) :
    marshalField safeBag {} ⟨id, ctx0 v, attrs⟩ = some e ↔
      ∃ oe ve se, El 0x30 (oe ++ (ve ++ se)) e ∧ OidEl id oe ∧ El 0xa0 v ve ∧ A se :=
  three_out rfl rfl rfl (fun _ he => oid_mf hid he) (fun _ he => ctx0_raw (Or.inl rfl) he) ha hl

theorem caBags_iff : ∀ (cas : List Bytes) (bs : List SafeBag), makeCaBags cas = .ok bs ↔
    List.Forall₂ (fun raw b => ∃ v, encodeCertBag raw = .ok v ∧ b = ⟨oidCertBag, ctx0 v, some []⟩) cas bs := by
  intro cas
  induction cas with
  | nil => intro bs; simp [makeCaBags, eq_comm]
  | cons raw cas ih =>
    intro bs
    simp only [makeCaBags, makeCertBag, Res.bind_eq_ok, Res.pure_eq, Res.ok.injEq]
    constructor
    · rintro ⟨_, ⟨v, h1, rfl⟩, bs', h2, rfl⟩
      exact .cons ⟨v, h1, rfl⟩ ((ih _).mp h2)
    · intro h
      cases h with
      | cons h1 h2 =>
        obtain ⟨v, h1, rfl⟩ := h1
        exact ⟨_, ⟨v, h1, rfl⟩, _, (ih _).mpr h2, rfl⟩

theorem certBag_isOk (raw : Bytes) : ∃ v, encodeCertBag raw = .ok v := by
  obtain ⟨e1, h1⟩ := (show ∃ e, marshalField oid {} oidCertTypeX509Certificate = some e from ⟨_, rfl⟩)
  exact ⟨_, rfl⟩

/-- The bag of one further certificate. -/
theorem caBag_out {raw v : Bytes} (hv : encodeCertBag raw = .ok v) {e : Bytes} (hl : e.length < 2 ^ 31) :
    marshalField safeBag {} ⟨oidCertBag, ctx0 v, some []⟩ = some e ↔ CaBagOut raw e := by
  rw [bag_out oid_ok_certbag (fun e he => attrs_empty he) hl]
  constructor
  · rintro ⟨oe, ve, se, h1, h2, h3, h4⟩
    exact ⟨v, (certValue_out h3.2).mp hv, oe, ve, se, h1, h2, h3, h4⟩
  · rintro ⟨v', hv', oe, ve, se, h1, h2, h3, h4⟩
    obtain rfl := Res.ok.inj (((certValue_out h3.2).mpr hv').symm.trans hv)
    exact ⟨oe, ve, se, h1, h2, h3, h4⟩

theorem leafBag_out {P : Prims} {leaf v : Bytes} {a : Attribute} (ha : localKeyIdAttr P leaf = .ok a) (hv : encodeCertBag leaf = .ok v)
    {e : Bytes} (hl : e.length < 2 ^ 31) : marshalField safeBag {} ⟨oidCertBag, ctx0 v, some [a]⟩ = some e ↔
      ∃ ae v, LocalKeyIdOut P leaf ae ∧ CertValueOut leaf v ∧ BagOut certBagId v ae e := by
  rw [bag_out oid_ok_certbag (fun e he => attrs_one ha he) hl]
  constructor
  · rintro ⟨oe, ve, se, h1, h2, h3, ae, h4, h5⟩
    exact ⟨ae, v, h4, (certValue_out h3.2).mp hv, oe, ve, se, h1, h2, h3, h5⟩
  · rintro ⟨ae, v', h4, hv', oe, ve, se, h1, h2, h3, h5⟩
    obtain rfl := Res.ok.inj (((certValue_out h3.2).mpr hv').symm.trans hv)
    exact ⟨oe, ve, se, h1, h2, h3, ae, h4, h5⟩

theorem certBags_out {P : Prims} {leaf v : Bytes} {cas : List Bytes} {bs : List SafeBag} {a : Attribute}
    (ha : localKeyIdAttr P leaf = .ok a) (hv : encodeCertBag leaf = .ok v) (hc : makeCaBags cas = .ok bs) {d : Bytes} (hl : d.length < 2 ^ 31) :
    marshalField (seqOf safeBag) {} (⟨oidCertBag, ctx0 v, some [a]⟩ :: bs) = some d ↔ CertBagsOut P leaf cas d := by
  rw [seqOf_out (R := fun b e => marshalField safeBag {} b = some e) (fun _ _ _ _ => Iff.rfl) hl]
  rw [caBags_iff] at hc
  have key : ∀ es : List Bytes, es.flatten.length < 2 ^ 31 →
      (List.Forall₂ (fun e b => marshalField safeBag {} b = some e) es bs ↔ List.Forall₂ (fun e raw => CaBagOut raw e) es cas) := by
    intro es
    induction hc generalizing es with
    | nil => intro _; cases es <;> simp
    | cons h _ ih =>
      intro hes
      obtain ⟨v, hv, rfl⟩ := h
      cases es with
      | nil => simp
      | cons e es =>
        simp only [List.flatten_cons, List.length_append] at hes
        simp only [List.forall₂_cons]
        rw [caBag_out hv (by omega), ih es (by omega)]
  constructor
  · rintro ⟨body, h1, es, rfl, h2⟩
    cases h2 with
    | cons h2 h3 =>
      rename_i l es
      have hb := h1.2
      simp only [List.flatten_cons, List.length_append] at hb
      obtain ⟨ae, v', g1, g2, g3⟩ := (leafBag_out ha hv (by omega)).mp h2
      exact ⟨ae, v', l, es.flatten, by simpa using h1, g1, g2, g3, es, rfl, (key es (by omega)).mp h3⟩
  · rintro ⟨ae, v', l, _, h1, g1, g2, g3, es, rfl, h3⟩
    have hb := h1.2
    simp only [List.length_append] at hb
    exact ⟨_, h1, l :: es, by simp, .cons ((leafBag_out ha hv (by omega)).mpr ⟨ae, v', g1, g2, g3⟩) ((key es (by omega)).mpr h3)⟩

theorem readSalt_iff {rnd rnd' : Reader} {s : Bytes} : readSalt rnd = .ok (s, rnd') ↔ s.length = 8 ∧ rnd = s ++ rnd' := by
  constructor
  · intro h
    obtain ⟨h1, rfl, rfl, h2⟩ := readSalt_ok h
    exact ⟨h2, (List.take_append_drop 8 rnd).symm⟩
  · rintro ⟨h, rfl⟩
    rw [readSalt_some (by simp; omega), List.take_left' h, List.drop_left' h]

theorem keyValue_out {P : Prims} {key : PrivKey} (hr : ∀ r, key = .rsa r → ProperRsa r) {pw v : Bytes} {rnd rnd' : Reader} (hl : v.length < 2 ^ 31) :
    encodePkcs8ShroudedKeyBag P key pw rnd = .ok (v, rnd') ↔
      ∃ salt, salt.length = 8 ∧ rnd = salt ++ rnd' ∧ KeyValueOut P key pw salt v := by
  unfold encodePkcs8ShroudedKeyBag
  simp only [Res.bind_eq_ok, Res.pure_eq, Prod.exists, Res.ok.injEq, Prod.mk.injEq, marshalR_iff]
  constructor
  · rintro ⟨m, h1, salt, r1, h2, par, h3, c, h4, e, h5, rfl, rfl⟩
    obtain ⟨hs, rfl⟩ := readSalt_iff.mp h2
    obtain ⟨ae, ce, g1, g2, g3⟩ := (two_out rfl rfl rfl (fun _ he => pbeAlg_out oid_ok_3des h3 he) (fun _ he => octets_mf he) hl).mp h5
    have hc := (pbEncrypt_iff P .tdes hs h3).mp h4
    have l1 := encrypts_length hs hc
    have l2 : c.length < 2 ^ 31 := g3.2
    exact ⟨salt, hs, rfl, ae, ce, m, c, g1, g2, g3, (C110_pkcs8 key m (by omega) hr).mp h1, hc⟩
  · rintro ⟨salt, hs, rfl, ae, ce, m, c, g1, g2, g3, g4, hc⟩
    have l1 := encrypts_length (t := .tdes) hs hc
    obtain ⟨par, h3⟩ := marshal_pbeParams ⟨salt, 2048⟩
    exact ⟨m, (C110_pkcs8 key m (by have := g3.2; omega) hr).mpr g4, salt, rnd', readSalt_iff.mpr ⟨hs, rfl⟩, par, h3, c,
      (pbEncrypt_iff P .tdes hs h3).mpr hc, v, (two_out rfl rfl rfl (fun _ he => pbeAlg_out oid_ok_3des h3 he) (fun _ he => octets_mf he) hl).mpr
        ⟨ae, ce, g1, g2, g3⟩, rfl, rfl⟩

/-! ## Safes -/

theorem octets_impl {v e : Bytes} (hv : v ≠ []) (hl : e.length < 2 ^ 31) :
    marshalField octets { opt := some [], tag := some 0 } v = some e ↔ El 0x80 v e := by
  unfold marshalField
  rw [if_neg (by simp; exact hv)]
  simp only [octets, Bool.false_eq_true, if_false, Option.some.injEq, show (0x80 : UInt8) = octet 2 false 0 by decide,
    el_iff 2 false 0 (by decide)]
  constructor
  · rintro rfl; exact ⟨rfl, Nat.lt_trans (encTLV_length_lt _ _ _ _) hl⟩
  · rintro ⟨rfl, -⟩; rfl

theorem encData_out {P : Prims} {salt par d pw x c : Bytes} (hs : salt.length = 8)
    (hp : marshalField pbeParams {} ⟨salt, 2048⟩ = some par) (hx : pbEncrypt P ⟨oidRC2_40, { full := par }⟩ d pw = .ok x)
    (hl : c.length < 2 ^ 31) : marshalField encryptedData {} ⟨0, oidDataContentType, ⟨oidRC2_40, { full := par }⟩, x⟩ = some c ↔
      EncryptedOut P pw salt d c := by
  have hx' := (pbEncrypt_iff P .rc2 hs hp).mp hx
  have hxl := encrypts_length hs hx'
  have hne : x ≠ [] := by rintro rfl; simp at hxl
  rw [two_out (A := IntEl 0) (B := fun ie => ∃ te ae xe, El 0x30 (te ++ (ae ++ xe)) ie ∧ OidEl oidDataContentType te ∧
      PbeAlgOut oidRC2_40 salt ae ∧ El 0x80 x xe) rfl rfl rfl (fun _ he => goInt_mf he)
    (fun _ he => three_out rfl rfl rfl (fun _ he => oid_mf oid_ok_data he) (fun _ he => pbeAlg_out oid_ok_rc2 hp he)
      (fun _ he => octets_impl hne he) he) hl]
  constructor
  · rintro ⟨ve, ie, g1, g2, te, ae, xe, g3, g4, g5, g6⟩
    exact ⟨ve, ie, te, ae, xe, x, g1, g2, g3, g4, g5, g6, hx'⟩
  · rintro ⟨ve, ie, te, ae, xe, x', g1, g2, g3, g4, g5, g6, g7⟩
    obtain rfl := encrypts_unique g7 hx'
    exact ⟨ve, ie, g1, g2, te, ae, xe, g3, g4, g5, g6⟩

theorem content_out {o : Oid} (ho : OidOk o) {c e : Bytes} (hl : e.length < 2 ^ 31) :
    marshalField P12.contentInfo {} ⟨o, ctx0 c⟩ = some e ↔ P12Spec.ContentOut o c e :=
  two_out rfl rfl rfl (fun _ he => oid_mf ho he) (fun _ he => ctx0_raw (p := contentParams) (Or.inr rfl) he) hl

theorem auth_list {i j : P12.ContentInfo} {A B : Bytes → Prop} (hA : ∀ e : Bytes, e.length < 2 ^ 31 → (marshalField P12.contentInfo {} i = some e ↔ A e))
    (hB : ∀ e : Bytes, e.length < 2 ^ 31 → (marshalField P12.contentInfo {} j = some e ↔ B e)) {e : Bytes} (hl : e.length < 2 ^ 31) :
    marshalField (seqOf P12.contentInfo) {} [i, j] = some e ↔ ∃ x y, El 0x30 (x ++ y) e ∧ A x ∧ B y := by
  refine two_out rfl rfl ?_ hA hB hl
  simp only [seqOf, marshalElems]
  cases marshalField P12.contentInfo {} i <;> cases marshalField P12.contentInfo {} j <;> simp

theorem mac_out {digest salt e : Bytes} (hl : e.length < 2 ^ 31) :
    marshalField macData { opt := some {} } ⟨⟨⟨oidSHA1, {}⟩, digest⟩, salt, 1⟩ = some e ↔ MacOut digest salt e := by
  have h0 : marshalField macData { opt := some {} } ⟨⟨⟨oidSHA1, {}⟩, digest⟩, salt, 1⟩ =
      marshalField macData {} ⟨⟨⟨oidSHA1, {}⟩, digest⟩, salt, 1⟩ := by
    unfold marshalField
    rw [if_neg (by
      intro h; injection h with h; injection h with _ _ h; cases h), if_neg (show ¬ (none = some _) by simp)]
  rw [h0, three_out (A := fun di => ∃ ae ge, El 0x30 (ae ++ ge) di ∧ AlgOut oidSHA1 [] ae ∧ El 0x04 digest ge) (B := El 0x04 salt)
    (C := fun x => x = []) (h := marshalField goInt { opt := some 1 } 1)
    rfl rfl rfl
    (fun _ he => two_out (c := digestInfo) (v := ⟨⟨oidSHA1, {}⟩, digest⟩) rfl rfl rfl (fun _ he => algId_out oid_ok_sha1 no_par he) (fun _ he => octets_mf he) he)
    (fun _ he => octets_mf he) (fun x _ => by
      rw [marshalField_absent _ _ _ rfl, Option.some.injEq]; exact eq_comm) hl]
  constructor
  · rintro ⟨di, se, _, h1, ⟨ae, ge, h2, h3, h4⟩, h5, rfl⟩
    rw [List.append_nil] at h1
    exact ⟨di, ae, ge, se, h1, h2, h3, h4, h5⟩
  · rintro ⟨di, ae, ge, se, h1, h2, h3, h4, h5⟩
    exact ⟨di, se, [], by simpa using h1, ⟨ae, ge, h2, h3, h4⟩, h5, rfl⟩

theorem pfx_out {c digest salt w : Bytes} (hl : w.length < 2 ^ 31) :
    marshalField pfxPdu {} ⟨3, ⟨oidDataContentType, ctx0 c⟩, ⟨⟨⟨oidSHA1, {}⟩, digest⟩, salt, 1⟩⟩ = some w ↔
      ∃ ve ce me, El 0x30 (ve ++ (ce ++ me)) w ∧ IntEl 3 ve ∧ P12Spec.ContentOut oidDataContentType c ce ∧ MacOut digest salt me :=
  three_out rfl rfl rfl (fun _ he => goInt_mf he) (fun _ he => content_out oid_ok_data he) (fun _ he => mac_out he) hl

theorem keyBags_out {P : Prims} {key : PrivKey} (hr : ∀ r, key = .rsa r → ProperRsa r) {leaf v pw salt : Bytes} {a : Attribute} {rnd rnd' : Reader}
    (ha : localKeyIdAttr P leaf = .ok a) (hs : salt.length = 8) (hrnd : rnd = salt ++ rnd')
    (hv : encodePkcs8ShroudedKeyBag P key pw rnd = .ok (v, rnd')) {d : Bytes} (hl : d.length < 2 ^ 31) :
    marshalField (seqOf safeBag) {} [⟨oidPKCS8ShroundedKeyBag, ctx0 v, some [a]⟩] = some d ↔ KeyBagsOut P key leaf pw salt d := by
  have hb : ∀ e : Bytes, e.length < 2 ^ 31 → (marshalField safeBag {} ⟨oidPKCS8ShroundedKeyBag, ctx0 v, some [a]⟩ = some e ↔
      ∃ ae v, LocalKeyIdOut P leaf ae ∧ KeyValueOut P key pw salt v ∧ BagOut keyBagId v ae e) := by
    intro e hl
    rw [bag_out oid_ok_keybag (fun e he => attrs_one ha he) hl]
    constructor
    · rintro ⟨oe, ve, se, h1, h2, h3, ae, h4, h5⟩
      obtain ⟨s', hs', hrnd', hk⟩ := (keyValue_out hr h3.2).mp hv
      obtain rfl : salt = s' := by
        rw [hrnd] at hrnd'
        exact (List.append_inj hrnd' (by omega)).1
      exact ⟨ae, v, h4, hk, oe, ve, se, h1, h2, h3, h5⟩
    · rintro ⟨ae, v', h4, hv', oe, ve, se, h1, h2, h3, h5⟩
      have := (keyValue_out hr h3.2).mpr ⟨salt, hs, hrnd, hv'⟩
      rw [hv] at this
      obtain ⟨rfl, -⟩ := Prod.mk.inj (Res.ok.inj this)
      exact ⟨oe, ve, se, h1, h2, h3, ae, h4, h5⟩
  rw [mf_iff 0x30 (by decide) (by decide) hl]
  have henc : (seqOf safeBag).enc [⟨oidPKCS8ShroundedKeyBag, ctx0 v, some [a]⟩] =
      marshalField safeBag {} ⟨oidPKCS8ShroundedKeyBag, ctx0 v, some [a]⟩ := by
    simp only [seqOf, marshalElems]
    cases marshalField safeBag {} ⟨oidPKCS8ShroundedKeyBag, ctx0 v, some [a]⟩ <;> simp
  rw [henc]
  constructor
  · rintro ⟨k, h1, h2⟩
    obtain ⟨ae, v', g⟩ := (hb k h2.2).mp h1
    exact ⟨ae, v', k, h2, g⟩
  · rintro ⟨ae, v', k, h2, g⟩
    exact ⟨k, (hb k h2.2).mpr ⟨ae, v', g⟩, h2⟩

/-- **C111** `Encode` returns `w` without error exactly if the password has characters of the Basic Multilingual Plane only, the
random source yields three salts of 8 octets, and `w` is the PFX of the key, the certificates and the salts, which is
determined to the last octet: certificates first (leaf with its localKeyID, then the others in order, encrypted with RC2-40),
then the key (with the same localKeyID, encrypted with Triple DES), each with 2048 iterations, and the MAC of one iteration. -/
theorem C111_encode (P : Prims) (key : PrivKey) (leaf : Bytes) (cas : List Bytes) (password : Bytes) (rnd rnd' : Reader) (w : Bytes)
    (hl : w.length < 2 ^ 31) (hr : ∀ r, key = .rsa r → ProperRsa r) :
    encode P key leaf cas password rnd = .ok (w, rnd') ↔
      ∃ pw s1 s2 s3, BmpPassword password pw ∧ s1.length = 8 ∧ s2.length = 8 ∧ s3.length = 8 ∧ rnd = s1 ++ (s2 ++ (s3 ++ rnd')) ∧
        PfxOut P key leaf cas pw s1 s2 s3 w := by
  unfold encode makeSafeContents makeCertBag
  simp only [Res.bind_eq_ok, Res.pure_eq, Prod.exists, Res.ok.injEq, Prod.mk.injEq, bmpPassword_iff]
  constructor
  · rintro ⟨pw, hpw, a, ha, lf, ⟨v, hv, rfl⟩, bs, hbs, kv, r1, hkv, ci1, r2, ⟨d1, hd1, s2, r2', hs2, par, hpar, x, hx, c1, hc1, rfl, rfl⟩,
      ci2, r3, ⟨d2, hd2, c2, hc2, rfl, rfl⟩, auth, hauth, s3, r4, hs3, md, hmd, c, hc, w', hw, rfl, rfl⟩
    rw [marshalR_iff] at hd1 hpar hc1 hd2 hc2 hauth hc hw
    obtain ⟨md', hmd', rfl, -⟩ := C34_compute_verify P ⟨⟨⟨oidSHA1, {}⟩, []⟩, s3, 1⟩ auth pw rfl
    obtain rfl := Res.ok.inj (hmd.symm.trans hmd')
    obtain ⟨l2, rfl⟩ := readSalt_iff.mp hs2
    obtain ⟨l3, rfl⟩ := readSalt_iff.mp hs3
    obtain ⟨ve, ce, me, g1, g2, g3, g4⟩ := (pfx_out hl).mp hw
    obtain ⟨_, _, -, -, k3⟩ := id g3
    have g5 := (octets_mf k3.2).mp hc
    obtain ⟨e1, e2, g6, g7, g8⟩ := (auth_list (fun _ he => content_out oid_ok_enc he) (fun _ he => content_out oid_ok_data he) g5.2).mp hauth
    obtain ⟨_, _, -, -, k7⟩ := id g7
    obtain ⟨_, _, -, -, k8⟩ := id g8
    have g9 := (encData_out l2 hpar hx k7.2).mp hc1
    have g10 := (octets_mf k8.2).mp hc2
    have hx' := (pbEncrypt_iff P .rc2 l2 hpar).mp hx
    have lx := encrypts_length l2 hx'
    have k9 : x.length < 2 ^ 31 := by
      obtain ⟨_, _, _, _, _, x', -, -, -, -, -, h, h'⟩ := g9
      rw [← encrypts_unique h' hx']; exact h.2
    have g11 := (certBags_out ha hv hbs (by omega)).mp hd1
    obtain ⟨s1, l1, hrnd, -⟩ : ∃ s1, s1.length = 8 ∧ rnd = s1 ++ (s2 ++ (s3 ++ r4)) ∧ True := by
      unfold encodePkcs8ShroudedKeyBag at hkv
      simp only [Res.bind_eq_ok, Res.pure_eq, Prod.exists, Res.ok.injEq, Prod.mk.injEq] at hkv
      obtain ⟨_, _, s1, r, h, _, _, _, _, _, _, _, rfl⟩ := hkv
      obtain ⟨h', rfl⟩ := readSalt_iff.mp h
      exact ⟨s1, h', rfl, trivial⟩
    have g12 := (keyBags_out hr ha l1 hrnd hkv g10.2).mp hd2
    exact ⟨pw, s1, s2, s3, hpw, l1, l2, l3, hrnd, auth, ve, ce, me, c, g1, g2, g3, g5,
      ⟨d1, d2, c1, c2, e1, e2, g6, g11, g9, g7, g12, g10, g8⟩, g4⟩
  · rintro ⟨pw, s1, s2, s3, hpw, l1, l2, l3, rfl, auth, ve, ce, me, c, g1, g2, g3, g5,
      ⟨d1, d2, c1, c2, e1, e2, g6, g11, g9, g7, g12, g10, g8⟩, g4⟩
    obtain ⟨_, _, -, -, k3⟩ := id g3
    obtain ⟨_, _, -, -, k7⟩ := id g7
    obtain ⟨_, _, -, -, k8⟩ := id g8
    obtain ⟨_, _, _, _, _, x, -, -, -, -, -, gx, hx⟩ := id g9
    obtain ⟨ae, v, l, rest, q1, q2, q3, q4, q5⟩ := id g11
    obtain ⟨ak, kv, k, p1, p2, p3, p4⟩ := id g12
    have lx := encrypts_length (t := .rc2) l2 hx
    have lxx := gx.2
    obtain ⟨a, ha⟩ : ∃ a, localKeyIdAttr P leaf = .ok a := ⟨_, rfl⟩
    obtain ⟨par, hpar⟩ := marshal_pbeParams ⟨s2, 2048⟩
    have hx' := (pbEncrypt_iff P .rc2 l2 hpar).mpr hx
    have kv1 : kv.length < 2 ^ 31 := by obtain ⟨_, _, _, -, -, h, -⟩ := p4; exact h.2
    have v1 : v.length < 2 ^ 31 := by obtain ⟨_, _, _, -, -, h, -⟩ := q4; exact h.2
    have hv := (certValue_out v1).mpr q3
    have hkv := (keyValue_out (P := P) (pw := pw) (rnd := s1 ++ (s2 ++ (s3 ++ rnd'))) (rnd' := s2 ++ (s3 ++ rnd')) hr kv1).mpr ⟨s1, l1, rfl, p3⟩
    obtain ⟨bs, hbs⟩ : ∃ bs, makeCaBags cas = .ok bs := by
      simp only [caBags_iff]
      clear * -
      induction cas with
      | nil => exact ⟨[], .nil⟩
      | cons raw cas ih =>
        obtain ⟨bs, ih⟩ := ih
        obtain ⟨v, hv⟩ := certBag_isOk raw
        exact ⟨_ :: bs, .cons ⟨v, hv, rfl⟩ ih⟩
    obtain ⟨md, hmd, rfl, -⟩ := C34_compute_verify P ⟨⟨⟨oidSHA1, {}⟩, []⟩, s3, 1⟩ auth pw rfl
    refine ⟨pw, hpw, a, ha, _, ⟨v, hv, rfl⟩, bs, hbs, kv, _, hkv, _, _, ⟨d1, marshalR_iff.mpr ((certBags_out ha hv hbs (by omega)).mpr g11),
      s2, s3 ++ rnd', readSalt_iff.mpr ⟨l2, rfl⟩, par, marshalR_iff.mpr hpar, x, hx', c1,
      marshalR_iff.mpr ((encData_out l2 hpar hx' k7.2).mpr g9), rfl, rfl⟩, _, _,
      ⟨d2, marshalR_iff.mpr ((keyBags_out hr ha l1 rfl hkv g10.2).mpr g12), c2, marshalR_iff.mpr ((octets_mf k8.2).mpr g10), rfl, rfl⟩,
      auth, marshalR_iff.mpr ((auth_list (fun _ he => content_out oid_ok_enc he) (fun _ he => content_out oid_ok_data he) g5.2).mpr
        ⟨e1, e2, g6, g7, g8⟩), s3, rnd', readSalt_iff.mpr ⟨l3, rfl⟩, _, hmd, c, marshalR_iff.mpr ((octets_mf k3.2).mpr g5), w,
      marshalR_iff.mpr ((pfx_out hl).mpr ⟨ve, ce, me, g1, g2, g3, g4⟩), rfl, rfl⟩

/-- The file of P12Ex.lean (SM2 key, leaf, two further certificates, password "A") is such a PFX. -/
example : PfxOut P12Ex.toy (.sm2 P12Ex.key2) [7] [[8], [9]] [0, 0x41, 0, 0] (P12Ex.rnd.take 8) ((P12Ex.rnd.drop 8).take 8)
    ((P12Ex.rnd.drop 16).take 8) P12Ex.pfx := by
  obtain ⟨r, hr⟩ := P12Ex.pfx_eq
  obtain ⟨pw, s1, s2, s3, hpw, l1, l2, l3, h, hp⟩ := (C111_encode P12Ex.toy (.sm2 P12Ex.key2) [7] [[8], [9]] [0x41] P12Ex.rnd r P12Ex.pfx
    (by rw [P12Ex.pfx_length]; decide) (by intro r h; cases h)).mp hr
  rw [← bmpPassword_iff] at hpw
  have : bmpString [0x41] = .ok [0, 0x41, 0, 0] := by decide
  rw [this] at hpw
  obtain rfl := Res.ok.inj hpw
  have t1 : P12Ex.rnd.take 8 = s1 := by rw [h, List.take_left' l1]
  have t2 : (P12Ex.rnd.drop 8).take 8 = s2 := by rw [h, List.drop_left' l1, List.take_left' l2]
  have t3 : (P12Ex.rnd.drop 16).take 8 = s3 := by
    rw [h, ← List.append_assoc, List.drop_left' (by simp; omega), List.take_left' l3]
  rw [t1, t2, t3]
  exact hp

end MCrypto.Props
