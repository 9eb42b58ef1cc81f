import Verif.X509.Pkcs7Grammar
import Verif.Pkcs12.PfxGrammarLemmas
import Verif.Props.Pkcs7
/-
Lemmas: the PKCS#7 parser reads the grammar of Pkcs7Grammar.lean.
-/
namespace MCrypto.P7Spec
open MCrypto Asn1 MCrypto.Dg MCrypto.X509 MCrypto.X509Spec MCrypto.Props

theorem whole_eq : @Whole = @P12Spec.Whole := rfl

theorem rawFull_iff (b f r : Bytes) : (∃ w, parseRaw {} b = some (w, r) ∧ w.full = f) ↔ b = f ++ r ∧ AnyEl f := by
  simp only [parseRaw_reads, anyEl_iff]
  constructor
  · rintro ⟨w, ⟨e, rfl, h⟩, rfl⟩
    have h' := h
    obtain ⟨cls, comp, tag, body, rfl, rfl, -⟩ := h
    exact ⟨rfl, _, h'⟩
  · rintro ⟨rfl, w, h⟩
    have h' := h
    obtain ⟨cls, comp, tag, body, rfl, rfl, -⟩ := h
    exact ⟨_, ⟨_, rfl, h'⟩, rfl⟩

/-- An optional slice with an implicit tag. -/
theorem optMap_iff {α β : Type} [DecidableEq α] (c : Codec α) (hct : c.tag < 31) (g : α → β) (F : β → Bytes → Prop)
    (hF : ∀ b v' r, (∃ v, parseField c {} b = some (v, r) ∧ g v = v') ↔ ∃ e, b = e ++ r ∧ F v' e) (n : Nat) (hn : n < 31)
    (t : UInt8) (ht : t = octet 2 true n) (b r : Bytes) (vs : Option (List β)) :
    (∃ a, parseField (nilable (seqOf c)) { opt := some none, tag := some n } b = some (a, r) ∧ a.map (·.map g) = vs) ↔
      (∃ e body l, b = e ++ r ∧ El t body e ∧ Many F l body ∧ vs = some l) ∨
      (b = r ∧ Goes b ∧ b.head? ≠ some t ∧ vs = none) := by
  have key := fun body full l => P12Spec.seqMap_iff c hct g F hF body full l
  simp only [optField_iff (nilable (seqOf c)) { opt := some none, tag := some n } rfl rfl 2 n rfl rfl hn t ht]
  simp only [nilable, Option.map_eq_some_iff, Option.some.injEq]
  constructor
  · rintro ⟨a, ⟨e, body, rfl, h1, l, h2, rfl⟩ | ⟨rfl, rfl, h1, h2⟩, rfl⟩
    · exact Or.inl ⟨e, body, l.map g, rfl, h1, (key body e _).mp ⟨l, h2, rfl⟩, rfl⟩
    · exact Or.inr ⟨rfl, h1, h2, rfl⟩
  · rintro (⟨e, body, l, rfl, h1, h2, rfl⟩ | ⟨rfl, h1, h2, rfl⟩)
    · obtain ⟨l', h3, rfl⟩ := (key body e _).mpr h2
      exact ⟨some l', Or.inl ⟨e, body, rfl, h1, l', h3, rfl⟩, rfl⟩
    · exact ⟨none, Or.inr ⟨rfl, rfl, h1, h2⟩, rfl⟩

/-- A SET OF. -/
theorem setMap_iff {α β : Type} [DecidableEq α] (c : Codec α) (hct : c.tag < 31) (g : α → β) (F : β → Bytes → Prop)
    (hF : ∀ b v' r, (∃ v, parseField c {} b = some (v, r) ∧ g v = v') ↔ ∃ e, b = e ++ r ∧ F v' e) (b r : Bytes) (vs : List β) :
    (∃ a, parseField (Asn1.setOf c) { set := true } b = some (a, r) ∧ a.map g = vs) ↔
      ∃ e body, b = e ++ r ∧ El 0x31 body e ∧ Many F vs body := by
  have key := fun body full l => P12Spec.seqMap_iff c hct g F hF body full l
  simp only [setField_iff (Asn1.setOf c) rfl]
  constructor
  · rintro ⟨a, ⟨e, body, rfl, h1, h2⟩, rfl⟩
    exact ⟨e, body, rfl, h1, (key body e _).mp ⟨a, h2, rfl⟩⟩
  · rintro ⟨e, body, rfl, h1, h2⟩
    obtain ⟨a, h3, rfl⟩ := (key body e _).mpr h2
    exact ⟨a, ⟨e, body, rfl, h1, h3⟩, rfl⟩

/-- Attributes and signers as in the specification. -/
def attrOf (a : P7Attr) : List Nat × Bytes := (a.type, a.value.full)
def signerOf (s : SignerInfo) : Signer :=
  ⟨s.version, s.issuerAndSerialNumber.issuerName.full, s.issuerAndSerialNumber.serialNumber.getD 0,
   s.digestAlgorithm.algorithm, s.digestAlgorithm.parameters.full, s.authenticatedAttributes.map (·.map attrOf),
   s.digestEncryptionAlgorithm.algorithm, s.digestEncryptionAlgorithm.parameters.full, s.encryptedDigest,
   s.unauthenticatedAttributes.map (·.map attrOf)⟩

theorem attribute_iff (b : Bytes) (v : List Nat × Bytes) (r : Bytes) :
    (∃ a, parseField p7Attr {} b = some (a, r) ∧ attrOf a = v) ↔ ∃ e, b = e ++ r ∧ AttributeEl v e := by
  simp only [field_iff p7Attr (by decide) 0x30 (by decide)]
  simp only [p7Attr, Option.pure_def, Option.bind_eq_bind, Option.bind_eq_some_iff, Option.some.injEq, Prod.exists, oid_iff]
  constructor
  · rintro ⟨a, ⟨e, body, rfl, h1, i, _, ⟨oe, rfl, h2⟩, w, junk, h3, rfl⟩, rfl⟩
    obtain ⟨rfl, h4⟩ := (rawFull_iff _ w.full junk).mp ⟨w, h3, rfl⟩
    exact ⟨e, rfl, oe, junk, h1, h2, h4⟩
  · rintro ⟨e, rfl, oe, junk, h1, h2, h3⟩
    obtain ⟨w, h4, h5⟩ := (rawFull_iff (v.2 ++ junk) v.2 junk).mpr ⟨rfl, h3⟩
    exact ⟨⟨v.1, w⟩, ⟨e, _, rfl, h1, v.1, _, ⟨oe, rfl, h2⟩, w, junk, h4, rfl⟩, by rw [attrOf, h5]⟩

theorem ias_iff (b : Bytes) (issuer : Bytes) (n : Option Int) (r : Bytes) :
    (∃ a, parseField issuerAndSerial {} b = some (a, r) ∧ a.issuerName.full = issuer ∧ a.serialNumber = n) ↔
      ∃ e ne junk k, b = e ++ r ∧ n = some k ∧ El 0x30 (issuer ++ (ne ++ junk)) e ∧ AnyEl issuer ∧ IntEl k ne := by
  simp only [field_iff issuerAndSerial (by decide) 0x30 (by decide)]
  simp only [issuerAndSerial, Option.pure_def, Option.bind_eq_bind, Option.bind_eq_some_iff, Option.some.injEq, Prod.exists, optInt_iff]
  constructor
  · rintro ⟨a, ⟨e, body, rfl, h1, w, s, h2, n, junk, ⟨ne, k, rfl, rfl, h3⟩, rfl⟩, rfl, rfl⟩
    obtain ⟨rfl, h4⟩ := (rawFull_iff _ w.full _).mp ⟨w, h2, rfl⟩
    exact ⟨e, ne, junk, k, rfl, rfl, h1, h4, h3⟩
  · rintro ⟨e, ne, junk, k, rfl, rfl, h1, h2, h3⟩
    obtain ⟨w, h4, h5⟩ := (rawFull_iff (issuer ++ (ne ++ junk)) issuer _).mpr ⟨rfl, h2⟩
    exact ⟨⟨w, some k⟩, ⟨e, _, rfl, h1, w, _, h4, _, junk, ⟨ne, k, rfl, rfl, h3⟩, rfl⟩, h5, rfl⟩

theorem signer_iff (b : Bytes) (v : Signer) (r : Bytes) :
    (∃ s, parseField signerInfo {} b = some (s, r) ∧ signerOf s = v) ↔ ∃ e, b = e ++ r ∧ SignerEl v e := by
  have hA := fun b vs r => optMap_iff p7Attr (by decide) attrOf AttributeEl attribute_iff 0 (by decide) 0xa0 (by decide) b r vs
  have hU := fun b vs r => optMap_iff p7Attr (by decide) attrOf AttributeEl attribute_iff 1 (by decide) 0xa1 (by decide) b r vs
  simp only [field_iff signerInfo (by decide) 0x30 (by decide)]
  simp only [signerInfo, Option.pure_def, Option.bind_eq_bind, Option.bind_eq_some_iff, Option.some.injEq, Prod.exists,
    int64_iff, octets_iff]
  constructor
  · rintro ⟨s, ⟨e, body, rfl, h1, ver, s0, ⟨ve, rfl, h2⟩, i, s1, h3, d, s2, h4, a, s3, h5, ea, s4, h6, sig, s5,
      ⟨ge, rfl, h7⟩, u, junk, h8, rfl⟩, rfl⟩
    obtain ⟨ie, ne, junk', k, rfl, hk, h3a, h3b, h3c⟩ := (ias_iff s0 _ _ _).mp ⟨i, h3, rfl, rfl⟩
    obtain ⟨de, rfl, h4'⟩ := (algId_iff _ _ _ _).mp ⟨d, h4, rfl, rfl⟩
    obtain ⟨ee, rfl, h6'⟩ := (algId_iff _ _ _ _).mp ⟨ea, h6, rfl, rfl⟩
    refine ⟨e, rfl, ve, ie, de, s2, ee, ge, s5, ne, junk', junk, h1, h2, h3a, h3b, ?_, h4', ?_, h6', h7, ?_⟩
    · show IntEl (i.serialNumber.getD 0) ne
      rw [hk]; exact h3c
    · exact (hA _ _ _).mp ⟨a, h5, rfl⟩
    · exact (hU _ _ _).mp ⟨u, h8, rfl⟩
  · rintro ⟨e, rfl, ve, ie, de, s1, ee, ge, s2, ne, junk, junk', h1, h2, h3, h4, h5, h6, h7, h8, h9, h10⟩
    obtain ⟨i, i1, i2, i3⟩ := (ias_iff (ie ++ (de ++ s1)) v.issuer (some v.serial) _).mpr
      ⟨ie, ne, junk, v.serial, rfl, rfl, h3, h4, h5⟩
    obtain ⟨d, d1, d2, d3⟩ := (algId_iff (de ++ s1) v.digestAlg v.digestPar s1).mpr ⟨de, rfl, h6⟩
    obtain ⟨a, a1, a2⟩ := (hA _ _ _).mpr h7
    obtain ⟨ea, ea1, ea2, ea3⟩ := (algId_iff (ee ++ (ge ++ s2)) v.sigAlg v.sigPar _).mpr ⟨ee, rfl, h8⟩
    obtain ⟨u, u1, u2⟩ := (hU _ _ _).mpr h10
    refine ⟨⟨v.version, i, d, a, ea, v.signature, u⟩, ⟨e, _, rfl, h1, v.version, _, ⟨ve, rfl, h2⟩, i, _, i1, d, _, d1, a, _, a1,
      ea, _, ea1, v.signature, _, ⟨ge, rfl, h9⟩, u, _, u1, rfl⟩, ?_⟩
    simp only [signerOf, i2, i3, d2, d3, a2, ea2, ea3, u2, Option.getD_some]

theorem algPair_iff (b : Bytes) (v : List Nat × Bytes) (r : Bytes) :
    (∃ a, parseField algId {} b = some (a, r) ∧ (a.algorithm, a.parameters.full) = v) ↔ ∃ e, b = e ++ r ∧ AlgEl v.1 v.2 e := by
  rw [← algId_iff]
  constructor
  · rintro ⟨a, h, rfl⟩; exact ⟨a, h, rfl, rfl⟩
  · rintro ⟨a, h, h1, h2⟩; exact ⟨a, h, by rw [h1, h2]⟩

/-- An element without contents. -/
theorem empty_el (cls : Nat) (comp : Bool) (tag : Nat) (hc : cls < 4) (ht : tag < 31) {h : Bytes} (hh : Header h 0)
    (h1 : h.head? = some (octet cls comp tag)) : El (octet cls comp tag) [] h := by
  obtain ⟨cls', comp', tag', rfl, h2, h3, h4⟩ := (header_iff _ _).mp hh
  obtain ⟨h5, h6, h7⟩ := (encHdr_head' cls' comp' tag' 0 h2 cls comp tag hc ht).mp h1
  subst h5 h6 h7
  exact (el_iff cls' comp' tag' ht [] _).mpr ⟨by simp [encTLV], by decide⟩

theorem content_iff (b c r : Bytes) (o : Oid) :
    (∃ ci, parseField X509.contentInfo {} b = some (ci, r) ∧ ci.contentType = o ∧ ci.content.bytes = c) ↔
      ∃ e, b = e ++ r ∧ ContentEl o c e := by
  simp only [field_iff X509.contentInfo (by decide) 0x30 (by decide)]
  simp only [X509.contentInfo, Option.pure_def, Option.bind_eq_bind, Option.bind_eq_some_iff, Option.some.injEq, Prod.exists, oid_iff]
  have hval : ∀ s, (∃ w junk, parseRaw { opt := some {}, tag := some 0, explicit := true } s = some (w, junk) ∧ w.bytes = c) ↔
      ((c ≠ [] ∧ ∃ ce junk, s = ce ++ junk ∧ El 0xa0 c ce) ∨
     (c = [] ∧ (s = [] ∨ ∃ h n t, s = h ++ t ∧ Header h n ∧ t ≠ [] ∧ (h.head? = some 0xa0 → n = 0)))) := by
    intro s
    have hx := fun junk => P12Spec.explRaw_iff (some {}) s c junk
    constructor
    · rintro ⟨w, junk, h1, h2⟩
      rcases (hx junk).mp ⟨w, h1, h2⟩ with ⟨ce, rfl, ⟨h3, h4⟩ | ⟨rfl, h3, h4⟩⟩ | ⟨w', h3, h4, rfl, h5⟩
      · by_cases hc : c = []
        · subst hc
          refine Or.inr ⟨rfl, Or.inr ?_⟩
          obtain ⟨rfl, h6⟩ := (el_iff 2 true 0 (by decide) [] ce).mp h3
          refine ⟨encTLV 2 true 0 [], 0, junk, rfl, ?_, by simpa using h4, fun _ => rfl⟩
          exact (header_iff _ _).mpr ⟨2, true, 0, by simp [encTLV], by decide, by decide, by decide⟩
        · exact Or.inl ⟨hc, ce, junk, rfl, h3⟩
      · refine Or.inr ⟨rfl, Or.inr ?_⟩
        obtain ⟨rfl, h6⟩ := (el_iff 2 false 0 (by decide) [] ce).mp h3
        refine ⟨encTLV 2 false 0 [], 0, junk, rfl, ?_, h4, fun _ => rfl⟩
        exact (header_iff _ _).mpr ⟨2, false, 0, by simp [encTLV], by decide, by decide, by decide⟩
      · simp only [Option.some.injEq] at h3
        subst h3
        have hc : c = [] := h4.symm
        refine Or.inr ⟨hc, ?_⟩
        rcases h5 with h5 | ⟨h, n, t, h5, h6, h7, h8, h9⟩
        · exact Or.inl h5
        · exact Or.inr ⟨h, n, t, h5, h6, h7, fun h10 => absurd h10 h8⟩
    · rintro (⟨hc, ce, junk, rfl, h1⟩ | ⟨rfl, h | ⟨h, n, t, rfl, h1, h2, h3⟩⟩)
      · obtain ⟨w, h2, h3⟩ := (hx junk).mpr (Or.inl ⟨ce, rfl, Or.inl ⟨h1, by simp [hc]⟩⟩)
        exact ⟨w, junk, h2, h3⟩
      · subst h
        obtain ⟨w, h2, h3⟩ := (hx []).mpr (Or.inr ⟨{}, rfl, rfl, rfl, Or.inl rfl⟩)
        exact ⟨w, [], h2, h3⟩
      · by_cases ha : h.head? = some 0xa0
        · have hn := h3 ha
          subst hn
          obtain ⟨w, h4, h5⟩ := (hx t).mpr (Or.inl ⟨h, rfl, Or.inl ⟨empty_el 2 true 0 (by decide) (by decide) h1 ha, by simpa using h2⟩⟩)
          exact ⟨w, t, h4, h5⟩
        · by_cases h8 : h.head? = some 0x80 ∧ n = 0
          · obtain ⟨h8, rfl⟩ := h8
            obtain ⟨w, h4, h5⟩ := (hx t).mpr (Or.inl ⟨h, rfl, Or.inr ⟨rfl, empty_el 2 false 0 (by decide) (by decide) h1 h8, h2⟩⟩)
            exact ⟨w, t, h4, h5⟩
          · obtain ⟨w, h4, h5⟩ := (hx (h ++ t)).mpr (Or.inr ⟨{}, rfl, rfl, rfl, Or.inr ⟨h, n, t, rfl, h1, h2, ha, h8⟩⟩)
            exact ⟨w, h ++ t, h4, h5⟩
  constructor
  · rintro ⟨ci, ⟨e, body, rfl, h1, o, s, ⟨oe, rfl, h2⟩, w, junk, h3, rfl⟩, rfl, rfl⟩
    exact ⟨e, rfl, oe, s, h1, h2, (hval s).mp ⟨w, junk, h3, rfl⟩⟩
  · rintro ⟨e, rfl, oe, s, h1, h2, h3⟩
    obtain ⟨w, junk, h4, h5⟩ := (hval s).mpr h3
    exact ⟨⟨o, w⟩, ⟨e, _, rfl, h1, o, s, ⟨oe, rfl, h2⟩, w, junk, h4, rfl⟩, rfl, h5⟩

theorem certsField_iff (b r certs : Bytes) :
    (∃ raw, parseField rawCertificates { opt := some [], tag := some 0 } b = some (raw, r) ∧
      ((raw = [] ∧ certs = []) ∨ ∃ w t, parseRaw {} raw = some (w, t) ∧ w.bytes = certs)) ↔ CertsField b certs r := by
  simp only [optField_iff rawCertificates { opt := some [], tag := some 0 } rfl rfl 2 0 rfl rfl (by decide) 0xa0 (by decide)]
  simp only [rawCertificates, Option.some.injEq]
  unfold CertsField
  have hel : ∀ body e w t, El 0xa0 body e → parseRaw {} e = some (w, t) → w.bytes = body := by
    intro body e w t h h1
    obtain ⟨rfl, h2⟩ := (el_iff 2 true 0 (by decide) _ _).mp h
    have h3 := (parseRaw_reads (encTLV 2 true 0 body) (rawOf 2 true 0 body) []).mpr
      ⟨_, (List.append_nil _).symm, 2, true, 0, body, rfl, rfl, by decide, by decide, h2⟩
    rw [h3] at h1
    simp only [Option.some.injEq, Prod.mk.injEq] at h1
    rw [← h1.1]; rfl
  have hex : ∀ body e, El 0xa0 body e → ∃ w t, parseRaw {} e = some (w, t) := by
    intro body e h
    obtain ⟨rfl, h2⟩ := (el_iff 2 true 0 (by decide) _ _).mp h
    exact ⟨_, [], (parseRaw_reads (encTLV 2 true 0 body) (rawOf 2 true 0 body) []).mpr
      ⟨_, (List.append_nil _).symm, 2, true, 0, body, rfl, rfl, by decide, by decide, h2⟩⟩
  constructor
  · rintro ⟨raw, ⟨e, body, rfl, h1, rfl⟩ | ⟨rfl, rfl, h1, h2⟩, h3⟩
    · rcases h3 with ⟨rfl, -⟩ | ⟨w, t, h3, rfl⟩
      · obtain ⟨h4, -⟩ := (el_iff 2 true 0 (by decide) _ _).mp h1
        exact absurd h4.symm (encTLV_ne_nil _ _ _ _)
      · exact Or.inl ⟨e, rfl, by rw [hel _ _ _ _ h1 h3]; exact h1⟩
    · rcases h3 with ⟨-, rfl⟩ | ⟨w, t, h3, -⟩
      · exact Or.inr ⟨rfl, h1, h2, rfl⟩
      · rw [parseRaw_reads] at h3
        obtain ⟨e, h3, h4⟩ := h3
        obtain ⟨cls, comp, tag, body, rfl, rfl, -⟩ := h4
        exact absurd (List.append_eq_nil_iff.mp h3.symm).1 (encTLV_ne_nil _ _ _ _)
  · rintro (⟨e, rfl, h⟩ | ⟨rfl, h1, h2, rfl⟩)
    · obtain ⟨w, t, h3⟩ := hex _ _ h
      exact ⟨e, Or.inl ⟨e, certs, rfl, h, rfl⟩, Or.inr ⟨w, t, h3, hel _ _ _ _ h h3⟩⟩
    · exact ⟨[], Or.inr ⟨rfl, rfl, h1, h2⟩, Or.inl ⟨rfl, rfl⟩⟩

/-- How the octets of the field of certificates are unpacked. -/
def CertsOf (raw certs : Bytes) : Prop := (raw = [] ∧ certs = []) ∨ ∃ w t, parseRaw {} raw = some (w, t) ∧ w.bytes = certs

theorem certs_total {b raw r : Bytes} (h : parseField rawCertificates { opt := some [], tag := some 0 } b = some (raw, r)) :
    ∃ certs, CertsOf raw certs := by
  rw [optField_iff rawCertificates { opt := some [], tag := some 0 } rfl rfl 2 0 rfl rfl (by decide) 0xa0 (by decide)] at h
  simp only [rawCertificates, Option.some.injEq] at h
  rcases h with ⟨e, body, rfl, h1, rfl⟩ | ⟨rfl, -⟩
  · obtain ⟨rfl, h2⟩ := (el_iff 2 true 0 (by decide) _ _).mp h1
    exact ⟨body, Or.inr ⟨_, [], (parseRaw_reads (encTLV 2 true 0 body) (rawOf 2 true 0 body) []).mpr
      ⟨_, (List.append_nil _).symm, 2, true, 0, body, rfl, rfl, by decide, by decide, h2⟩, rfl⟩⟩
  · exact ⟨[], Or.inl ⟨rfl, rfl⟩⟩

theorem constructed_iff (cls : Nat) (comp : Bool) (tag : Nat) (body : Bytes) (hc : cls < 4) :
    Constructed (encTLV cls comp tag body) ↔ comp = true := by
  have hbit : ∀ c < 4, ∀ t < 32, (UInt8.ofNat (c * 64 + 32 + t)).toNat.testBit 5 = true ∧
      (UInt8.ofNat (c * 64 + 0 + t)).toNat.testBit 5 = false := by decide
  have hx : ∃ t < 32, ∃ l, encTLV cls comp tag body = UInt8.ofNat (cls * 64 + (if comp then 32 else 0) + t) :: l := by
    unfold encTLV encHdr
    by_cases h : tag ≥ 31
    · exact ⟨31, by decide, base128 tag ++ Der.lenOctets body.length ++ body, by simp only [h, if_true, List.cons_append]⟩
    · exact ⟨tag, by omega, [] ++ Der.lenOctets body.length ++ body, by simp only [h, if_false, List.cons_append]⟩
  obtain ⟨t, ht, l, hl⟩ := hx
  rw [hl]
  have h1 := hbit cls hc t ht
  unfold Constructed
  cases comp
  · simp only [Bool.false_eq_true, if_false, List.cons.injEq, iff_false]
    rintro ⟨x, t', ⟨rfl, -⟩, h⟩
    rw [h1.2] at h; cases h
  · simp only [if_true, iff_true]
    exact ⟨_, _, rfl, h1.1⟩

theorem parseContent_iff (c content : Bytes) : parseContent c = .ok content ↔ ContentIs c content := by
  unfold parseContent ContentIs
  by_cases hc : c = []
  · subst hc
    simp only [List.length_nil, gt_iff_lt, Nat.lt_irrefl, if_false, Res.ok.injEq, true_and]
    constructor
    · rintro rfl; exact Or.inl rfl
    · rintro (rfl | ⟨e, r, w, h, h1, -⟩)
      · rfl
      · exact absurd (List.append_eq_nil_iff.mp h.symm).1 (P12Spec.whole_ne_nil h1)
  · rw [if_pos (by have := List.length_pos_iff.mpr hc; omega)]
    simp only [hc, false_and, false_or]
    rw [whole_eq]
    constructor
    · intro h
      rcases hp : parseRaw {} c with _ | ⟨w, r⟩
      · rw [hp] at h; cases h
      · rw [hp] at h
        simp only [] at h
        obtain ⟨e, rfl, hr⟩ := (parseRaw_reads c w r).mp hp
        have hw : P12Spec.Whole w.bytes e := (P12Spec.whole_iff _ _).mpr ⟨w, hr, rfl⟩
        obtain ⟨cls, comp, tag, body, rfl, rfl, h1, -⟩ := hr
        refine ⟨_, r, _, rfl, hw, ?_⟩
        rw [constructed_iff _ _ _ _ h1]
        cases comp
        · right
          injection h with h
          exact ⟨by simp, h.symm⟩
        · left
          simp only [rawOf, if_true] at h
          rcases hu : unmarshal octets body with _ | ⟨d, junk⟩
          · rw [hu] at h; cases h
          · rw [hu] at h
            injection h with h
            subst h
            obtain ⟨oe, h2, h3⟩ := (octets_iff _ _ _).mp hu
            exact ⟨rfl, oe, junk, h2, h3⟩
    · rintro ⟨e, r, w, rfl, h1, h2⟩
      obtain ⟨v, h3, rfl⟩ := (P12Spec.whole_iff _ _).mp h1
      rw [(parseRaw_reads (e ++ r) v r).mpr ⟨e, rfl, h3⟩]
      simp only []
      obtain ⟨cls, comp, tag, body, rfl, rfl, h4, -⟩ := h3
      rw [constructed_iff _ _ _ _ h4] at h2
      rcases h2 with ⟨rfl, oe, junk, h2, h5⟩ | ⟨h2, rfl⟩
      · have h6 : unmarshal octets (rawOf cls true tag body).bytes = some (content, junk) := (octets_iff _ _ _).mpr ⟨oe, h2, h5⟩
        rw [h6]; rfl
      · have : comp = false := by simpa using h2
        subst this
        rfl

theorem orStop_none {α β : Type} {F : α → Bytes → Prop} {d : Prop} {k : α → Bytes → Prop} {o : Option (β × Bytes)}
    {G : β → α → Prop} (hF : ∀ v r, F v r ↔ ∃ a, o = some (a, r) ∧ G a v) (h : o = none) : OrStop F d k ↔ d := by
  have hn : ¬ ∃ v r, F v r := by
    rintro ⟨v, r, hv⟩
    obtain ⟨a, h1, -⟩ := (hF v r).mp hv
    rw [h] at h1; cases h1
  constructor
  · rintro (⟨-, hd⟩ | ⟨v, r, hv, -⟩)
    · exact hd
    · exact absurd ⟨v, r, hv⟩ hn
  · intro hd; exact Or.inl ⟨hn, hd⟩

theorem orStop_some {α β : Type} {F : α → Bytes → Prop} {d : Prop} {k : α → Bytes → Prop} {o : Option (β × Bytes)}
    {G : β → α → Prop} (hF : ∀ v r, F v r ↔ ∃ a, o = some (a, r) ∧ G a v) {a : β} {r : Bytes} (h : o = some (a, r))
    (ht : ∃ v, G a v) : OrStop F d k ↔ ∃ v, G a v ∧ k v r := by
  obtain ⟨v0, h0⟩ := ht
  constructor
  · rintro (⟨hn, -⟩ | ⟨v, r', hv, hk⟩)
    · exact absurd ⟨v0, r, (hF v0 r).mpr ⟨a, h, h0⟩⟩ hn
    · obtain ⟨a', h1, h2⟩ := (hF v r').mp hv
      rw [h] at h1
      simp only [Option.some.injEq, Prod.mk.injEq] at h1
      obtain ⟨rfl, rfl⟩ := h1
      exact ⟨v, h2, hk⟩
  · rintro ⟨v, h1, hk⟩
    exact Or.inr ⟨v, r, (hF v r).mpr ⟨a, h, h1⟩, hk⟩

/-- A SEQUENCE with its contents. -/
def seqBody : Codec Bytes := ⟨16, true, fun b _ => some b, fun b => some b⟩

theorem seqBody_iff (b body r : Bytes) : (∃ a, parseField seqBody {} b = some (a, r) ∧ a = body) ↔ ∃ e, b = e ++ r ∧ El 0x30 body e := by
  simp only [field_iff seqBody (by decide) 0x30 (by decide)]
  simp only [seqBody, Option.some.injEq]
  constructor
  · rintro ⟨a, ⟨e, _, rfl, h1, rfl⟩, rfl⟩; exact ⟨e, rfl, h1⟩
  · rintro ⟨e, rfl, h1⟩; exact ⟨body, ⟨e, body, rfl, h1, rfl⟩, rfl⟩

theorem signedData_body (sd : Bytes) : parseField signedData {} sd =
    (parseField seqBody {} sd).map fun x => ((signedDataFields x.1).1, x.2) := by
  have hs := fun a r => field_iff signedData (by decide) 0x30 (by decide) sd a r
  have hb := fun a r => seqBody_iff sd a r
  rcases h : parseField seqBody {} sd with _ | ⟨a, r⟩
  · rcases h2 : parseField signedData {} sd with _ | ⟨v, r⟩
    · rfl
    · obtain ⟨e, body, h3, h4, -⟩ := (hs v r).mp h2
      obtain ⟨a, h5, -⟩ := (hb body r).mpr ⟨e, h3, h4⟩
      rw [h] at h5; cases h5
  · obtain ⟨e, h1, h2⟩ := (hb a r).mp ⟨a, h, rfl⟩
    exact (hs _ _).mpr ⟨e, a, h1, h2, rfl⟩

theorem head_iff (s r : Bytes) : Head s r ↔ ∃ v s1 d, parseField goInt {} s = some (v, s1) ∧
    parseField (Asn1.setOf algId) { set := true } s1 = some (d, r) := by
  have hd := fun b r vs => setMap_iff algId (by decide) (fun a : AlgId => (a.algorithm, a.parameters.full))
    (fun v e => AlgEl v.1 v.2 e) algPair_iff b r vs
  unfold Head
  constructor
  · rintro ⟨v, ve, de, body, ds, rfl, h1, h2, h3⟩
    obtain ⟨a, h4, -⟩ := (hd (de ++ r) r ds).mpr ⟨de, body, rfl, h2, h3⟩
    exact ⟨v, _, a, (int64_iff _ _ _).mpr ⟨ve, rfl, h1⟩, h4⟩
  · rintro ⟨v, s1, d, h1, h2⟩
    obtain ⟨ve, rfl, h1'⟩ := (int64_iff _ _ _).mp h1
    obtain ⟨de, body, rfl, h3, h4⟩ := (hd _ _ _).mp ⟨d, h2, rfl⟩
    exact ⟨v, ve, de, body, _, rfl, h1', h3, h4⟩

/-- The fields of a SignedData that the caller gets, with the error dropped. -/
theorem lax_iff (sd c certs : Bytes) (crls : Option (List CrlFields)) (ss : List Signer) :
    LaxSignedData sd c certs crls ss ↔
      (unmarshalSignedData sd).contentInfo.content.bytes = c ∧ CertsOf (unmarshalSignedData sd).certificates certs ∧
      (unmarshalSignedData sd).crls.map (·.map crlFields) = crls ∧
      (unmarshalSignedData sd).signerInfos.map signerOf = ss := by
  have hc : CertsOf [] certs ↔ certs = [] := by
    unfold CertsOf
    constructor
    · rintro (⟨-, h⟩ | ⟨w, t, h, -⟩)
      · exact h
      · cases h
    · intro h; exact Or.inl ⟨rfl, h⟩
  have zero : (c = [] ∧ certs = [] ∧ crls = none ∧ ss = []) ↔
      ([] = c ∧ CertsOf [] certs ∧ none = crls ∧ [] = ss) := by
    rw [hc, eq_comm (a := c), eq_comm (a := crls), eq_comm (a := ss)]
  unfold LaxSignedData unmarshalSignedData
  simp only [unmarshal]
  rw [signedData_body]
  rcases h0 : parseField seqBody {} sd with _ | ⟨body, tail⟩
  · rw [orStop_none (G := fun a v => a = v) (fun v r => (seqBody_iff sd v r).symm) h0]
    exact zero
  rw [orStop_some (G := fun a v => a = v) (fun v r => (seqBody_iff sd v r).symm) h0 ⟨_, rfl⟩]
  simp only [exists_eq_left', Option.map_some]
  unfold signedDataFields
  have hh : ∀ d k, OrStop (fun (_ : Unit) r => Head body r) d k ↔
      ((¬ ∃ r, Head body r) ∧ d) ∨ ∃ r, Head body r ∧ k () r := by
    intro d k
    unfold OrStop
    constructor
    · rintro (⟨h1, h2⟩ | ⟨_, r, h1, h2⟩)
      · exact Or.inl ⟨fun ⟨r, h⟩ => h1 ⟨(), r, h⟩, h2⟩
      · exact Or.inr ⟨r, h1, h2⟩
    · rintro (⟨h1, h2⟩ | ⟨r, h1, h2⟩)
      · exact Or.inl ⟨fun ⟨_, r, h⟩ => h1 ⟨r, h⟩, h2⟩
      · exact Or.inr ⟨(), r, h1, h2⟩
  rw [hh]
  simp only [head_iff]
  rcases h1 : parseField goInt {} body with _ | ⟨v, b1⟩
  · simp only [reduceCtorEq, false_and, exists_false, not_false_eq_true, true_and, or_false]
    exact zero
  simp only [Option.some.injEq, Prod.mk.injEq]
  rcases h2 : parseField (Asn1.setOf algId) { set := true } b1 with _ | ⟨d, b2⟩
  · have : ¬ ∃ r v_1 s1 d, (v = v_1 ∧ b1 = s1) ∧ parseField (Asn1.setOf algId) { set := true } s1 = some (d, r) := by
      rintro ⟨r, v', s1, d, ⟨rfl, rfl⟩, h⟩
      rw [h2] at h; cases h
    constructor
    · rintro (⟨-, h⟩ | ⟨r, h, -⟩)
      · exact zero.mp h
      · exact absurd ⟨r, h⟩ this
    · intro h; exact Or.inl ⟨this, zero.mpr h⟩
  have hr : ∀ r, (∃ v_1 s1 d, (v = v_1 ∧ b1 = s1) ∧ parseField (Asn1.setOf algId) { set := true } s1 = some (d, r)) ↔ r = b2 := by
    intro r
    constructor
    · rintro ⟨v', s1, d, ⟨rfl, rfl⟩, h⟩
      rw [h2] at h
      simp only [Option.some.injEq, Prod.mk.injEq] at h
      exact h.2.symm
    · rintro rfl; exact ⟨v, b1, d, ⟨rfl, rfl⟩, h2⟩
  simp only [hr, exists_eq, not_true_eq_false, false_and, false_or, exists_eq_left]
  have hC : ∀ v r, ContentField b2 v r ↔ ∃ a, parseField X509.contentInfo {} b2 = some (a, r) ∧ a.content.bytes = v := by
    intro v r
    constructor
    · rintro ⟨o, e, h1, h2⟩
      obtain ⟨ci, h3, h4, h5⟩ := (content_iff b2 v r o).mpr ⟨e, h1, h2⟩
      exact ⟨ci, h3, h5⟩
    · rintro ⟨ci, h3, h5⟩
      obtain ⟨e, h1, h2⟩ := (content_iff b2 v r _).mp ⟨ci, h3, rfl, h5⟩
      exact ⟨_, e, h1, h2⟩
  rcases h3 : parseField X509.contentInfo {} b2 with _ | ⟨ci, b3⟩
  · rw [orStop_none (G := fun (a : ContentInfo) v => a.content.bytes = v) hC h3]
    exact zero
  rw [orStop_some (G := fun (a : ContentInfo) v => a.content.bytes = v) hC h3 ⟨_, rfl⟩]
  simp only [exists_eq_left']
  rw [eq_comm (a := c)]
  rcases h4 : parseField rawCertificates { opt := some [], tag := some 0 } b3 with _ | ⟨raw, b4⟩
  · rw [orStop_none (G := CertsOf) (fun v r => (certsField_iff b3 r v).symm) h4]
    refine and_congr_right fun _ => ?_
    show _ ↔ CertsOf [] certs ∧ none = crls ∧ [] = ss
    rw [hc, eq_comm (a := crls), eq_comm (a := ss)]
  rw [orStop_some (G := CertsOf) (fun v r => (certsField_iff b3 r v).symm) h4 (certs_total h4)]
  have hmove : ∀ {P : Prop}, (∃ v, CertsOf raw v ∧ certs = v ∧ P) ↔ CertsOf raw certs ∧ P := by
    intro P
    constructor
    · rintro ⟨v, h1, rfl, h2⟩; exact ⟨h1, h2⟩
    · rintro ⟨h1, h2⟩; exact ⟨certs, h1, rfl, h2⟩
  rw [hmove]
  dsimp only
  have hR := fun v r => (optMap_iff crl (by decide) crlFields (fun f e => CrlDer e f) (fun b v r => crl_iff b r v) 1 (by decide) 0xa1 (by decide) b4 r v).symm
  rcases h5 : parseField (nilable (seqOf crl)) { opt := some none, tag := some 1 } b4 with _ | ⟨cr, b5⟩
  · rw [orStop_none (F := CrlsField b4) (G := fun (a : Option (List Crl)) v => a.map (·.map crlFields) = v) hR h5]
    refine and_congr_right fun _ => and_congr_right fun _ => ?_
    show _ ↔ none = crls ∧ [] = ss
    rw [eq_comm (a := crls), eq_comm (a := ss)]
  rw [orStop_some (F := CrlsField b4) (G := fun (a : Option (List Crl)) v => a.map (·.map crlFields) = v) hR h5 ⟨_, rfl⟩]
  simp only [exists_eq_left']
  rw [eq_comm (a := crls)]
  have hS := fun v r => (setMap_iff signerInfo (by decide) signerOf SignerEl signer_iff b5 r v).symm
  rcases h6 : parseField (Asn1.setOf signerInfo) { set := true } b5 with _ | ⟨si, b6⟩
  · rw [orStop_none (F := SignersField b5) (G := fun (a : List SignerInfo) v => a.map signerOf = v) hS h6]
    refine and_congr_right fun _ => and_congr_right fun _ => and_congr_right fun _ => ?_
    show _ ↔ [] = ss
    rw [eq_comm]
  rw [orStop_some (F := SignersField b5) (G := fun (a : List SignerInfo) v => a.map signerOf = v) hS h6 ⟨_, rfl⟩]
  simp only [exists_eq_left']
  rw [eq_comm (a := ss)]

end MCrypto.P7Spec
