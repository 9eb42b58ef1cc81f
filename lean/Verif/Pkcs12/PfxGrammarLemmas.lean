import Verif.Pkcs12.PfxGrammar
import Verif.Props.P12Open
import Verif.Props.X509ListDer
/-
Lemmas: the PKCS#12 parsers read the grammar of PfxGrammar.lean.
-/
namespace MCrypto.P12Spec
open MCrypto Asn1 P12 MCrypto.Dg MCrypto.X509 MCrypto.X509Spec MCrypto.Props

theorem whole_ne_nil {v e : Bytes} (h : Whole v e) : e ≠ [] := by
  obtain ⟨hd, rfl, hh⟩ := h
  intro hn
  exact header_ne_nil hh (List.append_eq_nil_iff.mp hn).1

theorem whole_any (e : Bytes) : AnyEl e ↔ ∃ v, Whole v e := by
  unfold AnyEl Whole
  constructor
  · rintro ⟨h, b, rfl, hh⟩; exact ⟨b, h, rfl, hh⟩
  · rintro ⟨b, h, rfl, hh⟩; exact ⟨h, b, rfl, hh⟩

theorem whole_iff (v e : Bytes) : Whole v e ↔ ∃ w, ReadsRaw e w ∧ w.bytes = v := by
  unfold Whole ReadsRaw
  constructor
  · rintro ⟨h, rfl, hh⟩
    obtain ⟨cls, comp, tag, rfl, h1, h2, h3⟩ := (header_iff _ _).mp hh
    exact ⟨rawOf cls comp tag v, ⟨cls, comp, tag, v, rfl, rfl, h1, h2, h3⟩, rfl⟩
  · rintro ⟨_, ⟨cls, comp, tag, body, rfl, rfl, h1, h2, h3⟩, rfl⟩
    exact ⟨_, rfl, (header_iff _ _).mpr ⟨cls, comp, tag, rfl, h1, h2, h3⟩⟩

theorem raw_iff (b v r : Bytes) : (∃ w, parseRaw {} b = some (w, r) ∧ w.bytes = v) ↔ ∃ e, b = e ++ r ∧ Whole v e := by
  simp only [parseRaw_reads, whole_iff]
  constructor
  · rintro ⟨w, ⟨e, h1, h2⟩, h3⟩; exact ⟨e, h1, w, h2, h3⟩
  · rintro ⟨e, h1, w, h2, h3⟩; exact ⟨w, ⟨e, h1, h2⟩, h3⟩

theorem all_iff {α : Type} (c : Codec α) (b : Bytes) (v : α) :
    unmarshalAll c b = .ok v ↔ parseField c {} b = some (v, []) := by
  unfold unmarshalAll
  show (match parseField c {} b with
    | none => Res.err "asn1"
    | some (v, rest) => if rest.length ≠ 0 then .err "go-pkcs12: trailing data found" else .ok v) = _ ↔ _
  rcases parseField c {} b with _ | ⟨a, _ | ⟨x, l⟩⟩ <;> simp

theorem allRaw_iff (b v : Bytes) : (∃ w, unmarshalAllRaw b = .ok w ∧ w.bytes = v) ↔ Whole v b := by
  have h : ∀ w, unmarshalAllRaw b = .ok w ↔ parseRaw {} b = some (w, []) := by
    intro w
    unfold unmarshalAllRaw
    rcases parseRaw {} b with _ | ⟨a, _ | ⟨x, l⟩⟩ <;> simp
  simp only [h, raw_iff, List.append_nil]
  constructor
  · rintro ⟨e, rfl, h⟩; exact h
  · intro h; exact ⟨b, rfl, h⟩

theorem pbePar_iff (b : Bytes) (ps : PbeParams) : unmarshalAll pbeParams b = .ok ps ↔ PbeParDer ps.salt ps.iterations b := by
  rw [all_iff, field_iff pbeParams (by decide) 0x30 (by decide)]
  simp only [pbeParams, Option.pure_def, Option.bind_eq_bind, Option.bind_eq_some_iff, Option.some.injEq, Prod.exists,
    octets_iff, int64_iff, List.append_nil]
  constructor
  · rintro ⟨e, body, rfl, h1, s, _, ⟨se, rfl, h2⟩, n, junk, ⟨ne, rfl, h3⟩, rfl⟩
    exact ⟨se, ne, junk, h1, h2, h3⟩
  · rintro ⟨se, ne, junk, h1, h2, h3⟩
    exact ⟨b, _, rfl, h1, _, _, ⟨se, rfl, h2⟩, _, junk, ⟨ne, rfl, h3⟩, rfl⟩

theorem pbe_iff (P : Prims) (alg : AlgId) (c pw m : Bytes) :
    pbDecrypt P alg c pw = .ok m ↔ PbeEncrypted P pw alg.algorithm alg.parameters.full c m := by
  constructor
  · intro h
    rcases pbeCipherFor_cases P alg pw with ⟨e, he⟩ | ⟨t, ps, ha, hps⟩
    · unfold pbDecrypt at h; rw [he] at h; cases h
    · have hd := (pbDecrypt_iff P t alg c pw ps ha hps m).mp h
      refine ⟨ps.salt, ps.iterations, (pbePar_iff _ _).mp hps, ?_⟩
      cases t
      · exact Or.inl ⟨ha, hd⟩
      · exact Or.inr ⟨ha, hd⟩
  · rintro ⟨salt, n, h1, h2⟩
    have hps := (pbePar_iff alg.parameters.full ⟨salt, n⟩).mpr h1
    obtain ⟨k1, k2⟩ := C33_pbDecrypt_iff P alg c pw m ⟨salt, n⟩ hps
    rcases h2 with ⟨h2, h3⟩ | ⟨h2, h3⟩
    · exact (k1 h2).mpr h3
    · exact (k2 h2).mpr h3


/-- The value field of a bag. -/
def ValueField (v ce s : Bytes) : Prop := (El 0xa0 v ce ∧ v ++ s ≠ []) ∨ (v = [] ∧ El 0x80 [] ce ∧ s ≠ [])

theorem explRaw_iff (o : Option RawValue) (b v r : Bytes) :
    (∃ w, parseRaw { opt := o, tag := some 0, explicit := true } b = some (w, r) ∧ w.bytes = v) ↔
      (∃ ce, b = ce ++ r ∧ ValueField v ce r) ∨
      (∃ w, o = some w ∧ w.bytes = v ∧ b = r ∧ (b = [] ∨ ∃ h n t, b = h ++ t ∧ Header h n ∧ t ≠ [] ∧
        h.head? ≠ some 0xa0 ∧ ¬ (h.head? = some 0x80 ∧ n = 0))) := by
  unfold parseRaw ValueField
  constructor
  · rintro ⟨w, h, rfl⟩
    split at h
    · rename_i hb
      rw [absent_iff] at h
      exact Or.inr ⟨w, h.1, rfl, h.2.symm, Or.inl hb⟩
    · rename_i hb
      cases hp : parseHdr b with
      | none => rw [hp] at h; cases h
      | some x =>
        obtain ⟨t, s⟩ := x
        rw [hp] at h
        simp only [if_true, true_and] at h
        obtain ⟨rfl, h1, h2, h3⟩ := (parseHdr_iff _ _ _).mp hp
        split at h
        · cases h
        rename_i hs
        split at h
        · rename_i hm
          rw [absent_iff] at h
          refine Or.inr ⟨w, h.1, rfl, h.2.symm, Or.inr ⟨_, t.len, s, rfl, (header_iff _ _).mpr ⟨_, _, _, rfl, h1, h2, h3⟩, hs, ?_, ?_⟩⟩
          · intro hh
            obtain ⟨e1, e2, e3⟩ := (encHdr_head' t.cls t.compound t.tag t.len h1 2 true 0 (by decide) (by decide)).mp hh
            exact hm (decide_eq_true ⟨e1, congrArg some e3, Or.inr e2⟩)
          · rintro ⟨hh, hl⟩
            obtain ⟨e1, e2, e3⟩ := (encHdr_head' t.cls t.compound t.tag t.len h1 2 false 0 (by decide) (by decide)).mp hh
            exact hm (decide_eq_true ⟨e1, congrArg some e3, Or.inl hl⟩)
        · rename_i hm
          split at h
          · cases h
          rename_i hl
          simp only [Option.some.injEq, Prod.mk.injEq] at h
          obtain ⟨rfl, rfl⟩ := h
          obtain ⟨g1, -, -, g4⟩ := parseTLV_split hp hl
          simp only [not_not] at hm
          obtain ⟨m1, m2, m3⟩ := of_decide_eq_true hm
          simp only [Option.some.injEq] at m2
          refine Or.inl ⟨_, g1, ?_⟩
          cases hc : t.compound with
          | true =>
            left
            refine ⟨(el_iff 2 true 0 (by decide) _ _).mpr ⟨by rw [m1, m2], g4⟩, ?_⟩
            rw [List.take_append_drop]; exact hs
          | false =>
            have hl0 : t.len = 0 := by
              rcases m3 with m3 | m3
              · exact m3
              · rw [hc] at m3; cases m3
            right
            rw [hl0]
            refine ⟨rfl, (el_iff 2 false 0 (by decide) _ _).mpr ⟨by rw [m1, m2]; rfl, by simp⟩, by simpa using hs⟩
  · rintro (⟨ce, rfl, h⟩ | ⟨w, rfl, rfl, rfl, rfl | ⟨h, n, t, rfl, hh, ht, g1, g2⟩⟩)
    · rcases h with ⟨h, hn⟩ | ⟨rfl, h, hn⟩
      · obtain ⟨rfl, hl⟩ := (el_iff 2 true 0 (by decide) _ _).mp h
        refine ⟨rawOf 2 true 0 v, ?_, rfl⟩
        exact parseRaw_encTLV { opt := o, tag := some 0, explicit := true } 2 true 0 v r (by decide) (by decide) hl
          (by simp only [if_true]; exact ⟨trivial, trivial, trivial, hn⟩)
      · obtain ⟨rfl, hl⟩ := (el_iff 2 false 0 (by decide) _ _).mp h
        rw [if_neg (by intro hx; exact encTLV_ne_nil _ _ _ _ (List.append_eq_nil_iff.mp hx).1),
          parseHdr_tlv 2 false 0 [] r (by decide) (by decide) hl]
        simp only [if_true, true_and]
        rw [if_neg (by simpa using hn), if_neg (by simp), if_neg (by simp)]
        simp only [List.nil_append, List.length_nil, List.drop_zero]
        exact ⟨_, rfl, by simp⟩
    · refine ⟨w, ?_, rfl⟩
      rw [if_pos rfl, absent_iff]; exact ⟨rfl, rfl⟩
    · obtain ⟨cls, comp, tag, rfl, h1, h2, h3⟩ := (header_iff _ _).mp hh
      refine ⟨w, ?_, rfl⟩
      rw [if_neg (by intro hx; exact encHdr_ne_nil _ _ _ _ (List.append_eq_nil_iff.mp hx).1),
        parseHdr_encHdr _ _ _ _ _ h1 h2 h3]
      simp only [if_true, true_and]
      rw [if_neg ht, if_pos, absent_iff]
      · exact ⟨rfl, rfl⟩
      · intro hx
        obtain ⟨a1, a2, a3⟩ := of_decide_eq_true hx
        simp only [Option.some.injEq] at a2
        subst a1 a2
        cases comp with
        | true => exact g1 ((encHdr_head' 2 true 0 n (by decide) 2 true 0 (by decide) (by decide)).mpr ⟨rfl, rfl, rfl⟩)
        | false =>
          refine g2 ⟨(encHdr_head' 2 false 0 n (by decide) 2 false 0 (by decide) (by decide)).mpr ⟨rfl, rfl, rfl⟩, ?_⟩
          rcases a3 with a3 | a3
          · exact a3
          · cases a3

/-- A content info with contents. -/
theorem contentInfo_iff (b c r : Bytes) (o : Oid) (hc : c ≠ []) :
    (∃ ci, parseField P12.contentInfo {} b = some (ci, r) ∧ ci.contentType = o ∧ ci.content.bytes = c) ↔
      ∃ e, b = e ++ r ∧ ContentInfoEl o c e := by
  simp only [field_iff P12.contentInfo (by decide) 0x30 (by decide)]
  simp only [P12.contentInfo, contentParams, Option.pure_def, Option.bind_eq_bind, Option.bind_eq_some_iff, Option.some.injEq, Prod.exists, oid_iff]
  constructor
  · rintro ⟨ci, ⟨e, body, rfl, h1, o, s, ⟨oe, rfl, h2⟩, w, junk, h3, rfl⟩, rfl, rfl⟩
    refine ⟨e, rfl, ?_⟩
    rcases (explRaw_iff (some {}) s w.bytes junk).mp ⟨w, h3, rfl⟩ with ⟨ce, rfl, ⟨h4, -⟩ | ⟨h4, -⟩⟩ | ⟨w', h4, h5, -⟩
    · exact ⟨oe, ce, junk, h1, h2, h4⟩
    · exact absurd h4 hc
    · simp only [Option.some.injEq] at h4
      subst h4
      exact absurd h5.symm hc
  · rintro ⟨e, rfl, oe, ce, junk, h1, h2, h3⟩
    obtain ⟨w, h4, h5⟩ := (explRaw_iff (some {}) (ce ++ junk) c junk).mpr (Or.inl ⟨ce, rfl, Or.inl ⟨h3, by simp [hc]⟩⟩)
    exact ⟨⟨o, w⟩, ⟨e, _, rfl, h1, o, _, ⟨oe, rfl, h2⟩, w, junk, h4, rfl⟩, rfl, h5⟩

theorem digest_iff (b : Bytes) (v : DigestInfo) (r : Bytes) :
    parseField digestInfo {} b = some (v, r) ↔ ∃ e s junk ge, b = e ++ r ∧ El 0x30 s e ∧
      parseField algId {} s = some (v.algorithm, ge ++ junk) ∧ El 0x04 v.digest ge := by
  rw [field_iff digestInfo (by decide) 0x30 (by decide)]
  simp only [digestInfo, Option.pure_def, Option.bind_eq_bind, Option.bind_eq_some_iff, Option.some.injEq, Prod.exists,
    octets_iff]
  constructor
  · rintro ⟨e, body, rfl, h1, a, _, h2, d, junk, ⟨ge, rfl, h3⟩, rfl⟩
    exact ⟨e, body, junk, ge, rfl, h1, h2, h3⟩
  · rintro ⟨e, body, junk, ge, rfl, h1, h2, h3⟩
    exact ⟨e, body, rfl, h1, _, _, h2, _, junk, ⟨ge, rfl, h3⟩, rfl⟩

theorem optIter_iff (b : Bytes) (n : Int) (r : Bytes) : parseField goInt { opt := some 1 } b = some (n, r) ↔
    (∃ ne, b = ne ++ r ∧ Int64El n ne) ∨ (n = 1 ∧ b = r ∧ Goes b ∧ b.head? ≠ some 0x02) := by
  rw [optField_iff goInt _ rfl rfl 0 2 rfl rfl (by decide) 0x02 (by decide), ← int64_iff,
    field_iff goInt (by decide) 0x02 (by decide)]
  simp only [Option.some.injEq]
  constructor
  · rintro (h | ⟨rfl, rfl, h1, h2⟩)
    · exact Or.inl h
    · exact Or.inr ⟨rfl, rfl, h1, h2⟩
  · rintro (h | ⟨rfl, rfl, h1, h2⟩)
    · exact Or.inl h
    · exact Or.inr ⟨rfl, rfl, h1, h2⟩

/-- The MAC field with a SHA-1 MAC. -/
theorem macField_iff (b r digest salt : Bytes) (n : Int) :
    (∃ md, parseField macData { opt := some {} } b = some (md, r) ∧ md.mac.algorithm.algorithm = [1, 3, 14, 3, 2, 26] ∧
      md.mac.digest = digest ∧ md.macSalt = salt ∧ md.iterations = n) ↔ ∃ e, b = e ++ r ∧ MacEl digest salt n e := by
  simp only [optField_iff macData { opt := some {} } rfl rfl 0 16 rfl rfl (by decide) 0x30 (by decide)]
  simp only [macData, Option.pure_def, Option.bind_eq_bind, Option.bind_eq_some_iff, Option.some.injEq, Prod.exists, digest_iff, octets_iff, optIter_iff]
  constructor
  · rintro ⟨md, ⟨e, body, rfl, h1, m, _, ⟨di, s1, junk, ge, rfl, h2, h3, h4⟩, salt, _, ⟨se, rfl, h5⟩, n, junk', h6, rfl⟩ |
      ⟨rfl, -⟩, h7, rfl, rfl, rfl⟩
    · refine ⟨e, rfl, ?_⟩
      obtain ⟨ae, rfl, h8⟩ := (algId_iff s1 [1, 3, 14, 3, 2, 26] m.algorithm.parameters.full (ge ++ junk)).mp ⟨_, h3, h7, rfl⟩
      exact ⟨di, se, _, ae, ge, junk, junk', _, h1, h2, h8, h4, h5, h6⟩
    · cases h7
  · rintro ⟨e, rfl, di, se, s, ae, ge, junk, junk', par, h1, h2, h3, h4, h5, h6⟩
    obtain ⟨a, k1, k2, -⟩ := (algId_iff (ae ++ (ge ++ junk)) [1, 3, 14, 3, 2, 26] par (ge ++ junk)).mpr ⟨ae, rfl, h3⟩
    exact ⟨⟨⟨a, digest⟩, salt, n⟩, Or.inl ⟨e, _, rfl, h1, _, _, ⟨di, _, junk, ge, rfl, h2, k1, h4⟩, _, _, ⟨se, rfl, h5⟩, n, junk',
      h6, rfl⟩, k2, rfl, rfl, rfl⟩

theorem encContent_iff (b v r : Bytes) (hv : v ≠ []) :
    parseField octets { opt := some [], tag := some 0 } b = some (v, r) ↔ ∃ xe, b = xe ++ r ∧ El 0x80 v xe := by
  rw [optField_iff octets _ rfl rfl 2 0 rfl rfl (by decide) 0x80 (by decide)]
  simp only [octets, Option.some.injEq]
  constructor
  · rintro (⟨e, body, rfl, h, rfl⟩ | ⟨h, -⟩)
    · exact ⟨e, rfl, h⟩
    · exact absurd h.symm hv
  · rintro ⟨e, rfl, h⟩
    exact Or.inl ⟨e, v, rfl, h, rfl⟩

theorem pbe_ne_nil (P : Prims) {pw : Bytes} {o : Oid} {par c m : Bytes} (h : PbeEncrypted P pw o par c m) : c ≠ [] := by
  have hd := (pbe_iff P ⟨o, { full := par }⟩ c pw m).mpr h
  rintro rfl
  unfold pbDecrypt at hd
  simp only [Res.bind_eq_ok, Prod.exists] at hd
  obtain ⟨_, _, _, hd⟩ := hd
  cases hd

theorem encData_iff (P : Prims) (b pw d : Bytes) :
    (∃ ed, unmarshalAll encryptedData b = .ok ed ∧ ed.version = 0 ∧ pbDecrypt P ed.info.alg ed.info.encryptedContent pw = .ok d) ↔
      ∃ ve ie te ae xe junk junk' t alg par enc,
        El 0x30 (ve ++ (ie ++ junk)) b ∧ Int64El 0 ve ∧ El 0x30 (te ++ (ae ++ (xe ++ junk'))) ie ∧ OidEl t te ∧
        AlgEl alg par ae ∧ El 0x80 enc xe ∧ PbeEncrypted P pw alg par enc d := by
  simp only [all_iff, field_iff encryptedData (by decide) 0x30 (by decide), pbe_iff]
  simp only [encryptedData, Option.pure_def, Option.bind_eq_bind, Option.bind_eq_some_iff, Option.some.injEq, Prod.exists,
    int64_iff, field_iff encryptedContentInfo (by decide) 0x30 (by decide), List.append_nil]
  simp only [encryptedContentInfo, Option.pure_def, Option.bind_eq_bind, Option.bind_eq_some_iff, Option.some.injEq, Prod.exists,
    oid_iff]
  constructor
  · rintro ⟨ed, ⟨e, body, rfl, h1, v, _, ⟨ve, rfl, h2⟩, i, junk, ⟨ie, ib, rfl, h3, t, _, ⟨te, rfl, h4⟩, a, _, h5, c, junk', h6, rfl⟩,
      rfl⟩, rfl, h7⟩
    obtain ⟨xe, rfl, h8⟩ := (encContent_iff _ _ _ (pbe_ne_nil P h7)).mp h6
    obtain ⟨ae, rfl, h9⟩ := (algId_iff _ _ _ _).mp ⟨a, h5, rfl, rfl⟩
    exact ⟨ve, ie, te, ae, xe, junk, junk', t, _, _, c, h1, h2, h3, h4, h9, h8, h7⟩
  · rintro ⟨ve, ie, te, ae, xe, junk, junk', t, alg, par, enc, h1, h2, h3, h4, h5, h6, h7⟩
    obtain ⟨a, k1, rfl, rfl⟩ := (algId_iff (ae ++ (xe ++ junk')) alg par (xe ++ junk')).mpr ⟨ae, rfl, h5⟩
    exact ⟨⟨0, t, a, enc⟩, ⟨b, _, rfl, h1, 0, _, ⟨ve, rfl, h2⟩, _, junk, ⟨ie, _, rfl, h3, t, _, ⟨te, rfl, h4⟩, a, _, k1, enc, junk',
      (encContent_iff _ _ _ (pbe_ne_nil P h7)).mpr ⟨xe, rfl, h6⟩, rfl⟩, rfl⟩, rfl, h7⟩

theorem safe_iff (P : Prims) (pw e d : Bytes) :
    (∃ ci, parseField P12.contentInfo {} e = some (ci, []) ∧ safeData P ci pw = .ok d) ↔ SafeIs P pw e d := by
  unfold SafeIs
  constructor
  · rintro ⟨ci, h1, h2⟩
    have hci : ∀ c, ci.content.bytes = c → c ≠ [] → ContentInfoEl ci.contentType c e := by
      intro c h3 h4
      obtain ⟨e', he, h⟩ := (contentInfo_iff e c [] ci.contentType h4).mp ⟨ci, h1, rfl, h3⟩
      rw [List.append_nil] at he
      rw [he]; exact h
    unfold safeData at h2
    split at h2
    · rename_i ht
      rw [all_iff, octets_iff] at h2
      obtain ⟨oe, h2, h3⟩ := h2
      rw [List.append_nil] at h2
      exact ⟨_, _, hci oe h2 (el_ne_nil h3), Or.inl ⟨ht, h3⟩⟩
    · split at h2
      · rename_i ht
        simp only [Res.bind_eq_ok] at h2
        obtain ⟨ed, h2, h3⟩ := h2
        split at h3
        · cases h3
        rename_i hv
        obtain ⟨ve, ie, te, ae, xe, junk, junk', t, alg, par, enc, k1, k⟩ := (encData_iff P _ pw d).mp ⟨ed, h2, not_not.mp hv, h3⟩
        exact ⟨_, _, hci _ rfl (el_ne_nil k1), Or.inr ⟨ht, ve, ie, te, ae, xe, junk, junk', t, alg, par, enc, k1, k⟩⟩
      · cases h2
  · rintro ⟨o, c, h1, ⟨rfl, h2⟩ | ⟨rfl, h2⟩⟩
    · obtain ⟨ci, k1, k2, k3⟩ := (contentInfo_iff e c [] _ (el_ne_nil h2)).mpr ⟨e, (List.append_nil _).symm, h1⟩
      refine ⟨ci, k1, ?_⟩
      unfold safeData
      rw [if_pos (by rw [k2]; rfl), all_iff, octets_iff, k3]
      exact ⟨c, (List.append_nil _).symm, h2⟩
    · obtain ⟨ed, e1, e2, e3⟩ := (encData_iff P c pw d).mpr h2
      obtain ⟨ve, ie, te, ae, xe, junk, junk', t, alg, par, enc, g1, g⟩ := h2
      obtain ⟨ci, k1, k2, k3⟩ := (contentInfo_iff e c [] _ (el_ne_nil g1)).mpr ⟨e, (List.append_nil _).symm, h1⟩
      refine ⟨ci, k1, ?_⟩
      unfold safeData
      rw [if_neg (by rw [k2]; decide), if_pos (by rw [k2]; rfl), k3, e1, Res.bind_ok, if_neg (by rw [e2]; simp)]
      exact e3

theorem seqMap_iff {α β : Type} [DecidableEq α] (c : Codec α) (hct : c.tag < 31) (g : α → β) (F : β → Bytes → Prop)
    (hF : ∀ b v' r, (∃ v, parseField c {} b = some (v, r) ∧ g v = v') ↔ ∃ e, b = e ++ r ∧ F v' e) (body full : Bytes)
    (vs : List β) : (∃ l, (seqOf c).dec body full = some l ∧ l.map g = vs) ↔ Many F vs body := by
  have key := fun l => seqOf_iff c hct (fun v e => Reads c e v) (fun b v r => parseField_reads c (by omega) b v r) body full l
  simp only [key]
  have hel : ∀ e v', F v' e ↔ ∃ v, Reads c e v ∧ g v = v' := by
    intro e v'
    have h := hF e v' []
    simp only [List.append_nil] at h
    constructor
    · intro hf
      obtain ⟨v, h1, h2⟩ := h.mpr ⟨e, rfl, hf⟩
      obtain ⟨e', he, hr⟩ := (parseField_reads c (by omega) e v []).mp h1
      rw [List.append_nil] at he
      exact ⟨v, by rw [he]; exact hr, h2⟩
    · rintro ⟨v, h1, h2⟩
      obtain ⟨e', he, hf⟩ := h.mp ⟨v, (parseField_reads c (by omega) e v []).mpr ⟨e, (List.append_nil _).symm, h1⟩, h2⟩
      rw [he]; exact hf
  clear key hF
  unfold Many
  simp only [hel]
  constructor
  · rintro ⟨l, ⟨es, rfl, h⟩, rfl⟩
    refine ⟨es, rfl, ?_⟩
    induction h with
    | nil => exact List.Forall₂.nil
    | cons h _ ih => exact List.Forall₂.cons ⟨_, h, rfl⟩ ih
  · rintro ⟨es, rfl, h⟩
    have : ∃ l, List.Forall₂ (fun e v => Reads c e v) es l ∧ l.map g = vs := by
      induction h with
      | nil => exact ⟨[], List.Forall₂.nil, rfl⟩
      | cons h _ ih =>
        obtain ⟨l, h1, h2⟩ := ih
        obtain ⟨v, h3, h4⟩ := h
        exact ⟨v :: l, List.Forall₂.cons h3 h1, by rw [List.map_cons, h2, h4]⟩
    obtain ⟨l, h1, h2⟩ := this
    exact ⟨l, ⟨es, rfl, h1⟩, h2⟩

/-- A bag of the model as a bag of the specification. -/
def bagOf (b : SafeBag) : Bag := ⟨b.id, b.value.bytes, (b.attrs.getD []).map fun a => (a.id, a.value.bytes)⟩

theorem attr_iff (b : Bytes) (v : List Nat × Bytes) (r : Bytes) :
    (∃ a, parseField attrC {} b = some (a, r) ∧ (a.id, a.value.bytes) = v) ↔ ∃ e, b = e ++ r ∧ AttrEl v e := by
  have hraw : ∀ b, parseRaw { set := true } b = parseRaw {} b := fun _ => rfl
  simp only [field_iff attrC (by decide) 0x30 (by decide)]
  simp only [attrC, hraw, Option.pure_def, Option.bind_eq_bind, Option.bind_eq_some_iff, Option.some.injEq, Prod.exists, oid_iff]
  constructor
  · rintro ⟨a, ⟨e, body, rfl, h1, i, _, ⟨oe, rfl, h2⟩, w, junk, h3, rfl⟩, rfl⟩
    obtain ⟨ve, rfl, h4⟩ := (raw_iff _ _ _).mp ⟨w, h3, rfl⟩
    exact ⟨e, rfl, oe, ve, junk, h1, h2, h4⟩
  · rintro ⟨e, rfl, oe, ve, junk, h1, h2, h3⟩
    obtain ⟨w, h4, h5⟩ := (raw_iff (ve ++ junk) v.2 junk).mpr ⟨ve, rfl, h3⟩
    exact ⟨⟨v.1, w⟩, ⟨e, _, rfl, h1, v.1, _, ⟨oe, rfl, h2⟩, w, junk, h4, rfl⟩, by simp only [h5]⟩

theorem attrs_iff (b r : Bytes) (vs : List (List Nat × Bytes)) :
    (∃ a, parseField attributes bagAttrParams b = some (a, r) ∧ (a.getD []).map (fun a => (a.id, a.value.bytes)) = vs) ↔
      (∃ se body, b = se ++ r ∧ El 0x31 body se ∧ Many AttrEl vs body) ∨
      (vs = [] ∧ b = r ∧ Goes b ∧ b.head? ≠ some 0x31) := by
  have key := fun body full => seqMap_iff attrC (by decide) (fun a => (a.id, a.value.bytes)) AttrEl attr_iff body full vs
  have hm := missing_iff 0 true 17 (by decide) (by decide) b
  simp only [bagAttrParams, parseField_iff attributes { opt := some none, set := true } rfl 0 17 rfl rfl (by decide)]
  constructor
  · rintro ⟨a, ⟨body, rfl, h1, h2⟩ | ⟨h1, rfl, h2⟩, h3⟩
    · left
      refine ⟨_, body, rfl, (el_iff 0 true 17 (by decide) _ _).mpr ⟨rfl, h1⟩, ?_⟩
      simp only [attributes, Option.map_eq_some_iff] at h2
      obtain ⟨l, h2, rfl⟩ := h2
      exact (key _ (encTLV 0 true 17 body)).mp ⟨l, h2, h3⟩
    · right
      simp only [Option.some.injEq] at h1
      subst h1
      obtain ⟨g1, g2⟩ := hm.mp h2
      exact ⟨h3.symm, rfl, g1, g2⟩
  · rintro (⟨se, body, rfl, h1, h2⟩ | ⟨rfl, rfl, h1, h2⟩)
    · obtain ⟨rfl, hl⟩ := (el_iff 0 true 17 (by decide) _ _).mp h1
      obtain ⟨l, h3, h4⟩ := (key body (encTLV 0 true 17 body)).mpr h2
      refine ⟨some l, Or.inl ⟨body, rfl, hl, ?_⟩, h4⟩
      simp only [attributes, Option.map_eq_some_iff]
      exact ⟨l, h3, rfl⟩
    · exact ⟨none, Or.inr ⟨rfl, rfl, hm.mpr ⟨h1, h2⟩⟩, rfl⟩

theorem bag_iff (b : Bytes) (v : Bag) (r : Bytes) :
    (∃ sb, parseField safeBag {} b = some (sb, r) ∧ bagOf sb = v) ↔ ∃ e, b = e ++ r ∧ BagEl v e := by
  simp only [field_iff safeBag (by decide) 0x30 (by decide)]
  simp only [safeBag, Option.pure_def, Option.bind_eq_bind, Option.bind_eq_some_iff, Option.some.injEq, Prod.exists, oid_iff]
  constructor
  · rintro ⟨sb, ⟨e, body, rfl, h1, i, _, ⟨oe, rfl, h2⟩, w, s, h3, a, junk, h4, rfl⟩, rfl⟩
    refine ⟨e, rfl, ?_⟩
    rcases (explRaw_iff none _ _ _).mp ⟨w, h3, rfl⟩ with ⟨ce, rfl, h5⟩ | ⟨_, h5, -⟩
    · exact ⟨oe, ce, s, junk, h1, h2, h5, (attrs_iff _ _ _).mp ⟨a, h4, rfl⟩⟩
    · cases h5
  · rintro ⟨e, rfl, oe, ce, s, junk, h1, h2, h3, h4⟩
    obtain ⟨w, k1, k2⟩ := (explRaw_iff none (ce ++ s) v.value s).mpr (Or.inl ⟨ce, rfl, h3⟩)
    obtain ⟨a, k3, k4⟩ := (attrs_iff _ _ _).mpr h4
    refine ⟨⟨v.id, w, a⟩, ⟨e, _, rfl, h1, v.id, _, ⟨oe, rfl, h2⟩, w, s, k1, a, junk, k3, rfl⟩, ?_⟩
    unfold bagOf
    rw [k2, k4]

theorem bags_iff (d : Bytes) (bs : List Bag) :
    (∃ l, unmarshalAll (seqOf safeBag) d = .ok l ∧ l.map bagOf = bs) ↔ BagsEl bs d := by
  have key := fun body full => seqMap_iff safeBag (by decide) bagOf BagEl bag_iff body full bs
  simp only [all_iff, field_iff (seqOf safeBag) (by decide) 0x30 (by decide), List.append_nil]
  constructor
  · rintro ⟨l, ⟨e, body, rfl, h1, h2⟩, h3⟩
    exact ⟨body, h1, (key _ _).mp ⟨l, h2, h3⟩⟩
  · rintro ⟨body, h1, h2⟩
    obtain ⟨l, h3, h4⟩ := (key body d).mpr h2
    exact ⟨l, ⟨d, body, rfl, h1, h3⟩, h4⟩

theorem two_iff (auth e1 e2 : Bytes) (ci1 ci2 : P12.ContentInfo) :
    (El 0x30 (e1 ++ e2) auth ∧ parseField P12.contentInfo {} e1 = some (ci1, []) ∧
      parseField P12.contentInfo {} e2 = some (ci2, [])) →
    unmarshalAll (seqOf P12.contentInfo) auth = .ok [ci1, ci2] := by
  rintro ⟨h1, h2, h3⟩
  rw [all_iff, field_iff (seqOf P12.contentInfo) (by decide) 0x30 (by decide)]
  have key := seqOf_iff P12.contentInfo (by decide) (fun v e => Reads P12.contentInfo e v)
    (fun b v r => parseField_reads P12.contentInfo (by decide) b v r) (e1 ++ e2) auth [ci1, ci2]
  have hr : ∀ e ci, parseField P12.contentInfo {} e = some (ci, []) → Reads P12.contentInfo e ci := by
    intro e ci h
    obtain ⟨e', he, hr⟩ := (parseField_reads P12.contentInfo (by decide) e ci []).mp h
    rw [List.append_nil] at he
    rw [he]; exact hr
  exact ⟨auth, _, (List.append_nil _).symm, h1, key.mpr ⟨[e1, e2], by simp, .cons (hr _ _ h2) (.cons (hr _ _ h3) .nil)⟩⟩

theorem two_inv (auth : Bytes) (ci1 ci2 : P12.ContentInfo) (h : unmarshalAll (seqOf P12.contentInfo) auth = .ok [ci1, ci2]) :
    ∃ e1 e2, El 0x30 (e1 ++ e2) auth ∧ parseField P12.contentInfo {} e1 = some (ci1, []) ∧
      parseField P12.contentInfo {} e2 = some (ci2, []) := by
  rw [all_iff, field_iff (seqOf P12.contentInfo) (by decide) 0x30 (by decide)] at h
  obtain ⟨e, body, he, h1, h2⟩ := h
  rw [List.append_nil] at he
  subst he
  obtain ⟨es, rfl, h3⟩ := (seqOf_iff P12.contentInfo (by decide) (fun v e => Reads P12.contentInfo e v)
    (fun b v r => parseField_reads P12.contentInfo (by decide) b v r) _ _ _).mp h2
  have hr : ∀ e ci, Reads P12.contentInfo e ci → parseField P12.contentInfo {} e = some (ci, []) := fun e ci h =>
    (parseField_reads P12.contentInfo (by decide) e ci []).mpr ⟨e, (List.append_nil _).symm, h⟩
  cases h3 with
  | cons k1 h3 =>
    cases h3 with
    | cons k2 h3 =>
      cases h3
      exact ⟨_, _, by simpa using h1, hr _ _ k1, hr _ _ k2⟩

/-- The PFX opens in the sense of C36 exactly if its octets are a PFX. -/
theorem opens_iff (P : Prims) (data pw : Bytes) (bags : List Bag) (pw' : Bytes) :
    (∃ sbs, Opens P data pw sbs pw' ∧ sbs.map bagOf = bags) ↔ PfxDer P data pw bags pw' := by
  constructor
  · rintro ⟨sbs, ⟨pfx, auth, ci1, ci2, d1, d2, b1, b2, h1, hv, ht, h2, m1, m2, m3, h4, e1, e2, e3, e4, e5⟩, rfl⟩
    rw [all_iff, field_iff pfxPdu (by decide) 0x30 (by decide)] at h1
    obtain ⟨e, body, rfl, k1, h1⟩ := h1
    simp only [pfxPdu, Option.pure_def, Option.bind_eq_bind, Option.bind_eq_some_iff, Option.some.injEq, Prod.exists,
      int64_iff] at h1
    obtain ⟨v, _, ⟨ve, rfl, k2⟩, a, s, k3, md, junk, k4, rfl⟩ := h1
    dsimp only at *
    subst hv
    have hwhole := (allRaw_iff _ _).mp ⟨auth, h2, rfl⟩
    obtain ⟨ce, rfl, k5⟩ := (contentInfo_iff _ _ _ _ (whole_ne_nil hwhole)).mp ⟨a, k3, ht, rfl⟩
    obtain ⟨me, rfl, k6⟩ := (macField_iff _ _ _ _ _).mp ⟨md, k4, m1, rfl, rfl, rfl⟩
    obtain ⟨el1, el2, k7, k8, k9⟩ := two_inv _ _ _ h4
    refine ⟨ve, ce, me, junk, _, auth.bytes, md.mac.digest, md.macSalt, md.iterations, el1, el2, d1, d2, b1.map bagOf,
      b2.map bagOf, ?_, k2, k5, hwhole, k6, m2, m3, k7, (safe_iff P _ _ _).mp ⟨ci1, k8, e1⟩, (safe_iff P _ _ _).mp ⟨ci2, k9, e3⟩,
      (bags_iff _ _).mp ⟨b1, e2, rfl⟩, (bags_iff _ _).mp ⟨b2, e4, rfl⟩, by rw [e5, List.map_append]⟩
    rw [List.append_nil]; exact k1
  · rintro ⟨ve, ce, me, junk, c, auth, digest, salt, n, el1, el2, d1, d2, b1, b2, k1, k2, k5, hwhole, k6, m2, m3, k7, s1, s2,
      g1, g2, rfl⟩
    obtain ⟨a, q1, q2, q3⟩ := (contentInfo_iff (ce ++ (me ++ junk)) c (me ++ junk) _ (whole_ne_nil hwhole)).mpr ⟨ce, rfl, k5⟩
    obtain ⟨md, q4, q5, rfl, rfl, rfl⟩ := (macField_iff (me ++ junk) junk digest salt n).mpr ⟨me, rfl, k6⟩
    obtain ⟨au, q6, rfl⟩ := (allRaw_iff _ _).mpr hwhole
    obtain ⟨ci1, q7, q8⟩ := (safe_iff P _ _ _).mpr s1
    obtain ⟨ci2, q9, q10⟩ := (safe_iff P _ _ _).mpr s2
    obtain ⟨l1, q11, rfl⟩ := (bags_iff _ _).mpr g1
    obtain ⟨l2, q12, rfl⟩ := (bags_iff _ _).mpr g2
    refine ⟨l1 ++ l2, ⟨⟨3, a, md⟩, au, ci1, ci2, d1, d2, l1, l2, ?_, rfl, q2, by rw [q3]; exact q6, q5, m2, m3,
      two_iff _ el1 el2 _ _ ⟨k7, q7, q9⟩, q8, q11, q10, q12, rfl⟩, List.map_append⟩
    rw [all_iff, field_iff pfxPdu (by decide) 0x30 (by decide)]
    refine ⟨data, _, (List.append_nil _).symm, k1, ?_⟩
    simp only [pfxPdu, Option.pure_def, Option.bind_eq_bind, Option.bind_eq_some_iff, Option.some.injEq, Prod.exists, int64_iff]
    exact ⟨3, _, ⟨ve, rfl, k2⟩, a, _, q1, md, junk, q4, rfl⟩

/-! ## Bag contents -/

theorem certBag_iff (v raw : Bytes) : decodeCertBag v = .ok raw ↔ CertBagDer raw v := by
  have hf : ∀ b d r, parseField octets { tag := some 0, explicit := true } b = some (d, r) ↔ Expl 0xa0 (El 0x04 d) b r := by
    intro b d r
    rw [parseField_explicit_iff octets _ rfl 0 rfl (by decide) rfl (by decide)]
    simp only [reduceCtorEq, false_and, or_false, octets, Option.some.injEq, Expl]
    constructor
    · rintro ⟨len, body, rfl, h1, h2, h3, rfl⟩
      exact ⟨_, len, _, rfl, (header_iff _ _).mpr ⟨2, true, 0, rfl, by decide, by decide, h2⟩,
        (encHdr_head' 2 true 0 len (by decide) 2 true 0 (by decide) (by decide)).mpr ⟨rfl, rfl, rfl⟩, h1,
        (el_iff 0 false 4 (by decide) _ _).mpr ⟨rfl, h3⟩⟩
    · rintro ⟨h, len, e, rfl, hh, h1, h2, h3⟩
      obtain ⟨cls, comp, tag, rfl, g1, g2, g3⟩ := (header_iff _ _).mp hh
      obtain ⟨rfl, rfl, rfl⟩ := (encHdr_head' _ _ _ _ g1 2 true 0 (by decide) (by decide)).mp h1
      obtain ⟨rfl, hl⟩ := (el_iff 0 false 4 (by decide) _ _).mp h3
      exact ⟨len, d, rfl, h2, g3, hl, rfl⟩
  have hu : ∀ cb, unmarshalAll certBag v = .ok cb ↔ ∃ oe s junk, El 0x30 (oe ++ s) v ∧ OidEl cb.id oe ∧
      Expl 0xa0 (El 0x04 cb.data) s junk := by
    intro cb
    rw [all_iff, field_iff certBag (by decide) 0x30 (by decide)]
    simp only [certBag, Option.pure_def, Option.bind_eq_bind, Option.bind_eq_some_iff, Option.some.injEq, Prod.exists, oid_iff, hf,
      List.append_nil]
    constructor
    · rintro ⟨e, body, rfl, h1, i, s, ⟨oe, rfl, h2⟩, d, junk, h3, rfl⟩
      exact ⟨oe, s, junk, h1, h2, h3⟩
    · rintro ⟨oe, s, junk, h1, h2, h3⟩
      exact ⟨v, _, rfl, h1, cb.id, s, ⟨oe, rfl, h2⟩, cb.data, junk, h3, rfl⟩
  unfold decodeCertBag CertBagDer
  simp only [Res.bind_eq_ok, hu]
  constructor
  · rintro ⟨cb, ⟨oe, s, junk, h1, h2, h3⟩, h⟩
    split at h
    · cases h
    rename_i hid
    injection h with h
    subst h
    refine ⟨oe, s, junk, h1, ?_, h3⟩
    rw [not_not.mp hid] at h2
    exact h2
  · rintro ⟨oe, s, junk, h1, h2, h3⟩
    exact ⟨⟨oidCertTypeX509Certificate, raw⟩, ⟨oe, s, junk, h1, h2, h3⟩, by rw [if_neg (by simp)]⟩

theorem keyBag_iff (P : Prims) (edPub : Bytes → Bytes) (v pw : Bytes) (k : PrivKey) :
    decodePkcs8ShroudedKeyBag P edPub v pw = .ok k ↔ KeyBagDer P edPub pw k v := by
  unfold decodePkcs8ShroudedKeyBag KeyBagDer
  simp only [Res.bind_eq_ok, all_iff, field_iff encryptedPrivateKeyInfo (by decide) 0x30 (by decide), pbe_iff, C92_pkcs8_grammar]
  simp only [encryptedPrivateKeyInfo, Option.pure_def, Option.bind_eq_bind, Option.bind_eq_some_iff, Option.some.injEq,
    Prod.exists, octets_iff, List.append_nil]
  constructor
  · rintro ⟨i, ⟨e, body, rfl, h1, a, _, h2, d, junk, ⟨de, rfl, h3⟩, rfl⟩, pk, h4, w, h5, o, par', key, h6, h7⟩
    obtain ⟨ae, rfl, h8⟩ := (algId_iff _ _ _ _).mp ⟨a, h2, rfl, rfl⟩
    exact ⟨ae, de, junk, _, _, d, pk, o, par', key, h1, h8, h3, h4, (whole_any _).mpr ⟨_, (allRaw_iff _ _).mp ⟨w, h5, rfl⟩⟩, h6, h7⟩
  · rintro ⟨ae, de, junk, alg, par, enc, pk, o, par', key, h1, h2, h3, h4, h5, h6, h7⟩
    obtain ⟨a, k1, rfl, rfl⟩ := (algId_iff (ae ++ (de ++ junk)) alg par (de ++ junk)).mpr ⟨ae, rfl, h2⟩
    obtain ⟨x, h8⟩ := (whole_any _).mp h5
    obtain ⟨w, h9, -⟩ := (allRaw_iff _ _).mpr h8
    exact ⟨⟨a, enc⟩, ⟨v, _, rfl, h1, a, _, k1, enc, junk, ⟨de, rfl, h3⟩, rfl⟩, pk, h4, w, h9, o, par', key, h6, h7⟩

end MCrypto.P12Spec
