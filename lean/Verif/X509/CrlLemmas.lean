import Verif.X509.CreateCert
import Verif.X509.Pkcs7Roundtrip
import Verif.X509.CsrSpec
/-
Names, extensions and revocation lists written and read back with encoding/asn1.
-/
namespace MCrypto.X509
open MCrypto MCrypto.Asn1 MCrypto.X509Spec MCrypto.Props

/-! ### Names -/

theorem any_string {s e : Bytes} (h : marshalString s = some e) (hl : e.length < 2 ^ 31) (r : Bytes) :
    parseAny (e ++ r) = some (.str s, r) := by
  unfold marshalString at h
  have key : ∀ tag : Nat, tag ≤ 30 → (tag = 19 ∨ tag = 12) → parseASN1String (UInt8.ofNat tag) s = some s →
      e = encTLV 0 false tag s → parseAny (e ++ r) = some (.str s, r) := by
    intro tag ht h2 hp he
    have hsl : s.length < 2 ^ 31 := by
      have := encTLV_length_lt 0 false tag s; rw [← he] at this; omega
    unfold parseAny
    rw [he, parseHdr_encTLV 0 false tag s r (by decide) (by omega) hsl]
    simp only [List.length_append]
    rw [if_neg (by omega), if_pos (by simp), List.take_left' rfl, List.drop_left' rfl]
    unfold anyOf
    rw [if_pos (by omega), hp]
    rfl
  split at h
  · rename_i hp
    injection h with h
    refine key 19 (by decide) (.inl rfl) ?_ h.symm
    unfold parseASN1String
    rw [if_neg (by decide), if_pos (by decide), if_pos]
    rw [List.all_eq_true] at hp ⊢
    intro b hb
    have := hp b hb
    unfold isPrintableStrict at this
    simp only [Bool.and_eq_true] at this
    exact this.1.1
  · split at h
    · rename_i hv
      injection h with h
      refine key 12 (by decide) (.inr rfl) ?_ h.symm
      unfold parseASN1String
      rw [if_neg (by decide), if_neg (by decide), if_pos (by decide), if_pos hv]
    · cases h

theorem parseAny_tlv {tag : Nat} {body : Bytes} {v : AnyValue} (ht : tag ≤ 30) (hl : body.length < 2 ^ 31)
    (hv : anyOf tag body = some v) (r : Bytes) : parseAny (encTLV 0 false tag body ++ r) = some (v, r) := by
  unfold parseAny
  rw [parseHdr_encTLV 0 false tag body r (by decide) (by omega) hl]
  simp only [List.length_append]
  rw [if_neg (by omega), if_pos (by simp), List.take_left' rfl, List.drop_left' rfl, hv]

theorem any_to {v : AnyValue} (hok : AnyOk v) {e : Bytes} (h : marshalAny v = some e) (hl : e.length < 2 ^ 31) (r : Bytes) :
    parseAny (e ++ r) = some (v, r) := by
  cases v with
  | str s => exact any_string h hl r
  | octets b =>
    obtain ⟨body, hb, rfl⟩ := marshal_tlv octets b _ h
    have := encTLV_length_lt 0 octets.compound octets.tag body
    simp only [octets, Option.some.injEq] at hb
    subst hb
    exact parseAny_tlv (by decide) (by omega) (by simp [anyOf, octets]) r
  | int n =>
    obtain ⟨body, hb, rfl⟩ := marshal_tlv bigInt n _ h
    have := encTLV_length_lt 0 bigInt.compound bigInt.tag body
    simp only [bigInt, Option.some.injEq] at hb
    subst hb
    have hn := encInt_length_int64 n hok.1 hok.2
    exact parseAny_tlv (by decide) (by omega) (by
      unfold anyOf
      rw [if_neg (by decide), if_pos (by decide), if_neg (by omega), Der.decInt_encInt]; rfl) r
  | oid o =>
    obtain ⟨body, hb, rfl⟩ := marshal_tlv oid o _ h
    have := encTLV_length_lt 0 oid.compound oid.tag body
    have hd := oid_to hok body [] hb (by omega)
    exact parseAny_tlv (by decide) (by omega) (by
      unfold anyOf
      rw [if_neg (by decide), if_neg (by decide), if_neg (by decide), if_pos (by decide), show decOid body = some o from hd]
      rfl) r
  | bits b => exact absurd hok id
  | time t => exact absurd hok id
  | nil => exact absurd hok id

theorem atvAny_to {a : AtvAny} (h : AtvOk a) : atvAny.To a a := by
  obtain ⟨o, v⟩ := a
  obtain ⟨ho, hv⟩ := h
  intro body full h hl
  simp only [atvAny, Option.pure_def, Option.bind_eq_bind, Option.bind_eq_some_iff] at h ⊢
  obtain ⟨e1, h1, e2, h2, hb⟩ := h
  injection hb with hb
  subst hb
  rw [List.length_append] at hl
  have := any_to hv h2 (by omega) []
  rw [List.append_nil] at this
  exact ⟨_, parseField_plain _ (oid_to ho) h1 (by omega), _, this, rfl⟩

/-- A set is read back in the order of the encodings. -/
theorem setOf_to {α : Type} [DecidableEq α] {c : Codec α} (hct : c.tag ≤ 2147483647) {l l' : List α}
    (h : List.Forall₂ c.To l l') : ∃ m : List α, m.Perm l' ∧ (Asn1.setOf c).To l m := by
  cases hm : marshalElems (marshalField c {}) l with
  | none => exact ⟨l', .refl _, fun body full he _ => by simp only [Asn1.setOf, hm] at he; cases he⟩
  | some es =>
    have hf := (marshalElems_iff _ _ _).mp hm
    have hp := sortBy_perm bytesLe es
    obtain ⟨k, hk1, hk2⟩ := forall₂_perm_left (R := fun e v => marshalField c {} v = some e) hp hf.flip
    obtain ⟨m, hm1, hm2⟩ := forall₂_perm_left (R := c.To) hk1 h
    refine ⟨m, hm1, fun body full he hl => ?_⟩
    simp only [Asn1.setOf, hm, Option.map_some, Option.some.injEq] at he
    subst he
    have hk3 : marshalElems (marshalField c {}) k = some (sortBy bytesLe es) := (marshalElems_iff _ _ _).mpr hk2.flip
    refine seqOf_to c hct k m hm2 _ full ?_ hl
    simp only [seqOf, hk3, Option.map_some]

theorem rdnSequence_to {n : List (List AtvAny)} (ho : ∀ s ∈ n, ∀ a ∈ s, AtvOk a) :
    ∃ n' : List (List AtvAny), List.Forall₂ List.Perm n' n ∧ rdnSequence.To n n' := by
  have all : ∃ n' : List (List AtvAny), List.Forall₂ List.Perm n' n ∧ List.Forall₂ rdnSet.To n n' := by
    induction n with
    | nil => exact ⟨[], .nil, .nil⟩
    | cons s n ih =>
      have hf : List.Forall₂ atvAny.To s s := by
        rw [List.forall₂_same]; exact fun a ha => atvAny_to (ho s (by simp) a ha)
      obtain ⟨s', h1, h2⟩ := setOf_to (c := atvAny) (by decide) hf
      obtain ⟨n', h3, h4⟩ := ih fun s hs => ho s (by simp [hs])
      exact ⟨s' :: n', .cons h1 h3, .cons h2 h4⟩
  obtain ⟨n', h1, h2⟩ := all
  exact ⟨n', h1, seqOf_to rdnSet (by decide) _ _ h2⟩

/-! ### Extensions -/

theorem extension_to {e : Ext} (ho : OidOk e.id) : extension.To e e := by
  intro body full h hl
  simp only [extension, Option.pure_def, Option.bind_eq_bind, Option.bind_eq_some_iff] at h ⊢
  obtain ⟨e1, h1, e2, h2, e3, h3, hb⟩ := h
  injection hb with hb
  subst hb
  simp only [List.length_append] at hl
  refine ⟨_, parseField_plain _ (oid_to ho) h1 (by omega), _, parseField_opt _ rfl (fun _ => bool_to _) (fun h => h) h2
    (fun _ => ?_) (by omega), _, parseField_last (octets_to _) h3 (by simp only []; omega), rfl⟩
  have := skips_field (c := bool) (p := { opt := some false }) [] h3 (by simp) (by omega) (by decide) (by decide)
  rwa [List.append_nil] at this

theorem extensions_to {l : List Ext} (ho : ∀ e ∈ l, OidOk e.id) : (nilable (seqOf extension)).To (some l) (some l) :=
  nilable_to (seqOf_to extension (by decide) l l (by
    rw [List.forall₂_same]; exact fun e he => extension_to (ho e he)))

/-! ### Revoked certificates -/

theorem revoked_to {r : Revoked} {n : Int} (hn : r.serialNumber = some n) (hv : ValidTime r.revocationTime)
    (h0 : r.revocationTime.offset = 0) (ho : ∀ l, r.extensions = some l → ∀ e ∈ l, OidOk e.id) : revoked.To r r := by
  intro body full h hl
  simp only [revoked, Option.pure_def, Option.bind_eq_bind, Option.bind_eq_some_iff] at h ⊢
  obtain ⟨e1, h1, e2, h2, e3, h3, hb⟩ := h
  injection hb with hb
  subst hb
  simp only [List.length_append] at hl
  rw [hn] at h1
  refine ⟨_, parseField_plain _ (optInt_to n) h1 (by omega), _, parseTimeField_enc h2 hv h0 false e3, ?_⟩
  cases hx : r.extensions with
  | none =>
    rw [hx, marshalField_absent _ _ _ rfl] at h3
    injection h3 with h3; subst h3
    refine ⟨_, parseField_nil _ _ _ rfl, ?_⟩
    rw [← hn, ← hx]
  | some l =>
    rw [hx] at h3
    have := parseField_to (p := { opt := some none }) [] (extensions_to (ho l hx)) h3 (by simp) (by omega) (by decide)
      (by simp) (by simp)
    rw [List.append_nil] at this
    refine ⟨_, this, ?_⟩
    rw [← hn, ← hx]

/-! ### The list -/

theorem parseOptTime_enc {t : Time} {e : Bytes} (h : marshalOptTime t = some e) (hv : ValidTime t) (h0 : t.offset = 0)
    (r : Bytes) (hr : r = [] ∨ ∃ cls comp tag body q, r = encTLV cls comp tag body ++ q ∧ cls < 4 ∧ tag ≤ 2147483647 ∧
      body.length < 2 ^ 31 ∧ tag ≠ 23 ∧ tag ≠ 24) : parseTimeField true (e ++ r) = some (t, r) := by
  unfold marshalOptTime at h
  split at h
  · rename_i hz
    injection h with h
    subst h
    rw [List.nil_append]
    unfold parseTimeField
    rcases hr with rfl | ⟨cls, comp, tag, body, q, rfl, h1, h2, h3, h4, h5⟩
    · simp [hz]
    · simp only []
      rw [if_neg (by simp [encTLV_ne_nil]), parseHdr_encTLV _ _ _ _ _ h1 h2 h3]
      simp only [h4, h5, or_self, false_and, and_false, if_false, if_true, hz]
  · exact parseTimeField_enc h hv h0 true r

/-- A structure that keeps its own octets. -/
theorem parseField_keep {α : Type} [DecidableEq α] {c : Codec α} {v v' : α} {e : Bytes} (rest : Bytes)
    (hm : marshalField c {} v = some e) (hlen : e.length < 2 ^ 31) (hct : c.tag ≤ 2147483647)
    (hdec : ∀ body, c.enc v = some body → body.length < e.length → c.dec body e = some v') :
    parseField c {} (e ++ rest) = some (v', rest) := by
  obtain ⟨body, hb, he⟩ := marshal_tlv _ _ _ hm
  have hbl : body.length < e.length := by rw [he]; exact encTLV_length_lt _ _ _ _
  have hp : parseHdr (e ++ rest) = some (⟨0, c.compound, c.tag, body.length⟩, body ++ rest) := by
    rw [he]; exact parseHdr_encTLV 0 c.compound c.tag body rest (by decide) hct (by omega)
  have hne : e ++ rest ≠ [] := by rw [he]; simp [encTLV_ne_nil]
  unfold parseField
  rw [if_neg hne, hp]
  simp only [Bool.false_eq_true, if_false]
  unfold parseBody
  simp only [Bool.false_eq_true, if_false, Option.isSome_none, Option.getD_none, and_self, not_true_eq_false, ne_eq, or_self,
    List.length_append]
  rw [if_neg (by omega), List.take_left' rfl, List.drop_left' rfl,
    show e.length + rest.length - (body.length + rest.length - body.length) = e.length by omega, List.take_left' rfl,
    hdec body hb hbl]

/-- The parsed algorithm identifier of a signature. -/
theorem sign_algId_to {pub : PubKey} {requested : Int} {h : Nat} {ai : AlgId}
    (hs : signingParamsForPublicKey pub requested = .ok (h, ai)) :
    ∃ ai', algId.To ai ai' ∧ ai'.algorithm = ai.algorithm ∧
      getSignatureAlgorithmFromAI ai' = (if requested = 0 then defaultAlg pub else requested) := by
  obtain ⟨d, hd, h1, h2, h3, rfl⟩ := signing_ai hs
  have hrows : ∀ d ∈ signatureAlgorithmDetails, d.pubKeyAlgo ≠ 2 →
      ((algId.enc ⟨d.oid, rowParams d⟩).bind (algId.dec · [])).isSome = true ∧
      (((algId.enc ⟨d.oid, rowParams d⟩).bind (algId.dec · [])).map getSignatureAlgorithmFromAI) = some d.algo ∧
      (((algId.enc ⟨d.oid, rowParams d⟩).bind (algId.dec · [])).map (·.algorithm)) = some d.oid := by decide +kernel
  obtain ⟨r1, r2, r3⟩ := hrows d hd h3
  obtain ⟨a, ha⟩ := Option.isSome_iff_exists.mp r1
  rw [ha] at r2 r3
  simp only [Option.map_some, Option.some.injEq] at r2 r3
  refine ⟨a, fun body full he _ => ?_, r3, by rw [r2, h1]⟩
  rw [he, Option.bind_some] at ha
  exact ha

/-- A list that can be read back: the parts of the structure that is marshalled, and what is read. -/
structure CrlParts (t t' : TbsCrl) : Prop where
  raw : t.raw = []
  version : t.version = 1 ∧ t'.version = 1
  signature : algId.To t.signature t'.signature
  issuer : rdnSequence.To t.issuer t'.issuer
  thisUpdate : t'.thisUpdate = t.thisUpdate ∧ ValidTime t.thisUpdate ∧ t.thisUpdate.offset = 0
  nextUpdate : t'.nextUpdate = t.nextUpdate ∧ ValidTime t.nextUpdate ∧ t.nextUpdate.offset = 0
  revoked : t'.revoked = t.revoked ∧ ∀ l, t.revoked = some l → ∀ r ∈ l, revoked.To r r
  extensions : t'.extensions = t.extensions ∧ ∀ l, t.extensions = some l → ∀ e ∈ l, OidOk e.id

theorem tbsCrl_dec {t t' : TbsCrl} (h : CrlParts t t') {body full : Bytes} (he : tbsCrl.enc t = some body)
    (hl : body.length < 2 ^ 31) : tbsCrl.dec body full = some { t' with raw := full } := by
  have hraw : ¬ (t.raw ≠ []) := by simp [h.raw]
  simp only [tbsCrl, if_neg hraw, Option.pure_def, Option.bind_eq_bind, Option.bind_eq_some_iff] at he ⊢
  obtain ⟨e1, h1, e2, h2, e3, h3, e4, h4, e5, h5, e6, h6, e7, h7, hb⟩ := he
  injection hb with hb
  subst hb
  simp only [List.length_append] at hl
  obtain ⟨n1, n2, n3⟩ := h.nextUpdate
  obtain ⟨u1, u2, u3⟩ := h.thisUpdate
  have hs7 : e7 = [] ∨ ∃ comp body, e7 = encTLV 2 comp 0 body ∧ body.length < e7.length := by
    by_cases hx : t.extensions = none
    · rw [hx, marshalField_absent _ _ _ rfl] at h7; injection h7 with h7; exact .inl h7.symm
    · obtain ⟨comp, body, g1, g2, g3⟩ := marshalField_head h7 (by simp only [ne_eq, Option.some.injEq]; exact fun h => hx h.symm)
      exact .inr ⟨comp, body, g1, g2⟩
  have hs6 : e6 = [] ∨ ∃ comp body, e6 = encTLV 0 comp 16 body ∧ body.length < e6.length := by
    by_cases hx : t.revoked = none
    · rw [hx, marshalField_absent _ _ _ rfl] at h6; injection h6 with h6; exact .inl h6.symm
    · obtain ⟨comp, body, g1, g2, g3⟩ := marshalField_head h6 (by simp only [ne_eq, Option.some.injEq]; exact fun h => hx h.symm)
      exact .inr ⟨comp, body, g1, g2⟩
  have hskip : e6 ++ e7 = [] ∨ ∃ cls comp tag body q, e6 ++ e7 = encTLV cls comp tag body ++ q ∧ cls < 4 ∧
      tag ≤ 2147483647 ∧ body.length < 2 ^ 31 ∧ tag ≠ 23 ∧ tag ≠ 24 := by
    rcases hs6 with h6' | ⟨comp, body, g1, g2⟩
    · rcases hs7 with h7' | ⟨comp, body, g1, g2⟩
      · left; rw [h6', h7']; rfl
      · right; exact ⟨2, comp, 0, body, [], by rw [h6', ← g1]; simp, by decide, by decide, by omega, by decide, by decide⟩
    · right; exact ⟨0, comp, 16, body, e7, by rw [← g1], by decide, by decide, by omega, by decide, by decide⟩
  rw [h.version.1] at h1
  refine ⟨_, parseField_opt _ rfl (fun _ => goInt_to 1 (by decide) (by decide)) (fun h => h) h1
      (fun h => absurd h (by decide)) (by omega),
    _, parseField_plain _ h.signature h2 (by omega), _, parseField_plain _ h.issuer h3 (by omega),
    _, parseTimeField_enc h4 u2 u3 false _, _, parseOptTime_enc h5 n2 n3 _ hskip, (t.revoked, e7), ?_, (t.extensions, []), ?_, ?_⟩
  · refine parseField_opt _ rfl (fun hne => ?_) (fun h => h) h6 (fun hnone => ?_) (by omega)
    · cases hr : t.revoked with
      | none => exact absurd hr hne
      | some l =>
        exact nilable_to (seqOf_to _ (by decide) l l (by
          rw [List.forall₂_same]; exact fun r hr' => h.revoked.2 l hr r hr'))
    · have := skips_opt (c := nilable (seqOf X509.revoked)) (p := { opt := some none }) [] h7 (by omega) (by decide) (by decide)
        (skips_nil _ _)
      rwa [List.append_nil] at this
  · have := parseField_opt (v' := t.extensions) [] rfl (fun hne => ?_) (fun h => h) h7 (fun _ => skips_nil _ _) (by omega)
      (by decide) (by simp) (by simp)
    · rwa [List.append_nil] at this
    · cases hr : t.extensions with
      | none => exact absurd hr hne
      | some l => exact extensions_to (h.extensions.2 l hr)
  · rw [← h.version.2, ← u1, ← n1, ← h.revoked.1, ← h.extensions.1]

theorem crl_roundtrip {t t' : TbsCrl} (h : CrlParts t t') {ai ai' : AlgId} (ha : algId.To ai ai') {sig contents der : Bytes}
    (hc : marshal tbsCrl t = some contents) (hm : marshal crl ⟨t, ai, ⟨sig, sig.length * 8⟩⟩ = some der)
    (hl : der.length < 2 ^ 31) :
    ParseDERCRL der = .ok ⟨{ t' with raw := contents }, ai', ⟨sig, sig.length * 8⟩⟩ := by
  have hto : crl.To ⟨t, ai, ⟨sig, sig.length * 8⟩⟩ ⟨{ t' with raw := contents }, ai', ⟨sig, sig.length * 8⟩⟩ := by
    intro body full he hb
    simp only [crl, Option.pure_def, Option.bind_eq_bind, Option.bind_eq_some_iff] at he ⊢
    obtain ⟨e1, h1, e2, h2, e3, h3, hbd⟩ := he
    injection hbd with hbd
    subst hbd
    simp only [List.length_append] at hb
    have h1c : contents = e1 := by
      unfold marshal at hc; rw [h1] at hc; injection hc with hc; exact hc.symm
    subst h1c
    refine ⟨_, parseField_keep _ h1 (by omega) (by decide) (fun body hb' hl' => tbsCrl_dec h hb' (by omega)),
      _, parseField_plain _ ha h2 (by omega), _, parseField_last (bits_to sig _ (by omega)) h3 (by simp only []; omega), rfl⟩
  have := unmarshal_to [] hto hm hl (by decide)
  rw [List.append_nil] at this
  unfold ParseDERCRL
  rw [this]
  rfl

end MCrypto.X509
