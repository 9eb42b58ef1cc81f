import Verif.X509.Pkcs7Parse
/-
PKCS#7 SignedData written and read back.
-/
namespace MCrypto.X509
open MCrypto MCrypto.Asn1 MCrypto.Pkcs7Spec MCrypto.Props

theorem nilable_to {α : Type} {c : Codec (List α)} {l l' : List α} (h : c.To l l') :
    (nilable c).To (some l) (some l') := by
  intro body full he hl
  simp only [nilable, Option.getD_some] at he ⊢
  rw [h body full he hl]
  rfl

theorem issuerAndSerial_to {i : RawValue} {cls : Nat} {comp : Bool} {tag : Nat} {b : Bytes}
    (hi : RawIs {} i cls comp tag b) (hc : cls < 4) (ht : tag ≤ 2147483647) (n : Int) :
    issuerAndSerial.To ⟨i, some n⟩ ⟨rawOf cls comp tag b, some n⟩ := by
  intro body full h hl
  simp only [issuerAndSerial, Option.pure_def, Option.bind_eq_bind, Option.bind_eq_some_iff] at h ⊢
  obtain ⟨e1, h1, e2, h2, hb⟩ := h
  injection hb with hb
  subst hb
  rw [List.length_append] at hl
  exact ⟨(_, e2), parseRaw_to _ hi h1 (by omega) hc ht (by simp), _, parseField_last (optInt_to n) h2 (by simp only []; omega), rfl⟩

theorem p7Attr_to {o : Oid} (ho : OidOk o) (v : Bytes) :
    p7Attr.To ⟨o, ⟨0, 17, true, v, []⟩⟩ ⟨o, rawOf 0 true 17 v⟩ := by
  intro body full h hl
  simp only [p7Attr, Option.pure_def, Option.bind_eq_bind, Option.bind_eq_some_iff] at h ⊢
  obtain ⟨e1, h1, e2, h2, hb⟩ := h
  injection hb with hb
  subst hb
  rw [List.length_append] at hl
  refine ⟨_, parseField_plain _ (oid_to ho) h1 (by omega), ?_⟩
  have := parseRaw_to (p := {}) [] (RawIs.parts (p := {}) 0 17 true v (by simp)) h2 (by omega) (by decide) (by decide)
    (by simp)
  rw [List.append_nil] at this
  exact ⟨_, this, rfl⟩

theorem signerInfo_to {s : SignerInfo} {i' : IssuerAndSerial} {d' e' : AlgId} {a' : Option (List P7Attr)}
    (hv : s.version = 1) (hi : issuerAndSerial.To s.issuerAndSerialNumber i')
    (hd : algId.To s.digestAlgorithm d') (he : algId.To s.digestEncryptionAlgorithm e')
    (ha : s.authenticatedAttributes ≠ none → (nilable (seqOf p7Attr)).To s.authenticatedAttributes a')
    (ha' : s.authenticatedAttributes = none → a' = none) (hu : s.unauthenticatedAttributes = none) :
    signerInfo.To s ⟨1, i', d', a', e', s.encryptedDigest, none⟩ := by
  intro body full h hl
  simp only [signerInfo, Option.pure_def, Option.bind_eq_bind, Option.bind_eq_some_iff] at h ⊢
  obtain ⟨e1, h1, e2, h2, e3, h3, e4, h4, e5, h5, e6, h6, e7, h7, hb⟩ := h
  injection hb with hb
  subst hb
  simp only [List.length_append] at hl
  rw [hv] at h1
  rw [hu, marshalField_absent _ _ _ rfl] at h7
  injection h7 with h7
  subst h7
  rw [List.append_nil] at *
  refine ⟨_, parseField_plain _ (goInt_to 1 (by decide) (by decide)) h1 (by omega),
    _, parseField_plain _ hi h2 (by omega), _, parseField_plain _ hd h3 (by omega),
    _, parseField_opt _ rfl ha ha' h4 (fun _ => ?_) (by omega), (e', e6), parseField_plain _ he h5 (by omega),
    (s.encryptedDigest, []), parseField_last (octets_to _) h6 (by simp only []; omega), (none, []), parseField_nil _ _ _ rfl, rfl⟩
  exact skips_field _ h5 (by simp) (by omega) (by decide) (by decide)

theorem contentInfo_to {o : Oid} (ho : OidOk o) {c : Bytes} (hc : c ≠ []) :
    contentInfo.To ⟨o, ⟨2, 0, true, c, []⟩⟩ ⟨o, rawOf 2 true 0 c⟩ := by
  intro body full h hl
  simp only [contentInfo, Option.pure_def, Option.bind_eq_bind, Option.bind_eq_some_iff] at h ⊢
  obtain ⟨e1, h1, e2, h2, hb⟩ := h
  injection hb with hb
  subst hb
  rw [List.length_append] at hl
  refine ⟨_, parseField_plain _ (oid_to ho) h1 (by omega), ?_⟩
  have := parseRaw_to [] (RawIs.parts (p := { opt := some {}, tag := some 0, explicit := true }) 2 0 true c (by simp)) h2
    (by omega) (by decide) (by decide) (by simp [hc])
  rw [List.append_nil] at this
  exact ⟨_, this, rfl⟩

theorem stripTagAndLength_tlv (cls : Nat) (comp : Bool) (tag : Nat) (b : Bytes) (hc : cls < 4) (ht : tag ≤ 2147483647)
    (hl : b.length < 2 ^ 31) : stripTagAndLength (encTLV cls comp tag b) = b := by
  unfold stripTagAndLength
  have := parseHdr_encTLV cls comp tag b [] hc ht hl
  rw [List.append_nil, List.append_nil] at this
  rw [this]

theorem setOf_single_to {α : Type} [DecidableEq α] {c : Codec α} (hct : c.tag ≤ 2147483647) {v v' : α} (h : c.To v v') :
    (Asn1.setOf c).To [v] [v'] := by
  intro body full he hl
  have : (Asn1.setOf c).enc [v] = (seqOf c).enc [v] := by
    simp only [Asn1.setOf, seqOf, marshalElems]
    cases marshalField c {} v <;> simp [sortBy, insertBy]
  rw [this] at he
  exact seqOf_to c hct [v] [v'] (.cons h .nil) body full he hl

/-- Everything the library writes around a signer is read back. -/
theorem parse_newSignedDataWith {env : Env} {cert : Certificate} {s s' : SignerInfo} {data out : Bytes}
    (hs : signerInfo.To s s') (hcert : ParseCertificate env cert.raw = .ok cert)
    (hrl : cert.raw.length < 2 ^ 31) (h : newSignedDataWith cert (.ok s) data = .ok out) (hl : out.length < 2 ^ 31) :
    ∃ raw, ParsePKCS7 env out = .ok
      { content := data, certificates := [cert], crls := some [], signers := [s'], raw := raw } := by
  unfold newSignedDataWith at h
  simp only [Res.bind_eq_ok, Res.bind_ok] at h
  obtain ⟨content, h1, inner, h2, h3⟩ := h
  have h1 := ofOption_ok h1
  have h2 := ofOption_ok h2
  have h3 := ofOption_ok h3
  have hcontent : content = encTLV 0 false 4 data := by
    unfold marshal marshalField at h1
    rw [if_neg (by simp)] at h1
    simp only [octets, Option.some.injEq] at h1
    exact h1.symm
  have hcne : content ≠ [] := by rw [hcontent]; exact encTLV_ne_nil _ _ _ _
  -- lengths
  have hinner : inner ≠ [] := by
    unfold marshal at h2
    obtain ⟨comp, body, rfl, -⟩ := marshalField_head h2 (by simp)
    exact encTLV_ne_nil _ _ _ _
  have hlo : inner.length < out.length := by
    unfold marshal at h3
    obtain ⟨body, hb, hbl⟩ := marshalField_some contentInfo {} _ _ h3 (by simp)
    simp only [contentInfo, Option.pure_def, Option.bind_eq_bind, Option.bind_eq_some_iff, Option.some.injEq] at hb
    obtain ⟨e1, _, e2, h5, rfl⟩ := hb
    rw [marshalRaw_parts _ _ rfl (by simp)] at h5
    simp only [Option.some.injEq] at h5
    have := encTLV_length_lt 2 true 0 inner
    rw [h5] at this
    rw [List.length_append] at hbl
    omega
  obtain ⟨sdb, hsd, hsdl⟩ := marshalField_some signedData {} _ _ h2 (by simp)
  have hsd0 := hsd
  simp only [signedData, Option.pure_def, Option.bind_eq_bind, Option.bind_eq_some_iff, Option.some.injEq] at hsd
  obtain ⟨e1, g1, e2, g2, e3, g3, e4, g4, e5, g5, e6, g6, rfl⟩ := hsd
  simp only [List.length_append] at hsdl
  have hcr : cert.raw ≠ [] := by
    obtain ⟨h, hr⟩ := (ParseCertificate_iff env _ _).mp hcert
    obtain ⟨b, rest, _, he⟩ := parseCertificate_raw h
    exact he.ne_nil
  have hmc : marshalCertificates [cert] = encTLV 2 true 0 cert.raw := by simp [marshalCertificates]
  rw [hmc] at g4
  -- the certificates
  have hsl : signedDataFields (e1 ++ (e2 ++ (e3 ++ (e4 ++ (e5 ++ e6))))) =
      ({ version := 1, digestAlgorithmIdentifiers := [⟨oidDigestAlgorithmSM3, {}⟩],
         contentInfo := ⟨oidGMData, rawOf 2 true 0 content⟩, certificates := encTLV 2 true 0 cert.raw,
         crls := some [], signerInfos := [s'] }, true) := by
    unfold signedDataFields
    rw [parseField_plain _ (goInt_to 1 (by decide) (by decide)) g1 (by omega)]
    simp only []
    rw [parseField_to _ (setOf_single_to (by decide) (algId_to_none (o := oidDigestAlgorithmSM3)
      ⟨_, _, _, rfl, by decide, by decide⟩)) g2 (by simp) (by omega) (by decide) (by simp) (by simp)]
    simp only []
    rw [parseField_plain _ (contentInfo_to (o := oidGMData) ⟨_, _, _, rfl, by decide, by decide⟩ hcne) g3 (by omega)]
    simp only []
    have he4 : e4 = encTLV 2 true 0 cert.raw := by
      unfold marshalField at g4
      rw [if_neg (by simp [encTLV_ne_nil])] at g4
      simp only [rawCertificates, Bool.false_eq_true, if_false, Option.some.injEq] at g4
      rw [if_neg (encTLV_ne_nil _ _ _ _), stripTagAndLength_tlv _ _ _ _ (by decide) (by decide) hrl] at g4
      exact g4.symm
    have hp4 : ∀ rest, parseField rawCertificates { opt := some [], tag := some 0 } (e4 ++ rest) =
        some (encTLV 2 true 0 cert.raw, rest) := by
      intro rest
      rw [he4]
      unfold parseField
      rw [if_neg (by intro h; exact encTLV_ne_nil _ _ _ _ (List.append_eq_nil_iff.mp h).1),
        parseHdr_encTLV _ _ _ _ _ (by decide) (by decide) hrl]
      simp only [Bool.false_eq_true, if_false]
      unfold parseBody
      simp only [Bool.false_eq_true, if_false, Option.isSome_some, Option.getD_some, if_true, rawCertificates]
      rw [if_neg (by simp), if_neg (by simp), List.drop_left]
      have : (encTLV 2 true 0 cert.raw ++ rest).length - ((cert.raw ++ rest).length - cert.raw.length) =
          (encTLV 2 true 0 cert.raw).length := by
        simp only [List.length_append]; omega
      rw [this, List.take_left]
    rw [hp4]
    simp only []
    have hcrl : (nilable (seqOf crl)).To (some []) (some []) :=
      nilable_to (seqOf_to crl (by decide) [] [] .nil)
    rw [parseField_to _ hcrl g5 (by simp) (by omega) (by decide) (by simp) (by simp)]
    simp only []
    have := parseField_to [] (setOf_single_to (by decide) hs) g6 (by simp) (by omega) (by decide) (by simp) (by simp)
    rw [List.append_nil] at this
    rw [this]
  have hsu : unmarshal signedData inner = some ((signedDataFields (e1 ++ (e2 ++ (e3 ++ (e4 ++ (e5 ++ e6)))))).1, []) := by
    refine (unmarshal_iff signedData (by decide) _ _ _).mpr ⟨_, ?_, by simp only [List.length_append]; omega, rfl⟩
    unfold marshal marshalField at h2
    rw [if_neg (by simp), hsd0] at h2
    simp only [Bool.false_eq_true, if_false, Option.some.injEq] at h2
    rw [← h2, List.append_nil]
  refine ⟨(signedDataFields (e1 ++ (e2 ++ (e3 ++ (e4 ++ (e5 ++ e6)))))).1, ?_⟩
  unfold ParsePKCS7
  have hout : out ≠ [] := by intro h; rw [h] at hlo; simp at hlo
  rw [if_neg (by simpa using hout)]
  have := unmarshal_to [] (contentInfo_to (o := oidGMSignedData) ⟨_, _, _, rfl, by decide, by decide⟩ hinner) h3 hl (by decide)
  rw [List.append_nil] at this
  rw [this]
  simp only [List.length_nil, gt_iff_lt, Nat.lt_irrefl, if_false, if_true]
  unfold parseSignedData unmarshalSignedData
  have hri : (rawOf 2 true 0 inner).bytes = inner := rfl
  rw [hri, hsu]
  simp only [hsl]
  have hpc : parseRawCertificates env (encTLV 2 true 0 cert.raw) = .ok [cert] := by
    unfold parseRawCertificates
    rw [if_neg (by simp [encTLV_ne_nil])]
    have := parseRaw_encTLV {} 2 true 0 cert.raw [] (by decide) (by decide) hrl (by simp)
    rw [List.append_nil] at this
    rw [this]
    simp only []
    exact (certsAux_iff env _ _ (Nat.le_refl _) [cert]).mpr ⟨[cert.raw], by simp [rawOf], .cons hcert .nil⟩
  have hpd : parseContent content = .ok data := by
    unfold parseContent
    have hdl : data.length < 2 ^ 31 := by
      have := encTLV_length_lt 0 false 4 data
      rw [← hcontent] at this
      obtain ⟨body, hb, hbl⟩ := marshalField_some contentInfo {} _ _ g3 (by simp)
      simp only [contentInfo, Option.pure_def, Option.bind_eq_bind, Option.bind_eq_some_iff, Option.some.injEq] at hb
      obtain ⟨e1', _, e2', h5, rfl⟩ := hb
      rw [marshalRaw_parts _ _ rfl (by simp)] at h5
      simp only [Option.some.injEq] at h5
      have h6 := encTLV_length_lt 2 true 0 content
      rw [h5] at h6
      rw [List.length_append] at hbl
      omega
    rw [if_pos (List.length_pos_of_ne_nil hcne)]
    have := parseRaw_encTLV {} 0 false 4 data [] (by decide) (by decide) hdl (by simp)
    rw [List.append_nil, ← hcontent] at this
    rw [this]
    simp [rawOf]
  rw [hpc, Res.bind_ok]
  have hrc : (rawOf 2 true 0 content).bytes = content := rfl
  rw [hrc, hpd, Res.bind_ok]
  rfl

end MCrypto.X509
