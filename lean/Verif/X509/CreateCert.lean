import Verif.X509.CreateLemmas2
import Verif.X509.ExtRoundtrip
import Verif.X509.NameLemmas
/-
CreateCertificate taken apart, and the certificate it writes in the terms of Verif.X509.CertSpec.
-/
namespace MCrypto.X509
open MCrypto MCrypto.Asn1 MCrypto.X509Spec MCrypto.Props

theorem fieldTable_oidOk (n : Name) : ∀ f ∈ fieldTable n, OidOk f.1 := by
  have key : ∀ o ∈ (fieldTable n).map (·.1), OidOk o := by
    have : (fieldTable n).map (·.1) = (fieldTable {}).map (·.1) := rfl
    rw [this]
    intro o ho
    have : o.length = 4 ∧ o.take 3 = [2, 5, 4] ∧ o.all (fun x => decide (x < 100)) = true := by
      revert o; decide
    obtain ⟨h1, h2, h3⟩ := this
    match o, h1, h2 with
    | [a, b, c, d], _, h2 =>
      simp only [List.take_succ_cons, List.take_zero, List.cons.injEq, and_true] at h2
      obtain ⟨rfl, rfl, rfl⟩ := h2
      simp only [List.all_cons, List.all_nil, Bool.and_true, Bool.and_eq_true, decide_eq_true_eq] at h3
      refine ⟨_, _, _, rfl, by decide, ?_⟩
      intro x hx
      rcases List.mem_cons.mp hx with rfl | hx
      · omega
      · rw [List.mem_singleton.mp hx]; omega
  exact fun f hf => key f.1 (List.mem_map.mpr ⟨f, hf, rfl⟩)

theorem subject_name {c : Certificate} {e : Bytes} (hn : NameOk c) (h : subjectBytes c = some e) (hl : e.length < 2 ^ 31) :
    e ≠ [] ∧ ∃ n, RdnsFrom c e n := by
  have key : ∀ n, NameDer e n → e ≠ [] := by rintro n ⟨b, hb, -⟩; exact hb.ne_nil
  unfold subjectBytes at h
  split at h
  · rename_i hr
    injection h with h
    have hne : c.rawSubject ≠ [] := by intro h0; rw [h0] at hr; simp at hr
    obtain ⟨n, hd⟩ := hn.1 hne
    rw [h] at hd
    exact ⟨key n hd, n, hd, fun _ => h.symm, fun h0 => absurd h0 hne⟩
  · rename_i hr
    have hne : c.rawSubject = [] := by
      cases hq : c.rawSubject with
      | nil => rfl
      | cons a l => rw [hq] at hr; simp at hr
    rw [toRDNSequence_eq] at h
    obtain ⟨m, hm, hall⟩ := nameRdns_toAny fun a ha => (hn.2 hne a ha).2
    rw [hm] at h
    obtain ⟨n, hp, hd⟩ := name_der (hall OidOk (fun a ha => (hn.2 hne a ha).1) (fieldTable_oidOk _)) h hl
    refine ⟨key n hd, n, hd, fun h0 => absurd hne h0, fun _ => ?_⟩
    rw [hm]
    unfold toAny
    rw [List.forall₂_map_left_iff, List.forall₂_map_right_iff]
    exact hp.imp fun _ _ h => h.map _

/-- The identifiers of the extensions made for a template. -/
theorem built_ids {t : Certificate} {empty : Bool} {aki ski : Bytes} {exts : List Ext}
    (h : buildCertExtensions t empty aki ski = some exts) : ∀ e ∈ exts, e.id ∈ knownExtensions ∨ e ∈ t.extraExtensions := by
  unfold buildCertExtensions at h
  simp only [Option.pure_def, Option.bind_eq_bind, Option.bind_eq_some_iff, Option.some.injEq] at h
  obtain ⟨e1, h1, e2, h2, e3, h3, e4, h4, e5, h5, e6, h6, e7, h7, e8, h8, e9, h9, e10, h10, rfl⟩ := h
  have key : ∀ {w : Bool} {o : Oid} {m : Option Ext} {l : List Ext}, extIf w o t.extraExtensions m = some l →
      (∀ e, m = some e → e.id = o) → o ∈ knownExtensions → ∀ e ∈ l, e.id ∈ knownExtensions := by
    intro w o m l hl ho hk e he
    unfold extIf at hl
    split at hl
    · cases m with
      | none => cases hl
      | some y =>
        simp only [Option.some.injEq] at hl
        subst hl
        rw [List.mem_singleton] at he
        subst he
        rw [ho _ rfl]; exact hk
    · simp only [Option.some.injEq] at hl; subst hl; cases he
  intro m hm
  simp only [List.mem_append] at hm
  rcases hm with ((((((((((hm | hm) | hm) | hm) | hm) | hm) | hm) | hm) | hm) | hm)) | hm
  · refine Or.inl (key h1 ?_ (by decide) m hm)
    intro e he
    obtain ⟨e', he', hi, -⟩ := marshalKeyUsage_some t.keyUsage
    rw [he] at he'; injection he' with he'; subst he'; exact hi
  · refine Or.inl (key h2 ?_ (by decide) m hm)
    intro e he; simp only [marshalExtKeyUsage, Option.pure_def, Option.bind_eq_bind, Option.bind_eq_some_iff,
      Option.some.injEq] at he; obtain ⟨_, _, _, _, rfl⟩ := he; rfl
  · refine Or.inl (key h3 ?_ (by decide) m hm)
    intro e he; injection he with he; subst he; rfl
  · refine Or.inl (key h4 ?_ (by decide) m hm)
    intro e he; simp only [marshalSubjectKeyId, Option.pure_def, Option.bind_eq_bind, Option.bind_eq_some_iff,
      Option.some.injEq] at he; obtain ⟨_, _, rfl⟩ := he; rfl
  · refine Or.inl (key h5 ?_ (by decide) m hm)
    intro e he; simp only [marshalAuthorityKeyId, Option.pure_def, Option.bind_eq_bind, Option.bind_eq_some_iff,
      Option.some.injEq] at he; obtain ⟨_, _, rfl⟩ := he; rfl
  · refine Or.inl (key h6 ?_ (by decide) m hm)
    intro e he; simp only [marshalAuthorityInfoAccess, Option.pure_def, Option.bind_eq_bind, Option.bind_eq_some_iff,
      Option.some.injEq] at he; obtain ⟨_, _, rfl⟩ := he; rfl
  · refine Or.inl (key h7 ?_ (by decide) m hm)
    intro e he; simp only [marshalSubjectAltName, Option.pure_def, Option.bind_eq_bind, Option.bind_eq_some_iff,
      Option.some.injEq] at he; obtain ⟨_, _, rfl⟩ := he; rfl
  · refine Or.inl (key h8 ?_ (by decide) m hm)
    intro e he; simp only [marshalCertificatePolicies, Option.pure_def, Option.bind_eq_bind, Option.bind_eq_some_iff,
      Option.some.injEq] at he; obtain ⟨_, _, rfl⟩ := he; rfl
  · refine Or.inl (key h9 ?_ (by decide) m hm)
    intro e he; simp only [marshalNameConstraints, Option.pure_def, Option.bind_eq_bind, Option.bind_eq_some_iff,
      Option.some.injEq] at he; obtain ⟨_, _, _, _, _, _, _, _, _, _, rfl⟩ := he; rfl
  · refine Or.inl (key h10 ?_ (by decide) m hm)
    intro e he; simp only [marshalCRLDistributionPoints, Option.pure_def, Option.bind_eq_bind, Option.bind_eq_some_iff,
      Option.some.injEq] at he; obtain ⟨_, _, rfl⟩ := he; rfl
  · exact Or.inr hm

theorem known_oidOk : ∀ o ∈ knownExtensions, OidOk o := by
  intro o ho
  simp only [knownExtensions, List.mem_cons, List.not_mem_nil, or_false] at ho
  rcases ho with rfl | rfl | rfl | rfl | rfl | rfl | rfl | rfl | rfl | rfl <;>
    exact ⟨_, _, _, rfl, by decide, by decide⟩

theorem ofOption_ok' {α : Type} {e : String} {o : Option α} {a : α} : Res.ofOption e o = .ok a ↔ o = some a := by
  cases o with
  | none => simp [Res.ofOption]
  | some b => simp [Res.ofOption]

/-- The steps of a successful `CreateCertificate`. -/
theorem create_steps {E : SignEnv} {t p : Certificate} {pub : PubKey} {key : Signer} {der : Bytes}
    (h : CreateCertificate E t p pub (some key) = .ok der) :
    t.serialNumber ≠ none ∧ badPathLen t = false ∧ (p.publicKey = .nil ∨ key.pub = p.publicKey) ∧
    ∃ hashFunc sigAlgo pkBytes pkAlgo asn1Issuer asn1Subject exts nb na contents signed signature,
      signingParamsForPublicKey key.pub t.signatureAlgorithm = .ok (hashFunc, sigAlgo) ∧
      marshalPublicKey pub = .ok (pkBytes, pkAlgo) ∧ subjectBytes p = some asn1Issuer ∧ subjectBytes t = some asn1Subject ∧
      buildCertExtensions t (asn1Subject == [0x30, 0])
          (chooseAuthorityKeyId t p asn1Issuer asn1Subject) (chooseSubjectKeyId E.sha1 t pkBytes) = some exts ∧
      t.notBefore.utc = some nb ∧ t.notAfter.utc = some na ∧
      marshalTbsCert {
        version := 2, serialNumber := t.serialNumber, signatureAlgorithm := sigAlgo,
        issuer := { full := asn1Issuer }, notBefore := nb, notAfter := na, subject := { full := asn1Subject },
        publicKey := ⟨pkAlgo, ⟨pkBytes, pkBytes.length * 8⟩⟩, extensions := some exts } = some contents ∧
      digestFor E.reg hashFunc contents = .ok signed ∧
      key.sign signed (signerOpts t.signatureAlgorithm hashFunc) = some signature ∧
      marshalCert {
        raw := contents, version := 2, serialNumber := t.serialNumber, signatureAlgorithm := sigAlgo,
        issuer := { full := asn1Issuer }, notBefore := nb, notAfter := na, subject := { full := asn1Subject },
        publicKey := ⟨pkAlgo, ⟨pkBytes, pkBytes.length * 8⟩⟩, extensions := some exts } sigAlgo
        ⟨signature, signature.length * 8⟩ = some der ∧
      selfCheck E sigAlgo contents signature key.pub = .ok () := by
  unfold CreateCertificate at h
  simp only [] at h
  rcases ite_or h with g | ⟨hs, g⟩
  · cases g
  rcases ite_or g with g | ⟨hb, g⟩
  · cases g
  simp only [Res.bind_eq_ok, Prod.exists, ofOption_ok'] at g
  obtain ⟨hashFunc, sigAlgo, h1, pkBytes, pkAlgo, h2, asn1Issuer, h3, asn1Subject, h4, g⟩ := g
  rcases ite_or g with g | ⟨hp, g⟩
  · cases g
  simp only [Res.bind_eq_ok, ofOption_ok'] at g
  obtain ⟨exts, h5, c, h6, g⟩ := g
  unfold tbsFor at h6
  simp only [Option.pure_def, Option.bind_eq_bind, Option.bind_eq_some_iff, Option.some.injEq] at h6
  obtain ⟨nb, h6, na, h7, rfl⟩ := h6
  unfold signCert at g
  simp only [Res.bind_eq_ok, ofOption_ok', Res.pure_eq, Res.ok.injEq] at g
  obtain ⟨contents, g1, signed, g2, signature, g3, cert, g4, u, g5, rfl⟩ := g
  refine ⟨hs, by simpa using hb, ?_, hashFunc, sigAlgo, pkBytes, pkAlgo, asn1Issuer, asn1Subject, exts, nb, na, contents,
    signed, signature, h1, h2, h3, h4, h5, h6, h7, g1, g2, g3, g4, g5⟩
  by_cases hn : p.publicKey = .nil
  · exact Or.inl hn
  · right; by_contra hne; exact hp ⟨hn, hne⟩

/-- The signed part is inserted unchanged. -/
theorem strip_encTLV {tb : Bytes} (hl : (encTLV 0 true 16 (stripTagAndLength (encTLV 0 true 16 tb))).length < 2 ^ 31) :
    stripTagAndLength (encTLV 0 true 16 tb) = tb := by
  have key : tb.length < 2 ^ 31 := by
    have h0 : ∀ b : Bytes, b.length < (encTLV 0 true 16 b).length := fun b => by
      rw [encTLV_seq]; simp [Der.tlv]
    have hb := Nat.lt_trans (h0 _) hl
    unfold stripTagAndLength at hb
    cases hp : parseHdr (encTLV 0 true 16 tb) with
    | none =>
      rw [hp] at hb
      exact Nat.lt_trans (h0 tb) hb
    | some q =>
      obtain ⟨t, r⟩ := q
      rw [hp] at hb
      simp only [] at hb
      refine parseHdr_encTLV_len (by decide) (by decide) ?_ hp
      have h1 : parseLength (Der.lenOctets tb.length ++ tb) = some (t.len, r) := by
        have : encTLV 0 true 16 tb = 0x30 :: (Der.lenOctets tb.length ++ tb) := by rw [encTLV_seq]; rfl
        rw [this] at hp
        rw [parseHdr] at hp
        rw [show parseTagNo 0x30 (Der.lenOctets tb.length ++ tb) = some (16, Der.lenOctets tb.length ++ tb) from rfl] at hp
        simp only [] at hp
        cases hq : parseLength (Der.lenOctets tb.length ++ tb) with
        | none => rw [hq] at hp; cases hp
        | some w =>
          rw [hq] at hp
          simp only [Option.some.injEq, Prod.mk.injEq] at hp
          rw [← hp.1, ← hp.2]
      obtain ⟨h2, h3⟩ := (parseLength_iff _ _ _).mp h1
      have h4 := lenOctets_length_le h3
      have h5 := congrArg List.length h2
      rw [List.length_append, List.length_append] at h5
      have := pow63_le
      omega
  unfold stripTagAndLength
  have := parseHdr_encTLV 0 true 16 tb [] (by decide) (by decide) key
  rw [List.append_nil, List.append_nil] at this
  rw [this]

/-- The octets written have the structure of a certificate. -/
theorem create_certDer {E : SignEnv} {t p : Certificate} {pub : PubKey} {key : Signer} {der : Bytes}
    (h : CreateCertificate E t p pub (some key) = .ok der) (hl : der.length < 2 ^ 31) (hk : KeyOk pub)
    (hnb : ValidTime t.notBefore) (hna : ValidTime t.notAfter) (hsub : NameOk t) (hiss : NameOk p)
    (hx : ∀ e ∈ t.extraExtensions, OidOk e.id) :
    ∃ f pkBytes pkAlgo hashFunc sigAlgo signed,
      CertDer der f ∧ KeyDer f.keyOid f.keyPar f.key (sameKey pub) ∧ f.version = 3 ∧ t.serialNumber = some f.serial ∧
      getSignatureAlgorithmFromAI ⟨f.sigOid, { full := f.sigPar }⟩ =
        (if t.signatureAlgorithm = 0 then defaultAlg key.pub else t.signatureAlgorithm) ∧
      RdnsFrom p f.rawIssuer f.issuer ∧ RdnsFrom t f.rawSubject f.subject ∧
      SameInstant f.notBefore t.notBefore ∧ SameInstant f.notAfter t.notAfter ∧ f.notBefore.offset = 0 ∧
      f.notAfter.offset = 0 ∧ marshalPublicKey pub = .ok (pkBytes, pkAlgo) ∧ f.key = pkBytes ∧ f.keyOid = pkAlgo.algorithm ∧
      buildCertExtensions t (f.rawSubject == [0x30, 0])
          (chooseAuthorityKeyId t p f.rawIssuer f.rawSubject) (chooseSubjectKeyId E.sha1 t pkBytes) = some f.extensions ∧
      (∀ e ∈ f.extensions, e.value.length < 2 ^ 31) ∧
      signingParamsForPublicKey key.pub t.signatureAlgorithm = .ok (hashFunc, sigAlgo) ∧
      digestFor E.reg hashFunc f.rawTbs = .ok signed ∧
      key.sign signed (signerOpts t.signatureAlgorithm hashFunc) = some f.signature ∧
      selfCheck E sigAlgo f.rawTbs f.signature key.pub = .ok () ∧
      subjectBytes p = some f.rawIssuer ∧ subjectBytes t = some f.rawSubject ∧
      t.notBefore.utc = some f.notBefore ∧ t.notAfter.utc = some f.notAfter := by
  obtain ⟨hs, -, -, hashFunc, sigAlgo, pkBytes, pkAlgo, asn1Issuer, asn1Subject, exts, nb, na, contents, signed, signature,
    h1, h2, h3, h4, h5, h6, h7, g1, g2, g3, g4, g5⟩ := create_steps h
  obtain ⟨serial, hser⟩ := Option.ne_none_iff_exists'.mp hs
  obtain ⟨v1, v2, v3⟩ := utc_ok hnb h6
  obtain ⟨w1, w2, w3⟩ := utc_ok hna h7
  unfold marshalTbsCert at g1
  obtain ⟨tb, g1', hc⟩ := Option.map_eq_some_iff.mp g1
  have hcne : contents ≠ [] := by rw [← hc]; exact encTLV_ne_nil _ _ _ _
  unfold marshalCert at g4
  simp only [Option.pure_def, Option.bind_eq_bind, Option.bind_eq_some_iff, Option.some.injEq] at g4
  obtain ⟨c1, k1, c2, k2, c3, k3, rfl⟩ := g4
  have helder : Elem 0x30 (c1 ++ (c2 ++ c3)) (encTLV 0 true 16 (c1 ++ (c2 ++ c3))) := elem_of rfl (by decide) hl
  have hderl := tlv_body_lt helder
  simp only [List.length_append] at hderl
  have hc1 : c1 = contents := by
    unfold marshalTbsCert encTbsCert at k1
    simp only [ne_eq, hcne, not_false_eq_true, if_true, Option.map_some, Option.some.injEq] at k1
    rw [← hc] at k1
    rw [← k1, strip_encTLV (by rw [k1]; omega), hc]
  subst hc1
  unfold encTbsCert at g1'
  simp only [ne_eq, not_true_eq_false, if_false, Option.pure_def, Option.bind_eq_bind, Option.bind_eq_some_iff,
    Option.some.injEq] at g1'
  obtain ⟨e1, j1, e2, j2, e3, j3, e4, j4, be, j5, ae, j6, e6, j7, e7, j8, e8, j9, rfl⟩ := g1'
  have heltbs : Elem 0x30 (e1 ++ (e2 ++ (e3 ++ (e4 ++ (encTLV 0 true 16 (be ++ ae) ++ (e6 ++ (e7 ++ e8))))))) c1 :=
    elem_of hc.symm (by decide) (by omega)
  have htbsl := tlv_body_lt heltbs
  simp only [List.length_append] at htbsl
  have hver : e1 = [0xa0, 3, 2, 1, 2] := by
    have : marshalField goInt { opt := some 0, tag := some 0, explicit := true } 2 = some [0xa0, 3, 2, 1, 2] := by decide
    rw [this] at j1; injection j1 with j1; exact j1.symm
  have hs2 : Elem 0x02 (Der.encInt serial) e2 := by
    rw [hser] at j2
    obtain ⟨b2, hb2, ht2⟩ := marshal_tlv _ _ _ j2
    simp only [optInt, Option.map_some, Option.some.injEq] at hb2
    subst hb2
    exact elem_of ht2 (by decide) (by omega)
  obtain ⟨body, par, a1, a2, a3⟩ := sign_alg h1 j3 (by omega)
  rw [k2] at j3
  have hc2 : c2 = e3 := Option.some.inj j3
  subst hc2
  have name : ∀ {c : Certificate} {r e : Bytes}, NameOk c → subjectBytes c = some r → marshalRaw {} { full := r } = some e →
      e.length < 2 ^ 31 → e = r ∧ ∃ n, RdnsFrom c r n := by
    intro c r e hn hs hm hle
    have hne : r ≠ [] := by
      intro hr
      subst hr
      unfold subjectBytes at hs
      split at hs
      · rename_i h0; injection hs with hs; rw [hs] at h0; simp at h0
      · obtain ⟨_, _, h0⟩ := marshal_tlv _ _ _ hs
        exact encTLV_ne_nil _ _ _ _ h0.symm
    rw [marshalRaw_full _ _ hne (by simp)] at hm
    injection hm with hm
    subst hm
    exact ⟨rfl, (subject_name hn hs hle).2⟩
  obtain ⟨rfl, issuer, hni⟩ := name hiss h3 j4 (by omega)
  obtain ⟨rfl, subject, hns⟩ := name hsub h4 j7 (by omega)
  have hval : ValidityDer (encTLV 0 true 16 (be ++ ae)) nb na :=
    ⟨be, ae, [], by rw [List.append_nil]; exact elem_of rfl (by decide) (by omega), time_elem j5 v1 v2, time_elem j6 w1 w2⟩
  obtain ⟨kpar, hsp, hkd⟩ := spki_der hk h2 j8 (by omega)
  have hids : ∀ x ∈ exts, OidOk x.id := fun x hxm => by
    rcases built_ids h5 x hxm with hh | hh
    · exact known_oidOk _ hh
    · exact hx x hh
  have hexts := exts_field hids j9 (by omega)
  have hsizes : ∀ x ∈ exts, x.value.length < 2 ^ 31 := by
    intro x hxm
    obtain ⟨b9, hb9, hl9⟩ := marshalField_some _ _ _ _ j9 (by simp)
    simp only [nilable, seqOf, Option.getD_some, Option.map_eq_some_iff] at hb9
    obtain ⟨es, hes, rfl⟩ := hb9
    obtain ⟨e, he, hem⟩ := marshalElems_mem _ _ _ hes _ hxm
    have hle := mem_flatten_le he
    obtain ⟨oe, fe, ve, junk, q1, -, -, q2⟩ := ext_elem (hids x hxm) hem (by omega)
    have q3 := tlv_body_lt q1
    have q4 := tlv_body_lt q2
    simp only [List.length_append] at q3
    omega
  refine ⟨⟨c1, 3, serial, sigAlgo.algorithm, par, e4, issuer, nb, na, e6, subject, e7, pkAlgo.algorithm, kpar, pkBytes, exts,
    signature⟩, pkBytes, pkAlgo, hashFunc, sigAlgo, signed, ?_, hkd, rfl, hser, a3, hni, hns, v3, w3, v2, w2, h2, rfl, rfl, h5,
    hsizes, h1, g2, g3, g5, h3, h4, h6, h7⟩
  refine ⟨body, c2, c3, [], e1, e2, encTLV 0 true 16 (be ++ ae), e8, by rw [List.append_nil]; exact helder, heltbs, a1, a2,
    ?_, hs2, hni.1, hval, hns.1, hsp, hexts, bits_elem k3 (by omega)⟩
  rw [hver]
  exact Or.inr ⟨[2, 1, 2], 2, ⟨by decide, by decide, by decide⟩, ⟨by decide, by decide, by decide⟩,
    Or.inl ⟨by decide, by decide, rfl⟩⟩

end MCrypto.X509
