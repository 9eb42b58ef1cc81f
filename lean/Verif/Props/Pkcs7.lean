import Verif.X509.Pkcs7Roundtrip
import Verif.Props.X509Sig
/-
C57-C61: PKCS#7 SignedData.
-/
namespace MCrypto.Props
open MCrypto MCrypto.X509 MCrypto.X509Spec MCrypto.Pkcs7Spec MCrypto.Asn1
open MCrypto.Sm2Spec (Represents KeyPair)

/-! ## C57 -/

theorem verifySigners_iff (reg : Registry) (V : Verifiers) (p7 : PKCS7) (l : List SignerInfo) :
    verifySigners reg V p7 l = .ok () ↔ ∀ s ∈ l, verifySigner reg V p7 s = .ok () := by
  induction l with
  | nil => simp [verifySigners]
  | cons s l ih =>
    simp only [verifySigners, Res.bind_eq_ok, ih, List.mem_cons, forall_eq_or_imp]
    exact ⟨fun ⟨_, h1, h2⟩ => ⟨h1, h2⟩, fun ⟨h1, h2⟩ => ⟨(), h1, h2⟩⟩

theorem verifySigner_iff (H : StdHashes) (V : Verifiers) (p7 : PKCS7) (s : SignerInfo)
    (hc : ∀ c ∈ p7.certificates, c.serialNumber ≠ none)
    (hsz : ∀ m, AttrSetDer (s.authenticatedAttributes.getD []) m → m.length < 2 ^ 63) :
    verifySigner (initRegistry H) V p7 s = .ok () ↔
      ∃ m c, SignedMessage p7.content s m ∧ SignerCert p7.certificates s c ∧
        SigAccepted (lastRegistered (initCalls H)) V SM2WithSM3 m s.encryptedDigest c.publicKey := by
  unfold verifySigner
  simp only [Res.bind_eq_ok, signedBytes_iff _ _ hsz]
  constructor
  · rintro ⟨m, hm, oc, hg, h⟩
    cases oc with
    | none => cases h
    | some c =>
      exact ⟨m, c, hm, (getCert_iff _ _ hc s rfl c).mp hg, ((C41_accepts_iff_init H V _ _ _ _).1).mp h⟩
  · rintro ⟨m, c, hm, hg, h⟩
    exact ⟨m, hm, some c, (getCert_iff _ _ hc s rfl c).mpr hg, ((C41_accepts_iff_init H V _ _ _ _).1).mpr h⟩

/-- C57: `Verify` succeeds exactly if there is a signer and for every signer an embedded certificate has its issuer
and serial number, and the key of that certificate accepts its signature, as a signature with SM3, over the
content, or over the DER SET of attributes which hold the SM3 digest of the content. (The certificates have a serial
number, as all parsed ones do, and sizes fit a Go `int`.) -/
theorem C57_verify_iff (H : StdHashes) (V : Verifiers) (p7 : PKCS7)
    (hc : ∀ c ∈ p7.certificates, c.serialNumber ≠ none)
    (hsz : ∀ s ∈ p7.signers, ∀ m, AttrSetDer (s.authenticatedAttributes.getD []) m → m.length < 2 ^ 63) :
    p7.verify (initRegistry H) V = .ok () ↔
      p7.signers ≠ [] ∧ ∀ s ∈ p7.signers, ∃ m c, SignedMessage p7.content s m ∧ SignerCert p7.certificates s c ∧
        SigAccepted (lastRegistered (initCalls H)) V SM2WithSM3 m s.encryptedDigest c.publicKey := by
  unfold PKCS7.verify
  by_cases h : p7.signers = []
  · rw [if_pos (by simp [h])]; simp [h]
  · rw [if_neg (by simpa using h), verifySigners_iff]
    simp only [ne_eq, h, not_false_eq_true, true_and]
    exact forall₂_congr fun s hs => verifySigner_iff H V p7 s hc (hsz s hs)

/-- Certificates that come from the parser have a serial number. -/
theorem parsed_serial {env : Env} {d : Bytes} {c : Certificate} (h : ParseCertificate env d = .ok c) :
    c.serialNumber ≠ none := by
  obtain ⟨hd, _, _, _, _, _, _, _, _, _, _, _, _, _, _, h1, _⟩ :=
    parseCertificate_parts ((ParseCertificate_iff env d c).mp h).1
  rw [h1]; simp

theorem parsed_sm2 {env : Env} {d : Bytes} {c : Certificate} (h : ParseCertificate env d = .ok c) {k : Sm2.PublicKey}
    (hk : c.publicKey = .sm2 k) : k.curve = .sm2p256v1 ∧ k.x < 256 ^ 32 ∧ k.y < 256 ^ 32 ∧ ∃ Q, Represents k Q := by
  obtain ⟨_, _, _, _, _, _, _, _, _, _, _, h1, _⟩ := parseCertificate_parts ((ParseCertificate_iff env d c).mp h).1
  rw [hk] at h1
  obtain ⟨h2, h3⟩ := parsePublicKey_sm2 h1
  obtain ⟨hx, hy⟩ := Sm2.onCurve_range h3
  obtain ⟨Q, _, hQ⟩ := (Curve.isOnCurve_rep _).mp h3
  have hP : Curve.P < 256 ^ 32 := by decide +kernel
  exact ⟨h2, Nat.lt_trans hx hP, Nat.lt_trans hy hP, Q, hQ⟩

/-- C57 for a parsed message: no other conditions. -/
theorem C57_parsed_verify_iff (env : Env) (H : StdHashes) (V : Verifiers) (data : Bytes) (p7 : PKCS7)
    (hp : ParsePKCS7 env data = .ok p7) :
    p7.verify (initRegistry H) V = .ok () ↔
      p7.signers ≠ [] ∧ ∀ s ∈ p7.signers, ∃ m c, SignedMessage p7.content s m ∧ SignerCert p7.certificates s c ∧
        SigAccepted (lastRegistered (initCalls H)) V SM2WithSM3 m s.encryptedDigest c.publicKey := by
  obtain ⟨h1, h2⟩ := parsePKCS7_wf hp
  refine C57_verify_iff H V p7 (fun c hc => ?_) fun s hs => (h2 s hs).2
  obtain ⟨d, hd⟩ := h1 c hc
  exact parsed_serial hd

/-- C57: with an SM2 key in the certificate of a signer, a successful `Verify` of a parsed message means that the
signer's signature is a valid GB/T 32918.2 signature of the message by that key. -/
theorem C57_sm2_sound (env : Env) (H : StdHashes) (V : Verifiers) (data : Bytes) (p7 : PKCS7)
    (hp : ParsePKCS7 env data = .ok p7) (hv : p7.verify (initRegistry H) V = .ok ()) :
    ∀ s ∈ p7.signers, ∃ m c, SignedMessage p7.content s m ∧ SignerCert p7.certificates s c ∧
      ∀ k, c.publicKey = .sm2 k → ∃ Q, Represents k Q ∧ Sm2Valid k Q m s.encryptedDigest := by
  intro s hs
  obtain ⟨m, c, h1, h2, h3⟩ := ((C57_parsed_verify_iff env H V data p7 hp).mp hv).2 s hs
  refine ⟨m, c, h1, h2, fun k hk => ?_⟩
  have hmem : c ∈ p7.certificates := by
    obtain ⟨pre, post, n, h, _⟩ := h2
    rw [h]; simp
  obtain ⟨d, hd⟩ := (parsePKCS7_wf hp).1 c hmem
  obtain ⟨_, hx, hy, Q, hQ⟩ := parsed_sm2 hd hk
  refine ⟨Q, hQ, ?_⟩
  rw [hk] at h3
  exact C41_sm2_sound (initCalls H) _ (initRegistry_ok H) (by rw [lastRegistered_init]; simp) V _ _ _ k Q hQ hx hy
    (((C41_accepts_iff_init H V _ _ _ _).1).mpr h3)

/-- C57: parsing and verifying a parsed message never panic. -/
theorem C57_no_panic (env : Env) (H : StdHashes) (V : Verifiers) (data : Bytes) :
    ParsePKCS7 env data ≠ .panic ∧
    ∀ p7, ParsePKCS7 env data = .ok p7 → p7.verify (initRegistry H) V ≠ .panic ∧ p7.getOnlySigner ≠ .panic := by
  have hgc : ∀ (ias : IssuerAndSerial) (l : List Certificate), ias.serialNumber ≠ none →
      (∀ c ∈ l, c.serialNumber ≠ none) → getCert ias l ≠ .panic := by
    intro ias l hi
    induction l with
    | nil => intro _; simp [getCert]
    | cons c l ih =>
      intro hl
      obtain ⟨n, hn⟩ := Option.ne_none_iff_exists'.mp hi
      obtain ⟨k, hk⟩ := Option.ne_none_iff_exists'.mp (hl c (by simp))
      rw [getCert]
      refine bind_ne_panic (by unfold isCertMatch; rw [hn, hk]; simp) fun b _ => ?_
      split
      · simp
      · exact ih fun c hc => hl c (by simp [hc])
  constructor
  · unfold ParsePKCS7
    split
    · simp
    split
    · simp
    split
    · simp
    split
    · unfold parseSignedData
      refine bind_ne_panic ?_ fun _ _ => bind_ne_panic ?_ fun _ _ => by simp
      · unfold parseRawCertificates
        split
        · simp
        split
        · simp
        · exact certsAux_ne_panic env _ _ (Nat.le_refl _)
      · unfold parseContent
        repeat' split
        all_goals simp
    · simp
  · intro p7 hp
    obtain ⟨h1, h2⟩ := parsePKCS7_wf hp
    have hser : ∀ c ∈ p7.certificates, c.serialNumber ≠ none := fun c hc => by
      obtain ⟨d, hd⟩ := h1 c hc
      exact parsed_serial hd
    constructor
    · unfold PKCS7.verify
      split
      · simp
      · have : ∀ l : List SignerInfo, (∀ s ∈ l, s ∈ p7.signers) → verifySigners (initRegistry H) V p7 l ≠ .panic := by
          intro l
          induction l with
          | nil => intro _; simp [verifySigners]
          | cons s l ih =>
            intro hl
            rw [verifySigners]
            refine bind_ne_panic ?_ fun _ _ => ih fun t ht => hl t (by simp [ht])
            unfold verifySigner
            refine bind_ne_panic ?_ fun m _ => bind_ne_panic ?_ fun oc _ => ?_
            · unfold signedBytes
              simp only []
              split
              · refine bind_ne_panic ?_ fun d _ => ?_
                · unfold unmarshalAttribute
                  repeat' split
                  all_goals simp
                · split
                  · simp
                  · exact ofOption_ne_panic _ _
              · simp
            · exact hgc _ _ (h2 s (hl s (by simp))).1 hser
            · cases oc with
              | none => simp
              | some c => exact (C41_accepts_iff_init H V _ _ _ _).2
        exact this _ fun s hs => hs
    · unfold PKCS7.getOnlySigner
      split
      · rename_i s hs
        exact hgc _ _ (h2 s (by rw [hs]; simp)).1 hser
      · simp

/-! ## C58 -/

/-- An attribute as it is read back. -/
def attrRead (a : P7Attr) : P7Attr := ⟨a.type, rawOf 0 true 17 a.value.bytes⟩

/-- An attribute as the library writes it. -/
def attrWritten (a : P7Attr) : Prop := a.value = ⟨0, 17, true, a.value.bytes, []⟩

theorem attrDer_read {a : P7Attr} (h : attrWritten a) (e : Bytes) : AttrDer (attrRead a) e ↔ AttrDer a e := by
  unfold AttrDer attrRead
  have : valueOctets a.value = valueOctets (rawOf 0 true 17 a.value.bytes) := by
    rw [h]
    unfold valueOctets rawOf
    rw [if_pos rfl, if_neg (encTLV_ne_nil _ _ _ _)]
  simp only [this]

theorem attrSetDer_read {l : List P7Attr} (h : ∀ a ∈ l, attrWritten a) (m : Bytes) :
    AttrSetDer (l.map attrRead) m ↔ AttrSetDer l m := by
  have key : ∀ ds, List.Forall₂ AttrDer (l.map attrRead) ds ↔ List.Forall₂ AttrDer l ds := by
    intro ds
    rw [List.forall₂_map_left_iff]
    induction l generalizing ds with
    | nil => simp
    | cons a l ih =>
      have ha := attrDer_read (h a (by simp))
      have ih := fun ds => ih (fun b hb => h b (by simp [hb])) ds
      constructor
      · intro h; cases h with | cons h1 h2 => exact .cons ((ha _).mp h1) ((ih _).mp h2)
      · intro h; cases h with | cons h1 h2 => exact .cons ((ha _).mpr h1) ((ih _).mpr h2)
  unfold AttrSetDer
  simp only [key]

/-- What the signed attributes are, in some order. -/
theorem forMarshaling_signedAttrs {now : Time} {data : Bytes} {attrs : List P7Attr}
    (h : forMarshaling (signedAttrs now data) = some attrs) :
    ∃ v1 v3, attrs.Perm [⟨oidAttributeContentType, ⟨0, 17, true, v1, []⟩⟩,
      ⟨oidAttributeMessageDigest, ⟨0, 17, true, encTLV 0 false 4 (Sm3.sum data), []⟩⟩,
      ⟨oidAttributeSigningTime, ⟨0, 17, true, v3, []⟩⟩] := by
  unfold forMarshaling at h
  simp only [signedAttrs, sortableAttrs, sortableAttr, Option.pure_def, Option.bind_eq_bind, Option.bind_eq_some_iff,
    Option.some.injEq] at h
  obtain ⟨l, ⟨x1, ⟨v1, h1, k1, _, rfl⟩, xs, ⟨x2, ⟨v2, h2, k2, _, rfl⟩, ys, ⟨x3, ⟨v3, h3, k3, _, rfl⟩, zs, rfl, rfl⟩, rfl⟩,
    rfl⟩, rfl⟩ := h
  have hv2 : v2 = encTLV 0 false 4 (Sm3.sum data) := by
    unfold marshalAny marshalField at h2
    simp only [octets, Bool.false_eq_true, if_false] at h2
    rw [if_neg (by simp)] at h2
    exact (Option.some.inj h2).symm
  subst hv2
  exact ⟨v1, v3, (sortBy_perm _ _).map _⟩

theorem signer_ok {cert : Certificate} {si : Res SignerInfo} {data out : Bytes}
    (h : newSignedDataWith cert si data = .ok out) : ∃ s, si = .ok s := by
  cases si with
  | ok s => exact ⟨s, rfl⟩
  | panic => simp [newSignedDataWith, Res.bind_eq_ok] at h
  | err e =>
    unfold newSignedDataWith at h
    simp only [Res.bind_eq_ok, Res.bind_ok] at h
    obtain ⟨content, _, inner, h2, _⟩ := h
    have h2 := ofOption_ok h2
    exfalso
    obtain ⟨body, hb, _⟩ := marshalField_some signedData {} _ _ h2 (by simp)
    simp only [signedData, Option.pure_def, Option.bind_eq_bind, Option.bind_eq_some_iff] at hb
    obtain ⟨_, _, _, _, _, _, _, _, _, _, _, g6, _⟩ := hb
    have : marshalField signerInfo {} ({} : SignerInfo) = none := by decide +kernel
    unfold marshalField at g6
    simp [Asn1.setOf, marshalElems, this] at g6

/-- The signer of a message the library wrote, as it is read back. -/
theorem newSignedData_parsed {env : Env} {cert : Certificate} {sign : Bytes → Res Bytes} {now : Time} {data out : Bytes}
    (hcert : ParseCertificate env cert.raw = .ok cert) (hrl : cert.raw.length < 2 ^ 31)
    (h : newSignedDataWith cert (getSignerInfo cert sign now data) data = .ok out) (hl : out.length < 2 ^ 31) :
    ∃ p7 s m, ParsePKCS7 env out = .ok p7 ∧ p7.content = data ∧ p7.certificates = [cert] ∧ p7.signers = [s] ∧
      SignedMessage data s m ∧ SignerCert [cert] s cert ∧ sign m = .ok s.encryptedDigest ∧
      (forMarshaling (signedAttrs now data)).bind marshalAttributes = some m := by
  obtain ⟨s, hs⟩ := signer_ok h
  rw [hs] at h
  unfold getSignerInfo at hs
  simp only [Res.bind_eq_ok, Res.pure_eq, Res.ok.injEq] at hs
  obtain ⟨attrs, ha, m, hm, sig, hsig, rfl⟩ := hs
  have ha := ofOption_ok ha
  have hm := ofOption_ok hm
  obtain ⟨v1, v3, hperm⟩ := forMarshaling_signedAttrs ha
  have hw : ∀ a ∈ attrs, attrWritten a ∧ OidOk a.type := by
    intro a ha
    have := hperm.mem_iff.mp ha
    simp only [List.mem_cons, List.not_mem_nil, or_false] at this
    rcases this with rfl | rfl | rfl <;> exact ⟨rfl, _, _, _, rfl, by decide, by decide⟩
  -- the issuer and serial number of the certificate
  obtain ⟨hd, id, tbs, _, _, _, _, _, p1, p2, _, _, _, _, _, p8, p9, _⟩ :=
    parseCertificate_parts ((ParseCertificate_iff env _ _).mp hcert).1
  obtain ⟨ib, hib, hibl⟩ := rawIssuer_elem hcert hrl
  have hriss : RawIs {} { full := cert.rawIssuer } 0 true 16 ib := by
    rcases RawIs.full (p := {}) hib with h | h
    · exact h
    · cases h
  have hto : signerInfo.To _ _ := signerInfo_to (s := {
      version := 1, issuerAndSerialNumber := ⟨{ full := cert.rawIssuer }, cert.serialNumber⟩, authenticatedAttributes := some attrs,
      digestAlgorithm := ⟨oidDigestAlgorithmSM3, {}⟩, digestEncryptionAlgorithm := ⟨oidSignatureECDSASM2, {}⟩,
      encryptedDigest := sig }) (a' := some (attrs.map attrRead)) rfl
    (by rw [p8]; exact issuerAndSerial_to hriss (by decide) (by decide) hd.serial)
    (algId_to_none ⟨_, _, _, rfl, by decide, by decide⟩) (algId_to_none ⟨_, _, _, rfl, by decide, by decide⟩)
    (fun _ => by
      refine nilable_to (seqOf_to p7Attr (by decide) _ _ ?_)
      rw [List.forall₂_map_right_iff, List.forall₂_same]
      intro a ha
      obtain ⟨h1, h2⟩ := hw a ha
      obtain ⟨t, v⟩ := a
      simp only [attrWritten] at h1
      simp only [attrRead]
      rw [h1]
      exact p7Attr_to h2 v.bytes)
    (fun h => by cases h) rfl
  obtain ⟨raw, hp⟩ := parse_newSignedDataWith hto hcert hrl h hl
  refine ⟨_, _, m, hp, rfl, rfl, rfl, ?_, ?_, hsig, by rw [ha]; exact hm⟩
  · right
    simp only [Option.getD_some]
    have hsz : ∀ m, AttrSetDer attrs m → m.length < 2 ^ 63 := by
      intro m' hm'
      have := (parsePKCS7_wf hp).2 _ (List.mem_singleton.mpr rfl)
      exact this.2 m' (by simp only [Option.getD_some]; exact (attrSetDer_read (fun a ha => (hw a ha).1) m').mpr hm')
    have hmm := (marshalAttributes_iff _ hsz _).mp hm
    refine ⟨?_, ?_, (attrSetDer_read (fun a ha => (hw a ha).1) m).mpr hmm.1, hmm.2⟩
    · intro h
      have := hperm.length_eq
      rw [List.map_eq_nil_iff] at h
      rw [h] at this
      simp at this
    · have hmem : (⟨oidAttributeMessageDigest, ⟨0, 17, true, encTLV 0 false 4 (Sm3.sum data), []⟩⟩ : P7Attr) ∈ attrs :=
        hperm.mem_iff.mpr (by simp)
      obtain ⟨pre, post, hpp⟩ := List.append_of_mem hmem
      refine ⟨pre.map attrRead, _, post.map attrRead, [], by rw [hpp, List.map_append, List.map_cons], rfl, ?_, ?_⟩
      · intro b hb
        obtain ⟨a, ha, rfl⟩ := List.mem_map.mp hb
        intro ht
        have ht' : a.type = oidAttributeMessageDigest := ht
        have hc1 : (attrs.filter fun a => a.type == oidAttributeMessageDigest).length = 1 := by
          rw [(hperm.filter _).length_eq]; rfl
        rw [hpp, List.filter_append, List.length_append] at hc1
        have h1 : 1 ≤ (pre.filter fun a => a.type == oidAttributeMessageDigest).length :=
          List.length_pos_of_mem (List.mem_filter.mpr ⟨ha, beq_iff_eq.mpr ht'⟩)
        have h2 : 1 ≤ (((⟨oidAttributeMessageDigest, ⟨0, 17, true, encTLV 0 false 4 (Sm3.sum data), []⟩⟩ : P7Attr) :: post).filter
            fun a => a.type == oidAttributeMessageDigest).length :=
          List.length_pos_of_mem (List.mem_filter.mpr ⟨List.mem_cons_self, beq_self_eq_true _⟩)
        omega
      · simp only [attrRead, rawOf]
        rw [encTLV_tlv _ _ _ _ (by decide), Sm3.sum_eq, List.append_nil]
        rfl
  · refine ⟨[], [], hd.serial, rfl, rfl, ⟨p8, ?_⟩, by simp⟩
    simp only [rawOf]
    exact hib

/-- C58, for a callback that signs: what `NewSignedDataCallBack` returns parses, to the given content and
certificate, `GetOnlySigner` is that certificate and `Verify` succeeds. `cert` is a parsed certificate, and the key
in it accepts what the callback returns. -/
theorem C58_callback (env : Env) (H : StdHashes) (V : Verifiers) (now : Time) (cert : Certificate)
    (f : Bytes → Option Bytes) (data out : Bytes) (hcert : ParseCertificate env cert.raw = .ok cert)
    (hrl : cert.raw.length < 2 ^ 31)
    (hf : ∀ m sig, f m = some sig → SigAccepted (lastRegistered (initCalls H)) V SM2WithSM3 m sig cert.publicKey)
    (h : NewSignedDataCallBack now cert f data = .ok out) (hl : out.length < 2 ^ 31) :
    ∃ p7, ParsePKCS7 env out = .ok p7 ∧ p7.content = data ∧ p7.certificates = [cert] ∧
      p7.getOnlySigner = .ok (some cert) ∧ p7.verify (initRegistry H) V = .ok () := by
  obtain ⟨p7, s, m, h1, h2, h3, h4, h5, h6, h7, h8⟩ := newSignedData_parsed hcert hrl h hl
  refine ⟨p7, h1, h2, h3, ?_, ?_⟩
  · unfold PKCS7.getOnlySigner
    rw [h4, h3]
    exact (getCert_iff _ _ (by intro c hc; rw [List.mem_singleton.mp hc]; exact parsed_serial hcert) s rfl cert).mpr h6
  · rw [C57_parsed_verify_iff env H V out p7 h1, h4]
    refine ⟨by simp, fun t ht => ?_⟩
    rw [List.mem_singleton.mp ht, h2, h3]
    exact ⟨m, cert, h5, h6, hf m _ (ofOption_ok h7)⟩

/-- C58 with an SM2 key pair whose public key is in the certificate. Missing: when the first component of the
signature is the digest value modulo N the library rejects its own signature (C06). -/
theorem C58_sm2_partial (env : Env) (H : StdHashes) (V : Verifiers) (rd : Reader) (now : Time) (cert : Certificate)
    (k : Sm2.PrivateKey) (data out : Bytes) (hcert : ParseCertificate env cert.raw = .ok cert)
    (hrl : cert.raw.length < 2 ^ 31) (hk : cert.publicKey = .sm2 k.pub) (hkp : KeyPair k)
    (h : NewSignedData rd now cert (.sm2 k) data = .ok out) (hl : out.length < 2 ^ 31) :
    ∃ p7 s m, ParsePKCS7 env out = .ok p7 ∧ p7.content = data ∧ p7.certificates = [cert] ∧ p7.signers = [s] ∧
      p7.getOnlySigner = .ok (some cert) ∧ SignedMessage data s m ∧ Sm2.sign rd k m [] = .ok s.encryptedDigest ∧
      (forMarshaling (signedAttrs now data)).bind marshalAttributes = some m ∧
      ((∀ r t, Sm2.unmarshalSign s.encryptedDigest = .ok (r, t) →
        r ≠ ((ofBytes (k.pub.sm3Digest m []) % Curve.N : Nat) : Int)) → p7.verify (initRegistry H) V = .ok ()) := by
  obtain ⟨p7, s, m, h1, h2, h3, h4, h5, h6, h7, h8⟩ := newSignedData_parsed hcert hrl h hl
  refine ⟨p7, s, m, h1, h2, h3, h4, ?_, h5, h7, h8, fun hr => ?_⟩
  · unfold PKCS7.getOnlySigner
    rw [h4, h3]
    exact (getCert_iff _ _ (by intro c hc; rw [List.mem_singleton.mp hc]; exact parsed_serial hcert) s rfl cert).mpr h6
  · rw [C57_parsed_verify_iff env H V out p7 h1, h4]
    refine ⟨by simp, fun t ht => ?_⟩
    rw [List.mem_singleton.mp ht, h2, h3]
    refine ⟨m, cert, h5, h6, ?_⟩
    rw [hk]
    have hv := Sm2.C07_sign_verify_partial rd k hkp m [] s.encryptedDigest h7 hr
    obtain ⟨f, hf⟩ := Option.ne_none_iff_exists'.mp
      (show lastRegistered (initCalls H) hSM3 ≠ none by rw [lastRegistered_init]; simp [hSM3])
    exact ⟨.ec, hSM3, f, by simp [scheme], hf, (parsed_sm2 hcert hk).1, hv⟩

/-! ## C59 -/

theorem sortableAttrs_perm {l l' : List (Oid × AnyValue)} (h : l.Perm l') :
    (sortableAttrs l = none ∧ sortableAttrs l' = none) ∨
    ∃ L L' : List (Bytes × P7Attr), sortableAttrs l = some L ∧ sortableAttrs l' = some L' ∧ L.Perm L' := by
  have step : ∀ (t : Oid × AnyValue) (m : List (Oid × AnyValue)), sortableAttrs (t :: m) =
      (sortableAttr t.1 t.2).bind fun x => (sortableAttrs m).bind fun xs => some (x :: xs) := fun _ _ => rfl
  induction h with
  | nil => exact Or.inr ⟨[], [], rfl, rfl, .nil⟩
  | cons a _ ih =>
    rw [step, step]
    cases sortableAttr a.1 a.2 with
    | none => exact Or.inl ⟨rfl, rfl⟩
    | some x =>
      rcases ih with ⟨h1, h2⟩ | ⟨L, L', h1, h2, h3⟩
      · rw [h1, h2]; exact Or.inl ⟨rfl, rfl⟩
      · rw [h1, h2]; exact Or.inr ⟨_, _, rfl, rfl, h3.cons x⟩
  | swap a b l =>
    rw [step, step, step, step]
    cases sortableAttr a.1 a.2 with
    | none => cases sortableAttr b.1 b.2 <;> exact Or.inl ⟨rfl, rfl⟩
    | some x =>
      cases sortableAttr b.1 b.2 with
      | none => exact Or.inl ⟨rfl, rfl⟩
      | some y =>
        cases sortableAttrs l with
        | none => exact Or.inl ⟨rfl, rfl⟩
        | some L => exact Or.inr ⟨_, _, rfl, rfl, .swap _ _ _⟩
  | trans _ _ ih1 ih2 =>
    rcases ih1 with ⟨h1, h2⟩ | ⟨L, L', h1, h2, h3⟩ <;> rcases ih2 with ⟨h4, h5⟩ | ⟨M, M', h4, h5, h6⟩
    · exact Or.inl ⟨h1, h5⟩
    · rw [h2] at h4; cases h4
    · rw [h2] at h4; cases h4
    · rw [h2] at h4
      injection h4 with h4
      subst h4
      exact Or.inr ⟨_, _, h1, h5, h3.trans h6⟩

theorem sortableAttrs_keys {l : List (Oid × AnyValue)} {L : List (Bytes × P7Attr)} (h : sortableAttrs l = some L) :
    ∀ x ∈ L, AttrDer x.2 x.1 := by
  induction l generalizing L with
  | nil => simp only [sortableAttrs, Option.some.injEq] at h; subst h; simp
  | cons t l ih =>
    obtain ⟨o, v⟩ := t
    simp only [sortableAttrs, sortableAttr, Option.pure_def, Option.bind_eq_bind, Option.bind_eq_some_iff,
      Option.some.injEq] at h
    obtain ⟨x, ⟨b, _, key, hk, rfl⟩, xs, hxs, rfl⟩ := h
    intro y hy
    rcases List.mem_cons.mp hy with rfl | hy
    · exact (p7Attr_marshal_iff _ _).mp hk
    · exact ih hxs y hy

/-- The encodings of the sorted attributes are the sorted encodings. -/
theorem forMarshaling_elems {l : List (Oid × AnyValue)} {L : List (Bytes × P7Attr)} (h : sortableAttrs l = some L) :
    ∃ attrs, forMarshaling l = some attrs ∧
      marshalElems (marshalField p7Attr {}) attrs = some (sortBy bytesLe (L.map (·.1))) := by
  refine ⟨(sortBy (fun a b => bytesLe a.1 b.1) L).map (·.2), by unfold forMarshaling; rw [h]; rfl, ?_⟩
  have hmap : (sortBy (fun a b => bytesLe a.1 b.1) L).map (·.1) = sortBy bytesLe (L.map (·.1)) :=
    map_sortBy bytesLe (·.1) L
  rw [marshalElems_iff, ← hmap, List.forall₂_map_left_iff, List.forall₂_map_right_iff, List.forall₂_same]
  intro x hx
  exact (p7Attr_marshal_iff _ _).mpr (sortableAttrs_keys h x ((sortBy_perm _ _).mem_iff.mp hx))

/-- C59: neither the bytes that are signed nor the encoding of the signer with these attributes depend on the order in
which the attributes are given. -/
theorem C59_order_independent (l l' : List (Oid × AnyValue)) (h : l.Perm l') :
    (forMarshaling l).bind marshalAttributes = (forMarshaling l').bind marshalAttributes ∧
    ∀ s : SignerInfo,
      (forMarshaling l).bind (fun a => marshal signerInfo { s with authenticatedAttributes := some a }) =
      (forMarshaling l').bind (fun a => marshal signerInfo { s with authenticatedAttributes := some a }) := by
  rcases sortableAttrs_perm h with ⟨h1, h2⟩ | ⟨L, L', h1, h2, h3⟩
  · unfold forMarshaling
    rw [h1, h2]
    exact ⟨rfl, fun _ => rfl⟩
  · obtain ⟨a, ha, hm⟩ := forMarshaling_elems h1
    obtain ⟨a', ha', hm'⟩ := forMarshaling_elems h2
    rw [sort_eq_of_perm (h3.map _)] at hm
    rw [ha, ha', Option.bind_some, Option.bind_some]
    constructor
    · have : marshalField (Asn1.setOf p7Attr) { set := true } a = marshalField (Asn1.setOf p7Attr) { set := true } a' := by
        unfold marshalField
        simp only [Asn1.setOf, hm, hm', reduceCtorEq, if_false]
      unfold marshalAttributes
      rw [this]
    · intro s
      rw [Option.bind_some, Option.bind_some]
      have : marshalField (nilable (seqOf p7Attr)) { opt := some none, tag := some 0 } (some a) =
          marshalField (nilable (seqOf p7Attr)) { opt := some none, tag := some 0 } (some a') := by
        unfold marshalField
        simp only [nilable, seqOf, Option.getD_some, hm, hm', Option.some.injEq, reduceCtorEq, if_false]
      unfold marshal marshalField
      rw [if_neg (by simp), if_neg (by simp)]
      have henc : signerInfo.enc { s with authenticatedAttributes := some a } =
          signerInfo.enc { s with authenticatedAttributes := some a' } := by
        simp only [signerInfo, this]
      rw [henc, if_neg (by simp)]

/-- Two attributes in both orders: what is signed is the same SET OF them. -/
example : (forMarshaling [([1, 2, 3], .octets [9]), ([1, 2, 1], .octets [1, 2])]).bind marshalAttributes =
      some [49, 23, 48, 9, 6, 2, 42, 3, 49, 3, 4, 1, 9, 48, 10, 6, 2, 42, 1, 49, 4, 4, 2, 1, 2] ∧
    (forMarshaling [([1, 2, 1], .octets [1, 2]), ([1, 2, 3], .octets [9])]).bind marshalAttributes =
      some [49, 23, 48, 9, 6, 2, 42, 3, 49, 3, 4, 1, 9, 48, 10, 6, 2, 42, 1, 49, 4, 4, 2, 1, 2] := by decide +kernel

/-! ## C60 -/

theorem newSignedDataWith_total (cert : Certificate) (s : SignerInfo) (data : Bytes) {e : Bytes}
    (hs : marshalField signerInfo {} s = some e) : ∃ out, newSignedDataWith cert (.ok s) data = .ok out := by
  have h1 : ∃ c, marshal octets data = some c := ⟨encTLV 0 false 4 data, by
    unfold marshal marshalField
    rw [if_neg (by simp)]
    rfl⟩
  obtain ⟨c, hc⟩ := h1
  have hci : ∀ (o : Oid) (v : RawValue) (b : Bytes), encOid o = some b → ∃ e, marshalField contentInfo {} ⟨o, v⟩ = some e := by
    intro o v b ho
    unfold marshalField
    rw [if_neg (by simp)]
    have h1 : marshalField oid {} o = some (encTLV 0 false 6 b) := by
      unfold marshalField
      rw [if_neg (by simp)]
      simp only [oid, ho]
      rfl
    have h2 : ∃ e2, marshalRaw { opt := some {}, tag := some 0, explicit := true } v = some e2 := by
      unfold marshalRaw
      split
      · exact ⟨_, rfl⟩
      split <;> exact ⟨_, rfl⟩
    obtain ⟨e2, h2⟩ := h2
    simp only [contentInfo, h1, h2]
    exact ⟨_, rfl⟩
  have h2 : ∃ i, marshal signedData
      { version := 1, digestAlgorithmIdentifiers := [⟨oidDigestAlgorithmSM3, {}⟩],
        contentInfo := ⟨oidGMData, ⟨2, 0, true, c, []⟩⟩, certificates := marshalCertificates [cert],
        crls := some [], signerInfos := [s] } = some i := by
    unfold marshal marshalField
    rw [if_neg (by simp)]
    have g1 : ∃ e, marshalField goInt {} (1 : Int) = some e := ⟨_, rfl⟩
    have g2 : ∃ e, marshalField (Asn1.setOf algId) { set := true } [⟨oidDigestAlgorithmSM3, {}⟩] = some e := ⟨_, rfl⟩
    have g3 := hci oidGMData ⟨2, 0, true, c, []⟩ _ rfl
    have g4 : ∃ e, marshalField rawCertificates { opt := some [], tag := some 0 } (marshalCertificates [cert]) = some e := by
      unfold marshalField
      split
      · exact ⟨_, rfl⟩
      · exact ⟨_, rfl⟩
    have g5 : ∃ e, marshalField (nilable (seqOf crl)) { opt := some none, tag := some 1 } (some []) = some e := ⟨_, rfl⟩
    have g6 : ∃ e, marshalField (Asn1.setOf signerInfo) { set := true } [s] = some e := by
      unfold marshalField
      rw [if_neg (by simp)]
      simp only [Asn1.setOf, marshalElems, hs]
      exact ⟨_, rfl⟩
    obtain ⟨_, g1⟩ := g1
    obtain ⟨_, g2⟩ := g2
    obtain ⟨_, g3⟩ := g3
    obtain ⟨_, g4⟩ := g4
    obtain ⟨_, g5⟩ := g5
    obtain ⟨_, g6⟩ := g6
    simp only [signedData, g1, g2, g3, g4, g5, g6]
    exact ⟨_, rfl⟩
  obtain ⟨i, hi⟩ := h2
  obtain ⟨o, ho⟩ := hci oidGMSignedData ⟨2, 0, true, i, []⟩ _ rfl
  refine ⟨o, ?_⟩
  unfold newSignedDataWith
  rw [hc]
  simp only [Res.ofOption, Res.bind_ok]
  rw [hi]
  simp only [Res.bind_ok]
  have ho : marshal contentInfo ⟨oidGMSignedData, ⟨2, 0, true, i, []⟩⟩ = some o := ho
  rw [ho]

/-- The signer without its signed attributes. -/
def withoutAttrs (s : SignerInfo) : SignerInfo :=
  { version := 1, issuerAndSerialNumber := s.issuerAndSerialNumber, digestAlgorithm := ⟨oidDigestAlgorithmSM3, {}⟩,
    digestEncryptionAlgorithm := ⟨oidSignatureECDSASM2, {}⟩, encryptedDigest := s.encryptedDigest }

/-- C60 is false for this commit. From every message that parses and verifies and has a signer with signed
attributes, anyone can make another message, with the same certificate and signature value and without signed
attributes, which parses, has the SET OF the attributes as its content, and verifies: what was signed as attributes is
taken for content. -/
theorem C60_confusion_counterexample (env : Env) (H : StdHashes) (V : Verifiers) (data : Bytes) (p7 : PKCS7)
    (hp : ParsePKCS7 env data = .ok p7) (hv : p7.verify (initRegistry H) V = .ok ()) (s : SignerInfo)
    (hs : s ∈ p7.signers) (ha : s.authenticatedAttributes.getD [] ≠ []) :
    ∃ c m out, SignerCert p7.certificates s c ∧ AttrSetDer (s.authenticatedAttributes.getD []) m ∧
      newSignedDataWith c (.ok (withoutAttrs s)) m = .ok out ∧
      (c.raw.length < 2 ^ 31 → out.length < 2 ^ 31 → ∃ p7', ParsePKCS7 env out = .ok p7' ∧ p7'.content = m ∧
        p7'.certificates = [c] ∧ p7'.verify (initRegistry H) V = .ok ()) := by
  obtain ⟨m, c, h1, h2, h3⟩ := ((C57_parsed_verify_iff env H V data p7 hp).mp hv).2 s hs
  have hm : AttrSetDer (s.authenticatedAttributes.getD []) m := by
    rcases h1 with ⟨h, _⟩ | ⟨_, _, h, _⟩
    · exact absurd h ha
    · exact h
  obtain ⟨pre, post, n, hcs, hn, ⟨hcn, hci⟩, hpre⟩ := h2
  have hcert : ParseCertificate env c.raw = .ok c := by
    obtain ⟨d, hd⟩ := (parsePKCS7_wf hp).1 c (by rw [hcs]; simp)
    rw [((ParseCertificate_iff env d c).mp hd).2]
    exact hd
  have hmar : ∃ e, marshalField signerInfo {} (withoutAttrs s) = some e := by
    unfold marshalField
    rw [if_neg (by simp)]
    have g1 : ∃ e, marshalField goInt {} (1 : Int) = some e := ⟨_, rfl⟩
    have g2 : ∃ e, marshalField issuerAndSerial {} s.issuerAndSerialNumber = some e := by
      unfold marshalField
      rw [if_neg (by simp)]
      have h1 : ∃ e2, marshalRaw {} s.issuerAndSerialNumber.issuerName = some e2 := ⟨_, marshalRaw_value _⟩
      have h2 : ∃ e2, marshalField optInt {} s.issuerAndSerialNumber.serialNumber = some e2 := by
        rw [hn]
        unfold marshalField
        rw [if_neg (by simp)]
        simp only [optInt]
        exact ⟨_, rfl⟩
      obtain ⟨_, h1⟩ := h1
      obtain ⟨_, h2⟩ := h2
      simp only [issuerAndSerial, h1, h2]
      exact ⟨_, rfl⟩
    have g3 : ∃ e, marshalField algId {} ⟨oidDigestAlgorithmSM3, {}⟩ = some e := ⟨_, rfl⟩
    have g4 : ∃ e, marshalField algId {} ⟨oidSignatureECDSASM2, {}⟩ = some e := ⟨_, rfl⟩
    have g5 : ∃ e, marshalField octets {} s.encryptedDigest = some e := by
      unfold marshalField
      rw [if_neg (by simp)]
      exact ⟨_, rfl⟩
    obtain ⟨_, g1⟩ := g1
    obtain ⟨_, g2⟩ := g2
    obtain ⟨_, g3⟩ := g3
    obtain ⟨_, g4⟩ := g4
    obtain ⟨_, g5⟩ := g5
    simp only [signerInfo, withoutAttrs, g1, g2, g3, g4, g5, marshalField_absent]
    exact ⟨_, rfl⟩
  obtain ⟨e, he⟩ := hmar
  obtain ⟨out, hout⟩ := newSignedDataWith_total c (withoutAttrs s) m he
  refine ⟨c, m, out, ⟨pre, post, n, hcs, hn, ⟨hcn, hci⟩, hpre⟩, hm, hout, fun hrl hl => ?_⟩
  obtain ⟨ib, hib, hibl⟩ := rawIssuer_elem hcert hrl
  have hriss : RawIs {} s.issuerAndSerialNumber.issuerName 0 true 16 ib := by
    unfold RawIs
    rw [marshalRaw_full _ _ (by rw [← hci, hib]; exact encTLV_ne_nil _ _ _ _) (by simp), ← hci, hib]
  have hto : signerInfo.To (withoutAttrs s) _ := signerInfo_to (s := withoutAttrs s) (a' := none) rfl
    (i' := ⟨rawOf 0 true 16 ib, some n⟩)
    (by
      have := issuerAndSerial_to hriss (by decide) (by decide) n
      rw [← hn] at this
      rw [hn] at this
      have hx : (withoutAttrs s).issuerAndSerialNumber = ⟨s.issuerAndSerialNumber.issuerName, some n⟩ := by
        simp only [withoutAttrs, ← hn]
      rw [hx]
      exact this)
    (algId_to_none ⟨_, _, _, rfl, by decide, by decide⟩) (algId_to_none ⟨_, _, _, rfl, by decide, by decide⟩)
    (fun h => absurd rfl h) (fun _ => rfl) rfl
  obtain ⟨raw, hp'⟩ := parse_newSignedDataWith hto hcert hrl hout hl
  refine ⟨_, hp', rfl, rfl, ?_⟩
  rw [C57_parsed_verify_iff env H V out _ hp']
  refine ⟨by simp, fun t ht => ?_⟩
  rw [List.mem_singleton.mp ht]
  refine ⟨m, c, Or.inl ⟨rfl, rfl⟩, ⟨[], [], n, rfl, rfl, ⟨hcn, ?_⟩, by simp⟩, h3⟩
  simp only [rawOf]
  exact hib

/-! ## C61 -/

/-- C61: a signed message is returned only if the signer made a signature of the attributes and the certificate has a
serial number: a failing signer is reported. -/
theorem C61_signer_errors (cert : Certificate) (sign : Bytes → Res Bytes) (now : Time) (data out : Bytes)
    (h : newSignedDataWith cert (getSignerInfo cert sign now data) data = .ok out) :
    (∃ m sig, (forMarshaling (signedAttrs now data)).bind marshalAttributes = some m ∧ sign m = .ok sig) ∧
    cert.serialNumber ≠ none := by
  obtain ⟨s, hs⟩ := signer_ok h
  have hs' := hs
  unfold getSignerInfo at hs
  simp only [Res.bind_eq_ok, Res.pure_eq, Res.ok.injEq] at hs
  obtain ⟨attrs, ha, m, hm, sig, hsig, rfl⟩ := hs
  refine ⟨⟨m, sig, by rw [ofOption_ok ha]; exact ofOption_ok hm, hsig⟩, fun hn => ?_⟩
  rw [hs'] at h
  unfold newSignedDataWith at h
  simp only [Res.bind_eq_ok, Res.bind_ok] at h
  obtain ⟨content, _, inner, h2, _⟩ := h
  have h2 := ofOption_ok h2
  obtain ⟨body, hb, _⟩ := marshalField_some signedData {} _ _ h2 (by simp)
  simp only [signedData, Option.pure_def, Option.bind_eq_bind, Option.bind_eq_some_iff] at hb
  obtain ⟨_, _, _, _, _, _, _, _, _, _, _, g6, _⟩ := hb
  obtain ⟨b1, hb1, _⟩ := marshalField_some _ _ _ _ g6 (by simp)
  simp only [Asn1.setOf, Option.map_eq_some_iff] at hb1
  obtain ⟨es, hes, _⟩ := hb1
  obtain ⟨e, es', he, _, rfl⟩ := marshalElems_cons _ _ _ _ hes
  obtain ⟨b2, hb2, _⟩ := marshalField_some _ _ _ _ he (by simp)
  simp only [signerInfo, Option.pure_def, Option.bind_eq_bind, Option.bind_eq_some_iff] at hb2
  obtain ⟨_, _, _, gi, _⟩ := hb2
  obtain ⟨b3, hb3, _⟩ := marshalField_some _ _ _ _ gi (by simp)
  simp only [issuerAndSerial, Option.pure_def, Option.bind_eq_bind, Option.bind_eq_some_iff] at hb3
  obtain ⟨_, _, _, gn, _⟩ := hb3
  rw [hn] at gn
  obtain ⟨b4, hb4, _⟩ := marshalField_some _ _ _ _ gn (by simp)
  simp [optInt] at hb4

/-- C61: a key that cannot sign, a failing callback: the error is reported. (`sm2.Sign` failing is the first part of
`C61_signer_errors`.) -/
theorem C61_bad_key (rd : Reader) (now : Time) (cert : Certificate) (key : PrivKey) (f : Bytes → Option Bytes)
    (data : Bytes) (out : Bytes) :
    ((∀ k, key ≠ .sm2 k) → NewSignedData rd now cert key data ≠ .ok out) ∧
    ((∀ m, f m = none) → NewSignedDataCallBack now cert f data ≠ .ok out) := by
  constructor
  · intro hk h
    obtain ⟨⟨m, sig, _, hs⟩, _⟩ := C61_signer_errors _ _ _ _ _ h
    unfold signWithKey at hs
    split at hs
    · exact hk _ rfl
    · cases hs
  · intro hf h
    obtain ⟨⟨m, sig, _, hs⟩, _⟩ := C61_signer_errors _ _ _ _ _ h
    simp only [signWithCallback, hf] at hs
    cases hs

/-- C61: a message that parses and verifies is a ContentInfo of type SignedData without trailing data, and all the
fields of the SignedData parsed. -/
theorem C61_verified_is_wellformed (env : Env) (reg : Registry) (V : Verifiers) (data : Bytes) (p7 : PKCS7)
    (hp : ParsePKCS7 env data = .ok p7) (hv : p7.verify reg V = .ok ()) :
    ∃ info body rest, unmarshal contentInfo data = some (info, []) ∧ info.contentType = oidGMSignedData ∧
      info.content.bytes = encTLV 0 true 16 body ++ rest ∧ signedDataFields body = (p7.raw, true) := by
  unfold ParsePKCS7 at hp
  split at hp
  · cases hp
  split at hp
  · cases hp
  rename_i info rest hu
  split at hp
  · cases hp
  rename_i hr
  split at hp
  · rename_i ht
    have hr : rest = [] := by
      cases rest with
      | nil => rfl
      | cons x l => simp at hr
    subst hr
    simp only [parseSignedData, Res.bind_eq_ok, Res.pure_eq, Res.ok.injEq] at hp
    obtain ⟨certs, h1, content, h2, rfl⟩ := hp
    have hne : (unmarshalSignedData info.content.bytes).signerInfos ≠ [] := by
      intro h
      unfold PKCS7.verify at hv
      simp [h] at hv
    unfold unmarshalSignedData at hne ⊢
    cases hs : unmarshal signedData info.content.bytes with
    | none => rw [hs] at hne; simp at hne
    | some q =>
      obtain ⟨sd, r⟩ := q
      rw [hs] at hne
      simp only [] at hne ⊢
      obtain ⟨body, hb, _, hd⟩ := (unmarshal_iff signedData (by decide) _ _ _).mp hs
      simp only [signedData, Option.some.injEq] at hd
      refine ⟨info, body, r, hu, ht, hb, ?_⟩
      subst hd
      refine Prod.ext rfl ?_
      unfold signedDataFields at hne ⊢
      repeat' split
      all_goals first | rfl | (exfalso; revert hne; simp_all)
  · cases hp

/-- C61 is false for parsing: a SignedData that is not even a SEQUENCE is accepted (and then has no signers). -/
theorem C61_malformed_accepted_counterexample : ∃ data, ∀ env, ∃ p7, ParsePKCS7 env data = .ok p7 ∧ p7.signers = [] ∧
    ∃ info, unmarshal contentInfo data = some (info, []) ∧ unmarshal signedData info.content.bytes = none := by
  refine ⟨[48, 17, 6, 10, 42, 129, 28, 207, 85, 6, 1, 4, 2, 2, 160, 3, 4, 1, 0], fun env => ⟨{}, ?_, rfl, 
    ⟨oidGMSignedData, rawOf 2 true 0 [4, 1, 0]⟩, ?_, ?_⟩⟩
  · rfl
  · decide +kernel
  · decide +kernel

end MCrypto.Props
