import Verif.X509.Pkcs7GrammarLemmas
import Verif.Props.Pkcs7Use
/-
C96: which octets `ParsePKCS7` accepts, what it returns for them, and which of them `Verify` accepts.
-/
namespace MCrypto.Props
open MCrypto MCrypto.X509 MCrypto.X509Spec MCrypto.Pkcs7Spec MCrypto.Asn1 MCrypto.P7Spec MCrypto.Dg

/-- The parts of a message as in the specification. -/
def p7Of (p7 : PKCS7) : P7 := ⟨p7.content, p7.certificates, p7.crls.map (·.map crlFields), p7.signers.map signerOf⟩

theorem outer_iff (data sd : Bytes) : Outer data sd ↔
    ∃ ci, parseField X509.contentInfo {} data = some (ci, []) ∧ ci.contentType = oidGMSignedData ∧ ci.content.bytes = sd := by
  rw [content_iff]
  constructor
  · intro h; exact ⟨data, (List.append_nil _).symm, h⟩
  · rintro ⟨e, h, h1⟩
    rw [List.append_nil] at h
    subst h
    exact h1

theorem parseCerts_iff (env : Env) (raw : Bytes) (l : List Certificate) :
    parseRawCertificates env raw = .ok l ↔ ∃ certs, CertsOf raw certs ∧ CertsAre env certs l := by
  unfold parseRawCertificates CertsAre
  by_cases h : raw = []
  · subst h
    simp only [List.length_nil, if_true, Res.ok.injEq]
    constructor
    · rintro rfl; exact ⟨[], Or.inl ⟨rfl, rfl⟩, [], rfl, .nil⟩
    · rintro ⟨certs, h1, ds, h2, h3⟩
      have hc : certs = [] := by
        rcases h1 with ⟨-, h1⟩ | ⟨w, t, h1, -⟩
        · exact h1
        · cases h1
      subst hc
      have : ParseCertificates env [] = .ok l := (C52_parseCertificates_iff env [] l).mpr ⟨ds, h2, h3⟩
      exact Res.ok.inj this
  · rw [if_neg (by simpa using h)]
    unfold CertsOf
    simp only [h, false_and, false_or]
    rcases hp : parseRaw {} raw with _ | ⟨v, t⟩
    · simp
    · simp only [Option.some.injEq, Prod.mk.injEq]
      rw [C52_parseCertificates_iff]
      constructor
      · intro h; exact ⟨v.bytes, ⟨v, t, ⟨rfl, rfl⟩, rfl⟩, h⟩
      · rintro ⟨_, ⟨w, t', ⟨rfl, rfl⟩, rfl⟩, h⟩; exact h

/-- **C96** `ParsePKCS7` succeeds with message `p` exactly if the input is, to the last octet, a ContentInfo of type
signedData (1.2.156.10197.6.1.4.2.2), and the octets in it stand for `p` by the grammar of Pkcs7Grammar.lean, where
reading ends without an error at the first field of the SignedData that cannot be read. -/
theorem C96_parse_grammar (env : Env) (data : Bytes) (p : P7) :
    (∃ p7, ParsePKCS7 env data = .ok p7 ∧ p7Of p7 = p) ↔
      ∃ sd c certs, Outer data sd ∧ LaxSignedData sd c certs p.crls p.signers ∧ ContentIs c p.content ∧
        CertsAre env certs p.certificates := by
  simp only [outer_iff, lax_iff]
  unfold ParsePKCS7
  constructor
  · rintro ⟨p7, h, rfl⟩
    split at h
    · cases h
    split at h
    · cases h
    rename_i info rest hu
    split at h
    · cases h
    rename_i hr
    have hr : rest = [] := by simpa using hr
    subst hr
    split at h
    · rename_i ht
      simp only [parseSignedData, Res.bind_eq_ok, Res.pure_eq, Res.ok.injEq] at h
      obtain ⟨cs, h1, content, h2, rfl⟩ := h
      obtain ⟨certs, h3, h4⟩ := (parseCerts_iff _ _ _).mp h1
      exact ⟨_, _, certs, ⟨info, hu, ht, rfl⟩, ⟨rfl, h3, rfl, rfl⟩, (parseContent_iff _ _).mp h2, h4⟩
    · cases h
  · rintro ⟨sd, c, certs, ⟨ci, hu, ht, rfl⟩, ⟨rfl, h1, h2, h3⟩, h4, h5⟩
    have hne : ¬ data.length = 0 := by
      intro h
      have : data = [] := by simpa using h
      subst this
      cases hu
    rw [if_neg hne]
    simp only [unmarshal, hu, ht, List.length_nil, gt_iff_lt, Nat.lt_irrefl, if_false, if_true]
    refine ⟨⟨p.content, p.certificates, (unmarshalSignedData ci.content.bytes).crls,
      (unmarshalSignedData ci.content.bytes).signerInfos, unmarshalSignedData ci.content.bytes⟩, ?_, ?_⟩
    · simp only [parseSignedData, Res.bind_eq_ok, Res.pure_eq, Res.ok.injEq]
      exact ⟨_, (parseCerts_iff _ _ _).mpr ⟨certs, h1, h5⟩, _, (parseContent_iff _ _).mpr h4, rfl⟩
    · simp only [p7Of, h2, h3]

/-- **C96** If a message has signers, its whole SignedData is well-formed. -/
theorem C96_signed_grammar (env : Env) (data : Bytes) (p : P7) (hs : p.signers ≠ []) :
    (∃ p7, ParsePKCS7 env data = .ok p7 ∧ p7Of p7 = p) ↔ ∃ sd, Outer data sd ∧ SignedDataDer env sd p := by
  rw [C96_parse_grammar]
  unfold LaxSignedData OrStop SignedDataDer
  constructor
  · rintro ⟨sd, c, certs, h0, h, hc, hcs⟩
    refine ⟨sd, h0, ?_⟩
    rcases h with ⟨-, -, -, -, h⟩ | ⟨body, tail, h1, h⟩
    · exact absurd h hs
    rcases h with ⟨-, -, -, -, h⟩ | ⟨_, s1, h2, h⟩
    · exact absurd h hs
    rcases h with ⟨-, -, -, -, h⟩ | ⟨_, s2, h3, rfl, h⟩
    · exact absurd h hs
    rcases h with ⟨-, -, -, h⟩ | ⟨_, s3, h4, rfl, h⟩
    · exact absurd h hs
    rcases h with ⟨-, -, h⟩ | ⟨_, s4, h5, h5', h⟩
    · exact absurd h hs
    rcases h with ⟨-, h⟩ | ⟨_, s5, h6, h6'⟩
    · exact absurd h hs
    rw [h5', h6']
    exact ⟨body, tail, s1, _, s2, _, s3, s4, s5, h1, h2, h3, h4, h5, h6, hc, hcs⟩
  · rintro ⟨sd, h0, body, tail, s1, c, s2, certs, s3, s4, s5, h1, h2, h3, h4, h5, h6, hc, hcs⟩
    exact ⟨sd, c, certs, h0, Or.inr ⟨body, tail, h1, Or.inr ⟨(), s1, h2, Or.inr ⟨c, s2, h3, rfl, Or.inr ⟨certs, s3, h4, rfl,
      Or.inr ⟨_, s4, h5, rfl, Or.inr ⟨_, s5, h6, rfl⟩⟩⟩⟩⟩⟩, hc, hcs⟩

/-- What is known of a parsed attribute. -/
def AttrParsed (a : P7Attr) : Prop :=
  OidOk a.type ∧ ∃ cls comp tag body, a.value = rawOf cls comp tag body ∧ cls < 4 ∧ tag ≤ 2147483647 ∧ body.length < 2 ^ 31

theorem p7Attr_parsed {b full : Bytes} {a : P7Attr} (h : p7Attr.dec b full = some a) : AttrParsed a := by
  simp only [p7Attr, Option.pure_def, Option.bind_eq_bind, Option.bind_eq_some_iff, Prod.exists, Option.some.injEq] at h
  obtain ⟨o, r1, h1, v, r2, h2, rfl⟩ := h
  obtain ⟨ob, -, -, hdo⟩ := (unmarshal_iff oid (by decide) _ _ _).mp h1
  obtain ⟨cls, comp, tag, vb, rfl, -, hc, ht, hl⟩ := (parseRaw_iff _ _ _).mp h2
  exact ⟨((decOid_iff _ _).mp hdo).1, cls, comp, tag, vb, rfl, hc, ht, hl⟩

theorem signer_attrs {b full : Bytes} {s : SignerInfo} (h : signerInfo.dec b full = some s) :
    ∀ a ∈ s.authenticatedAttributes.getD [], AttrParsed a := by
  simp only [signerInfo, Option.pure_def, Option.bind_eq_bind, Option.bind_eq_some_iff, Prod.exists, Option.some.injEq] at h
  obtain ⟨v, r1, h1, i, r2, h2, d, r3, h3, a, r4, h4, e, r5, h5, sg, r6, h6, u, r7, h7, rfl⟩ := h
  simp only []
  rcases parseField_dec h4 with ⟨h, _⟩ | ⟨body, full, hl, _, hd⟩
  · simp only [Option.some.injEq] at h
    subst h
    simp
  · simp only [nilable, Option.map_eq_some_iff] at hd
    obtain ⟨l, hd, rfl⟩ := hd
    intro a ha
    obtain ⟨b', f', -, h⟩ := seqOf_dec_mem hd a ha
    exact p7Attr_parsed h

theorem parsed_attrs {env : Env} {data : Bytes} {p7 : PKCS7} (hp : ParsePKCS7 env data = .ok p7) :
    ∀ s ∈ p7.signers, ∀ a ∈ s.authenticatedAttributes.getD [], AttrParsed a := by
  unfold ParsePKCS7 at hp
  split at hp
  · cases hp
  split at hp
  · cases hp
  split at hp
  · cases hp
  split at hp
  · simp only [parseSignedData, Res.bind_eq_ok, Res.pure_eq, Res.ok.injEq] at hp
    obtain ⟨certs, h1, content, h2, rfl⟩ := hp
    simp only []
    unfold unmarshalSignedData
    split
    · rename_i sd r h
      obtain ⟨body, _, _, hd⟩ := (unmarshal_iff signedData (by decide) _ _ _).mp h
      simp only [signedData, Option.some.injEq] at hd
      subst hd
      intro s hs
      rcases signedDataFields_signers body with h | ⟨b', f', h⟩
      · rw [h] at hs; cases hs
      · obtain ⟨b2, f2, _, h2⟩ := seqOf_dec_mem h s hs
        exact signer_attrs h2
    · simp
  · cases hp

theorem attrDer_parsed {a : P7Attr} (h : AttrParsed a) (d : Bytes) :
    AttrDer a d ↔ ∃ o, IsOid o (attrOf a).1 ∧ d = Der.tlv 0x30 (Der.tlv 0x06 o ++ (attrOf a).2) := by
  obtain ⟨ho, cls, comp, tag, body, hv, -⟩ := h
  have hv' : valueOctets a.value = a.value.full := by
    rw [hv]
    unfold valueOctets rawOf
    rw [if_neg (encTLV_ne_nil _ _ _ _)]
  unfold AttrDer attrOf
  simp only [hv', isOid_iff, decOid_iff, ho, true_and]

theorem digest_parsed {l : List P7Attr} (h : ∀ a ∈ l, AttrParsed a) (content : Bytes) :
    HasDigest l (Sm3Spec.sm3 content) ↔
      ∃ pre v post w oe rest, l.map attrOf = pre ++ ([1, 2, 840, 113549, 1, 9, 4], v) :: post ∧
      (∀ a ∈ pre, a.1 ≠ [1, 2, 840, 113549, 1, 9, 4]) ∧ Whole w v ∧ w = oe ++ rest ∧ El 0x04 (Sm3Spec.sm3 content) oe := by
  have hel : ∀ oe, El 0x04 (Sm3Spec.sm3 content) oe ↔ oe = Der.tlv 0x04 (Sm3Spec.sm3 content) := by
    intro oe
    have := el_iff 0 false 4 (by decide) (Sm3Spec.sm3 content) oe
    rw [encTLV_tlv 0 false 4 _ (by decide)] at this
    refine Iff.trans this ⟨fun h => h.1, fun h => ⟨h, ?_⟩⟩
    rw [sm3_length]; decide
  have hw : ∀ a, AttrParsed a → ∀ w, Whole w (attrOf a).2 ↔ w = a.value.bytes := by
    intro a ⟨ho, cls, comp, tag, body, hv, hc, ht, hl⟩ w
    rw [whole_eq, P12Spec.whole_iff]
    constructor
    · rintro ⟨v, ⟨cls', comp', tag', body', rfl, h1, h2, h3, h4⟩, rfl⟩
      simp only [attrOf, hv, rawOf] at h1 ⊢
      have e1 := (parseRaw_iff (encTLV cls comp tag body) (rawOf cls comp tag body) []).mpr
        ⟨cls, comp, tag, body, rfl, (List.append_nil _).symm, hc, ht, hl⟩
      have e2 := (parseRaw_iff (encTLV cls comp tag body) (rawOf cls' comp' tag' body') []).mpr
        ⟨cls', comp', tag', body', rfl, by rw [h1, List.append_nil], h2, h3, h4⟩
      rw [e1] at e2
      simp only [Option.some.injEq, Prod.mk.injEq, rawOf, RawValue.mk.injEq] at e2
      exact e2.1.2.2.2.1.symm
    · rintro rfl
      exact ⟨a.value, ⟨cls, comp, tag, body, hv, by simp only [attrOf, hv]; rfl, hc, ht, hl⟩, rfl⟩
  unfold HasDigest
  constructor
  · rintro ⟨pre, a, post, rest, rfl, h1, h2, h3⟩
    refine ⟨pre.map attrOf, a.value.full, post.map attrOf, a.value.bytes, _, rest, ?_, ?_, (hw a (h a (by simp)) _).mpr rfl, h3,
      (hel _).mpr rfl⟩
    · rw [List.map_append, List.map_cons, attrOf, h1]
    · intro x hx
      obtain ⟨y, hy, rfl⟩ := List.mem_map.mp hx
      exact h2 y hy
  · rintro ⟨pre, v, post, w, oe, rest, h1, h2, h3, h4, h5⟩
    obtain ⟨l1, l2, rfl, rfl, h6⟩ := List.map_eq_append_iff.mp h1
    obtain ⟨a, l3, rfl, h7, rfl⟩ := List.map_eq_cons_iff.mp h6
    have h8 : (attrOf a).2 = v := by rw [h7]
    have h9 : a.type = [1, 2, 840, 113549, 1, 9, 4] := congrArg Prod.fst h7
    subst h8
    refine ⟨l1, a, l3, rest, rfl, h9, fun b hb => h2 _ (List.mem_map.mpr ⟨b, hb, rfl⟩), ?_⟩
    rw [← (hw a (h a (by simp)) w).mp h3, h4, (hel oe).mp h5]

theorem signedOver_iff {s : SignerInfo} (h : ∀ a ∈ s.authenticatedAttributes.getD [], AttrParsed a) (content m : Bytes) :
    SignedMessage content s m ↔ SignedOver content (signerOf s) m := by
  have hl : (signerOf s).signedAttrs.getD [] = (s.authenticatedAttributes.getD []).map attrOf := by
    unfold signerOf
    cases s.authenticatedAttributes <;> rfl
  unfold SignedMessage SignedOver
  rw [hl, digest_parsed h]
  simp only [ne_eq, List.map_eq_nil_iff]
  refine or_congr Iff.rfl (and_congr_right fun _ => and_congr_right fun _ => ?_)
  rw [AttrSetDer]
  refine and_congr_left fun _ => exists_congr fun ds => exists_congr fun es => and_congr_left fun _ => ?_
  rw [List.forall₂_map_left_iff]
  have : ∀ l : List P7Attr, (∀ a ∈ l, AttrParsed a) → ∀ ds, List.Forall₂ AttrDer l ds ↔
      List.Forall₂ (fun a d => ∃ o, IsOid o (attrOf a).1 ∧ d = Der.tlv 0x30 (Der.tlv 0x06 o ++ (attrOf a).2)) l ds := by
    intro l hl
    induction l with
    | nil => intro ds; cases ds <;> simp
    | cons a l ih =>
      intro ds
      cases ds with
      | nil => simp
      | cons d ds =>
        rw [List.forall₂_cons, List.forall₂_cons, attrDer_parsed (hl a (by simp)), ih fun a ha => hl a (by simp [ha])]
  exact this _ h ds

theorem certOf_iff {s : SignerInfo} (h : s.issuerAndSerialNumber.serialNumber ≠ none) (certs : List Certificate) (c : Certificate) :
    SignerCert certs s c ↔ CertOf certs (signerOf s) c := by
  obtain ⟨n, hn⟩ := Option.ne_none_iff_exists'.mp h
  unfold SignerCert CertOf signerOf
  simp only [hn, Option.some.injEq, Option.getD_some]
  constructor
  · rintro ⟨pre, post, _, h1, rfl, h2, h3⟩; exact ⟨pre, post, h1, h2, h3⟩
  · rintro ⟨pre, post, h1, h2, h3⟩; exact ⟨pre, post, n, h1, rfl, h2, h3⟩

/-- **C96** Parsing and then verifying succeeds exactly if the input is a ContentInfo with a well-formed SignedData of
at least one signer, and for every signer an embedded certificate has its issuer and serial number and the key in it
accepts the signature over the content, or over the DER of the signed attributes with the digest of the content. -/
theorem C96_verify_grammar (env : Env) (H : StdHashes) (V : Verifiers) (data : Bytes) :
    (∃ p7, ParsePKCS7 env data = .ok p7 ∧ p7.verify (initRegistry H) V = .ok ()) ↔
      ∃ sd p, Outer data sd ∧ SignedDataDer env sd p ∧ p.signers ≠ [] ∧ ∀ s ∈ p.signers, ∃ m c,
        SignedOver p.content s m ∧ CertOf p.certificates s c ∧
        SigAccepted (lastRegistered (initCalls H)) V SM2WithSM3 m s.signature c.publicKey := by
  have key : ∀ p7, ParsePKCS7 env data = .ok p7 → (p7.verify (initRegistry H) V = .ok () ↔
      (p7Of p7).signers ≠ [] ∧ ∀ s ∈ (p7Of p7).signers, ∃ m c,
        SignedOver (p7Of p7).content s m ∧ CertOf (p7Of p7).certificates s c ∧
        SigAccepted (lastRegistered (initCalls H)) V SM2WithSM3 m s.signature c.publicKey) := by
    intro p7 hp
    rw [C57_parsed_verify_iff env H V data p7 hp]
    simp only [p7Of, ne_eq, List.map_eq_nil_iff, List.forall_mem_map]
    refine and_congr_right fun _ => forall₂_congr fun s hs => exists_congr fun m => exists_congr fun c => ?_
    rw [signedOver_iff (parsed_attrs hp s hs), certOf_iff ((parsePKCS7_wf hp).2 s hs).1]
    rfl
  constructor
  · rintro ⟨p7, hp, hv⟩
    have h := (key p7 hp).mp hv
    obtain ⟨sd, h1, h2⟩ := (C96_signed_grammar env data (p7Of p7) h.1).mp ⟨p7, hp, rfl⟩
    exact ⟨sd, _, h1, h2, h⟩
  · rintro ⟨sd, p, h1, h2, h3⟩
    obtain ⟨p7, hp, rfl⟩ := (C96_signed_grammar env data p h3.1).mpr ⟨sd, h1, h2⟩
    exact ⟨p7, hp, (key p7 hp).mpr h3⟩

/-- The message of Pkcs7Ex.lean is a well-formed SignedData with one signer. -/
example : ∃ sd p, Outer p7Out sd ∧ SignedDataDer p7Env sd p ∧ p.signers ≠ [] ∧ p.content = [97] := by
  obtain ⟨p7, s, h1, h2, h3, -, -⟩ := p7Out_verifies
  have hs : (p7Of p7).signers ≠ [] := by simp [p7Of, h3]
  obtain ⟨sd, h4, h5⟩ := (C96_signed_grammar p7Env p7Out (p7Of p7) hs).mp ⟨p7, h1, rfl⟩
  exact ⟨sd, _, h4, h5, hs, h2⟩

/-- The octets of C61_malformed_accepted_counterexample: an OCTET STRING instead of a SignedData stands for an empty
message. -/
example (env : Env) : ∃ sd, Outer [48, 17, 6, 10, 42, 129, 28, 207, 85, 6, 1, 4, 2, 2, 160, 3, 4, 1, 0] sd ∧
    LaxSignedData sd [] [] none [] := by
  obtain ⟨sd, c, certs, h1, h2, h3, h4⟩ :=
    (C96_parse_grammar env [48, 17, 6, 10, 42, 129, 28, 207, 85, 6, 1, 4, 2, 2, 160, 3, 4, 1, 0] ⟨[], [], none, []⟩).mp ⟨{}, rfl, rfl⟩
  obtain ⟨ci, h5, h6, h7⟩ := (outer_iff _ _).mp h1
  have h8 : parseField X509.contentInfo {} [48, 17, 6, 10, 42, 129, 28, 207, 85, 6, 1, 4, 2, 2, 160, 3, 4, 1, 0] =
      some (⟨oidGMSignedData, rawOf 2 true 0 [4, 1, 0]⟩, []) := by decide +kernel
  rw [h8] at h5
  simp only [Option.some.injEq, Prod.mk.injEq, and_true] at h5
  subst h5
  refine ⟨sd, h1, (lax_iff _ _ _ _ _).mpr ?_⟩
  rw [← h7]
  have h9 : unmarshalSignedData [4, 1, 0] = {} := by decide +kernel
  show (unmarshalSignedData [4, 1, 0]).contentInfo.content.bytes = [] ∧ CertsOf (unmarshalSignedData [4, 1, 0]).certificates [] ∧
    (unmarshalSignedData [4, 1, 0]).crls.map (·.map crlFields) = none ∧ (unmarshalSignedData [4, 1, 0]).signerInfos.map signerOf = []
  rw [h9]
  exact ⟨rfl, Or.inl ⟨rfl, rfl⟩, rfl, rfl⟩

end MCrypto.Props
