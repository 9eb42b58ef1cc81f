import Verif.Props.Pkcs7Ex
/-
C78, C79: what users of a parsed PKCS#7 message get from `GetOnlySigner` and `UnmarshalSignedAttribute`.
-/
namespace MCrypto.Props
open MCrypto MCrypto.X509 MCrypto.X509Spec MCrypto.Pkcs7Spec MCrypto.Asn1

theorem parsed_signers {env : Env} {data : Bytes} {p7 : PKCS7} (hp : ParsePKCS7 env data = .ok p7) :
    p7.raw.signerInfos = p7.signers := by
  unfold ParsePKCS7 at hp
  split at hp
  · cases hp
  split at hp
  · cases hp
  split at hp
  · cases hp
  split at hp
  · simp only [parseSignedData, Res.bind_eq_ok, Res.pure_eq, Res.ok.injEq] at hp
    obtain ⟨certs, h1, content, h2, rfl⟩ := hp
    rfl
  · cases hp

theorem parsed_serials {env : Env} {data : Bytes} {p7 : PKCS7} (hp : ParsePKCS7 env data = .ok p7) :
    ∀ c ∈ p7.certificates, c.serialNumber ≠ none := by
  intro c hc
  obtain ⟨d, hd⟩ := (parsePKCS7_wf hp).1 c hc
  exact parsed_serial hd

/-- **C78** For a parsed message `GetOnlySigner` returns the certificate `c` exactly if the message has one signer and `c`
is the first embedded certificate with the issuer name and serial number of that signer. -/
theorem C78_only_signer_iff (env : Env) (data : Bytes) (p7 : PKCS7) (hp : ParsePKCS7 env data = .ok p7) (c : Certificate) :
    p7.getOnlySigner = .ok (some c) ↔ ∃ s, p7.signers = [s] ∧ SignerCert p7.certificates s c := by
  unfold PKCS7.getOnlySigner
  split
  · rename_i s hs
    rw [getCert_iff _ _ (parsed_serials hp) s rfl c]
    simp [hs]
  · rename_i hn
    constructor
    · intro h; cases h
    · rintro ⟨s, hs, -⟩; exact absurd hs (hn s)

/-- **C78** In all other cases it returns nil. -/
theorem C78_only_signer_nil (env : Env) (H : StdHashes) (V : Verifiers) (data : Bytes) (p7 : PKCS7)
    (hp : ParsePKCS7 env data = .ok p7) :
    p7.getOnlySigner = .ok none ↔ ∀ s, p7.signers = [s] → ∀ c, ¬ SignerCert p7.certificates s c := by
  have hnp := ((C57_no_panic env H V data).2 p7 hp).2
  have hne : ∀ e, p7.getOnlySigner ≠ .err e := by
    intro e
    unfold PKCS7.getOnlySigner
    split
    · rename_i s _
      generalize p7.certificates = l
      induction l with
      | nil => simp [getCert]
      | cons d l ih =>
        rw [getCert]
        cases hm : isCertMatch d s.issuerAndSerialNumber with
        | ok b =>
          rw [Res.bind_ok]
          cases b
          · simpa using ih
          · simp
        | err e => unfold isCertMatch at hm; split at hm <;> cases hm
        | panic => simp
    · simp
  constructor
  · intro h s hs c hc
    rw [(C78_only_signer_iff env data p7 hp c).mpr ⟨s, hs, hc⟩] at h
    cases h
  · intro h
    cases hg : p7.getOnlySigner with
    | ok o =>
      cases o with
      | none => rfl
      | some c =>
        obtain ⟨s, hs, hc⟩ := (C78_only_signer_iff env data p7 hp c).mp hg
        exact absurd hc (h s hs c)
    | err e => exact absurd hg (hne e)
    | panic => exact absurd hg hnp

/-- **C78** When a parsed message with one signer verifies, `GetOnlySigner` returns a certificate, and it is the key of that
certificate which accepted the signature of the message. -/
theorem C78_only_signer_verified (env : Env) (H : StdHashes) (V : Verifiers) (data : Bytes) (p7 : PKCS7)
    (hp : ParsePKCS7 env data = .ok p7) (hv : p7.verify (initRegistry H) V = .ok ()) (s : SignerInfo)
    (hs : p7.signers = [s]) :
    ∃ c m, p7.getOnlySigner = .ok (some c) ∧ c ∈ p7.certificates ∧ SignedMessage p7.content s m ∧
      SigAccepted (lastRegistered (initCalls H)) V SM2WithSM3 m s.encryptedDigest c.publicKey := by
  obtain ⟨m, c, h1, h2, h3⟩ := ((C57_parsed_verify_iff env H V data p7 hp).mp hv).2 s (by simp [hs])
  refine ⟨c, m, (C78_only_signer_iff env data p7 hp c).mpr ⟨s, hs, h2⟩, ?_, h1, h3⟩
  obtain ⟨pre, post, n, h, -⟩ := h2
  rw [h]; simp

/-- **C79** `UnmarshalSignedAttribute` returns `v` exactly if the message has a signer and the first attribute of that type
of the first signer has, as its first value, an encoding of `v`. -/
theorem C79_attribute_iff {α : Type} (codec : Codec α) (env : Env) (data : Bytes) (p7 : PKCS7)
    (hp : ParsePKCS7 env data = .ok p7) (type : Oid) (v : α) :
    p7.unmarshalSignedAttribute codec type = .ok v ↔
      ∃ s others pre a post rest, p7.signers = s :: others ∧ s.authenticatedAttributes.getD [] = pre ++ a :: post ∧
        a.type = type ∧ (∀ b ∈ pre, b.type ≠ type) ∧ unmarshal codec a.value.bytes = some (v, rest) := by
  unfold PKCS7.unmarshalSignedAttribute
  rw [parsed_signers hp]
  cases hs : p7.signers with
  | nil => simp
  | cons s l =>
    show unmarshalAttribute codec (s.authenticatedAttributes.getD []) type = .ok v ↔ _
    unfold unmarshalAttribute
    constructor
    · intro h
      split at h
      · cases h
      rename_i a ha
      split at h
      · cases h
      rename_i w rest hw
      simp only [Res.ok.injEq] at h
      subst h
      obtain ⟨h1, pre, post, h2, h3⟩ := List.find?_eq_some_iff_append.mp ha
      exact ⟨s, l, pre, a, post, rest, rfl, h2, by simpa using h1, fun b hb => by simpa using h3 b hb, hw⟩
    · rintro ⟨s', l', pre, a, post, rest, h0, h1, h2, h3, h4⟩
      simp only [List.cons.injEq] at h0
      obtain ⟨rfl, rfl⟩ := h0
      have hf : (s.authenticatedAttributes.getD []).find? (fun a => a.type == type) = some a :=
        List.find?_eq_some_iff_append.mpr ⟨by simpa using h2, pre, post, h1, fun b hb => by simpa using h3 b hb⟩
      rw [hf]
      show (match unmarshal codec a.value.bytes with
        | none => Res.err "asn1"
        | some (v, _) => Res.ok v) = .ok v
      rw [h4]

/-- **C79** What `UnmarshalSignedAttribute` returns from a message that verifies is signed: it is decoded from an attribute
in the DER SET OF attributes over which the key of the certificate of the first signer accepted the signature. -/
theorem C79_attribute_signed {α : Type} (codec : Codec α) (env : Env) (H : StdHashes) (V : Verifiers) (data : Bytes)
    (p7 : PKCS7) (hp : ParsePKCS7 env data = .ok p7) (hv : p7.verify (initRegistry H) V = .ok ()) (type : Oid) (v : α)
    (h : p7.unmarshalSignedAttribute codec type = .ok v) :
    ∃ s others a rest m c, p7.signers = s :: others ∧ a ∈ s.authenticatedAttributes.getD [] ∧ a.type = type ∧
      unmarshal codec a.value.bytes = some (v, rest) ∧ AttrSetDer (s.authenticatedAttributes.getD []) m ∧
      SignerCert p7.certificates s c ∧
      SigAccepted (lastRegistered (initCalls H)) V SM2WithSM3 m s.encryptedDigest c.publicKey := by
  obtain ⟨s, others, pre, a, post, rest, h1, h2, h3, -, h4⟩ := (C79_attribute_iff codec env data p7 hp type v).mp h
  obtain ⟨m, c, g1, g2, g3⟩ := ((C57_parsed_verify_iff env H V data p7 hp).mp hv).2 s (by simp [h1])
  have hm : AttrSetDer (s.authenticatedAttributes.getD []) m := by
    rcases g1 with ⟨g, _⟩ | ⟨_, _, g, _⟩
    · rw [h2] at g; simp at g
    · exact g
  exact ⟨s, others, a, rest, m, c, h1, by rw [h2]; simp, h3, h4, hm, g2, g3⟩

/-- **C79** A message without a signer and an attribute that is missing are errors, never a panic. -/
theorem C79_attribute_errors {α : Type} (codec : Codec α) (p7 : PKCS7) (type : Oid) :
    p7.unmarshalSignedAttribute codec type ≠ .panic ∧
    (p7.raw.signerInfos = [] → ∃ e, p7.unmarshalSignedAttribute codec type = .err e) ∧
    (∀ s others, p7.raw.signerInfos = s :: others → (∀ a ∈ s.authenticatedAttributes.getD [], a.type ≠ type) →
      ∃ e, p7.unmarshalSignedAttribute codec type = .err e) := by
  unfold PKCS7.unmarshalSignedAttribute
  refine ⟨?_, fun h => ⟨_, by rw [h]⟩, fun s others h ha => ⟨"pkcs7: attribute type not in attributes", ?_⟩⟩
  · split
    · simp
    · unfold unmarshalAttribute
      split
      · simp
      · split <;> simp
  · rw [h]
    show unmarshalAttribute codec _ type = _
    unfold unmarshalAttribute
    rw [List.find?_eq_none.mpr fun a h => by simpa using ha a h]

/-- The message of `Pkcs7Ex`: one signer, so a certificate; its messageDigest attribute is the SM3 digest of the content. -/
example : ∃ p7 c, ParsePKCS7 p7Env p7Out = .ok p7 ∧ p7.verify (initRegistry p7Hashes) p7V = .ok () ∧
    p7.getOnlySigner = .ok (some c) ∧
    p7.unmarshalSignedAttribute octets [1, 2, 840, 113549, 1, 9, 4] = .ok (Sm3Spec.sm3 [97]) := by
  obtain ⟨p7, s, h1, h2, h3, h4, h5⟩ := p7Out_verifies
  obtain ⟨c, -, h6, -⟩ := C78_only_signer_verified p7Env p7Hashes p7V _ p7 h1 h5 s h3
  refine ⟨p7, c, h1, h5, h6, ?_⟩
  rcases h4 with ⟨-, h⟩ | ⟨-, ⟨pre, a, post, rest, g1, g2, g3, g4⟩, -, -⟩
  · exact absurd h (by decide)
  · refine (C79_attribute_iff octets p7Env _ p7 h1 _ _).mpr ⟨s, [], pre, a, post, rest, h3, g1, g2, g3, ?_⟩
    refine (unmarshal_iff octets (by decide) _ _ _).mpr ⟨_, ?_, by rw [Sm3.sm3_length]; decide, rfl⟩
    rw [g4]
    simp only [octets]
    rw [encTLV_tlv _ _ _ _ (by decide)]
    rfl

end MCrypto.Props
