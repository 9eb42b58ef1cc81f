import Verif.X509.Issuers
import Verif.Props.RsaDocs
import Verif.Props.X509Csr
/-
C133: which private keys can issue documents.
-/
namespace MCrypto.Props
open MCrypto MCrypto.X509 MCrypto.X509Spec MCrypto.Asn1 MCrypto.Sm2Spec
open MCrypto.Sm2 (CurveId)

/-- The keys of the standard library on curves it has: RSA, or ECDSA on a NIST curve. -/
def StandardKey : PrivKey → Prop
  | .rsa _ => True
  | .ecdsa k => k.pub.curve ∈ [P224, P256, P384, P521]
  | _ => False

theorem asSigner_cases {L : KeyMethods} {k : PrivKey} {s : Signer} (h : asSigner L k = some s) (hc : CanSign s.pub) :
    StandardKey k ∨ ∃ e, s.pub = .ed25519 e := by
  cases k with
  | rsa k => exact .inl trivial
  | ecdsa k =>
    obtain rfl := Option.some.inj h
    left
    show k.pub.curve ∈ _
    simpa [CanSign] using hc
  | sm2 k => cases h
  | ed25519 k =>
    obtain rfl := Option.some.inj h
    exact .inr ⟨_, rfl⟩
  | other n => cases h

/-- **C133** Only RSA keys and ECDSA keys on NIST curves can issue certificates with `CreateCertificate`: with an SM2 key (which is not a
`crypto.Signer`) and with an Ed25519 key (whose signatures the check at the end never accepts) there is no template, parent and
subject key for which a certificate is returned. -/
theorem C133_certificate_issuers (L : KeyMethods) (V : Verifiers) (sha1 : Bytes → Bytes) (k : PrivKey) (t p : Certificate) (pub : PubKey)
    (der : Bytes) (hl : der.length < 2 ^ 31) (h : CreateCertificate ⟨initRegistry L.H, V, sha1⟩ t p pub (asSigner L k) = .ok der) :
    StandardKey k := by
  obtain ⟨key, hk, hreq⟩ := C63_requires _ _ _ _ _ _ h
  rw [hk] at h
  rcases asSigner_cases hk hreq.canSign with hs | ⟨e, he⟩
  · exact hs
  · exact absurd h (C63_ed25519_never L.H V sha1 t p pub key e he der hl)

/-- No key and no signature is accepted under the algorithm of Ed25519. -/
theorem ed25519_never_checks (H : StdHashes) (V : Verifiers) (tbs sig : Bytes) (pub : PubKey) :
    checkSignature (initRegistry H) V PureEd25519 tbs sig pub ≠ .ok () := by
  intro h
  rcases C41_mismatch_rejected (initCalls H) _ (initRegistry_ok H) (by rw [lastRegistered_init]; simp) V _ _ _ _ h with
    ⟨_, -, h⟩ | ⟨_, -, h⟩ <;> revert h <;> decide

/-- **C133** A request made with the key passes `CheckSignature` once parsed only if the key is RSA or ECDSA on a NIST curve; with SM2
keys none is made. -/
theorem C133_request_issuers (L : KeyMethods) (V : Verifiers) (env : Env) (k : PrivKey) (t : CertificateRequest) (der : Bytes)
    (hl : der.length < 2 ^ 31 - 6) (h : CreateCertificateRequest (initRegistry L.H) t (asSigner L k) = .ok der)
    (ht : ∀ s, asSigner L k = some s → RequestOk env t s) (ha : ∀ a ∈ t.attributes, AttrOk a ∧ a.type ≠ extensionRequest) :
    (∀ d, k ≠ .sm2 d) ∧
    ∃ c, ParseCertificateRequest env der = .ok c ∧ (c.checkSignature (initRegistry L.H) V = .ok () → StandardKey k) := by
  obtain ⟨key, hk, hreq⟩ := C76_requires _ _ _ _ h
  refine ⟨fun d e => (by rw [e] at hk; cases hk), ?_⟩
  rw [hk] at h
  obtain ⟨c, _, h1, h2, -⟩ := C62_roundtrip _ env t key der h hl (ht key hk) ha
  refine ⟨c, h1, fun hc => ?_⟩
  rcases asSigner_cases hk hreq.canSign with hs | ⟨e, he⟩
  · exact hs
  · exfalso
    have h15 : c.signatureAlgorithm = PureEd25519 := by
      rw [h2.algorithm]
      have hf := hreq.family
      rw [he] at hf ⊢
      rcases hf with h0 | h0
      · rw [if_pos h0]; rfl
      · have h15 : t.signatureAlgorithm = 15 := h0
        rw [h15]; rfl
    unfold CertificateRequest.checkSignature at hc
    rw [h15] at hc
    exact ed25519_never_checks _ _ _ _ _ hc

/-- **C133** A list made by `CreateCRL` with the key passes the check against some certificate only if the key is RSA or ECDSA on a NIST
curve; with SM2 keys none is made. -/
theorem C133_crl_issuers (L : KeyMethods) (V : Verifiers) (sha1 : Bytes → Bytes) (k : PrivKey) (c : Certificate) (rs : List Revoked)
    (now expiry : Time) (der : Bytes) (hl : der.length < 2 ^ 31) (ht : CreateCrlOk c rs now expiry)
    (h : c.createCRL ⟨initRegistry L.H, V, sha1⟩ (asSigner L k) rs now expiry = .ok der) :
    (∀ d, k ≠ .sm2 d) ∧
    ∃ l, ParseDERCRL der = .ok l ∧
      ∀ cert : Certificate, cert.checkCRLSignature (initRegistry L.H) V l.signedPart = .ok () → StandardKey k := by
  cases hk : asSigner L k with
  | none => rw [hk] at h; cases h
  | some key =>
    refine ⟨fun d e => (by rw [e] at hk; cases hk), ?_⟩
    rw [hk] at h
    have hcan : CanSign key.pub := by
      have h' := h
      unfold Certificate.createCRL at h'
      simp only [Res.bind_eq_ok, Prod.exists] at h'
      obtain ⟨hf, sa, g1, -⟩ := h'
      exact ((C43_signing_ok_iff key.pub 0).mp ⟨_, g1⟩).1
    obtain ⟨l, _, digest, h1, -, -, -, -, -, -, -, h2, -⟩ := C74_roundtrip _ c _ rs now expiry der h hl ht
    refine ⟨l, h1, fun cert hc => ?_⟩
    rcases asSigner_cases hk hcan with hs | ⟨e, he⟩
    · exact hs
    · exfalso
      rw [he] at h2
      unfold Certificate.checkCRLSignature Certificate.checkSignature Crl.signedPart at hc
      rw [show getSignatureAlgorithmFromAI l.signatureAlgorithm = PureEd25519 from h2] at hc
      exact ed25519_never_checks _ _ _ _ _ hc

/-- **C133** The same for `CreateRevocationList`, to which SM2 keys cannot be passed at all. -/
theorem C133_revocation_list_issuers (L : KeyMethods) (V : Verifiers) (sha1 : Bytes → Bytes) (k : PrivKey) (s : Signer)
    (hk : asSigner L k = some s) (t : RevocationList) (issuer : Certificate) (der : Bytes) (hl : der.length < 2 ^ 31)
    (ht : RevocationListOk t issuer)
    (h : CreateRevocationList ⟨initRegistry L.H, V, sha1⟩ (some t) (some issuer) s = .ok der) :
    (∀ d, k ≠ .sm2 d) ∧
    ∃ l, ParseDERCRL der = .ok l ∧
      ∀ cert : Certificate, cert.checkCRLSignature (initRegistry L.H) V l.signedPart = .ok () → StandardKey k := by
  refine ⟨fun d e => (by rw [e] at hk; cases hk), ?_⟩
  have hreq := (crl_steps h).1
  obtain ⟨l, -, -, -, -, digest, opts, h1, -, -, -, -, -, -, -, -, -, -, h2, -⟩ := C73_roundtrip _ t issuer s der h hl ht
  refine ⟨l, h1, fun cert hc => ?_⟩
  rcases asSigner_cases hk hreq.canSign with hs | ⟨e, he⟩
  · exact hs
  · exfalso
    have hf := hreq.family
    rw [he] at h2 hf
    have h15 : getSignatureAlgorithmFromAI l.signatureAlgorithm = PureEd25519 := by
      rw [h2]
      rcases hf with h0 | h0
      · rw [if_pos h0]; rfl
      · have h15 : t.signatureAlgorithm = 15 := h0
        rw [h15]; rfl
    unfold Certificate.checkCRLSignature Certificate.checkSignature Crl.signedPart at hc
    rw [h15] at hc
    exact ed25519_never_checks _ _ _ _ _ hc

/-! ## SM2 keys in a wrapper -/

/-- **C133** A wrapper that gives an SM2 key the interface sees only the digest of the certificate part. Whatever hash value `g` it signs for
the digest it is handed, `CreateCertificate` returns a certificate only if `g` of that digest is, modulo the order, the hash the
verification of GB/T 32918.2 computes; under every algorithm but ECDSAWithSHA1, whose certificates are not checked. -/
theorem C133_wrapped_certificate (H : StdHashes) (V : Verifiers) (sha1 : Bytes → Bytes) (t p : Certificate) (pub : PubKey)
    (key : Signer) (k : Sm2.PublicKey) (Q : Curve.EP) (g : Bytes → Nat) (hk : key.pub = .sm2 k) (hQ : Represents k Q)
    (hx : k.x < 256 ^ 32) (hy : k.y < 256 ^ 32) (halg : t.signatureAlgorithm ≠ ECDSAWithSHA1)
    (hsign : ∀ d o sig, key.sign d o = some sig → ∃ r s, DerSpec.IsSig sig r s ∧ ValidSig Q (g d) r s)
    (der : Bytes) (hl : der.length < 2 ^ 31) (h : CreateCertificate ⟨initRegistry H, V, sha1⟩ t p pub (some key) = .ok der) :
    ∃ tbs rest digest, Elem 0x30 (tbs ++ rest) der ∧
      digestFor (initRegistry H) (algHash (chosenAlg t.signatureAlgorithm (.sm2 k))) tbs = .ok digest ∧
      g digest % Curve.N = ofBytes (Sm3Spec.sm3 (Z defaultId k.x k.y ++ tbs)) % Curve.N := by
  obtain ⟨key', hk', hreq⟩ := C63_requires _ _ _ _ _ _ h
  obtain rfl := Option.some.inj hk'
  obtain ⟨tbs, algE, sigE, signature, a, h1, hbits, h3, ⟨digest, opts, h4, h5, -⟩, hcheck⟩ := C63_self_check _ _ _ _ _ _ h hl
  have haa : a = chosenAlg t.signatureAlgorithm (.sm2 k) := by rw [h3, hk]; rfl
  have hok := hcheck (by
    have hf := hreq.family
    rw [hk] at hf
    rw [h3, hk]
    rcases hf with h0 | ⟨hh, h0⟩
    · rw [if_pos h0]; show (16 : Int) ∉ uncheckedAlgorithms; decide
    · obtain ⟨r1, r2⟩ := scheme_range h0
      generalize t.signatureAlgorithm = b at *
      interval_cases b <;> simp [scheme] at h0 halg <;> simp [uncheckedAlgorithms])
  rw [hk] at hok
  obtain ⟨r, s, g1, g2⟩ := C41_sm2_sound (initCalls H) _ (initRegistry_ok H) (by rw [lastRegistered_init]; simp) V _ tbs
    signature k Q hQ hx hy hok
  obtain ⟨r', s', g3, g4⟩ := hsign _ _ _ h5
  have hlen : signature.length < 2 ^ 32 := by
    obtain ⟨pad, bytes, he, -, -, -, hlen, -⟩ := hbits
    have := he.2.2; rw [List.length_cons] at this; omega
  obtain ⟨rfl, rfl⟩ := isSig_unique hlen g1 g3
  exact ⟨tbs, algE ++ sigE, digest, h1, by rw [← haa]; exact h4, validSig_digest g4 g2⟩

/-- The signer that signs the digest it is given, with `(*sm2.PrivateKey).SignDigest`. -/
def sm2DigestSigner (rd : Reader) (priv : Sm2.PrivateKey) : Signer :=
  ⟨.sm2 priv.pub, fun d _ => match Sm2.signDigest rd priv d with
    | .ok sig => some sig
    | _ => none⟩

theorem signDigest_cases {rd : Reader} {priv : Sm2.PrivateKey} {digest sig : Bytes} (h : Sm2.signDigest rd priv digest = .ok sig) :
    ∃ r s rd', Sm2.signDigestRS rd priv digest = .ok (r, s, rd') ∧ Sm2.unmarshalSign sig = .ok (r, s) := by
  unfold Sm2.signDigest at h
  split at h
  · rename_i r s rd' hr
    have hv := Sm2.C06_sign_valid rd priv digest r s rd' hr
    obtain ⟨b, h1, h2, h3⟩ := Sm2.C10_roundtrip r s 32 (by decide) (Sm2.pow_bound r hv.1) (Sm2.pow_bound s hv.2.1)
    rw [h1] at h
    obtain rfl := Res.ok.inj h
    exact ⟨r, s, rd', hr, h3⟩
  · cases h
  · cases h

theorem sm2DigestSigner_valid (rd : Reader) (priv : Sm2.PrivateKey)
    (d : Bytes) (o : SignOpts) (sig : Bytes) (h : (sm2DigestSigner rd priv).sign d o = some sig) :
    ∃ r s, DerSpec.IsSig sig r s ∧ ValidSig (priv.d • Curve.Gp) (ofBytes d) r s := by
  unfold sm2DigestSigner at h
  simp only [] at h
  split at h
  · rename_i sig' hs
    injection h with h
    subst h
    obtain ⟨r, s, rd', h1, h2⟩ := signDigest_cases hs
    exact ⟨r, s, ((Sm2.C11_accepts_iff _ _ _).mp h2).1, Sm2.C06_sign_valid rd priv _ r s rd' h1⟩
  · cases h

/-- **C133** The two wrappers one would write, around the library's `SignDigest` and around its `Sign`: a certificate under SM2WithSM3 comes
out only if SM3(tbs), or SM3(Z ‖ SM3(tbs)), agrees modulo the order with SM3(Z ‖ tbs), the value every verifier uses. So in practice
the library issues no SM2 certificate. -/
theorem C133_sm2_wrappers (H : StdHashes) (V : Verifiers) (sha1 : Bytes → Bytes) (t p : Certificate) (pub : PubKey)
    (rd : Reader) (priv : Sm2.PrivateKey) (hkp : KeyPair priv) (hx : priv.pub.x < 256 ^ 32) (hy : priv.pub.y < 256 ^ 32)
    (ha : t.signatureAlgorithm = 0 ∨ t.signatureAlgorithm = SM2WithSM3) (der : Bytes) (hl : der.length < 2 ^ 31) :
    (CreateCertificate ⟨initRegistry H, V, sha1⟩ t p pub (some (sm2DigestSigner rd priv)) = .ok der →
      ∃ tbs rest, Elem 0x30 (tbs ++ rest) der ∧
        ofBytes (Sm3.sum tbs) % Curve.N = ofBytes (Sm3Spec.sm3 (Z defaultId priv.pub.x priv.pub.y ++ tbs)) % Curve.N) ∧
    (CreateCertificate ⟨initRegistry H, V, sha1⟩ t p pub (some (sm2Signer rd priv)) = .ok der →
      ∃ tbs rest, Elem 0x30 (tbs ++ rest) der ∧
        ofBytes (Sm3Spec.sm3 (Z defaultId priv.pub.x priv.pub.y ++ Sm3.sum tbs)) % Curve.N =
          ofBytes (Sm3Spec.sm3 (Z defaultId priv.pub.x priv.pub.y ++ tbs)) % Curve.N) := by
  have hne : t.signatureAlgorithm ≠ ECDSAWithSHA1 := by rcases ha with h | h <;> rw [h] <;> decide
  have h16 : chosenAlg t.signatureAlgorithm (.sm2 priv.pub) = 16 := by
    rcases ha with h | h <;> rw [h] <;> rfl
  refine ⟨fun h => ?_, fun h => ?_⟩
  · obtain ⟨tbs, rest, digest, h1, h2, h3⟩ := C133_wrapped_certificate H V sha1 t p pub (sm2DigestSigner rd priv) priv.pub
      (priv.d • Curve.Gp) ofBytes rfl hkp hx hy hne (sm2DigestSigner_valid rd priv) der hl h
    rw [h16] at h2
    rw [digestFor_sm3 H _ _ h2] at h3
    exact ⟨tbs, rest, h1, h3⟩
  · obtain ⟨tbs, rest, digest, h1, h2, h3⟩ := C133_wrapped_certificate H V sha1 t p pub (sm2Signer rd priv) priv.pub
      (priv.d • Curve.Gp) (fun d => ofBytes (Sm3Spec.sm3 (Z defaultId priv.pub.x priv.pub.y ++ d))) rfl hkp hx hy hne
      (fun d o sig hs => (sm2Signer_valid rd priv hx hy d o sig hs).2) der hl h
    rw [h16] at h2
    rw [digestFor_sm3 H _ _ h2] at h3
    exact ⟨tbs, rest, h1, h3⟩

end MCrypto.Props
