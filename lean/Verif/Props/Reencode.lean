import Verif.Props.X509KeyDer
import Verif.Props.X509VerifyDer
import Verif.Props.Pkcs7
import Verif.Props.P12Helpers
import Verif.Props.Sm2More
/-
C104: no octets make a parser or a signature check panic, but a key that is accepted can make signing panic.
C105: keys that were read are written and read back unchanged, and different keys have different encodings.
(x509/pkcs1.go, pkcs8.go, sec1.go, parser.go, x509.go; models Verif/X509/Keys.lean, Parser.lean, Create.lean.)
-/
namespace MCrypto.Props
open MCrypto MCrypto.Asn1 MCrypto.X509 MCrypto.X509Spec MCrypto.P12

/-- **C104** No parser panics on any octets. -/
theorem C104_parsers (env : Env) (edPub : Bytes → Bytes) (pem : Bytes → Option (Bytes × Bytes)) (der : Bytes) :
    ParseCertificate env der ≠ .panic ∧ ParseCertificates env der ≠ .panic ∧ ParseDERCRL der ≠ .panic ∧
    ParseCRL pem der ≠ .panic ∧ ParseCertificateRequest env der ≠ .panic ∧ ParsePKCS7 env der ≠ .panic ∧
    parsePKIXPublicKey der ≠ .panic ∧ parsePKCS1PublicKey der ≠ .panic ∧ parsePKCS1PrivateKey der ≠ .panic ∧
    parsePKCS8PrivateKey edPub der ≠ .panic ∧ parseECPrivateKey none der ≠ .panic ∧ Sm2.unmarshalSign der ≠ .panic := by
  have hcrl : ∀ d, ParseDERCRL d ≠ .panic := by
    intro d
    unfold ParseDERCRL
    repeat' split
    all_goals simp
  refine ⟨(C66_parseCertificates_no_panic env der).2, (C66_parseCertificates_no_panic env der).1, hcrl der, ?_, ?_,
    ?_, (C56_pkix_sound der).1, ?_, parsePKCS1_ne_panic der,
    parsePKCS8_ne_panic edPub der, C54_sec1_no_panic none der, ?_⟩
  · unfold ParseCRL
    repeat' split
    all_goals exact hcrl _
  · unfold ParseCertificateRequest
    split
    · simp
    split
    · simp
    unfold parseCertificateRequest
    exact bind_ne_panic (parsePublicKey_ne_panic _ _) fun _ _ => bind_ne_panic (ofOption_ne_panic _ _) fun _ _ =>
      bind_ne_panic (ofOption_ne_panic _ _) fun _ _ => ofOption_ne_panic _ _
  · exact (C57_no_panic env ⟨id, id, id, id, id, id, id, id, id, id, id, id, id⟩ ⟨fun _ _ _ _ => true, fun _ _ _ _ => true,
      fun _ _ _ => true, fun _ _ _ => true⟩ der).1
  · unfold parsePKCS1PublicKey
    repeat' split
    all_goals simp
  · unfold Sm2.unmarshalSign
    repeat' split
    all_goals simp

/-- **C104** No signature check panics, whatever the objects, the key and the signature (with the hashes that the package
registers). -/
theorem C104_checks (H : StdHashes) (V : Verifiers) (c parent : Certificate) (algo : Int) (signed sig : Bytes)
    (list : CertificateList) (req : CertificateRequest) :
    c.checkSignature (initRegistry H) V algo signed sig ≠ .panic ∧
    c.checkSignatureFrom (initRegistry H) V parent ≠ .panic ∧
    parent.checkCRLSignature (initRegistry H) V list ≠ .panic ∧
    req.checkSignature (initRegistry H) V ≠ .panic := by
  refine ⟨(C41_accepts_iff_init H V _ _ _ _).2, ?_, (C41_accepts_iff_init H V _ _ _ _).2, (C41_accepts_iff_init H V _ _ _ _).2⟩
  unfold Certificate.checkSignatureFrom
  repeat' split
  all_goals first | exact (C41_accepts_iff_init H V _ _ _ _).2 | simp

/-- **C104** But a key that is accepted can make signing panic: the SM2 key N - 1 can be written and read, and every
signature with it, given enough random octets, panics. -/
theorem C104_accepted_key_panics (edPub : Bytes → Bytes) :
    ∃ (der : Bytes) (k : Sm2.PrivateKey), parsePKCS8PrivateKey edPub der = .ok (.sm2 k) ∧ k.d = Curve.N - 1 ∧
      ∀ (rd : Reader) (digest : Bytes), (∃ j, 40 * (j + 1) ≤ rd.length ∧ Sm2Spec.goodNonce (ofBytes digest) (Sm2Spec.nonce rd j)) →
        Sm2.signDigestRS rd k digest = .panic := by
  let q := Curve.scalarMult sm2p256.p sm2p256.g (toBytes (Curve.N - 1))
  let k : Sm2.PrivateKey := ⟨⟨.sm2p256v1, q.1, q.2⟩, Curve.N - 1⟩
  have hk : IsKeyPair k := ⟨sm2p256, rfl, by show Curve.N - 1 < Curve.N; decide +kernel, rfl⟩
  obtain ⟨b, -, hb⟩ := C53_pkcs8_sm2_roundtrip edPub k hk rfl []
  refine ⟨b ++ [], k, hb, rfl, fun rd digest hg => (Sm2.C13_panics_iff rd k digest).mpr ⟨?_, hg⟩⟩
  show (Curve.N - 1 + 1) % Curve.N = 0
  decide +kernel

/-- The keys of PKCS #8 that are written without loss: EC key pairs, Ed25519 keys made from a seed, RSA keys with two or
with pairwise coprime factors whose encoding is below 1 GB. -/
def Writable : PrivKey → Prop
  | .rsa k => Factors k.primes ∧ ∀ b, marshalPKCS1PrivateKey k = .ok b → b.length < 2 ^ 30 - 100
  | _ => True

/-- **C105** A private key that was read from PKCS #8, from whatever encoding, can be written and is read back unchanged. -/
theorem C105_pkcs8 (edPub : Bytes → Bytes) (der : Bytes) (k : PrivKey) (h : parsePKCS8PrivateKey edPub der = .ok k)
    (hw : Writable k) : ∃ b, marshalPKCS8PrivateKey k = .ok b ∧ parsePKCS8PrivateKey edPub b = .ok k := by
  have hec : ∀ s : Sm2.PrivateKey, IsKeyPair s → k = ecPrivKey s →
      ∃ b, marshalPKCS8PrivateKey k = .ok b ∧ parsePKCS8PrivateKey edPub b = .ok k := by
    rintro s hs rfl
    unfold ecPrivKey
    split
    · rename_i hc
      obtain ⟨b, h1, h2⟩ := C53_pkcs8_sm2_roundtrip edPub s hs hc []
      exact ⟨b, h1, by rwa [List.append_nil] at h2⟩
    · rename_i hc
      obtain ⟨b, h1, h2⟩ := C53_pkcs8_ecdsa_roundtrip edPub s hs hc []
      exact ⟨b, h1, by rwa [List.append_nil] at h2⟩
  unfold parsePKCS8PrivateKey at h
  split at h
  · cases h
  · rename_i v rest hu
    split at h
    · unfold parsePKCS8RSA at h
      split at h
      · rename_i key hkey
        obtain rfl := Res.ok.inj h
        obtain ⟨kb, h1, h2⟩ := C53_pkcs8_rsa_roundtrip edPub key (C55_pkcs1_private_sound _ _ hkey) hw.1 []
        obtain ⟨b, h3, h4⟩ := h2 (hw.2 kb h1)
        exact ⟨b, h3, by rwa [List.append_nil] at h4⟩
      · cases h
      · cases h
    split at h
    · unfold parsePKCS8EC at h
      simp only [] at h
      split at h
      · rename_i key hkey
        obtain rfl := Res.ok.inj h
        obtain ⟨s, hs, hp, -⟩ := C54_sec1_sound _ _ _ hkey
        exact hec s hp hs
      · cases h
      · cases h
    split at h
    · unfold parsePKCS8Ed at h
      split at h
      · cases h
      split at h
      · cases h
      split at h
      · cases h
      rename_i seed _ _ hl
      obtain rfl := Res.ok.inj h
      obtain ⟨b, h1, h2⟩ := C53_pkcs8_ed25519_roundtrip edPub seed (by omega) []
      exact ⟨b, h1, by rwa [List.append_nil] at h2⟩
    · cases h

/-- **C105** The same for SEC 1. -/
theorem C105_sec1 (der : Bytes) (key : PrivKey) (h : parseECPrivateKey none der = .ok key) :
    ∃ k b, key = ecPrivKey k ∧ marshalECPrivateKey k = .ok b ∧ parseECPrivateKey none b = .ok key := by
  obtain ⟨k, rfl, hk, -⟩ := C54_sec1_sound _ _ _ h
  obtain ⟨b, h1, h2⟩ := C54_sec1_roundtrip k hk []
  exact ⟨k, b, rfl, h1, by rwa [List.append_nil] at h2⟩

/-- **C105** The same for PKCS #1. -/
theorem C105_pkcs1 (der : Bytes) (k : RsaPriv) (h : parsePKCS1PrivateKey der = .ok k) (hf : Factors k.primes) :
    ∃ b, marshalPKCS1PrivateKey k = .ok b ∧ (b.length < 2 ^ 31 → parsePKCS1PrivateKey b = .ok k) :=
  C55_pkcs1_private_roundtrip k (C55_pkcs1_private_sound der k h) hf

theorem isTLV_length {e : Bytes} {t : UInt8} {b : Bytes} (h : DerSpec.IsTLV e t b) : b.length ≤ e.length := by
  obtain ⟨l, -, rfl⟩ := h
  simp only [List.length_cons, List.length_append]
  omega

theorem elem_body_length {t : Der.Tag} {b e : Bytes} (h : Elem t b e) : b.length ≤ e.length := by
  rw [h.1]
  unfold Der.tlv
  simp only [List.length_cons, List.length_append]
  omega

/-- **C105** Public keys that were read, other than DSA keys, which cannot be written, are written and read back unchanged. -/
theorem C105_pkix (der : Bytes) (k : PubKey) (h : parsePKIXPublicKey der = .ok k) (hs : der.length < 2 ^ 29) :
    (∃ d, k = .dsa d ∧ ∃ e, marshalPKIXPublicKey k = .err e) ∨
    ∃ b, marshalPKIXPublicKey k = .ok b ∧ parsePKIXPublicKey b = .ok k := by
  rcases (C56_pkix_sound der).2 k h with ⟨s, rfl, hc⟩ | ⟨r, rfl, hn, he⟩ | ⟨b, rfl, hl⟩ | ⟨d, rfl, -⟩
  · obtain ⟨b, ⟨h1, h2⟩, h3⟩ := C56_pkix_ec_roundtrip s hc
    refine Or.inr ⟨b, ?_, h3⟩
    unfold ecPubKey
    split
    · exact h2
    · exact h1
  · obtain ⟨o, par, key, ⟨ae, be, junk, hd, -, hb⟩, -, hk⟩ := (C93_pkix_grammar der _).mp h
    refine Or.inr ?_
    unfold KeyDer at hk
    split at hk
    · obtain ⟨-, e, ne, ee, jk, tr, n, x, h1, h2, h3, h4, h5, h6, h7, h8⟩ := hk
      obtain rfl : r = ⟨n, x⟩ := PubKey.rsa.inj h8
      refine C56_pkix_rsa_roundtrip _ hn he h7 ?_
      obtain ⟨b, bytes, u, hb1, ⟨p, rfl, -⟩, hb3, -⟩ := hb
      have l1 := isTLV_length hd.1
      have l2 := isTLV_length hb1.1
      have l3 := elem_body_length h2
      have l4 := elem_body_length h3
      have l5 : key.length = e.length + tr.length := by rw [h1, List.length_append]
      simp only [List.length_append, List.length_cons] at l1 l2 l3
      show (Der.encInt n).length < 2 ^ 29
      omega
    · exfalso
      split at hk
      · obtain ⟨_, _, _, _, _, _, _, _, _, _, _, _, _, _, _, _, _, _, _, _, _, _, _, hx⟩ := hk
        cases hx
      split at hk
      · obtain ⟨_, _, _, _, _, _, _, _, _, _, _, _, _, hx⟩ := hk
        unfold ecPubKey at hx
        split at hx <;> cases hx
      split at hk
      · cases hk.2.2
      · cases hk
  · exact Or.inr (C56_pkix_ed25519_roundtrip b hl)
  · exact Or.inl ⟨d, rfl, (C56_pkix_other d 0).1⟩

/-- **C105** Different private keys have different PKCS #8 encodings (for keys that a parser can return). -/
theorem C105_distinct (edPub : Bytes → Bytes) (d₁ d₂ : Bytes) (k₁ k₂ : PrivKey)
    (h₁ : parsePKCS8PrivateKey edPub d₁ = .ok k₁) (h₂ : parsePKCS8PrivateKey edPub d₂ = .ok k₂)
    (w₁ : Writable k₁) (w₂ : Writable k₂) (h : marshalPKCS8PrivateKey k₁ = marshalPKCS8PrivateKey k₂) : k₁ = k₂ := by
  obtain ⟨b₁, m₁, p₁⟩ := C105_pkcs8 edPub d₁ k₁ h₁ w₁
  obtain ⟨b₂, m₂, p₂⟩ := C105_pkcs8 edPub d₂ k₂ h₂ w₂
  rw [m₁, m₂] at h
  obtain rfl := Res.ok.inj h
  rw [p₁] at p₂
  exact Res.ok.inj p₂

/-- **C105** Different public keys have different PKIX encodings. -/
theorem C105_distinct_pkix (d₁ d₂ : Bytes) (k₁ k₂ : PubKey) (h₁ : parsePKIXPublicKey d₁ = .ok k₁)
    (h₂ : parsePKIXPublicKey d₂ = .ok k₂) (l₁ : d₁.length < 2 ^ 29) (l₂ : d₂.length < 2 ^ 29) (b : Bytes)
    (m₁ : marshalPKIXPublicKey k₁ = .ok b) (m₂ : marshalPKIXPublicKey k₂ = .ok b) : k₁ = k₂ := by
  have key : ∀ (d : Bytes) (k : PubKey), parsePKIXPublicKey d = .ok k → d.length < 2 ^ 29 →
      marshalPKIXPublicKey k = .ok b → parsePKIXPublicKey b = .ok k := by
    intro d k hp hl hm
    rcases C105_pkix d k hp hl with ⟨_, rfl, e, he⟩ | ⟨b', hb, hp'⟩
    · rw [hm] at he
      cases he
    · rw [hm] at hb
      obtain rfl := Res.ok.inj hb
      exact hp'
  have e₁ := key d₁ k₁ h₁ l₁ m₁
  rw [key d₂ k₂ h₂ l₂ m₂] at e₁
  exact (Res.ok.inj e₁).symm

/-- **C107** Every SM2 key that `ParsePKIXPublicKey` or `ParseCertificate` returns is a point on the curve other than
infinity, so verification with it is the same in all versions of Go. -/
theorem C107_parsed_keys (env : Env) (der : Bytes) (k : Sm2.PublicKey)
    (h : parsePKIXPublicKey der = .ok (.sm2 k) ∨ ∃ c, ParseCertificate env der = .ok c ∧ c.publicKey = .sm2 k) :
    Curve.isOnCurve Curve.P Curve.B (k.x, k.y) = true ∧
    ∀ digest r s, Sm2.verifyDigestRSChecked k digest r s = .ok (Sm2.verifyDigestRS k digest r s) := by
  have hon : Curve.isOnCurve Curve.P Curve.B (k.x, k.y) = true := by
    rcases h with h | ⟨c, h, hk⟩
    · obtain ⟨o, par, key, -, -, hk⟩ := (C93_pkix_grammar der _).mp h
      exact keyDer_sm2_on hk
    · obtain ⟨pf, p1, p2, -⟩ := C70_fields env der c h
      rw [hk] at p2
      exact keyDer_sm2_on p2
  exact ⟨hon, fun digest r s => (Sm2.C107_verify k digest r s).1 (Or.inl hon)⟩

/-- The hypotheses are met: every SM2 key pair and every Ed25519 seed is read from some octets and is `Writable`. -/
example (edPub : Bytes → Bytes) (k : Sm2.PrivateKey) (hk : IsKeyPair k) (hc : k.pub.curve = .sm2p256v1) :
    ∃ der, parsePKCS8PrivateKey edPub der = .ok (.sm2 k) ∧ Writable (.sm2 k) := by
  obtain ⟨b, -, hb⟩ := C53_pkcs8_sm2_roundtrip edPub k hk hc []
  exact ⟨_, hb, trivial⟩

example (edPub : Bytes → Bytes) : ∃ der seed, parsePKCS8PrivateKey edPub der = .ok (.ed25519 (seed ++ edPub seed)) := by
  obtain ⟨b, -, hb⟩ := C53_pkcs8_ed25519_roundtrip edPub (List.replicate 32 7) (by simp) []
  exact ⟨_, _, hb⟩

/-- The condition on the nonce in `C104_accepted_key_panics` is met: 40 zero octets and a suitable digest. -/
example : ∃ (rd : Reader) (digest : Bytes) (j : Nat), 40 * (j + 1) ≤ rd.length ∧
    Sm2Spec.goodNonce (ofBytes digest) (Sm2Spec.nonce rd j) := by
  have hk : Sm2Spec.nonce (List.replicate 40 0) 0 = 1 := by decide +kernel
  have hN : 2 < Curve.N := by decide +kernel
  refine ⟨List.replicate 40 0, toBytes (Curve.N - Sm2Spec.xOf 1 % Curve.N + 1), 0, by simp, ?_⟩
  rw [hk, ofBytes_toBytes]
  have hr : (Curve.N - Sm2Spec.xOf 1 % Curve.N + 1 + Sm2Spec.xOf 1) % Curve.N = 1 := by
    have h1 := Nat.div_add_mod (Sm2Spec.xOf 1) Curve.N
    have h2 : Sm2Spec.xOf 1 % Curve.N < Curve.N := Nat.mod_lt _ (by omega)
    rw [show Curve.N - Sm2Spec.xOf 1 % Curve.N + 1 + Sm2Spec.xOf 1 =
      1 + Curve.N * (Sm2Spec.xOf 1 / Curve.N + 1) by rw [Nat.mul_add]; omega, Nat.add_mul_mod_self_left]
    exact Nat.mod_eq_of_lt (by omega)
  unfold Sm2Spec.goodNonce
  rw [hr]
  omega

end MCrypto.Props
