import Verif.Props.RsaSign
import Verif.Props.CertWrite
import Verif.Props.RequestWrite
import Verif.Props.X509Crl
/-
C132: certificates, requests and revocation lists signed with RSA keys (x509.go:1682-1807, 1847-1910, 2059-2215, 2324-2425;
model Verif/X509/Create.lean and Verif/X509/Rsa.lean).
-/
namespace MCrypto.Props
open MCrypto MCrypto.X509 MCrypto.X509Spec MCrypto.Asn1 MCrypto.Dg MCrypto.Rsa MCrypto.RsaSpec

theorem rsaSigner_sign {H : StdHashes} {key : RsaPriv} {blind : Option Int} {rand d sig : Bytes} {o : SignOpts} :
    (rsaSigner H key blind rand).sign d o = some sig ↔ sign H key blind rand d o = .ok sig := by
  show (match sign H key blind rand d o with | .ok s => some s | _ => none) = some sig ↔ _
  cases sign H key blind rand d o <;> simp

theorem rsa_family {a requested : Int} {k : RsaPub} (ha : a = chosenAlg requested (.rsa k))
    (hf : requested = 0 ∨ FamilyFits (.rsa k) requested) : ∃ h, scheme a = some (.rsaPkcs1, h) ∨ scheme a = some (.rsaPss, h) := by
  unfold chosenAlg at ha
  by_cases h0 : requested = 0
  · rw [if_pos h0] at ha; subst ha; exact ⟨5, .inl rfl⟩
  · rw [if_neg h0] at ha; subst ha
    exact hf.resolve_left h0

theorem digest_init {H : StdHashes} {h : Nat} (hh : h = 2 ∨ h = 3 ∨ h = 5 ∨ h = 6 ∨ h = 7) {f : HashFn} (hf : stdHash H h = some f)
    {tbs digest : Bytes} : digestFor (initRegistry H) h tbs = .ok digest ↔ digest = f tbs := by
  rw [digest_out (initRegistry_ok H) (by omega)]
  unfold Digest
  rw [init_hash H hh, hf]
  constructor
  · rintro (⟨h0, -⟩ | ⟨-, f', e, rfl⟩)
    · omega
    · obtain rfl := Option.some.inj e; rfl
  · rintro rfl; exact .inr ⟨by omega, f, rfl, rfl⟩

/-- A signature made with the options of the algorithm is one of the algorithm. -/
theorem rsa_signed {H : StdHashes} (hl : HashLengths H) {key : RsaPriv} (hk : IsRsaKey key) {blind : Option Int} {rand : Bytes} {a : Int}
    (ha : ∃ h, scheme a = some (.rsaPkcs1, h) ∨ scheme a = some (.rsaPss, h)) {tbs digest sig : Bytes}
    (hd : digestFor (initRegistry H) (algHash a) tbs = .ok digest) (hs : sign H key blind rand digest (optsFor a) = .ok sig) :
    RsaSigned H key.pub a tbs sig := by
  obtain ⟨v1, v2⟩ := C132_signature_valid hl hk blind rand digest sig
  obtain ⟨h, ha⟩ := ha
  rcases ha with ha | ha
  · rcases scheme_rsa ha (.inl rfl) with ⟨-, hh, hna⟩ | ⟨hc, -⟩
    · have e : algHash a = h := by unfold algHash; rw [ha]
      have eo : optsFor a = .hash h := by
        unfold optsFor
        rw [if_neg (by simpa using hna), e]
      obtain ⟨f, n, e1, e2, e3, e4, o, e5⟩ := hash_size hl hh
      rw [e, digest_init hh e1] at hd
      subst hd
      rw [eo] at hs
      refine .inl ⟨h, f, ?_, v1 h (by rw [e5]; simp) hs⟩
      obtain ⟨r1, r2⟩ := scheme_range ha
      interval_cases a <;> simp [scheme] at ha <;> subst ha <;> (obtain rfl := Option.some.inj e1; simp)
    · cases hc
  · rcases scheme_rsa ha (.inr rfl) with ⟨hc, -⟩ | ⟨-, hh, hna⟩
    · cases hc
    · have e : algHash a = h := by unfold algHash; rw [ha]
      have eo : optsFor a = .pss h := by
        unfold optsFor
        rw [if_pos (by simpa using hna), e]
      obtain ⟨f, n, e1, e2, e3, e4, -⟩ := hash_size hl (h := h) (by omega)
      rw [e, digest_init (by omega) e1] at hd
      subst hd
      rw [eo] at hs
      have hm : (h, n, f) ∈ [(hSHA256, 32, H.sha256), (hSHA384, 48, H.sha384), (hSHA512, 64, H.sha512)] := by
        rcases hh with rfl | rfl | rfl <;> (obtain rfl := Option.some.inj e1; obtain rfl := Res.ok.inj e2; simp)
      refine .inr ⟨n, f, ?_, v2 h n f hm hs⟩
      obtain ⟨r1, r2⟩ := scheme_range ha
      interval_cases a <;> simp [scheme] at ha <;> subst ha <;>
        (obtain rfl := Option.some.inj e1; obtain rfl := Res.ok.inj e2; simp)

/-- **C132** A certificate signed by an RSA key with distinct primes under one of the PKCS #1 v1.5 algorithms: the octets are
determined by template, parent and keys. They are the certificate part of RFC 5280, the algorithm, and the encoding of the hash of
the former to the private exponent; and nothing else is ever returned. -/
theorem C132_certificate {H : StdHashes} (hl : HashLengths H) (V : Verifiers) (sha1 : Bytes → Bytes) (t p : Certificate) (pub : PubKey)
    {key : RsaPriv} (hk : IsRsaKey key) (hp : ∀ p ∈ key.primes, p.toNat.Prime) (hd : key.primes.Nodup) {blind : Option Int}
    (hb : Blinds key blind) (rand : Bytes) (ht : TemplateDefined t p) {h : Nat} {f : HashFn}
    (ha : (chosenAlg t.signatureAlgorithm (.rsa key.pub), h, f) ∈ [(SHA1WithRSA, hSHA1, H.sha1), (SHA256WithRSA, hSHA256, H.sha256),
      (SHA384WithRSA, hSHA384, H.sha384), (SHA512WithRSA, hSHA512, H.sha512)]) (w : Bytes) (hw : w.length < 2 ^ 31) :
    CreateCertificate ⟨initRegistry H, rsaVerifiers H V, sha1⟩ t p pub (some (rsaSigner H key blind rand)) = .ok w ↔
      CreateRequires t p pub (rsaSigner H key blind rand) ∧
      ∃ tbs em ae be, El 0x30 (tbs ++ (ae ++ be)) w ∧ TbsCertOut sha1 t p pub (chosenAlg t.signatureAlgorithm (.rsa key.pub)) tbs ∧
        SigAlgOut (chosenAlg t.signatureAlgorithm (.rsa key.pub)) ae ∧ EmsaV15 h (f tbs) em ∧ em.length = byteLen key.pub.n.natAbs ∧
        El 0x03 (0 :: beBytes em.length (((ofBytes em : Int) ^ key.d.toNat % key.pub.n).toNat)) be := by
  rw [C113_create (initRegistry_ok H) (by rw [lastRegistered_init]; simp) _ _ _ _ _ _ ht _ hw]
  refine and_congr_right fun hreq => ?_
  generalize hca : chosenAlg t.signatureAlgorithm (.rsa key.pub) = a at ha
  have hrow : scheme a = some (.rsaPkcs1, h) ∧ optsFor a = .hash h ∧ algHash a = h ∧ stdHash H h = some f ∧ digestAlg h ≠ none ∧
      (h = 2 ∨ h = 3 ∨ h = 5 ∨ h = 6 ∨ h = 7) := by
    simp only [List.mem_cons, Prod.mk.injEq, List.not_mem_nil, or_false] at ha
    rcases ha with ⟨rfl, rfl, rfl⟩ | ⟨rfl, rfl, rfl⟩ | ⟨rfl, rfl, rfl⟩ | ⟨rfl, rfl, rfl⟩ <;>
      exact ⟨rfl, rfl, rfl, rfl, by decide, by decide⟩
  obtain ⟨r1, r2, r3, r4, r5, r6⟩ := hrow
  have hdig : ∀ b d, Digest (lastRegistered (initCalls H)) h b d ↔ d = f b := fun b d => by
    rw [← digest_out (initRegistry_ok H) (by omega), digest_init r6 r4]
  constructor
  · rintro ⟨a', tbs, d, sig, ae, be, e1, g1, g2, g3, g4, g5, g6, -⟩
    obtain rfl : a' = a := e1.trans hca
    rw [r3, hdig] at g3
    subst g3
    rw [r2, rsaSigner_sign, C132_sign_iff hk hp hd hb rand r5] at g4
    obtain ⟨em, q1, q2, rfl⟩ := g4
    exact ⟨tbs, em, ae, be, g1, g2, g5, q1, q2, g6⟩
  · rintro ⟨tbs, em, ae, be, g1, g2, g3, g4, g5, g6⟩
    have hs := (C132_sign_iff (H := H) hk hp hd hb rand r5 (f tbs) _).mpr ⟨em, g4, g5, rfl⟩
    refine ⟨a, tbs, f tbs, _, ae, be, hca.symm, g1, g2, by rw [r3]; exact (hdig _ _).mpr rfl, ?_, g3, g6, .inr ?_⟩
    · rw [r2, rsaSigner_sign]; exact hs
    · rw [← (C41_accepts_iff_init H (rsaVerifiers H V) a tbs _ _).1]
      exact (C132_accepts_iff hl V a tbs _ key.pub (rsa_n_pos hk)).mpr
        (rsa_signed hl hk ⟨h, .inl r1⟩ (by rw [r3]; exact (digest_init r6 r4).mpr rfl) (by rw [r2]; exact hs))

/-- **C132** A request made with an RSA key under a PKCS #1 v1.5 algorithm passes its check once parsed. -/
theorem C132_request_verifies {H : StdHashes} (hl : HashLengths H) (V : Verifiers) (env : Env) (t : CertificateRequest) {key : RsaPriv}
    (hk : IsRsaKey key) (blind : Option Int) (rand : Bytes) (der : Bytes)
    (h : CreateCertificateRequest (initRegistry H) t (some (rsaSigner H key blind rand)) = .ok der) (hlen : der.length < 2 ^ 31 - 6)
    (ht : RequestOk env t (rsaSigner H key blind rand)) (ha : ∀ a ∈ t.attributes, AttrOk a ∧ a.type ≠ extensionRequest)
    (halg : t.signatureAlgorithm ∉ [SHA256WithRSAPSS, SHA384WithRSAPSS, SHA512WithRSAPSS]) :
    ∃ c, ParseCertificateRequest env der = .ok c ∧ c.checkSignature (initRegistry H) (rsaVerifiers H V) = .ok () := by
  obtain ⟨c, _, h1, h2, -⟩ := C62_roundtrip _ env t _ der h hlen ht ha
  refine ⟨c, h1, C62_check _ _ t _ der c h2 ?_⟩
  obtain ⟨key', hk', hreq⟩ := C76_requires _ _ _ _ h
  obtain rfl := Option.some.inj hk'
  have hfam := rsa_family (k := key.pub) (a := c.signatureAlgorithm) h2.algorithm hreq.family
  intro tbs digest sig g1 g2
  have ho : optsFor c.signatureAlgorithm = .hash (algHash c.signatureAlgorithm) := by
    unfold optsFor
    rw [if_neg]
    rw [h2.algorithm]
    split
    · show ¬ ((3 : Int) = 12 ∨ (3 : Int) = 13 ∨ (3 : Int) = 14); omega
    · simpa using halg
  rw [← ho] at g2
  exact (C132_accepts_iff hl V _ tbs sig key.pub (rsa_n_pos hk)).mpr (rsa_signed hl hk hfam g1 (rsaSigner_sign.mp g2))

/-- **C132** A request under a PSS algorithm: `CreateCertificateRequest` hands the signer the plain hash (x509.go:2200; the
functions for certificates and revocation lists hand it the PSS options), so the signature is one of PKCS #1 v1.5, while the request
says PSS. It does not pass its check, unless the digest happens to end in BC. -/
theorem C132_request_pss {H : StdHashes} (hl : HashLengths H) (V : Verifiers) (env : Env) (t : CertificateRequest) {key : RsaPriv}
    (hk : IsRsaKey key) (blind : Option Int) (rand : Bytes) (der : Bytes)
    (h : CreateCertificateRequest (initRegistry H) t (some (rsaSigner H key blind rand)) = .ok der) (hlen : der.length < 2 ^ 31 - 6)
    (ht : RequestOk env t (rsaSigner H key blind rand)) (ha : ∀ a ∈ t.attributes, AttrOk a ∧ a.type ≠ extensionRequest) {hash : Nat} {f : HashFn}
    (halg : (t.signatureAlgorithm, hash, f) ∈ [(SHA256WithRSAPSS, hSHA256, H.sha256), (SHA384WithRSAPSS, hSHA384, H.sha384),
      (SHA512WithRSAPSS, hSHA512, H.sha512)]) :
    ∃ c, ParseCertificateRequest env der = .ok c ∧ c.signatureAlgorithm = t.signatureAlgorithm ∧
      ValidV15 key.pub hash (f c.rawTBSCertificateRequest) c.signature ∧
      (c.checkSignature (initRegistry H) (rsaVerifiers H V) = .ok () → (f c.rawTBSCertificateRequest).getLast? = some 0xbc) := by
  obtain ⟨c, _, h1, h2, -⟩ := C62_roundtrip _ env t _ der h hlen ht ha
  have hrow : t.signatureAlgorithm ≠ 0 ∧ algHash t.signatureAlgorithm = hash ∧ stdHash H hash = some f ∧
      (hash = 2 ∨ hash = 3 ∨ hash = 5 ∨ hash = 6 ∨ hash = 7) ∧ digestAlg hash ≠ none ∧ t.signatureAlgorithm ∈ [(12 : Int), 13, 14] := by
    simp only [List.mem_cons, Prod.mk.injEq, List.not_mem_nil, or_false] at halg
    rcases halg with ⟨e, rfl, rfl⟩ | ⟨e, rfl, rfl⟩ | ⟨e, rfl, rfl⟩ <;> rw [e] <;>
      exact ⟨by decide, rfl, rfl, by decide, by decide, by decide⟩
  obtain ⟨r1, r2, r3, r4, r5, r6⟩ := hrow
  have hca : c.signatureAlgorithm = t.signatureAlgorithm := by rw [h2.algorithm, if_neg r1]
  obtain ⟨digest, g1, g2⟩ := h2.signature
  rw [hca, r2] at g1 g2
  rw [digest_init r4 r3] at g1
  subst g1
  have hv := (C132_signature_valid hl hk blind rand _ _).1 hash r5 (rsaSigner_sign.mp g2)
  refine ⟨c, h1, hca, hv, fun hc => ?_⟩
  unfold CertificateRequest.checkSignature at hc
  rw [h2.publicKey, hca] at hc
  have hc := (C132_accepts_iff hl V _ _ _ key.pub (rsa_n_pos hk)).mp hc
  rcases hc with ⟨h', f', hm, -⟩ | ⟨n, f', hm, hpss⟩
  · exfalso
    simp only [List.mem_cons, Prod.mk.injEq, List.not_mem_nil, or_false] at hm r6
    rcases hm with ⟨e, -⟩ | ⟨e, -⟩ | ⟨e, -⟩ | ⟨e, -⟩ | ⟨e, -⟩ <;> rw [e] at r6 <;> revert r6 <;> decide
  · exact C132_schemes_apart hv hpss

/-- **C132** A revocation list made by `CreateRevocationList` with an RSA key, under any algorithm, passes the check against a
certificate with that key. -/
theorem C132_revocation_list_verifies {H : StdHashes} (hl : HashLengths H) (V : Verifiers) (sha1 : Bytes → Bytes) (t : RevocationList)
    (issuer : Certificate) {key : RsaPriv} (hk : IsRsaKey key) (blind : Option Int) (rand : Bytes) (der : Bytes)
    (h : CreateRevocationList ⟨initRegistry H, rsaVerifiers H V, sha1⟩ (some t) (some issuer) (rsaSigner H key blind rand) = .ok der)
    (hlen : der.length < 2 ^ 31) (ht : RevocationListOk t issuer) (cert : Certificate) (hcert : cert.publicKey = .rsa key.pub) :
    ∃ c, ParseDERCRL der = .ok c ∧ cert.checkCRLSignature (initRegistry H) (rsaVerifiers H V) c.signedPart = .ok () := by
  have hfam := rsa_family (k := key.pub) (a := chosenAlg t.signatureAlgorithm (.rsa key.pub)) rfl (crl_steps h).1.family
  have hsig : ∀ tbs digest sig, digestFor (initRegistry H) (algHash (chosenAlg t.signatureAlgorithm (.rsa key.pub))) tbs = .ok digest →
      (rsaSigner H key blind rand).sign digest (optsFor (chosenAlg t.signatureAlgorithm (.rsa key.pub))) = some sig →
      checkSignature (initRegistry H) (rsaVerifiers H V) (chosenAlg t.signatureAlgorithm (.rsa key.pub)) tbs sig (.rsa key.pub) = .ok () :=
    fun tbs digest sig g1 g2 => (C132_accepts_iff hl V _ tbs sig key.pub (rsa_n_pos hk)).mpr (rsa_signed hl hk hfam g1 (rsaSigner_sign.mp g2))
  exact C73_check ⟨initRegistry H, rsaVerifiers H V, sha1⟩ t issuer (rsaSigner H key blind rand) der h hlen ht cert hcert
    (chosenAlg t.signatureAlgorithm (.rsa key.pub)) rfl hsig

/-- **C132** The same for the method `CreateCRL`, which always signs with SHA-256 and PKCS #1 v1.5. -/
theorem C132_crl_verifies {H : StdHashes} (hl : HashLengths H) (V : Verifiers) (sha1 : Bytes → Bytes) (c : Certificate) {key : RsaPriv}
    (hk : IsRsaKey key) (blind : Option Int) (rand : Bytes) (rs : List Revoked) (now expiry : Time) (der : Bytes)
    (h : c.createCRL ⟨initRegistry H, rsaVerifiers H V, sha1⟩ (some (rsaSigner H key blind rand)) rs now expiry = .ok der)
    (hlen : der.length < 2 ^ 31) (ht : CreateCrlOk c rs now expiry) (cert : Certificate) (hcert : cert.publicKey = .rsa key.pub) :
    ∃ l, ParseDERCRL der = .ok l ∧ cert.checkCRLSignature (initRegistry H) (rsaVerifiers H V) l.signedPart = .ok () := by
  obtain ⟨l, _, digest, h1, -, -, -, -, -, -, -, h2, h3, h4, h5⟩ := C74_roundtrip _ c _ rs now expiry der h hlen ht
  refine ⟨l, h1, ?_⟩
  unfold Certificate.checkCRLSignature Certificate.checkSignature Crl.signedPart
  simp only []
  have hr : rightAlign l.signatureValue = l.signatureValue.bytes := by
    have : l.signatureValue = ⟨l.signatureValue.bytes, l.signatureValue.bytes.length * 8⟩ := by
      rw [Nat.mul_comm, ← h5]
    rw [this]; exact rightAlign_octets _
  have hal : defaultAlg (rsaSigner H key blind rand).pub = 3 := rfl
  rw [hal] at h2 h3 h4
  rw [if_neg (by decide)] at h3
  rw [hr, h2, hcert]
  exact (C132_accepts_iff hl V _ _ _ key.pub (rsa_n_pos hk)).mpr
    (rsa_signed hl hk ⟨5, .inl rfl⟩ h3 (rsaSigner_sign.mp h4))

end MCrypto.Props
