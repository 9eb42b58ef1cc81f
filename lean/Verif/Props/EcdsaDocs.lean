import Verif.Props.Ecdsa
import Verif.Props.RsaDocs
/-
C138: certificates, requests and revocation lists signed with ECDSA keys (x509.go:1682-1807, 1847-1910, 2059-2215, 2324-2425;
model Verif/X509/Create.lean and Verif/Ecdsa/Model.lean).
-/
namespace MCrypto.Props
open MCrypto MCrypto.X509 MCrypto.X509Spec MCrypto.Asn1 MCrypto.Dg MCrypto.Ecdsa MCrypto.EcdsaSpec

theorem ec_row (H : StdHashes) (a : Int) (f : HashFn) :
    (∃ h, scheme a = some (.ec, h) ∧ lastRegistered (initCalls H) h = some f) ↔ (a, f) ∈ algorithms H := by
  have e3 : (Sm3.sum : HashFn) = Sm3Spec.sm3 := funext Sm3.sum_eq
  unfold algorithms
  constructor
  · rintro ⟨h, h1, h2⟩
    obtain ⟨r1, r2⟩ := scheme_range h1
    rw [lastRegistered_init, e3] at h2
    interval_cases a <;> simp [scheme] at h1 <;> subst h1 <;> (obtain rfl := Option.some.inj h2; simp)
  · intro h
    simp only [List.mem_cons, Prod.mk.injEq, List.not_mem_nil, or_false] at h
    rcases h with ⟨rfl, rfl⟩ | ⟨rfl, rfl⟩ | ⟨rfl, rfl⟩ | ⟨rfl, rfl⟩ | ⟨rfl, rfl⟩
    · exact ⟨_, rfl, by rw [lastRegistered_init]; rfl⟩
    · exact ⟨_, rfl, by rw [lastRegistered_init]; rfl⟩
    · exact ⟨_, rfl, by rw [lastRegistered_init]; rfl⟩
    · exact ⟨_, rfl, by rw [lastRegistered_init]; rfl⟩
    · exact ⟨_, rfl, by rw [lastRegistered_init, ← e3]; rfl⟩

/-- **C138** `CheckSignature` with an ECDSA key whose point is on its curve accepts exactly the ECDSA signatures of the hash of the octets, under one of the
algorithms for such keys. -/
theorem C138_accepts_iff (H : StdHashes) (V : Verifiers) (a : Int) (plain sig : Bytes) {k : Sm2.PublicKey} (hk : OnCurve k) :
    checkSignature (initRegistry H) (stdVerifiers H V) a plain sig (.ecdsa k) = .ok () ↔ ∃ f, (a, f) ∈ algorithms H ∧ Signed k (f plain) sig := by
  rw [(C41_accepts_iff_init H (stdVerifiers H V) a plain sig (.ecdsa k)).1]
  constructor
  · rintro ⟨s, h, f, h1, h2, h3⟩
    have hs : s = .ec := by cases s <;> first | rfl | exact h3.elim
    subst hs
    exact ⟨f, (ec_row H a f).mp ⟨h, h1, h2⟩, (C138_verify_iff hk _ _).mp h3⟩
  · rintro ⟨f, hm, hs⟩
    obtain ⟨h, h1, h2⟩ := (ec_row H a f).mpr hm
    exact ⟨.ec, h, f, h1, h2, (C138_verify_iff hk _ _).mpr hs⟩

theorem ecdsaSigner_sign {key : Sm2.PrivateKey} {stream : Bytes → Reader} {d sig : Bytes} {o : SignOpts} :
    (ecdsaSigner key stream).sign d o = some sig ↔ sign key (stream d) d = .ok sig := by
  show (match sign key (stream d) d with | .ok s => some s | _ => none) = some sig ↔ _
  cases sign key (stream d) d <;> simp

theorem ec_family {a requested : Int} {k : Sm2.PublicKey} (ha : a = chosenAlg requested (.ecdsa k))
    (hf : requested = 0 ∨ FamilyFits (.ecdsa k) requested) : ∃ h, scheme a = some (.ec, h) := by
  unfold chosenAlg at ha
  by_cases h0 : requested = 0
  · rw [if_pos h0] at ha; subst ha
    by_cases h1 : k.curve = P384
    · exact ⟨_, by simp only [defaultAlg, if_pos h1]; rfl⟩
    · by_cases h2 : k.curve = P521
      · exact ⟨_, by simp only [defaultAlg, if_neg h1, if_pos h2]; rfl⟩
      · exact ⟨_, by simp only [defaultAlg, if_neg h1, if_neg h2]; rfl⟩
  · rw [if_neg h0] at ha; subst ha
    exact hf.resolve_left h0

theorem ec_digest {H : StdHashes} {a : Int} {h : Nat} (ha : scheme a = some (.ec, h)) {f : HashFn} (hf : lastRegistered (initCalls H) h = some f)
    {tbs digest : Bytes} : digestFor (initRegistry H) (algHash a) tbs = .ok digest ↔ digest = f tbs := by
  have e : algHash a = h := by unfold algHash; rw [ha]
  have hlt := scheme_hash_lt ha
  rw [e, digest_out (initRegistry_ok H) (by omega)]
  have h0 : h ≠ 0 := by
    rintro rfl
    rw [lastRegistered_init] at hf; cases hf
  unfold Digest
  rw [hf]
  constructor
  · rintro (⟨h1, -⟩ | ⟨-, f', e, rfl⟩)
    · exact absurd h1 h0
    · obtain rfl := Option.some.inj e; rfl
  · rintro rfl; exact .inr ⟨h0, f, rfl, rfl⟩

theorem ec_hash (H : StdHashes) {a : Int} {h : Nat} (ha : scheme a = some (.ec, h)) : ∃ f, lastRegistered (initCalls H) h = some f := by
  obtain ⟨r1, r2⟩ := scheme_range ha
  rw [lastRegistered_init]
  interval_cases a <;> simp [scheme] at ha <;> subst ha <;> exact ⟨_, rfl⟩

/-- What the signer of a key pair returns for the digest of an algorithm passes the check of that algorithm. -/
theorem ec_signed {H : StdHashes} (V : Verifiers) {key : Sm2.PrivateKey} (hk : IsKeyPair key) (h0 : 0 < key.d)
    {stream : Bytes → Reader} {a : Int} (ha : ∃ h, scheme a = some (.ec, h)) {tbs digest sig : Bytes} {o : SignOpts}
    (hd : digestFor (initRegistry H) (algHash a) tbs = .ok digest) (hs : (ecdsaSigner key stream).sign digest o = some sig) :
    checkSignature (initRegistry H) (stdVerifiers H V) a tbs sig (.ecdsa key.pub) = .ok () := by
  obtain ⟨h, ha⟩ := ha
  obtain ⟨f, hf⟩ := ec_hash H ha
  rw [ec_digest ha hf] at hd
  subst hd
  rw [C138_accepts_iff H V a tbs sig (keyPair_point hk h0).1]
  exact ⟨f, (ec_row H a f).mp ⟨h, ha, hf⟩, (C138_sign_verifies hk h0 _ _ _ (ecdsaSigner_sign.mp hs)).1⟩

/-- **C138** A certificate signed by an ECDSA key pair: exactly the certificate part of RFC 5280, the algorithm, and the signature of the hash of the former that
the first suitable number of the stream gives. -/
theorem C138_certificate {H : StdHashes} (V : Verifiers) (sha1 : Bytes → Bytes) (t p : Certificate) (pub : PubKey)
    {key : Sm2.PrivateKey} (hk : IsKeyPair key) (h0 : 0 < key.d) {c : CurveParams} (hc : params key.pub.curve = some c)
    [Fact c.p.Prime] (stream : Bytes → Reader) (ht : TemplateDefined t p) (w : Bytes) (hw : w.length < 2 ^ 31) :
    CreateCertificate ⟨initRegistry H, stdVerifiers H V, sha1⟩ t p pub (some (ecdsaSigner key stream)) = .ok w ↔
      CreateRequires t p pub (ecdsaSigner key stream) ∧
      ∃ a f tbs sig ae be, a = chosenAlg t.signatureAlgorithm (.ecdsa key.pub) ∧ (a, f) ∈ algorithms H ∧
        El 0x30 (tbs ++ (ae ++ be)) w ∧ TbsCertOut sha1 t p pub a tbs ∧ SigAlgOut a ae ∧ El 0x03 (0 :: sig) be ∧
        ∃ i k r s, Nonce c (stream (f tbs)) i k ∧ Made c key.d k (f tbs) r s ∧ DerSpec.IsSig sig r s ∧
          ∀ j k', j < i → Nonce c (stream (f tbs)) j k' → ¬ ∃ r s, Made c key.d k' (f tbs) r s := by
  rw [C113_create (initRegistry_ok H) (by rw [lastRegistered_init]; simp) _ _ _ _ _ _ ht _ hw]
  refine and_congr_right fun hreq => ?_
  obtain ⟨h, ha⟩ := ec_family (k := key.pub) (a := chosenAlg t.signatureAlgorithm (.ecdsa key.pub)) rfl hreq.family
  generalize hca : chosenAlg t.signatureAlgorithm (.ecdsa key.pub) = a at ha
  obtain ⟨f, hf⟩ := ec_hash H ha
  have hlt := scheme_hash_lt ha
  have e : algHash a = h := by unfold algHash; rw [ha]
  have hdig : ∀ b d, Digest (lastRegistered (initCalls H)) (algHash a) b d ↔ d = f b := fun b d => by
    rw [← digest_out (initRegistry_ok H) (by omega), ec_digest ha hf]
  constructor
  · rintro ⟨a', tbs, d, sig, ae, be, e1, g1, g2, g3, g4, g5, g6, -⟩
    obtain rfl : a' = a := e1.trans hca
    rw [hdig] at g3
    subst g3
    rw [ecdsaSigner_sign, C138_sign_iff hc] at g4
    exact ⟨a', f, tbs, sig, ae, be, rfl, (ec_row H _ _).mp ⟨h, ha, hf⟩, g1, g2, g5, g6, g4⟩
  · rintro ⟨a', f', tbs, sig, ae, be, rfl, hm, g1, g2, g3, g4, g5⟩
    obtain ⟨h', ha', hf'⟩ := (ec_row H _ _).mpr hm
    rw [ha] at ha'
    obtain ⟨-, rfl⟩ := Prod.mk.inj (Option.some.inj ha')
    rw [hf] at hf'
    obtain rfl := Option.some.inj hf'
    rw [← C138_sign_iff hc] at g5
    have hs := (ecdsaSigner_sign (o := optsFor a') (stream := stream)).mpr g5
    refine ⟨a', tbs, f tbs, _, ae, be, hca.symm, g1, g2, (hdig _ _).mpr rfl, hs, g3, g4, .inr ?_⟩
    rw [← (C41_accepts_iff_init H (stdVerifiers H V) a' tbs _ _).1]
    exact ec_signed V hk h0 ⟨h, ha⟩ ((ec_digest ha hf).mpr rfl) hs

/-- **C138** A certificate made with an ECDSA key pair, once parsed, passes `CheckSignature` with every certificate for that key, under every algorithm (also
ECDSAWithSHA1, which `CreateCertificate` does not check itself). -/
theorem C138_certificate_verifies {H : StdHashes} (V : Verifiers) (sha1 : Bytes → Bytes) (env : Env) (t p : Certificate) (pub : PubKey)
    {key : Sm2.PrivateKey} (hk : IsKeyPair key) (h0 : 0 < key.d) (stream : Bytes → Reader) (der : Bytes)
    (h : CreateCertificate ⟨initRegistry H, stdVerifiers H V, sha1⟩ t p pub (some (ecdsaSigner key stream)) = .ok der) (hlen : der.length < 2 ^ 31)
    (ht : TemplateReadable env sha1 t p pub) (parent : Certificate) (hp : parent.publicKey = .ecdsa key.pub) :
    ∃ c, ParseCertificate env der = .ok c ∧
      parent.checkSignature (initRegistry H) (stdVerifiers H V) c.signatureAlgorithm c.rawTBSCertificate c.signature = .ok () := by
  obtain ⟨key', hk', hreq⟩ := C63_requires _ _ _ _ _ _ h
  obtain rfl := Option.some.inj hk'
  obtain ⟨c, _, h1, -, -, -, h2, -, -, -, -, -, -, -, -, -, -, ⟨digest, opts, h3, h4⟩, -⟩ := C72_create_parse env _ t p pub _ der h hlen ht
  refine ⟨c, h1, ?_⟩
  have hfam := ec_family (k := key.pub) (a := c.signatureAlgorithm) h2 hreq.family
  unfold Certificate.checkSignature
  rw [hp]
  exact ec_signed V hk h0 hfam h3 h4

/-- **C138** A request made with an ECDSA key pair passes its check once parsed. -/
theorem C138_request_verifies {H : StdHashes} (V : Verifiers) (env : Env) (t : CertificateRequest) {key : Sm2.PrivateKey}
    (hk : IsKeyPair key) (h0 : 0 < key.d) (stream : Bytes → Reader) (der : Bytes)
    (h : CreateCertificateRequest (initRegistry H) t (some (ecdsaSigner key stream)) = .ok der) (hlen : der.length < 2 ^ 31 - 6)
    (ht : RequestOk env t (ecdsaSigner key stream)) (ha : ∀ a ∈ t.attributes, AttrOk a ∧ a.type ≠ extensionRequest) :
    ∃ c, ParseCertificateRequest env der = .ok c ∧ c.checkSignature (initRegistry H) (stdVerifiers H V) = .ok () := by
  obtain ⟨c, _, h1, h2, -⟩ := C62_roundtrip _ env t _ der h hlen ht ha
  refine ⟨c, h1, C62_check _ _ t _ der c h2 ?_⟩
  obtain ⟨key', hk', hreq⟩ := C76_requires _ _ _ _ h
  obtain rfl := Option.some.inj hk'
  have hfam := ec_family (k := key.pub) (a := c.signatureAlgorithm) h2.algorithm hreq.family
  have hsk : sameKey (ecdsaSigner key stream).pub = .ecdsa key.pub := by
    show ecPubKey key.pub = _
    unfold ecPubKey
    rw [if_neg]
    rcases hreq.canSign with e | e | e | e <;> rw [e] <;> decide
  rw [hsk]
  intro tbs digest sig g1 g2
  exact ec_signed V hk h0 hfam g1 g2

/-- **C138** A revocation list made by `CreateRevocationList` with an ECDSA key pair passes the check against a certificate with that key. -/
theorem C138_revocation_list_verifies {H : StdHashes} (V : Verifiers) (sha1 : Bytes → Bytes) (t : RevocationList)
    (issuer : Certificate) {key : Sm2.PrivateKey} (hk : IsKeyPair key) (h0 : 0 < key.d) (stream : Bytes → Reader) (der : Bytes)
    (h : CreateRevocationList ⟨initRegistry H, stdVerifiers H V, sha1⟩ (some t) (some issuer) (ecdsaSigner key stream) = .ok der)
    (hlen : der.length < 2 ^ 31) (ht : RevocationListOk t issuer) (cert : Certificate) (hcert : cert.publicKey = .ecdsa key.pub) :
    ∃ c, ParseDERCRL der = .ok c ∧ cert.checkCRLSignature (initRegistry H) (stdVerifiers H V) c.signedPart = .ok () := by
  have hfam := ec_family (k := key.pub) (a := chosenAlg t.signatureAlgorithm (.ecdsa key.pub)) rfl (crl_steps h).1.family
  have hsig : ∀ tbs digest sig, digestFor (initRegistry H) (algHash (chosenAlg t.signatureAlgorithm (.ecdsa key.pub))) tbs = .ok digest →
      (ecdsaSigner key stream).sign digest (optsFor (chosenAlg t.signatureAlgorithm (.ecdsa key.pub))) = some sig →
      checkSignature (initRegistry H) (stdVerifiers H V) (chosenAlg t.signatureAlgorithm (.ecdsa key.pub)) tbs sig (.ecdsa key.pub) = .ok () :=
    fun tbs digest sig g1 g2 => ec_signed V hk h0 hfam g1 g2
  exact C73_check ⟨initRegistry H, stdVerifiers H V, sha1⟩ t issuer (ecdsaSigner key stream) der h hlen ht cert hcert
    (chosenAlg t.signatureAlgorithm (.ecdsa key.pub)) rfl hsig

/-- **C138** The same for the method `CreateCRL`. -/
theorem C138_crl_verifies {H : StdHashes} (V : Verifiers) (sha1 : Bytes → Bytes) (c : Certificate) {key : Sm2.PrivateKey}
    (hk : IsKeyPair key) (h0 : 0 < key.d) (stream : Bytes → Reader) (rs : List Revoked) (now expiry : Time) (der : Bytes)
    (h : c.createCRL ⟨initRegistry H, stdVerifiers H V, sha1⟩ (some (ecdsaSigner key stream)) rs now expiry = .ok der)
    (hlen : der.length < 2 ^ 31) (ht : CreateCrlOk c rs now expiry) (cert : Certificate) (hcert : cert.publicKey = .ecdsa key.pub) :
    ∃ l, ParseDERCRL der = .ok l ∧ cert.checkCRLSignature (initRegistry H) (stdVerifiers H V) l.signedPart = .ok () := by
  obtain ⟨l, _, digest, h1, -, -, -, -, -, -, -, h2, h3, h4, h5⟩ := C74_roundtrip _ c _ rs now expiry der h hlen ht
  refine ⟨l, h1, ?_⟩
  unfold Certificate.checkCRLSignature Certificate.checkSignature Crl.signedPart
  simp only []
  have hr : rightAlign l.signatureValue = l.signatureValue.bytes := by
    have : l.signatureValue = ⟨l.signatureValue.bytes, l.signatureValue.bytes.length * 8⟩ := by
      rw [Nat.mul_comm, ← h5]
    rw [this]; exact rightAlign_octets _
  have hal : defaultAlg (ecdsaSigner key stream).pub = chosenAlg 0 (.ecdsa key.pub) := rfl
  rw [hal] at h2 h3 h4
  have hfam := ec_family (k := key.pub) (a := chosenAlg 0 (.ecdsa key.pub)) (requested := 0) rfl (.inl rfl)
  have hsm : algHash (chosenAlg 0 (.ecdsa key.pub)) ≠ hSM3 := by
    show algHash (defaultAlg (.ecdsa key.pub)) ≠ hSM3
    unfold defaultAlg
    simp only []
    repeat' split
    · decide
    · decide
    · decide
  rw [if_neg hsm] at h3
  rw [hr, h2, hcert]
  exact ec_signed V hk h0 hfam h3 h4

end MCrypto.Props
