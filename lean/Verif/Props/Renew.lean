import Verif.Props.X509Chain
import Verif.X509.TimeUtc
/-
C119 A parsed certificate as a template: renewal.
-/
namespace MCrypto.Props
open MCrypto MCrypto.Asn1 MCrypto.X509 MCrypto.X509Spec

/-- `p'` may stand for the issuer of `c` when the certificate was made for the parent `p` with the key `key`: it has the
issuer's name and, unless `c` is self-issued, the subject key identifier of `p`, and its key, if it has one, is that of the signer. -/
def StandsFor (c p : Certificate) (key : Signer) (p' : Certificate) : Prop :=
  p' = p ∨ (p'.rawSubject = c.rawIssuer ∧ (c.rawSubject ≠ c.rawIssuer → p'.subjectKeyId = p.subjectKeyId) ∧ (p'.publicKey = .nil ∨ p'.publicKey = key.pub))

/-- The certificate with another serial number, validity period, signature algorithm and extra extensions. -/
def renew (c : Certificate) (serial : Option Int) (notBefore notAfter : Time) (algorithm : Int) (extra : List Ext) : Certificate :=
  { c with serialNumber := serial, notBefore := notBefore, notAfter := notAfter, signatureAlgorithm := algorithm,
           extraExtensions := extra }

theorem to4_norm (ip : Bytes) : (to4 ((to4 ip).getD ip)).getD ((to4 ip).getD ip) = (to4 ip).getD ip := by
  cases h : to4 ip with
  | none => simp [h]
  | some x =>
    have hx : x.length = 4 := by
      unfold to4 at h
      split at h
      · injection h with h; subst h; assumption
      · split at h
        · rename_i h2; injection h with h; subst h; simp [h2.1]
        · cases h
    simp [to4, hx]

theorem marshalPublicKey_sameKey (pub : PubKey) : marshalPublicKey (sameKey pub) = marshalPublicKey pub := by
  cases pub <;> simp only [sameKey] <;> (try rfl)
  all_goals unfold ecPubKey; split <;> rfl

theorem created_parsed {env : Env} {E : SignEnv} {t p c : Certificate} {pub : PubKey} {key : Signer} {der : Bytes}
    (h : CreateCertificate E t p pub (some key) = .ok der) (hl : der.length < 2 ^ 31) (ht : TemplateReadable env E.sha1 t p pub)
    (hc : ParseCertificate env der = .ok c) :
    ∃ pkBytes pkAlgo, marshalPublicKey pub = .ok (pkBytes, pkAlgo) ∧ subjectBytes p = some c.rawIssuer ∧
      subjectBytes t = some c.rawSubject ∧ c.rawIssuer ≠ [] ∧ c.rawSubject ≠ [] ∧
      t.notBefore.utc = some c.notBefore ∧ t.notAfter.utc = some c.notAfter ∧
      c.authorityKeyId = chooseAuthorityKeyId t p c.rawIssuer c.rawSubject ∧
      c.subjectKeyId = chooseSubjectKeyId E.sha1 t pkBytes ∧ c.isCA = (t.basicConstraintsValid && t.isCA) ∧
      c.extraExtensions = [] := by
  obtain ⟨f, pkBytes, pkAlgo, hashFunc, sigAlgo, signed, h1, h2, h3, h4, h5, h6, h7, h8, h9, h10, h11, h12, h13, h14, h15, h16,
    h17, h18, h19, h20, h21, h22, h23, h24⟩ := create_certDer h hl ht.key ht.notBefore ht.notAfter ht.subject ht.issuer
      (fun e he => (ht.extra e he).1)
  have hb : NoExtFields (recordOf der f (sameKey pub)) := by constructor <;> rfl
  have hk1 : (chooseAuthorityKeyId t p f.rawIssuer f.rawSubject).length + 20 < 2 ^ 31 := by
    have a := ht.akiLen; have b := ht.parentSkiLen
    unfold chooseAuthorityKeyId; split <;> omega
  have hk2 : (chooseSubjectKeyId E.sha1 t pkBytes).length + 20 < 2 ^ 31 := by
    have a := ht.skiLen; have b := ht.sha1Len pkBytes
    unfold chooseSubjectKeyId; split <;> omega
  have hp := build_process env t (recordOf der f (sameKey pub)) (f.rawSubject == [0x30, 0]) _ _ _ h15 h16 hk1 hk2 ht.template
    hb (fun e he => (ht.extra e he).2)
  have hp' : processExtensions env (recordOf der f (sameKey pub)) = some _ := hp
  have hparse := (ParseCertificate_spec env der _).mpr ⟨f, _, _, h1, h2, hp', rfl⟩
  have ne : ∀ {r rd}, NameDer r rd → r ≠ [] := by
    intro r rd hn hr
    rw [hr] at hn
    obtain ⟨x, hx, -⟩ := hn
    have hx1 := hx.1
    unfold Der.tlv at hx1
    cases hx1
  rw [hparse, Res.ok.injEq] at hc
  subst hc
  exact ⟨pkBytes, pkAlgo, h12, h21, h22, ne h6.1, ne h7.1, h23, h24, rfl, rfl, rfl, rfl⟩

theorem bcLen_limit (m : Int) (z : Bool) : bcLen m z = (pathLimit m z).getD (-1) := by
  unfold bcLen pathLimit
  cases z <;> by_cases h : m = 0 <;> by_cases h2 : m = -1 <;> simp [h, h2]

/-- The extensions of a certificate made from a parsed one. -/
theorem build_renew (t c : Certificate) (hs : SameExtensionFields t c) (empty : Bool) (aki ski : Bytes) (s : Option Int) (a b : Time) (g : Int) (x : List Ext)
    (hku : 0 ≤ t.keyUsage ∧ t.keyUsage < 512) :
    buildCertExtensions (renew c s a b g x) empty aki ski = buildCertExtensions (renew t s a b g x) empty aki ski := by
  have e1 : c.keyUsage = t.keyUsage := by rw [hs.keyUsage]; exact Int.emod_eq_of_lt hku.1 hku.2
  have e3 : extIf t.basicConstraintsValid oidExtensionBasicConstraints x
      (some (marshalBasicConstraints c.isCA c.maxPathLen c.maxPathLenZero)) =
      extIf t.basicConstraintsValid oidExtensionBasicConstraints x (some (marshalBasicConstraints t.isCA t.maxPathLen t.maxPathLenZero)) := by
    by_cases hv : t.basicConstraintsValid = true
    · have : bcLen c.maxPathLen c.maxPathLenZero = bcLen t.maxPathLen t.maxPathLenZero := by rw [bcLen_limit, bcLen_limit, hs.pathLen hv]
      have e : ∀ ca m z, marshalBasicConstraints ca m z = ⟨oidExtensionBasicConstraints, true, (marshal basicConstraints ⟨ca, bcLen m z⟩).getD []⟩ := fun _ _ _ => rfl
      rw [e, e, this, hs.isCA hv]
    · simp [extIf, hv]
  have e7 : marshalSANs t.dnsNames t.emailAddresses (t.ipAddresses.map fun ip => (to4 ip).getD ip) t.uris =
      marshalSANs t.dnsNames t.emailAddresses t.ipAddresses t.uris := by
    unfold marshalSANs
    have : (t.ipAddresses.map fun ip => (to4 ip).getD ip).map (fun ip => ctxRaw 7 ((to4 ip).getD ip)) = t.ipAddresses.map (fun ip => ctxRaw 7 ((to4 ip).getD ip)) := by
      rw [List.map_map]
      apply List.map_congr_left
      intro ip _
      simp only [Function.comp, to4_norm]
    rw [this]
  have e9 : extIf (hasNameConstraints t) oidExtensionNameConstraints x (marshalNameConstraints c) =
      extIf (hasNameConstraints t) oidExtensionNameConstraints x (marshalNameConstraints t) := by
    by_cases hv : hasNameConstraints t = true
    · have : c.permittedDNSDomainsCritical = t.permittedDNSDomainsCritical := by
        rw [Bool.eq_iff_iff, hs.critical]
        simp only [hasNameConstraints, Bool.or_eq_true, decide_eq_true_eq, gt_iff_lt, List.length_pos_iff] at hv
        tauto
      unfold marshalNameConstraints
      rw [hs.permittedDNSDomains, hs.permittedIPRanges, hs.permittedEmailAddresses, hs.permittedURIDomains, hs.excludedDNSDomains,
        hs.excludedIPRanges, hs.excludedEmailAddresses, hs.excludedURIDomains, this]
    · simp [extIf, hv]
  have n9 : hasNameConstraints c = hasNameConstraints t := by
    unfold hasNameConstraints
    rw [hs.permittedDNSDomains, hs.permittedIPRanges, hs.permittedEmailAddresses, hs.permittedURIDomains, hs.excludedDNSDomains,
        hs.excludedIPRanges, hs.excludedEmailAddresses, hs.excludedURIDomains]
  have n7 : hasSANs c = hasSANs t := by
    unfold hasSANs
    rw [hs.dnsNames, hs.emailAddresses, hs.ipAddresses, hs.uris, List.length_map]
  have r1 : ∀ d : Certificate, hasNameConstraints (renew d s a b g x) = hasNameConstraints d := fun _ => rfl
  have r2 : ∀ d : Certificate, hasSANs (renew d s a b g x) = hasSANs d := fun _ => rfl
  have r3 : ∀ d : Certificate, marshalNameConstraints (renew d s a b g x) = marshalNameConstraints d := fun _ => rfl
  have r4 : ∀ d : Certificate, ∀ e, marshalSubjectAltName (renew d s a b g x) e = marshalSubjectAltName d e := fun _ _ => rfl
  have e7' : marshalSubjectAltName c empty = marshalSubjectAltName t empty := by
    unfold marshalSubjectAltName
    rw [hs.dnsNames, hs.emailAddresses, hs.ipAddresses, hs.uris, e7]
  unfold buildCertExtensions
  rw [r1, r1, r2, r2, r3, r3, r4, r4, n9, n7, e7']
  simp only [renew, e9, e1, hs.extKeyUsage, hs.unknownExtKeyUsage, hs.basicConstraintsValid, e3, hs.ocspServer, hs.issuingCertificateURL,
    hs.policyIdentifiers, hs.crlDistributionPoints]
  rfl

theorem badPathLen_renew (t c : Certificate) (hs : SameExtensionFields t c) (s : Option Int) (a b : Time) (g : Int) (x : List Ext) :
    badPathLen (renew c s a b g x) = badPathLen (renew t s a b g x) := by
  unfold badPathLen renew
  dsimp only
  rw [hs.basicConstraintsValid]
  by_cases hv : t.basicConstraintsValid = true
  · have : bcLen c.maxPathLen c.maxPathLenZero = bcLen t.maxPathLen t.maxPathLenZero := by rw [bcLen_limit, bcLen_limit, hs.pathLen hv]
    have e : ∀ (m : Int) (z : Bool), (decide (m ≠ -1) && (decide (m ≠ 0) || z)) = decide (bcLen m z ≠ -1) := by
      intro m z
      unfold bcLen
      cases z <;> by_cases h : m = 0 <;> by_cases h2 : m = -1 <;> simp [h, h2]
    rw [hs.isCA hv, Bool.and_assoc, e, this, ← e]
    simp only [Bool.and_assoc]
  · simp [hv]

/-- **C119** A certificate that was made by `CreateCertificate` and read by `ParseCertificate` is as good a template as the
one it was made from: whatever serial number, validity period, algorithm and extra extensions it is given, `CreateCertificate`
does the same with both. -/
theorem C119_template (env : Env) (E : SignEnv) (t p : Certificate) (pub : PubKey) (key : Signer) (der : Bytes) (c p' : Certificate)
    (h : CreateCertificate E t p pub (some key) = .ok der) (hl : der.length < 2 ^ 31) (ht : TemplateReadable env E.sha1 t p pub)
    (hku : 0 ≤ t.keyUsage ∧ t.keyUsage < 512) (hc : ParseCertificate env der = .ok c) (hp : StandsFor c p key p')
    (s : Option Int) (a b : Time) (g : Int) (x : List Ext) :
    CreateCertificate E (renew c s a b g x) p' c.publicKey (some key) = CreateCertificate E (renew t s a b g x) p pub (some key) := by
  obtain ⟨key', hk, hreq⟩ := C63_requires _ _ _ _ _ _ h
  obtain rfl := Option.some.inj hk
  obtain ⟨c', ko, g1, -, -, -, -, -, -, -, -, g2, g3, -⟩ := C72_create_parse env E t p pub key der h hl ht
  rw [hc, Res.ok.injEq] at g1
  subst g1
  obtain ⟨pkBytes, pkAlgo, k1, k2, k3, k4, k5, -, -, k6, k7, k8, -⟩ := created_parsed h hl ht hc
  have hpar : subjectBytes p' = some c.rawIssuer ∧ (c.rawSubject ≠ c.rawIssuer → p'.subjectKeyId = p.subjectKeyId) ∧ (p'.publicKey = .nil ∨ p'.publicKey = key.pub) := by
    rcases hp with rfl | ⟨q1, q2, q3⟩
    · exact ⟨k2, fun _ => rfl, hreq.parent.imp id Eq.symm⟩
    · refine ⟨?_, q2, q3⟩
      unfold subjectBytes
      rw [q1, if_pos (List.length_pos_iff.mpr k4)]
  have hsub : subjectBytes (renew c s a b g x) = some c.rawSubject := by
    show (if c.rawSubject.length > 0 then some c.rawSubject else _) = _
    rw [if_pos (List.length_pos_iff.mpr k5)]
  have hsub' : subjectBytes (renew t s a b g x) = some c.rawSubject := k3
  have haki : chooseAuthorityKeyId (renew c s a b g x) p' c.rawIssuer c.rawSubject =
      chooseAuthorityKeyId (renew t s a b g x) p c.rawIssuer c.rawSubject := by
    have e1 : ∀ d q, chooseAuthorityKeyId (renew d s a b g x) q c.rawIssuer c.rawSubject = chooseAuthorityKeyId d q c.rawIssuer c.rawSubject :=
      fun _ _ => rfl
    rw [e1, e1]
    unfold chooseAuthorityKeyId at k6 ⊢
    by_cases hne : c.rawIssuer = c.rawSubject
    · rw [if_neg (fun hh => hh.1 hne)] at k6 ⊢
      rw [if_neg (fun hh => hh.1 hne)]
      exact k6
    · rw [hpar.2.1 (Ne.symm hne), k6]
      split <;> rfl
  have hski : chooseSubjectKeyId E.sha1 (renew c s a b g x) pkBytes = chooseSubjectKeyId E.sha1 (renew t s a b g x) pkBytes := by
    have e1 : ∀ d, chooseSubjectKeyId E.sha1 (renew d s a b g x) pkBytes = chooseSubjectKeyId E.sha1 d pkBytes := fun _ => rfl
    rw [e1, e1, ← k7]
    unfold chooseSubjectKeyId
    rw [if_neg]
    rintro ⟨q1, q2⟩
    rw [k7] at q1
    unfold chooseSubjectKeyId at q1
    split at q1
    · rw [ht.sha1Len] at q1; cases q1
    · rename_i hn
      rw [List.length_eq_zero_iff] at q1
      rw [k8, Bool.and_eq_true] at q2
      exact hn ⟨by rw [q1]; rfl, q2.2⟩
  have htbs : ∀ ai r1 r2 pb pa ex, tbsFor (renew c s a b g x) ai r1 r2 pb pa ex = tbsFor (renew t s a b g x) ai r1 r2 pb pa ex :=
    fun _ _ _ _ _ _ => rfl
  have n1 : ¬ (p'.publicKey ≠ .nil ∧ key.pub ≠ p'.publicKey) := by
    rintro ⟨q1, q2⟩
    rcases hpar.2.2 with h0 | h0
    · exact q1 h0
    · exact q2 h0.symm
  have n2 : ¬ (p.publicKey ≠ .nil ∧ key.pub ≠ p.publicKey) := by
    rintro ⟨q1, q2⟩
    rcases hreq.parent with h0 | h0
    · exact q1 h0
    · exact q2 h0
  unfold CreateCertificate
  simp only [badPathLen_renew t c g3, g2, marshalPublicKey_sameKey, k1, hpar.1, k2, hsub, hsub', Res.ofOption, if_neg n1, if_neg n2,
    haki, hski, build_renew t c g3 _ _ _ s a b g x hku, htbs, Res.bind_ok]
  rfl

theorem signing_default (pub : PubKey) :
    signingParamsForPublicKey pub (defaultAlg pub) = signingParamsForPublicKey pub 0 := by
  cases pub with
  | rsa k => rfl
  | ecdsa k =>
    unfold signingParamsForPublicKey signingDefaults defaultAlg
    by_cases h1 : k.curve = P224 ∨ k.curve = P256
    · have n1 : k.curve ≠ P384 := by rcases h1 with h1 | h1 <;> rw [h1] <;> decide
      have n2 : k.curve ≠ P521 := by rcases h1 with h1 | h1 <;> rw [h1] <;> decide
      simp only [h1, n1, n2, if_true, if_false]; rfl
    · simp only [h1, if_false]
      by_cases h2 : k.curve = P384
      · simp only [h2, if_true]; rfl
      · simp only [h2, if_false]
        by_cases h3 : k.curve = P521
        · simp only [h3, if_true]; rfl
        · simp only [h3, if_false]; rfl
  | sm2 k =>
    unfold signingParamsForPublicKey signingDefaults defaultAlg
    by_cases h1 : k.curve = SM2P256
    · simp only [h1, if_true]; rfl
    · simp only [h1, if_false]; rfl
  | ed25519 k => rfl
  | dsa k => rfl
  | nil => rfl
  | other s => rfl

theorem defaultAlg_ne (pub : PubKey) : defaultAlg pub ≠ 0 ∧ isRSAPSS (defaultAlg pub) = false := by
  cases pub <;> simp only [defaultAlg] <;> (try split) <;> (try split) <;> decide

/-- **C119** Asking for the default algorithm by name changes nothing. -/
theorem C119_default_algorithm (E : SignEnv) (t p : Certificate) (pub : PubKey) (key : Signer) (s : Option Int) (a b : Time) (x : List Ext) :
    CreateCertificate E (renew t s a b (defaultAlg key.pub) x) p pub (some key) = CreateCertificate E (renew t s a b 0 x) p pub (some key) := by
  have e1 : badPathLen (renew t s a b (defaultAlg key.pub) x) = badPathLen (renew t s a b 0 x) := rfl
  have e2 : subjectBytes (renew t s a b (defaultAlg key.pub) x) = subjectBytes (renew t s a b 0 x) := rfl
  have e3 : ∀ q r1 r2, chooseAuthorityKeyId (renew t s a b (defaultAlg key.pub) x) q r1 r2 = chooseAuthorityKeyId (renew t s a b 0 x) q r1 r2 :=
    fun _ _ _ => rfl
  have e4 : ∀ pb, chooseSubjectKeyId E.sha1 (renew t s a b (defaultAlg key.pub) x) pb = chooseSubjectKeyId E.sha1 (renew t s a b 0 x) pb :=
    fun _ => rfl
  have e5 : ∀ y k1 k2, buildCertExtensions (renew t s a b (defaultAlg key.pub) x) y k1 k2 = buildCertExtensions (renew t s a b 0 x) y k1 k2 :=
    fun _ _ _ => rfl
  have e6 : ∀ ai r1 r2 pb pa ex, tbsFor (renew t s a b (defaultAlg key.pub) x) ai r1 r2 pb pa ex = tbsFor (renew t s a b 0 x) ai r1 r2 pb pa ex :=
    fun _ _ _ _ _ _ => rfl
  have e7 : (renew t s a b (defaultAlg key.pub) x).signatureAlgorithm = defaultAlg key.pub := rfl
  have e8 : (renew t s a b 0 x).signatureAlgorithm = 0 := rfl
  have e9 : (renew t s a b (defaultAlg key.pub) x).serialNumber = (renew t s a b 0 x).serialNumber := rfl
  have e10 : ∀ hf ai c, signCert E key (defaultAlg key.pub) hf ai c = signCert E key 0 hf ai c := by
    intro hf ai c
    unfold signCert
    have : signerOpts (defaultAlg key.pub) hf = signerOpts 0 hf := by
      unfold signerOpts
      rw [if_neg (by rw [(defaultAlg_ne key.pub).2]; simp), if_neg (by simp)]
    rw [this]
  unfold CreateCertificate
  simp only [e1, e2, e3, e4, e5, e6, e7, e8, e9, e10, signing_default]

theorem create_congr_time (E : SignEnv) (t p : Certificate) (pub : PubKey) (key : Signer) (s : Option Int) (a b a' b' : Time) (g : Int) (x : List Ext)
    (ha : a.utc = a'.utc) (hb : b.utc = b'.utc) :
    CreateCertificate E (renew t s a b g x) p pub (some key) = CreateCertificate E (renew t s a' b' g x) p pub (some key) := by
  have e1 : badPathLen (renew t s a b g x) = badPathLen (renew t s a' b' g x) := rfl
  have e2 : subjectBytes (renew t s a b g x) = subjectBytes (renew t s a' b' g x) := rfl
  have e3 : ∀ q r1 r2, chooseAuthorityKeyId (renew t s a b g x) q r1 r2 = chooseAuthorityKeyId (renew t s a' b' g x) q r1 r2 :=
    fun _ _ _ => rfl
  have e4 : ∀ pb, chooseSubjectKeyId E.sha1 (renew t s a b g x) pb = chooseSubjectKeyId E.sha1 (renew t s a' b' g x) pb :=
    fun _ => rfl
  have e5 : ∀ y k1 k2, buildCertExtensions (renew t s a b g x) y k1 k2 = buildCertExtensions (renew t s a' b' g x) y k1 k2 :=
    fun _ _ _ => rfl
  have e6 : ∀ ai r1 r2 pb pa ex, tbsFor (renew t s a b g x) ai r1 r2 pb pa ex = tbsFor (renew t s a' b' g x) ai r1 r2 pb pa ex := by
    intros
    unfold tbsFor renew
    dsimp only
    rw [ha, hb]
  have e7 : (renew t s a b g x).signatureAlgorithm = (renew t s a' b' g x).signatureAlgorithm := rfl
  have e9 : (renew t s a b g x).serialNumber = (renew t s a' b' g x).serialNumber := rfl
  unfold CreateCertificate
  simp only [e1, e2, e3, e4, e5, e6, e7, e9]

/-- **C119** Renewal with nothing changed: a parsed certificate (with the extra extensions of its template put back), the
same key of the subject and the same issuer and signer give the same octets again. -/
theorem C119_renew (env : Env) (E : SignEnv) (t p : Certificate) (pub : PubKey) (key : Signer) (der : Bytes) (c p' : Certificate)
    (h : CreateCertificate E t p pub (some key) = .ok der) (hl : der.length < 2 ^ 31) (ht : TemplateReadable env E.sha1 t p pub)
    (hku : 0 ≤ t.keyUsage ∧ t.keyUsage < 512) (hc : ParseCertificate env der = .ok c) (hp : StandsFor c p key p') :
    CreateCertificate E { c with extraExtensions := t.extraExtensions } p' c.publicKey (some key) = .ok der := by
  have e := C119_template env E t p pub key der c p' h hl ht hku hc hp c.serialNumber c.notBefore c.notAfter c.signatureAlgorithm
    t.extraExtensions
  rw [show ({ c with extraExtensions := t.extraExtensions } : Certificate) = renew c c.serialNumber c.notBefore c.notAfter c.signatureAlgorithm
    t.extraExtensions from rfl, e]
  obtain ⟨c', ko, g1, -, -, g2, g3, -, -, g4, g5, -⟩ := C72_create_parse env E t p pub key der h hl ht
  rw [hc, Res.ok.injEq] at g1
  subst g1
  obtain ⟨pkBytes, pkAlgo, -, -, -, -, -, o1, o2, -⟩ := created_parsed h hl ht hc
  obtain ⟨u1, u2, -⟩ := utc_ok ht.notBefore o1
  obtain ⟨v1, v2, -⟩ := utc_ok ht.notAfter o2
  rw [create_congr_time E t p pub key _ c.notBefore c.notAfter t.notBefore t.notAfter _ _
    (by rw [o1]; exact utc_isSome u1 u1 u2 rfl) (by rw [o2]; exact utc_isSome v1 v1 v2 rfl), g2, g3]
  split
  · rename_i h0
    rw [C119_default_algorithm, ← h0]
    exact h
  · exact h

/-- **C119** A self-signed certificate renewed with itself as template and parent gives the same octets again. -/
theorem C119_renew_self (env : Env) (E : SignEnv) (t : Certificate) (key : Signer) (der : Bytes) (c : Certificate)
    (h : CreateCertificate E t t key.pub (some key) = .ok der) (hl : der.length < 2 ^ 31)
    (ht : TemplateReadable env E.sha1 t t key.pub) (hk : sameKey key.pub = key.pub) (hku : 0 ≤ t.keyUsage ∧ t.keyUsage < 512)
    (hx : t.extraExtensions = []) (hc : ParseCertificate env der = .ok c) :
    CreateCertificate E c c c.publicKey (some key) = .ok der := by
  obtain ⟨c', ko, g1, -, -, -, -, -, -, -, -, g2, -⟩ := C72_create_parse env E t t key.pub key der h hl ht
  rw [hc, Res.ok.injEq] at g1
  subst g1
  obtain ⟨pkBytes, pkAlgo, -, o1, o2, -, -, -, -, -, -, -, o3⟩ := created_parsed h hl ht hc
  have e : c.rawSubject = c.rawIssuer := by
    rw [o1] at o2
    exact (Option.some.inj o2).symm
  have := C119_renew env E t t key.pub key der c c h hl ht hku hc (Or.inr ⟨e, fun hn => absurd e hn, Or.inr (g2.trans hk)⟩)
  rw [hx, ← o3] at this
  exact this

/-! ### Cases -/

/-- The example certificate, made, read, and made again from what was read: with the extra extension the same octets, without
it others. -/
theorem C119_case : okAnd (CreateCertificate exSignEnv exCreateTemplate exCreateTemplate (.rsa ⟨33, 3⟩) (some exSigner)) (fun der =>
    decide (der.length < 1000) && okAnd (ParseCertificate exEnv der) fun c =>
      okAnd (CreateCertificate exSignEnv { c with extraExtensions := exCreateTemplate.extraExtensions } c c.publicKey (some exSigner))
        (fun der' => der' == der) &&
      okAnd (CreateCertificate exSignEnv c c c.publicKey (some exSigner)) (fun der' => der' != der)) = true := by decide +kernel

/-- The hypotheses of `C119_renew` are met by the example. -/
example : ∃ der c, CreateCertificate exSignEnv exCreateTemplate exCreateTemplate (.rsa ⟨33, 3⟩) (some exSigner) = .ok der ∧
    ParseCertificate exEnv der = .ok c ∧ der.length < 2 ^ 31 ∧
    TemplateReadable exEnv exSignEnv.sha1 exCreateTemplate exCreateTemplate (.rsa ⟨33, 3⟩) ∧
    0 ≤ exCreateTemplate.keyUsage ∧ exCreateTemplate.keyUsage < 512 ∧ StandsFor c exCreateTemplate exSigner c := by
  obtain ⟨der, h1, key⟩ := okAnd_ok C119_case
  rw [Bool.and_eq_true] at key
  obtain ⟨h2, key⟩ := key
  obtain ⟨c, h3, -⟩ := okAnd_ok key
  have h2 : der.length < 1000 := of_decide_eq_true h2
  obtain ⟨c', ko, g1, -, -, -, -, -, -, -, -, g2, -⟩ := C72_create_parse exEnv exSignEnv _ _ _ _ der h1 (by omega) exReadable
  rw [h3, Res.ok.injEq] at g1
  subst g1
  obtain ⟨pkBytes, pkAlgo, -, o1, o2, -⟩ := created_parsed h1 (by omega) exReadable h3
  rw [o1] at o2
  have e : c.rawSubject = c.rawIssuer := (Option.some.inj o2).symm
  exact ⟨der, c, h1, h3, by omega, exReadable, by decide, by decide, Or.inr ⟨e, fun hn => absurd e hn, Or.inr g2⟩⟩

/-- Why the key usage has to be below 512: higher bits are written but not read, so they are lost. -/
theorem C119_high_usage_lost : okAnd (CreateCertificate exSignEnv { exCreateTemplate with keyUsage := 512 } exCreateTemplate (.rsa ⟨33, 3⟩)
    (some exSigner)) (fun der => okAnd (ParseCertificate exEnv der) fun c => c.keyUsage == 0 &&
      okAnd (CreateCertificate exSignEnv { c with extraExtensions := exCreateTemplate.extraExtensions } exCreateTemplate c.publicKey (some exSigner))
        (fun der' => decide (der'.length < der.length))) = true := by decide +kernel

end MCrypto.Props
