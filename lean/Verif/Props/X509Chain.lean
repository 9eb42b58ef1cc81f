import Verif.Props.X509Name
/-
C116 Chains of certificates of any length.
-/
namespace MCrypto.Props
open MCrypto MCrypto.Asn1 MCrypto.X509 MCrypto.X509Spec

/-- A template for a CA. -/
structure CaTemplate (t : Certificate) : Prop where
  valid : t.basicConstraintsValid = true
  isCA : t.isCA = true
  usage : t.keyUsage % 512 = 0 ∨ ∃ k : Int, t.keyUsage % 512 / 32 = 2 * k + 1

/-- The signature algorithm is one whose signatures `CreateCertificate` checks. -/
def CheckedAlg (t : Certificate) (key : Signer) : Prop :=
  (if t.signatureAlgorithm = 0 then defaultAlg key.pub else t.signatureAlgorithm) ∉ uncheckedAlgorithms

/-- `c` is what `ParseCertificate` makes of a certificate that `CreateCertificate` made for the parent `p` with the key `pk`. -/
structure Issues (env : Env) (E : SignEnv) (p : Certificate) (pk : Signer) (t : Certificate) (pub : PubKey) (c : Certificate) : Prop where
  readable : TemplateReadable env E.sha1 t p pub
  checked : CheckedAlg t pk
  made : ∃ der, CreateCertificate E t p pub (some pk) = .ok der ∧ der.length < 2 ^ 31 ∧ ParseCertificate env der = .ok c

/-- The certificates and keys of the CAs of a hierarchy made with the library, the newest first: a self-signed CA, and CAs
each of which got its certificate from the one before. -/
inductive Hierarchy (env : Env) (E : SignEnv) : List (Certificate × Signer) → Prop
  | root {t key c} : CaTemplate t → sameKey key.pub = key.pub → Issues env E t key t key.pub c → Hierarchy env E [(c, key)]
  | ca {p pk rest t key c} : Hierarchy env E ((p, pk) :: rest) → CaTemplate t → Issues env E p pk t key.pub c →
      Hierarchy env E ((c, key) :: (p, pk) :: rest)

/-- The certificate `c` follows `p`: `CheckSignatureFrom` accepts it, the issuer is the subject of `p` octet for octet, and the
authority key identifier is the subject key identifier of `p` (unless the subject is that of `p`). -/
def Follows (E : SignEnv) (c p : Certificate) : Prop :=
  c.checkSignatureFrom E.reg E.V p = .ok () ∧ c.rawIssuer = p.rawSubject ∧
    (c.rawSubject ≠ c.rawIssuer → p.subjectKeyId ≠ [] ∧ c.authorityKeyId = p.subjectKeyId)

/-- What is left in a parsed CA certificate. -/
structure CaCert (p : Certificate) : Prop where
  valid : p.basicConstraintsValid = true
  isCA : p.isCA = true
  usage : p.keyUsage = 0 ∨ hasBit p.keyUsage 5 = true
  key : p.publicKey ≠ .nil
  algo : p.publicKeyAlgorithm ≠ 0
  subject : p.rawSubject ≠ []
  ski : p.subjectKeyId ≠ []

theorem hasBit5_iff (n : Int) : hasBit n 5 = true ↔ ∃ k : Int, n / 32 = 2 * k + 1 := by
  unfold hasBit
  rw [decide_eq_true_iff]
  have e : (2 : Int) ^ 5 = 32 := rfl
  rw [e]
  constructor
  · intro h; exact ⟨n / 32 / 2, by omega⟩
  · rintro ⟨k, hk⟩; omega

theorem parsed_algo {env : Env} {der : Bytes} {c : Certificate} (h : ParseCertificate env der = .ok c) (hne : c.publicKey ≠ .nil) :
    c.publicKeyAlgorithm ≠ 0 := by
  obtain ⟨f, -, hkd, -, -, -, -, -, -, -, -, -, -, -, -, hpa, -, -⟩ := C70_fields env der c h
  intro h0
  rw [hpa] at h0
  unfold KeyDer at hkd
  split at h0
  · cases h0
  rename_i n1
  split at h0
  · cases h0
  rename_i n2
  split at h0
  · cases h0
  rename_i n3
  split at h0
  · cases h0
  rename_i n4
  simp only [n1, n2, n3, n4, if_false] at hkd
  exact hne hkd

theorem issues_ca {env : Env} {E : SignEnv} {p t c : Certificate} {pk : Signer} {pub : PubKey} (h : Issues env E p pk t pub c)
    (ht : CaTemplate t) : CaCert c ∧ c.publicKey = sameKey pub := by
  obtain ⟨der, h1, h2, h3⟩ := h.made
  obtain ⟨c', ko, g1, -, -, -, -, -, ⟨r, ⟨gn, -, -⟩, -⟩, -, -, g2, g3, -, -, g4, -⟩ := C72_create_parse env E t p pub pk der h1 h2 h.readable
  rw [h3, Res.ok.injEq] at g1
  subst g1
  have hne : c.publicKey ≠ .nil := by
    rw [g2]
    have := h.readable.key
    cases pub <;> simp only [KeyOk] at this <;> simp only [sameKey, ne_eq, reduceCtorEq, not_false_eq_true]
    all_goals unfold ecPubKey; split <;> simp
  refine ⟨⟨g3.basicConstraintsValid.trans ht.valid, (g3.isCA ht.valid).trans ht.isCA, ?_, hne, parsed_algo h3 hne, ?_, ?_⟩, g2⟩
  · rw [g3.keyUsage, hasBit5_iff]; exact ht.usage
  · intro h0
    rw [h0] at gn
    obtain ⟨x, hx, -⟩ := gn
    have hx1 := hx.1
    unfold Der.tlv at hx1
    cases hx1
  · rw [g4]
    by_cases h0 : t.subjectKeyId = []
    · rw [if_pos ⟨h0, ht.isCA⟩]
      intro hc
      have := h.readable.sha1Len ko
      rw [hc] at this
      cases this
    · rw [if_neg (fun hh => h0 hh.1)]; exact h0

theorem issues_follows {env : Env} {E : SignEnv} {p t c : Certificate} {pk : Signer} {pub : PubKey} (h : Issues env E p pk t pub c)
    (hp : CaCert p) : Follows E c p := by
  obtain ⟨der, h1, h2, h3⟩ := h.made
  obtain ⟨key', hk, hreq⟩ := C63_requires _ _ _ _ _ _ h1
  obtain rfl := Option.some.inj hk
  have hpub : p.publicKey = pk.pub := (hreq.parent.resolve_left hp.key).symm
  obtain ⟨c1, g1, g2, g3⟩ := C83_issued_verifies env E t p pub pk der h1 h2 h.readable hpub hp.algo hp.subject
    (by simp [hp.valid, hp.isCA]) hp.usage h.checked
  rw [h3, Res.ok.injEq] at g1
  subst g1
  obtain ⟨c', ko, g1, -, -, -, -, -, -, -, -, -, -, g4, -⟩ := C72_create_parse env E t p pub pk der h1 h2 h.readable
  rw [h3, Res.ok.injEq] at g1
  subst g1
  refine ⟨g3, g2, fun hne => ⟨hp.ski, ?_⟩⟩
  rw [g4, if_pos ⟨fun h => hne h.symm, hp.ski⟩]

theorem hierarchy_ca {env : Env} {E : SignEnv} {l : List (Certificate × Signer)} (h : Hierarchy env E l) :
    ∀ x ∈ l, CaCert x.1 := by
  induction h with
  | root ht _ hi =>
    intro x hx
    rw [List.mem_singleton.mp hx]
    exact (issues_ca hi ht).1
  | ca _ ht hi ih =>
    intro x hx
    rcases List.mem_cons.mp hx with rfl | hx
    · exact (issues_ca hi ht).1
    · exact ih x hx

/-- **C116** A hierarchy of CAs of any depth made with the library: every certificate follows the one of the CA that issued it,
and the root verifies under itself. -/
theorem C116_hierarchy (env : Env) (E : SignEnv) (l : List (Certificate × Signer)) (h : Hierarchy env E l) :
    List.IsChain (Follows E) (l.map (·.1)) ∧ ∀ r ∈ l.getLast?, r.1.checkSignatureFrom E.reg E.V r.1 = .ok () := by
  induction h with
  | root ht hk hi =>
    rename_i t key c
    refine ⟨by simp, ?_⟩
    intro r hr
    simp only [List.getLast?_singleton, Option.mem_def, Option.some.injEq] at hr
    subst hr
    obtain ⟨der, h1, h2, h3⟩ := hi.made
    obtain ⟨c', g1, g2⟩ := C83_self_signed_verifies env E t key der h1 h2 hi.readable hk ⟨ht.valid, ht.isCA⟩
      (by rw [hasBit5_iff]; exact ht.usage) hi.checked
    rw [h3, Res.ok.injEq] at g1
    subst g1
    exact g2
  | ca hh ht hi ih =>
    refine ⟨?_, by simpa using ih.2⟩
    have := ih.1
    simp only [List.map_cons, List.isChain_cons_cons] at this ⊢
    exact ⟨issues_follows hi (hierarchy_ca hh _ (List.mem_cons_self ..)), this⟩

/-- **C116** Every certificate that the newest CA of a hierarchy issues, for a CA or not, follows it. -/
theorem C116_leaf (env : Env) (E : SignEnv) (p : Certificate) (pk : Signer) (rest : List (Certificate × Signer))
    (h : Hierarchy env E ((p, pk) :: rest)) (t : Certificate) (pub : PubKey) (c : Certificate) (hi : Issues env E p pk t pub c) :
    Follows E c p := issues_follows hi (hierarchy_ca h _ (List.mem_cons_self ..))

/-! ## Reduction: a verified chain that was not issued contains a forged signature -/

/-- The certificates whose signed part was signed, starting with the root, with the key of a certificate that may sign
certificates and was itself signed so. `Signed k m` says that the owner of the key `k` signed `m`. -/
inductive Authentic (Signed : PubKey → Bytes → Prop) (root : Certificate) : Certificate → Prop
  | root : Authentic Signed root root
  | step {p c} : Authentic Signed root p → MaySignCerts p → Signed p.publicKey c.rawTBSCertificate → Authentic Signed root c

/-- **C116** Whoever verifies a chain from a leaf up to a root link by link with `CheckSignatureFrom` gets an authentic leaf,
unless a link of the chain holds a forgery: a signature that the primitive accepts under the key of an authentic certificate,
on octets that the owner of this key never signed. -/
theorem C116_forgery (calls : List (Nat × Option HashFn)) (reg : Registry) (hr : registerAll noHashes calls = .ok reg)
    (h0 : lastRegistered calls 0 = none) (V : Verifiers) (Signed : PubKey → Bytes → Prop) (root : Certificate) (l : List Certificate)
    (leaf : Certificate) (h : List.IsChain (fun c p => c.checkSignatureFrom reg V p = .ok ()) (leaf :: l ++ [root])) :
    Authentic Signed root leaf ∨ ∃ p ∈ l ++ [root], ∃ c ∈ leaf :: l, Authentic Signed root p ∧
      ¬ Signed p.publicKey c.rawTBSCertificate ∧
      SigAccepted (lastRegistered calls) V c.signatureAlgorithm c.rawTBSCertificate c.signature p.publicKey := by
  have link : ∀ c p : Certificate, c.checkSignatureFrom reg V p = .ok () → Authentic Signed root p →
      Authentic Signed root c ∨ (Authentic Signed root p ∧ ¬ Signed p.publicKey c.rawTBSCertificate ∧
      SigAccepted (lastRegistered calls) V c.signatureAlgorithm c.rawTBSCertificate c.signature p.publicKey) := by
    intro c p hc hp
    obtain ⟨h1, -, h2⟩ := ((C42_checkSignatureFrom_iff calls reg hr h0 V c p).1).mp hc
    by_cases hs : Signed p.publicKey c.rawTBSCertificate
    · exact Or.inl (.step hp h1 hs)
    · exact Or.inr ⟨hp, hs, h2⟩
  induction l generalizing leaf with
  | nil =>
    simp only [List.cons_append, List.nil_append, List.isChain_cons_cons] at h
    rcases link leaf root h.1 .root with g | g
    · exact Or.inl g
    · exact Or.inr ⟨root, by simp, leaf, by simp, g⟩
  | cons p l ih =>
    simp only [List.cons_append, List.isChain_cons_cons] at h
    rcases ih p (by simpa using h.2) with g | ⟨q, hq, c, hc, g⟩
    · rcases link leaf p h.1 g with g | g
      · exact Or.inl g
      · exact Or.inr ⟨p, by simp, leaf, by simp, g⟩
    · refine Or.inr ⟨q, List.mem_cons_of_mem _ hq, c, List.mem_cons_of_mem _ hc, g⟩

/-- **C116** What decides: nothing but the algorithm, the signed octets and the signature of the certificate, and the version,
the CA flags, the key usage and the key of the parent. Names, validity periods, key identifiers, path lengths, name constraints,
unhandled critical extensions and revocation do not matter. -/
theorem C116_independent (reg : Registry) (V : Verifiers) (c c' p p' : Certificate)
    (h1 : c.signatureAlgorithm = c'.signatureAlgorithm) (h2 : c.rawTBSCertificate = c'.rawTBSCertificate) (h3 : c.signature = c'.signature)
    (h4 : p.version = p'.version) (h5 : p.basicConstraintsValid = p'.basicConstraintsValid) (h6 : p.isCA = p'.isCA)
    (h7 : p.keyUsage = p'.keyUsage) (h8 : p.publicKeyAlgorithm = p'.publicKeyAlgorithm) (h9 : p.publicKey = p'.publicKey) :
    c.checkSignatureFrom reg V p = c'.checkSignatureFrom reg V p' := by
  unfold Certificate.checkSignatureFrom Certificate.checkSignature
  rw [h1, h2, h3, h4, h5, h6, h7, h8, h9]

/-! ### A hierarchy -/

theorem exReadable : TemplateReadable exEnv exSignEnv.sha1 exCreateTemplate exCreateTemplate (.rsa ⟨33, 3⟩) where
  key := ⟨by decide, by decide, by decide⟩
  notBefore := by constructor <;> decide
  notAfter := by constructor <;> decide
  subject := ⟨fun h => absurd rfl h, fun _ a ha => by
    rw [List.mem_singleton.mp ha]; exact ⟨⟨_, _, _, rfl, by decide, by decide⟩, _, rfl⟩⟩
  issuer := ⟨fun h => absurd rfl h, fun _ a ha => by
    rw [List.mem_singleton.mp ha]; exact ⟨⟨_, _, _, rfl, by decide, by decide⟩, _, rfl⟩⟩
  template := by
    obtain ⟨h1, h2, h3, h4, h5, h6, h7⟩ := exTemplate_ok
    exact ⟨h1, h2, h3, h4, h5, h6, h7⟩
  extra := by
    intro e he
    rw [List.mem_singleton.mp he]; exact ⟨⟨_, _, _, rfl, by decide, by decide⟩, by decide⟩
  akiLen := by decide
  parentSkiLen := by decide
  skiLen := by decide
  sha1Len := fun _ => rfl

/-- A template for an intermediate CA. -/
def exSubTemplate : Certificate := { exCreateTemplate with subject := { commonName := [99] } }

theorem exSub_readable {c : Certificate} (h : CaCert c) (hn : ∃ n, NameDer c.rawSubject n) (hl : c.subjectKeyId.length < 2 ^ 30) :
    TemplateReadable exEnv exSignEnv.sha1 exSubTemplate c (.rsa ⟨33, 3⟩) where
  key := ⟨by decide, by decide, by decide⟩
  notBefore := by constructor <;> decide
  notAfter := by constructor <;> decide
  subject := ⟨fun h => absurd rfl h, fun _ a ha => by cases ha⟩
  issuer := ⟨fun _ => hn, fun h0 => absurd h0 h.subject⟩
  template := by
    obtain ⟨h1, h2, h3, h4, h5, h6, h7⟩ := exTemplate_ok
    exact ⟨h1, h2, h3, h4, h5, h6, h7⟩
  extra := by
    intro e he
    rw [List.mem_singleton.mp he]; exact ⟨⟨_, _, _, rfl, by decide, by decide⟩, by decide⟩
  akiLen := by decide
  parentSkiLen := hl
  skiLen := by decide
  sha1Len := fun _ => rfl

theorem exCa : CaTemplate exCreateTemplate := ⟨by decide, by decide, Or.inr ⟨1, by decide⟩⟩
theorem exSubCa : CaTemplate exSubTemplate := ⟨by decide, by decide, Or.inr ⟨1, by decide⟩⟩

theorem okAnd_ok {α : Type} {r : Res α} {q : α → Bool} (h : okAnd r q = true) : ∃ a, r = .ok a ∧ q a = true := by
  cases r with
  | ok a => exact ⟨a, rfl, h⟩
  | err e => cases h
  | panic => cases h

/-- There is a hierarchy of depth two; its certificates have different subjects. -/
example : ∃ c1 c2, Hierarchy exEnv exSignEnv [(c2, exSigner), (c1, exSigner)] ∧ c1.rawSubject ≠ c2.rawSubject := by
  have key : okAnd (CreateCertificate exSignEnv exCreateTemplate exCreateTemplate (.rsa ⟨33, 3⟩) (some exSigner)) (fun der =>
    der.length < 1000 && okAnd (ParseCertificate exEnv der) fun c1 => decide (c1.subjectKeyId.length < 1000) &&
      okAnd (CreateCertificate exSignEnv exSubTemplate c1 (.rsa ⟨33, 3⟩) (some exSigner)) fun der2 => der2.length < 1000 &&
        okAnd (ParseCertificate exEnv der2) fun c2 => decide (c1.rawSubject ≠ c2.rawSubject)) = true := by decide +kernel
  obtain ⟨der, h1, key⟩ := okAnd_ok key
  rw [Bool.and_eq_true] at key
  obtain ⟨h2, key⟩ := key
  obtain ⟨c1, h3, key⟩ := okAnd_ok key
  rw [Bool.and_eq_true] at key
  obtain ⟨h4, key⟩ := key
  obtain ⟨der2, h5, key⟩ := okAnd_ok key
  rw [Bool.and_eq_true] at key
  obtain ⟨h6, key⟩ := key
  obtain ⟨c2, h7, key⟩ := okAnd_ok key
  have h2 : der.length < 1000 := of_decide_eq_true h2
  have h4 : c1.subjectKeyId.length < 1000 := of_decide_eq_true h4
  have h6 : der2.length < 1000 := of_decide_eq_true h6
  have i1 : Issues exEnv exSignEnv exCreateTemplate exSigner exCreateTemplate exSigner.pub c1 :=
    ⟨exReadable, by unfold CheckedAlg; decide, der, h1, by omega, h3⟩
  obtain ⟨ca, -⟩ := issues_ca i1 exCa
  obtain ⟨c', -, g1, -, -, -, -, -, ⟨r, ⟨gn, -, -⟩, -⟩, -⟩ := C72_create_parse exEnv exSignEnv _ _ _ _ der h1 (by omega) exReadable
  rw [h3, Res.ok.injEq] at g1
  subst g1
  exact ⟨c1, c2, .ca (.root exCa rfl i1) exSubCa ⟨exSub_readable ca ⟨r, gn⟩ (by omega), by unfold CheckedAlg; decide, der2, h5, by omega, h7⟩,
    of_decide_eq_true key⟩

end MCrypto.Props
