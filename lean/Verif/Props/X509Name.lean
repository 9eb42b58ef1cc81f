import Verif.Props.X509Csr
import Verif.Props.X509Cert
/-
Names and issuing.

C80 `Certificate.Equal`.
C82 Names: what is left of a name that is written and read; the issuer of a revocation list.
C83 Issued certificates: they name their issuer and verify under it.
-/
namespace MCrypto.Props
open MCrypto MCrypto.Asn1 MCrypto.X509 MCrypto.X509Spec

/-! ## C80 -/

/-- **C80** Two certificates are equal exactly if both are nil or both are not and have the same octets; `Equal` is an
equivalence. -/
theorem C80_equal_iff (c d : Option Certificate) :
    certEqual c d = true ↔ (c = none ∧ d = none) ∨ ∃ c' d', c = some c' ∧ d = some d' ∧ c'.raw = d'.raw := by
  cases c <;> cases d <;> simp [certEqual]

theorem C80_equivalence (c d e : Option Certificate) :
    certEqual c c = true ∧ (certEqual c d = true → certEqual d c = true) ∧
    (certEqual c d = true → certEqual d e = true → certEqual c e = true) := by
  refine ⟨?_, fun h => ?_, fun h h' => ?_⟩
  · cases c <;> simp [certEqual]
  · cases c <;> cases d <;> simp [certEqual] at h ⊢
    exact h.symm
  · cases c <;> cases d <;> cases e <;> simp [certEqual] at h h' ⊢
    exact h.trans h'

/-- **C80** Certificates from `ParseCertificate` are equal exactly if they were parsed from the same octets, and then all
their fields are the same. -/
theorem C80_parsed (env : Env) (der der' : Bytes) (c c' : Certificate) (h : ParseCertificate env der = .ok c)
    (h' : ParseCertificate env der' = .ok c') :
    (certEqual (some c) (some c') = true ↔ der = der') ∧ (certEqual (some c) (some c') = true → c = c') := by
  have hr : ∀ {b : Bytes} {x : Certificate}, ParseCertificate env b = .ok x → x.raw = b := by
    intro b x hx
    obtain ⟨f, -, -, hr, -⟩ := C70_fields env b x hx
    exact hr
  have key : certEqual (some c) (some c') = true ↔ der = der' := by
    simp only [certEqual, beq_iff_eq, hr h, hr h']
  refine ⟨key, fun he => ?_⟩
  have := key.mp he
  subst this
  rw [h, Res.ok.injEq] at h'
  exact h'

example : certEqual (some { raw := [1], version := 3 }) (some { raw := [1], version := 1 }) = true ∧
    certEqual (some { raw := [1] }) (some { raw := [2] }) = false ∧ certEqual (some {}) none = false := by decide

/-! ## C82 -/

/-- **C82** The subject and the issuer of a certificate made by `CreateCertificate` and read by `ParseCertificate`: every
field of the name has the values it was given (or those of the extra names that replace it). -/
theorem C82_certificate (env : Env) (E : SignEnv) (t p : Certificate) (pub : PubKey) (key : Signer) (der : Bytes)
    (h : CreateCertificate E t p pub (some key) = .ok der) (hl : der.length < 2 ^ 31)
    (ht : TemplateReadable env E.sha1 t p pub) :
    ∃ c, ParseCertificate env der = .ok c ∧
      (t.rawSubject = [] → KeepsName t.subject c.subject) ∧ (t.rawSubject ≠ [] → c.rawSubject = t.rawSubject) ∧
      (p.rawSubject = [] → KeepsName p.subject c.issuer) ∧ (p.rawSubject ≠ [] → c.rawIssuer = p.rawSubject) := by
  obtain ⟨c, -, h1, -, -, -, -, ⟨r, ⟨-, i1, i2⟩, i3⟩, ⟨s, ⟨-, s1, s2⟩, s3⟩, -⟩ := C72_create_parse env E t p pub key der h hl ht
  exact ⟨c, h1, fun h0 => keepsName (s2 h0) s3, s1, fun h0 => keepsName (i2 h0) i3, i1⟩

/-- **C82** The subject of a request. -/
theorem C82_request (reg : Registry) (env : Env) (t : CertificateRequest) (key : Signer) (der : Bytes)
    (h : CreateCertificateRequest reg t (some key) = .ok der) (hl : der.length < 2 ^ 31 - 6) (ht : RequestOk env t key)
    (ha : ∀ a ∈ t.attributes, AttrOk a ∧ a.type ≠ extensionRequest) :
    ∃ c, ParseCertificateRequest env der = .ok c ∧
      (t.rawSubject = [] → KeepsName t.subject c.subject) ∧ (t.rawSubject ≠ [] → c.rawSubject = t.rawSubject) := by
  obtain ⟨c, -, h1, h2, -⟩ := C62_roundtrip reg env t key der h hl ht ha
  obtain ⟨rdns, -, s2, s3⟩ := h2.subject
  exact ⟨c, h1, fun h0 => keepsName (s3 h0) s2, h2.rawSubject⟩

/-- **C82** A name without extra names and with at most one value in each field is read back with the same fields. -/
theorem C82_fields_same (n got : Name) (h : KeepsName n got) (hx : n.extraNames = []) :
    got.commonName = n.commonName ∧ got.serialNumber = n.serialNumber ∧
    got.country.Perm n.country ∧ got.organization.Perm n.organization ∧
    got.organizationalUnit.Perm n.organizationalUnit ∧ got.locality.Perm n.locality ∧ got.province.Perm n.province ∧
    got.streetAddress.Perm n.streetAddress ∧ got.postalCode.Perm n.postalCode ∧
    (n.country.length ≤ 1 → got.country = n.country) ∧ (n.organization.length ≤ 1 → got.organization = n.organization) ∧
    (n.organizationalUnit.length ≤ 1 → got.organizationalUnit = n.organizationalUnit) ∧
    (n.locality.length ≤ 1 → got.locality = n.locality) ∧ (n.province.length ≤ 1 → got.province = n.province) ∧
    (n.streetAddress.length ≤ 1 → got.streetAddress = n.streetAddress) ∧
    (n.postalCode.length ≤ 1 → got.postalCode = n.postalCode) := by
  have hw : ∀ o l, writtenValues n o l = l := by
    intro o l
    unfold writtenValues
    rw [hx, if_neg (by simp)]
    simp [stringsOf]
  have short : ∀ {l m : List Bytes}, l.Perm m → m.length ≤ 1 → l = m := by
    intro l m hp hm
    match m, hm with
    | [], _ => exact hp.eq_nil
    | [v], _ => exact List.perm_singleton.mp hp
  obtain ⟨h1, h2, h3, h4, h5, h6, h7, h8, h9, -, -⟩ := h
  simp only [hw] at h1 h2 h3 h4 h5 h6 h7 h8 h9
  exact ⟨h8, h9, h1, h2, h3, h4, h5, h6, h7, short h1, short h2, short h3, short h4, short h5, short h6, short h7⟩

/-- **C82** The order of several values of one field is not kept. -/
theorem C82_order_not_kept : ∃ (n : Name) (der : Bytes) (c : Certificate), n.organization = [[98], [97]] ∧
    CreateCertificate exSignEnv { exCreateTemplate with subject := n } exCreateTemplate (.rsa ⟨33, 3⟩) (some exSigner) = .ok der ∧
    ParseCertificate exEnv der = .ok c ∧ c.subject.organization = [[97], [98]] := by
  have key : okAnd (CreateCertificate exSignEnv { exCreateTemplate with subject := { organization := [[98], [97]] } }
      exCreateTemplate (.rsa ⟨33, 3⟩) (some exSigner)) (fun der => okAnd (ParseCertificate exEnv der) fun c =>
        c.subject.organization == [[97], [98]]) = true := by decide +kernel
  cases h1 : CreateCertificate exSignEnv { exCreateTemplate with subject := { organization := [[98], [97]] } }
      exCreateTemplate (.rsa ⟨33, 3⟩) (some exSigner) with
  | err e => rw [h1] at key; cases key
  | panic => rw [h1] at key; cases key
  | ok der =>
    rw [h1] at key
    cases h2 : ParseCertificate exEnv der with
    | err e => simp only [okAnd, h2] at key; cases key
    | panic => simp only [okAnd, h2] at key; cases key
    | ok c =>
      simp only [okAnd, h2, beq_iff_eq] at key
      exact ⟨_, der, c, rfl, h1, h2, key⟩

/-- The types of the fields of a name. -/
def fieldTypes : List Oid :=
  [atCountry, atOrganization, atOrganizationalUnit, atLocality, atProvince, atStreetAddress, atPostalCode, atCommonName,
   atSerialNumber]

theorem nameRdns_types {n : Name} (hx : n.extraNames = []) : ∀ s ∈ nameRdns n, ∀ a ∈ s, a.type ∈ fieldTypes := by
  refine nameRdns_forall (by rw [hx]; simp) fun f hf v => ?_
  have : (fieldTable n).map (·.1) = fieldTypes := rfl
  rw [← this]
  exact List.mem_map.mpr ⟨f, hf, rfl⟩

/-- **C82** (the issuer of a list can be another name than the subject of its issuer) If the subject of a parsed
certificate has an attribute whose type is none of the fields of `pkix.Name`, then a list that `CreateRevocationList`
makes for it has another issuer: all attributes of a list's issuer are of the types of the fields. -/
theorem C82_list_issuer_differs (env : Env) (certDer : Bytes) (f : CertFields) (issuer : Certificate)
    (hp : ParseCertificate env certDer = .ok issuer) (hf : CertDer certDer f)
    (ho : ∃ s ∈ f.subject, ∃ a ∈ s, a.type ∉ fieldTypes)
    (E : SignEnv) (t : RevocationList) (key : Signer) (der : Bytes)
    (h : CreateRevocationList E (some t) (some issuer) key = .ok der) (hl : der.length < 2 ^ 31)
    (ht : RevocationListOk t issuer) :
    ∃ l, ParseDERCRL der = .ok l ∧ (∀ s ∈ l.tbs.issuer, ∀ a ∈ s, a.type ∈ fieldTypes) ∧
      ¬ l.tbs.issuer.flatten.Perm (toAny f.subject).flatten := by
  obtain ⟨f', -, -, -, -, -, -, -, -, -, -, -, -, hn, -⟩ := C70_fields env certDer issuer hp
  obtain ⟨l, -, -, -, -, -, -, h1, -, -, h2, -⟩ := C73_roundtrip E t issuer key der h hl ht
  have hty : ∀ a ∈ l.tbs.issuer.flatten, a.type ∈ fieldTypes := by
    intro a ha
    have hm := (forall₂_perm_flatten h2).mem_iff.mp ha
    obtain ⟨s, hs, has⟩ := List.mem_flatten.mp hm
    exact nameRdns_types hn.extraNames s hs a has
  refine ⟨l, h1, fun s hs a ha => hty a (List.mem_flatten.mpr ⟨s, hs, ha⟩), fun hperm => ?_⟩
  obtain ⟨s, hs, a, ha, hta⟩ := ho
  refine hta (hty ⟨a.type, .str a.value⟩ (hperm.mem_iff.mpr (List.mem_flatten.mpr ⟨s.map fun a => ⟨a.type, .str a.value⟩, ?_, ?_⟩)))
  · exact List.mem_map.mpr ⟨s, hs, rfl⟩
  · exact List.mem_map.mpr ⟨a, ha, rfl⟩

theorem nameRdns_keeps {n got : Name} (h : KeepsName n got) (hx : n.extraNames = []) :
    List.Forall₂ List.Perm (nameRdns got) (nameRdns n) := by
  obtain ⟨h1, h2, h3, h4, h5, h6, h7, h8, h9, -⟩ := C82_fields_same n got h hx
  unfold nameRdns
  rw [h.extraNames, hx, List.map_nil, List.append_nil, List.append_nil]
  have key : ∀ (t u : List (Oid × List Bytes)), List.Forall₂ (fun f g => f.1 = g.1 ∧ f.2.Perm g.2) t u →
      List.Forall₂ List.Perm
        ((t.filter fun f => decide (f.2 ≠ [] ∧ ∀ a ∈ ([] : List AtvAny), a.type ≠ f.1)).map fun f => f.2.map fun v => (⟨f.1, .str v⟩ : AtvAny))
        ((u.filter fun f => decide (f.2 ≠ [] ∧ ∀ a ∈ ([] : List AtvAny), a.type ≠ f.1)).map fun f => f.2.map fun v => (⟨f.1, .str v⟩ : AtvAny)) := by
    intro t u htu
    induction htu with
    | nil => exact .nil
    | cons hfg _ ih =>
      rename_i f g t u _
      obtain ⟨e1, e2⟩ := hfg
      by_cases hf : f.2 = []
      · have hg : g.2 = [] := by rw [hf] at e2; exact e2.symm.eq_nil
        rw [List.filter_cons_of_neg (by simp [hf]), List.filter_cons_of_neg (by simp [hg])]
        exact ih
      · have hg : g.2 ≠ [] := by intro hg; rw [hg] at e2; exact hf e2.eq_nil
        rw [List.filter_cons_of_pos (by simp [hf]), List.filter_cons_of_pos (by simp [hg])]
        refine .cons ?_ ih
        dsimp only
        rw [e1]
        exact e2.map _
  refine key _ _ ?_
  unfold fieldTable
  rw [h1, h2]
  exact .cons ⟨rfl, h3⟩ (.cons ⟨rfl, h4⟩ (.cons ⟨rfl, h5⟩ (.cons ⟨rfl, h6⟩ (.cons ⟨rfl, h7⟩ (.cons ⟨rfl, h8⟩ (.cons ⟨rfl, h9⟩
    (.cons ⟨rfl, .refl _⟩ (.cons ⟨rfl, .refl _⟩ .nil))))))))

/-- **C82** If the issuer was made by `CreateCertificate` from a name without extra names (and without octets), lists made
for the parsed issuer have the relative distinguished names of its subject, up to the order within them. -/
theorem C82_list_issuer_same (env : Env) (E : SignEnv) (t p : Certificate) (pub : PubKey) (ca key : Signer) (cder der : Bytes)
    (hc : CreateCertificate E t p pub (some ca) = .ok cder) (hcl : cder.length < 2 ^ 31)
    (hct : TemplateReadable env E.sha1 t p pub) (h0 : t.rawSubject = []) (hx : t.subject.extraNames = [])
    (rl : RevocationList) (issuer : Certificate) (hi : ParseCertificate env cder = .ok issuer)
    (h : CreateRevocationList E (some rl) (some issuer) key = .ok der) (hl : der.length < 2 ^ 31)
    (ht : RevocationListOk rl issuer) :
    ∃ l rdns m, ParseDERCRL der = .ok l ∧ NameDer issuer.rawSubject rdns ∧
      List.Forall₂ List.Perm l.tbs.issuer m ∧ List.Forall₂ List.Perm (toAny rdns) m := by
  obtain ⟨c, -, h1, -, -, -, -, -, ⟨s, ⟨s0, -, s2⟩, s3⟩, -⟩ := C72_create_parse env E t p pub ca cder hc hcl hct
  rw [hi, Res.ok.injEq] at h1
  subst h1
  obtain ⟨l, -, -, -, -, -, -, g1, -, -, g2, -⟩ := C73_roundtrip E rl issuer key der h hl ht
  refine ⟨l, s, nameRdns t.subject, g1, s0, ?_, s2 h0⟩
  have h3 := nameRdns_keeps (keepsName (s2 h0) s3) hx
  have tr : ∀ {a b c : List (List AtvAny)}, List.Forall₂ List.Perm a b → List.Forall₂ List.Perm b c →
      List.Forall₂ List.Perm a c := by
    intro a b c hab
    induction hab generalizing c with
    | nil => intro hbc; cases hbc; exact .nil
    | cons h _ ih => intro hbc; cases hbc with
      | cons h' hbc => exact .cons (h.trans h') (ih hbc)
  exact tr g2 h3

/-! ## C83 -/

/-- **C83** A certificate issued by a CA: if the parent may sign certificates and its key is the signer's, the new
certificate is accepted by `ParseCertificate`, its issuer is the octets of the parent's subject, and
`CheckSignatureFrom(parent)` accepts it, for every algorithm whose signatures `CreateCertificate` checks. -/
theorem C83_issued_verifies (env : Env) (E : SignEnv) (t p : Certificate) (pub : PubKey) (key : Signer) (der : Bytes)
    (h : CreateCertificate E t p pub (some key) = .ok der) (hl : der.length < 2 ^ 31)
    (ht : TemplateReadable env E.sha1 t p pub) (hp : p.publicKey = key.pub) (hpk : p.publicKeyAlgorithm ≠ 0)
    (hraw : p.rawSubject ≠ []) (hca : ¬ ((p.version = 3 ∧ p.basicConstraintsValid = false) ∨
      (p.basicConstraintsValid = true ∧ p.isCA = false))) (hku : p.keyUsage = 0 ∨ hasBit p.keyUsage 5 = true)
    (ha : (if t.signatureAlgorithm = 0 then defaultAlg key.pub else t.signatureAlgorithm) ∉ uncheckedAlgorithms) :
    ∃ c, ParseCertificate env der = .ok c ∧ c.rawIssuer = p.rawSubject ∧ c.checkSignatureFrom E.reg E.V p = .ok () := by
  obtain ⟨c, -, h1, -, -, -, h5, ⟨r, ⟨-, i1, -⟩, -⟩, -, -, -, -, -, -, -, -, -, -, hcheck⟩ := C72_create_parse env E t p pub key der h hl ht
  refine ⟨c, h1, i1 hraw, ?_⟩
  unfold Certificate.checkSignatureFrom Certificate.checkSignature
  rw [if_neg (by simpa using hca), if_neg, if_neg hpk, hp]
  · exact hcheck (by rw [h5]; exact ha)
  · rintro ⟨q1, q2⟩
    rcases hku with h | h
    · exact q1 h
    · exact q2 h

/-- **C83** A self-signed CA certificate verifies under itself. -/
theorem C83_self_signed_verifies (env : Env) (E : SignEnv) (t : Certificate) (key : Signer) (der : Bytes)
    (h : CreateCertificate E t t key.pub (some key) = .ok der) (hl : der.length < 2 ^ 31)
    (ht : TemplateReadable env E.sha1 t t key.pub) (hk : sameKey key.pub = key.pub)
    (hca : t.basicConstraintsValid = true ∧ t.isCA = true) (hku : t.keyUsage % 512 = 0 ∨ hasBit (t.keyUsage % 512) 5 = true)
    (ha : (if t.signatureAlgorithm = 0 then defaultAlg key.pub else t.signatureAlgorithm) ∉ uncheckedAlgorithms) :
    ∃ c, ParseCertificate env der = .ok c ∧ c.checkSignatureFrom E.reg E.V c = .ok () := by
  obtain ⟨c, -, h1, -, -, -, h5, -, -, -, -, hpub, hext, -, -, -, -, -, hcheck⟩ := C72_create_parse env E t t key.pub key der h hl ht
  refine ⟨c, h1, ?_⟩
  obtain ⟨f, -, hkd, -, -, -, -, -, -, -, -, -, -, -, -, hpa, -, -⟩ := C70_fields env der c h1
  unfold Certificate.checkSignatureFrom Certificate.checkSignature
  have hb := hext.basicConstraintsValid.trans hca.1
  have hi := (hext.isCA hca.1).trans hca.2
  rw [if_neg (by simp [hb, hi]), if_neg, if_neg, hpub, hk]
  · exact hcheck (by rw [h5]; exact ha)
  · intro h0
    have h0 : c.publicKeyAlgorithm = 0 := h0
    rw [hpa] at h0
    have hne : c.publicKey ≠ .nil := by
      rw [hpub, hk]
      have := ht.key
      intro h; rw [h] at this; exact this
    unfold KeyDer at hkd
    split at h0
    · cases h0
    rename_i n1
    split at h0
    · cases h0
    rename_i n2
    split at h0
    · cases h0
    rename_i n3
    split at h0
    · cases h0
    rename_i n4
    simp only [n1, n2, n3, n4, if_false] at hkd
    exact hne hkd
  · rintro ⟨q1, q2⟩
    rw [hext.keyUsage] at q1 q2
    rcases hku with h | h
    · exact q1 h
    · exact q2 h

/-- The hypotheses are met: the example certificate is self-signed, and issues another one. -/
example : okAnd (CreateCertificate exSignEnv exCreateTemplate exCreateTemplate (.rsa ⟨33, 3⟩) (some exSigner)) (fun der =>
    okAnd (ParseCertificate exEnv der) fun ca =>
      ca.publicKey == exSigner.pub && ca.publicKeyAlgorithm == 1 && ca.rawSubject != [] && ca.basicConstraintsValid && ca.isCA &&
      hasBit ca.keyUsage 5 && okAnd (ca.checkSignatureFrom exSignEnv.reg exSignEnv.V ca) (fun _ => true) &&
      okAnd (CreateCertificate exSignEnv { exCreateTemplate with subject := { commonName := [99] } } ca (.ed25519 (List.replicate 32 7))
        (some exSigner)) fun der2 => okAnd (ParseCertificate exEnv der2) fun c =>
          c.rawIssuer == ca.rawSubject && c.rawSubject != ca.rawSubject && decide (c.subject.commonName = [99]) &&
          okAnd (c.checkSignatureFrom exSignEnv.reg exSignEnv.V ca) fun _ => true) = true := by decide +kernel

/-- The issuer of C82: its subject has the attribute type 1.2.3.4, the list for it has not. -/
example : okAnd (CreateCertificate exSignEnv exCreateTemplate exCreateTemplate (.rsa ⟨33, 3⟩) (some exSigner)) (fun der =>
    okAnd (ParseCertificate exEnv der) fun ca => (ca.subject.names.map (·.type)).contains [1, 2, 3, 4] &&
      okAnd (CreateRevocationList exSignEnv (some exCrlTemplate) (some { ca with keyUsage := 96 }) exSigner) fun der2 =>
        okAnd (ParseDERCRL der2) fun l => l.tbs.issuer ==
          [[⟨[2, 5, 4, 10], .str [98]⟩, ⟨[2, 5, 4, 10], .str [99]⟩], [⟨[2, 5, 4, 3], .str [97, 98]⟩]]) = true := by decide +kernel

end MCrypto.Props
