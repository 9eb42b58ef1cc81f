import Verif.Props.Renew
import Verif.Props.X509ListDer
import Verif.Props.Pkcs7Write
/-
C120 From a request to a certificate.
-/
namespace MCrypto.Props
open MCrypto MCrypto.Asn1 MCrypto.X509 MCrypto.X509Spec MCrypto.Dg

/-- The template of a CA that copies the subject and the names of a request. -/
def issueFrom (base : Certificate) (r : CertificateRequest) : Certificate :=
  { base with rawSubject := r.rawSubject, subject := r.subject, dnsNames := r.dnsNames, emailAddresses := r.emailAddresses,
              ipAddresses := r.ipAddresses, uris := r.uris }

/-- What the CA adds can be read back. -/
structure IssueOk (env : Env) (sha1 : Bytes → Bytes) (base p : Certificate) : Prop where
  notBefore : ValidTime base.notBefore
  notAfter : ValidTime base.notAfter
  issuer : NameOk p
  template : TemplateOk env base
  extra : ∀ e ∈ base.extraExtensions, OidOk e.id ∧ e.id ∉ knownExtensions
  akiLen : base.authorityKeyId.length < 2 ^ 30
  parentSkiLen : p.subjectKeyId.length < 2 ^ 30
  skiLen : base.subjectKeyId.length < 2 ^ 30
  sha1Len : ∀ b, (sha1 b).length = 20

theorem elem_el {t : UInt8} {b e : Bytes} (h : Elem t b e) (hl : e.length < 2 ^ 31) : El t b e := by
  have h1 := tlv_body_lt h
  have h2 : (2 : Nat) ^ 31 < 256 ^ 127 := by decide
  exact ⟨(DerSpec.isTLV_iff _ _ _ (by omega)).mpr h.1, by omega⟩

theorem oidElem_el {o : Oid} {e : Bytes} (h : OidElem o e) (hl : e.length < 2 ^ 31) : OidEl o e := by
  obtain ⟨b, h1, h2, h3⟩ := h
  exact ⟨b, elem_el h1 hl, (isOid_iff _ _).mpr ((decOid_iff _ _).mpr ⟨h2, h3⟩)⟩

theorem forall₂_imp_len {α : Type} {R S : Bytes → α → Prop} {n : Nat} (h : ∀ e v, e.length < n → R e v → S e v) :
    ∀ {es : List Bytes} {vs : List α}, es.flatten.length < n → List.Forall₂ R es vs → List.Forall₂ S es vs
  | _, _, _, .nil => .nil
  | _, _, hl, .cons h1 h2 => by
    simp only [List.flatten_cons, List.length_append] at hl
    exact .cons (h _ _ (by omega) h1) (forall₂_imp_len h (by omega) h2)

/-- What the parser of certificates reads as a name, `encoding/asn1` reads as the same name. -/
theorem nameDer_el {e : Bytes} {n : List (List Atv)} (h : NameDer e n) (hl : e.length < 2 ^ 31) : NameEl (toAny n) e := by
  obtain ⟨body, h1, es, rfl, h2⟩ := h
  have hb := tlv_body_lt h1
  refine ⟨_, elem_el h1 hl, es, rfl, ?_⟩
  unfold toAny
  rw [List.forall₂_map_right_iff]
  refine forall₂_imp_len (n := 2 ^ 31) ?_ (by omega) h2
  rintro e l he ⟨body, g1, es, rfl, g2⟩
  have hb := tlv_body_lt g1
  refine ⟨_, elem_el g1 he, es, rfl, ?_⟩
  rw [List.forall₂_map_right_iff]
  refine forall₂_imp_len (n := 2 ^ 31) ?_ (by omega) g2
  rintro e a he ⟨oe, tag, raw, ve, junk, k1, k2, k3, k4⟩
  have hb := tlv_body_lt k1
  simp only [List.length_append] at hb
  exact ⟨oe, ve, junk, elem_el k1 he, oidElem_el k2 (by omega), Or.inl ⟨tag, raw, _, elem_el k3 (by omega), k4, rfl⟩⟩

/-- What is known of a parsed request. -/
theorem request_facts {env : Env} {req : Bytes} {r : CertificateRequest} (h : ParseCertificateRequest env req = .ok r) :
    (∀ n, NameDer r.rawSubject n → r.subject = .fromRDNSequence (toAny n)) ∧
    (r.publicKey = .nil ∨ (∃ k, r.publicKey = .dsa k) ∨ (KeyOk r.publicKey ∧ sameKey r.publicKey = r.publicKey)) ∧
    (∀ ip ∈ r.ipAddresses, ip.length = 4 ∨ ip.length = 16) ∧ (∀ u ∈ r.uris, u.host ≠ [] → HostName u.host) := by
  obtain ⟨f, k, attrs, exts, names, h1, h2, -, -, h5, rfl⟩ := (C95_csr_grammar env req r).mp h
  have hnames : ∀ n ∈ names, SanOk env n := by
    rcases h5 with ⟨g1, ⟨-, rfl⟩ | ⟨pre, x, post, rfl, g2, g3, -⟩⟩
    · intro n hn; cases hn
    · obtain ⟨ns, g4, g5⟩ := g1 x (by simp) g2
      rw [san_unique g3 g4]
      exact g5
  have htag : ∀ (t : Der.Tag) (b : Bytes), b ∈ ofTag t names → (t, b) ∈ names := by
    intro t b hb
    unfold ofTag at hb
    obtain ⟨x, hx, rfl⟩ := List.mem_map.mp hb
    obtain ⟨hx1, hx2⟩ := List.mem_filter.mp hx
    have : x.1 = t := by simpa using hx2
    rw [← this]; exact hx1
  refine ⟨?_, ?_, ?_, ?_⟩
  · intro n hn
    obtain ⟨_, _, _, _, _, _, -, g1, -, g2, -⟩ := h1
    have hl : f.rawSubject.length < 2 ^ 31 := by
      have := g1.2
      simp only [List.length_append] at this
      omega
    have e1 := (name_iff f.rawSubject _ []).mpr ⟨_, (List.append_nil _).symm, g2⟩
    have e2 := (name_iff f.rawSubject _ []).mpr ⟨_, (List.append_nil _).symm, nameDer_el hn hl⟩
    rw [e1] at e2
    simp only [Option.some.injEq, Prod.mk.injEq, and_true] at e2
    show Name.fromRDNSequence f.subject = _
    rw [e2]
  · show k = .nil ∨ (∃ d, k = .dsa d) ∨ (KeyOk k ∧ sameKey k = k)
    unfold KeyDer at h2
    split at h2
    · obtain ⟨-, _, _, _, _, _, n, x, -, -, -, -, g1, g2, g3, rfl⟩ := h2
      exact Or.inr (Or.inr ⟨⟨g1, g2, g3⟩, rfl⟩)
    split at h2
    · obtain ⟨_, _, _, _, _, _, _, _, _, _, _, _, -, -, -, -, -, -, -, -, -, -, -, rfl⟩ := h2
      exact Or.inr (Or.inl ⟨_, rfl⟩)
    split at h2
    · obtain ⟨_, _, _, c, cp, x, y, -, -, -, g1, -, g2, rfl⟩ := h2
      refine Or.inr (Or.inr ?_)
      unfold ecPubKey
      split
      · exact ⟨⟨cp, g1, g2⟩, by simp only [sameKey, ecPubKey]; rw [if_pos (by assumption)]⟩
      · exact ⟨⟨cp, g1, g2⟩, by simp only [sameKey, ecPubKey]; rw [if_neg (by assumption)]⟩
    split at h2
    · obtain ⟨-, g1, rfl⟩ := h2
      exact Or.inr (Or.inr ⟨g1, rfl⟩)
    · exact Or.inl h2
  · intro ip hip
    exact (hnames _ (htag _ _ hip)).2.2.2 rfl
  · intro u hu
    obtain ⟨b, hb, rfl⟩ := List.mem_map.mp hu
    obtain ⟨-, v, g1, g2⟩ := (hnames _ (htag _ _ hb)).2.2.1 rfl
    rw [g1]
    exact g2

theorem issue_readable {env : Env} {E : SignEnv} {req : Bytes} {r : CertificateRequest} {base p : Certificate} {key : Signer} {der : Bytes}
    (hr : ParseCertificateRequest env req = .ok r) (hb : IssueOk env E.sha1 base p) (hn : ∃ n, NameDer r.rawSubject n)
    (hu : ∀ u ∈ r.uris, env.parseURL u.str = some u)
    (h : CreateCertificate E (issueFrom base r) p r.publicKey (some key) = .ok der) :
    TemplateReadable env E.sha1 (issueFrom base r) p r.publicKey ∧ sameKey r.publicKey = r.publicKey := by
  obtain ⟨f1, f2, f3, f4⟩ := request_facts hr
  have hk : KeyOk r.publicKey ∧ sameKey r.publicKey = r.publicKey := by
    obtain ⟨-, -, -, hf, sa, pb, pa, _, _, _, _, _, _, _, _, -, g2, -⟩ := create_steps h
    rcases f2 with h0 | ⟨k, h0⟩ | h0
    · rw [h0] at g2; cases g2
    · rw [h0] at g2; cases g2
    · exact h0
  refine ⟨⟨hk.1, hb.notBefore, hb.notAfter, ?_, hb.issuer, ?_, hb.extra, hb.akiLen, hb.parentSkiLen, hb.skiLen, hb.sha1Len⟩, hk.2⟩
  · obtain ⟨n, hn⟩ := hn
    refine ⟨fun _ => ⟨n, hn⟩, fun h0 => ?_⟩
    have h0 : r.rawSubject = [] := h0
    rw [h0] at hn
    obtain ⟨x, hx, -⟩ := hn
    exact absurd rfl hx.ne_nil
  · obtain ⟨t1, t2, t3, -, -, t6, t7⟩ := hb.template
    exact ⟨t1, t2, t3, f3, fun u hu' => ⟨hu u hu', f4 u hu'⟩, t6, t7⟩

theorem cert_subject {env : Env} {der : Bytes} {c : Certificate} (h : ParseCertificate env der = .ok c) :
    ∃ n, NameDer c.rawSubject n ∧ c.subject = .fromRDNSequence (toAny n) := by
  obtain ⟨f, k, c', h1, h2, h3, rfl⟩ := (ParseCertificate_spec env der c).mp h
  have hc := processLoop_core h3
  have e1 := congrArg Certificate.rawSubject hc
  have e2 := congrArg Certificate.subject hc
  have e1 : c'.rawSubject = f.rawSubject := e1
  have e2 : c'.subject = Name.fromRDNSequence (toAny f.subject) := e2
  obtain ⟨_, _, _, _, _, _, _, _, -, -, -, -, -, -, -, -, hns, -⟩ := h1
  exact ⟨f.subject, by rw [show ({ c' with signature := f.signature } : Certificate).rawSubject = c'.rawSubject from rfl, e1]; exact hns, e2⟩

/-- **C120** A CA that copies the subject, the names and the key of a parsed request into its template gets a certificate
that has them: the subject octet for octet and field by field, the names, the key; serial number, validity period, CA flags
and usages are those the CA has chosen, whatever the request asked for. -/
theorem C120_issue (env : Env) (E : SignEnv) (req : Bytes) (r : CertificateRequest) (base p : Certificate) (key : Signer) (der : Bytes)
    (hr : ParseCertificateRequest env req = .ok r) (hb : IssueOk env E.sha1 base p) (hn : ∃ n, NameDer r.rawSubject n)
    (hu : ∀ u ∈ r.uris, env.parseURL u.str = some u)
    (h : CreateCertificate E (issueFrom base r) p r.publicKey (some key) = .ok der) (hl : der.length < 2 ^ 31) :
    ∃ c, ParseCertificate env der = .ok c ∧ c.rawSubject = r.rawSubject ∧ c.subject = r.subject ∧ c.publicKey = r.publicKey ∧
      c.dnsNames = r.dnsNames ∧ c.emailAddresses = r.emailAddresses ∧ c.uris = r.uris ∧
      c.ipAddresses = r.ipAddresses.map (fun ip => (to4 ip).getD ip) ∧
      c.serialNumber = base.serialNumber ∧ SameInstant c.notBefore base.notBefore ∧ SameInstant c.notAfter base.notAfter ∧
      c.basicConstraintsValid = base.basicConstraintsValid ∧ (base.basicConstraintsValid = true → c.isCA = base.isCA) ∧
      c.keyUsage = base.keyUsage % 512 ∧ c.extKeyUsage = base.extKeyUsage ∧
      c.unhandledCriticalExtensions = (base.extraExtensions.filter (·.critical)).map (·.id) := by
  obtain ⟨hread, hsame⟩ := issue_readable hr hb hn hu h
  obtain ⟨f1, -, -, -⟩ := request_facts hr
  obtain ⟨c, ko, g1, -, -, g2, -, -, ⟨rd, ⟨d1, d2, -⟩, d4⟩, g5, g6, g7, g8, -⟩ := C72_create_parse env E _ p _ key der h hl hread
  have hraw : c.rawSubject = r.rawSubject := by
    obtain ⟨n, ⟨x, hx, -⟩⟩ := hn
    exact d2 hx.ne_nil
  refine ⟨c, g1, hraw, ?_, g7.trans hsame, g8.dnsNames, g8.emailAddresses, g8.uris, g8.ipAddresses, g2, g5, g6, g8.basicConstraintsValid,
    g8.isCA, g8.keyUsage, g8.extKeyUsage, g8.unhandled⟩
  obtain ⟨n, e1, e2⟩ := cert_subject g1
  rw [e2, f1 n (hraw ▸ e1)]

/-- **C120** A certificate issued for a request follows the certificate of the CA. -/
theorem C120_follows (env : Env) (E : SignEnv) (req : Bytes) (r : CertificateRequest) (base p : Certificate) (key : Signer) (der : Bytes)
    (hr : ParseCertificateRequest env req = .ok r) (hb : IssueOk env E.sha1 base p) (hn : ∃ n, NameDer r.rawSubject n)
    (hu : ∀ u ∈ r.uris, env.parseURL u.str = some u) (hca : CaCert p) (halg : CheckedAlg base key)
    (h : CreateCertificate E (issueFrom base r) p r.publicKey (some key) = .ok der) (hl : der.length < 2 ^ 31) :
    ∃ c, ParseCertificate env der = .ok c ∧ Follows E c p := by
  obtain ⟨c, hc, -⟩ := C120_issue env E req r base p key der hr hb hn hu h hl
  exact ⟨c, hc, issues_follows ⟨(issue_readable hr hb hn hu h).1, halg, der, h, hl, hc⟩ hca⟩

/-- **C120** The whole way: a request is made for a template with the key of the applicant and read by the CA; the CA can
verify it (if the applicant's signatures verify), and the certificate that it issues, copying the subject and names, has the
applicant's key, names and subject. -/
theorem C120_pipeline (reg : Registry) (env : Env) (E : SignEnv) (V : Verifiers) (t : CertificateRequest) (applicant : Signer) (req : Bytes)
    (hreq : CreateCertificateRequest reg t (some applicant) = .ok req) (hrl : req.length < 2 ^ 31 - 6) (ht : RequestOk env t applicant)
    (ha : ∀ a ∈ t.attributes, AttrOk a ∧ a.type ≠ extensionRequest)
    (hsub : if t.rawSubject = [] then ∀ a ∈ t.subject.extraNames, ∃ s, a.value = .str s else ∃ n, NameDer t.rawSubject n)
    (hsigner : ∀ a tbs digest sig, digestFor reg (algHash a) tbs = .ok digest →
      applicant.sign digest (.hash (algHash a)) = some sig → checkSignature reg V a tbs sig (sameKey applicant.pub) = .ok ()) :
    ∃ r, ParseCertificateRequest env req = .ok r ∧ r.checkSignature reg V = .ok () ∧
      ∀ (base p : Certificate) (key : Signer) (der : Bytes), IssueOk env E.sha1 base p →
        CreateCertificate E (issueFrom base r) p r.publicKey (some key) = .ok der → der.length < 2 ^ 31 →
        ∃ c, ParseCertificate env der = .ok c ∧ c.publicKey = sameKey applicant.pub ∧
          (t.rawSubject ≠ [] → c.rawSubject = t.rawSubject) ∧ (t.rawSubject = [] → KeepsName t.subject c.subject) ∧
          c.dnsNames = t.dnsNames ∧ c.emailAddresses = t.emailAddresses ∧ c.uris = t.uris ∧
          c.ipAddresses = t.ipAddresses.map (fun ip => (to4 ip).getD ip) ∧
          (CaCert p → CheckedAlg base key → Follows E c p) := by
  obtain ⟨r, -, h1, h2, -⟩ := C62_roundtrip reg env t applicant req hreq hrl ht ha
  refine ⟨r, h1, C62_check reg V t applicant req r h2 (hsigner _), ?_⟩
  intro base p key der hb h hl
  have hn : ∃ n, NameDer r.rawSubject n := by
    split at hsub
    · rename_i h0; exact h2.name h0 hsub
    · rename_i h0; rw [h2.rawSubject h0]; exact hsub
  have hu : ∀ u ∈ r.uris, env.parseURL u.str = some u := by
    intro u hu
    rw [h2.uris] at hu
    exact (ht.uris u hu).1
  obtain ⟨c, g1, g2, g3, g4, g5, g6, g7, g8, -⟩ := C120_issue env E req r base p key der h1 hb hn hu h hl
  obtain ⟨rdns, -, s2, s3⟩ := h2.subject
  refine ⟨c, g1, g4.trans h2.publicKey, fun h0 => g2.trans (h2.rawSubject h0), fun h0 => ?_, g5.trans h2.dnsNames, g6.trans h2.emailAddresses,
    g7.trans h2.uris, ?_, fun hca halg => ?_⟩
  · rw [g3]; exact keepsName (s3 h0) s2
  · rw [g8, h2.ipAddresses, List.map_map]
    exact List.map_congr_left fun ip _ => to4_norm ip
  · exact issues_follows ⟨(issue_readable h1 hb hn hu h).1, halg, der, h, hl, g1⟩ hca

/-! ## Cases -/

/-- A request whose subject consists of strings. -/
def exIssueRequest : CertificateRequest :=
  { exRequest with subject := { commonName := [97, 98], country := [[67, 78]], extraNames := [⟨[1, 2, 3, 4], .str [99]⟩] } }

/-- Request, certificate and what can be read in it. -/
theorem C120_case : okAnd (CreateCertificateRequest exSignEnv.reg exIssueRequest (some exSigner)) (fun req =>
    decide (req.length < 1000) && okAnd (ParseCertificateRequest exEnv req) fun r => r.uris.isEmpty &&
      okAnd (CreateCertificate exSignEnv (issueFrom exCreateTemplate r) exCreateTemplate r.publicKey (some exSigner)) fun der =>
        decide (der.length < 1000) && okAnd (ParseCertificate exEnv der) fun c =>
          c.rawSubject == r.rawSubject && decide (c.rawSubject ≠ c.rawIssuer) && decide (c.dnsNames = [[97, 46, 98]]) &&
            decide (c.ipAddresses = [[1, 2, 3, 4]]) && decide (c.publicKey = exSigner.pub)) = true := by decide +kernel

/-- Why the subject has to consist of strings: a request whose subject has an INTEGER as a value is read, and a certificate
is made for it, but that certificate cannot be read. -/
theorem C120_unreadable_subject : okAnd (CreateCertificateRequest exSignEnv.reg exRequest (some exSigner)) (fun req =>
    okAnd (ParseCertificateRequest exEnv req) fun r =>
      okAnd (CreateCertificate exSignEnv (issueFrom exCreateTemplate r) exCreateTemplate r.publicKey (some exSigner)) fun der =>
        !(okAnd (ParseCertificate exEnv der) fun _ => true)) = true := by decide +kernel

/-- The conditions on what the CA adds are met. -/
theorem exIssueOk : IssueOk exEnv exSignEnv.sha1 exCreateTemplate exCreateTemplate where
  notBefore := exReadable.notBefore
  notAfter := exReadable.notAfter
  issuer := exReadable.issuer
  template := exReadable.template
  extra := exReadable.extra
  akiLen := exReadable.akiLen
  parentSkiLen := exReadable.parentSkiLen
  skiLen := exReadable.skiLen
  sha1Len := exReadable.sha1Len

/-- The hypotheses of `C120_issue` are met by the example. -/
example : ∃ req r der, ParseCertificateRequest exEnv req = .ok r ∧ (∃ n, NameDer r.rawSubject n) ∧
    (∀ u ∈ r.uris, exEnv.parseURL u.str = some u) ∧
    CreateCertificate exSignEnv (issueFrom exCreateTemplate r) exCreateTemplate r.publicKey (some exSigner) = .ok der ∧ der.length < 2 ^ 31 := by
  obtain ⟨req, h1, key⟩ := okAnd_ok C120_case
  rw [Bool.and_eq_true] at key
  obtain ⟨r, h2, key⟩ := okAnd_ok key.2
  rw [Bool.and_eq_true] at key
  obtain ⟨der, h3, key'⟩ := okAnd_ok key.2
  rw [Bool.and_eq_true] at key'
  have hl : der.length < 1000 := of_decide_eq_true key'.1
  obtain ⟨c, h4, key2⟩ := okAnd_ok key'.2
  simp only [Bool.and_eq_true, beq_iff_eq] at key2
  obtain ⟨n, hn, -⟩ := cert_subject h4
  refine ⟨req, r, der, h2, ⟨n, key2.1.1.1.1 ▸ hn⟩, ?_, h3, by omega⟩
  rw [List.isEmpty_iff.mp key.1]
  intro u hu
  cases hu

end MCrypto.Props
