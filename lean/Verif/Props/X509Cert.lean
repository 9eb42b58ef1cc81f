import Verif.X509.NameLemmas
import Verif.X509.CertIff2
/-
Certificates: which octets `ParseCertificate` accepts, and what it returns.

C70 Accepted certificates and their fields.
C71 The signed part determines the parsed certificate.
-/
namespace MCrypto.Props
open MCrypto MCrypto.X509 MCrypto.X509Spec MCrypto.Asn1

/-- The same certificate with other outer octets and signature. -/
def reseal (raw signature : Bytes) (c : Certificate) : Certificate := { c with raw := raw, signature := signature }

theorem processExtension_reseal (env : Env) (r s : Bytes) (c : Certificate) (e : Ext) :
    processExtension env (reseal r s c) e = (processExtension env c e).map fun x => (reseal r s x.1, x.2) := by
  unfold processExtension
  by_cases h : e.id = [2, 5, 29, 15]
  · rw [if_pos h, if_pos h]; cases parseKeyUsageExtension e.value <;> rfl
  rw [if_neg h, if_neg h]; clear h
  by_cases h : e.id = [2, 5, 29, 19]
  · rw [if_pos h, if_pos h]; cases parseBasicConstraintsExtension e.value <;> rfl
  rw [if_neg h, if_neg h]; clear h
  by_cases h : e.id = [2, 5, 29, 17]
  · rw [if_pos h, if_pos h]; cases parseSANExtension env e.value <;> rfl
  rw [if_neg h, if_neg h]; clear h
  by_cases h : e.id = [2, 5, 29, 30]
  · rw [if_pos h, if_pos h]; cases parseNameConstraintsExtension env e.value <;> rfl
  rw [if_neg h, if_neg h]; clear h
  by_cases h : e.id = [2, 5, 29, 31]
  · rw [if_pos h, if_pos h]; cases parseCRLDistributionPoints e.value <;> rfl
  rw [if_neg h, if_neg h]; clear h
  by_cases h : e.id = [2, 5, 29, 35]
  · rw [if_pos h, if_pos h]; cases parseAuthorityKeyId e.value <;> rfl
  rw [if_neg h, if_neg h]; clear h
  by_cases h : e.id = [2, 5, 29, 37]
  · rw [if_pos h, if_pos h]; cases parseExtKeyUsageExtension e.value <;> rfl
  rw [if_neg h, if_neg h]; clear h
  by_cases h : e.id = [2, 5, 29, 14]
  · rw [if_pos h, if_pos h]; cases Der.readASN1 0x04 e.value <;> rfl
  rw [if_neg h, if_neg h]; clear h
  by_cases h : e.id = [2, 5, 29, 32]
  · rw [if_pos h, if_pos h]; cases parseCertificatePoliciesExtension e.value <;> rfl
  rw [if_neg h, if_neg h]; clear h
  by_cases h : e.id = oidExtensionAuthorityInfoAccess
  · rw [if_pos h, if_pos h]; cases parseAuthorityInfoAccess e.value <;> rfl
  rw [if_neg h, if_neg h]; clear h
  rfl

theorem processLoop_reseal (env : Env) (r s : Bytes) (l : List Ext) (c : Certificate) :
    processExtensionsLoop env (reseal r s c) l = (processExtensionsLoop env c l).map (reseal r s) := by
  induction l generalizing c with
  | nil => rfl
  | cons e l ih =>
    rw [processExtensionsLoop, processExtensionsLoop, processExtension_reseal]
    cases processExtension env c e with
    | none => rfl
    | some x =>
      obtain ⟨c', u⟩ := x
      simp only [Option.map_some]
      rw [← ih]
      cases h : (e.critical && u) <;> rfl

/-- **C70** What `ParseCertificate` accepts: exactly the octets with the structure of a certificate whose key is well
formed and each of whose known extensions is. -/
theorem C70_accept_iff (env : Env) (der : Bytes) :
    (∃ c, ParseCertificate env der = .ok c) ↔
      ∃ f k, CertDer der f ∧ KeyDer f.keyOid f.keyPar f.key k ∧ ∀ e ∈ f.extensions, WellFormed env e := by
  constructor
  · rintro ⟨c, h⟩
    obtain ⟨f, k, c', h1, h2, h3, _⟩ := (ParseCertificate_spec env der c).mp h
    exact ⟨f, k, h1, h2, (processLoop_iff env _ _).mp ⟨c', h3⟩⟩
  · rintro ⟨f, k, h1, h2, h3⟩
    obtain ⟨c', hc⟩ := (processLoop_iff env f.extensions (recordOf der f k)).mpr h3
    exact ⟨_, (ParseCertificate_spec env der _).mpr ⟨f, k, c', h1, h2, hc, rfl⟩⟩

/-- **C70** The fields of the certificate that is returned are those of its octets. -/
theorem C70_fields (env : Env) (der : Bytes) (c : Certificate) (h : ParseCertificate env der = .ok c) :
    ∃ f, CertDer der f ∧ KeyDer f.keyOid f.keyPar f.key c.publicKey ∧
      c.raw = der ∧ c.rawTBSCertificate = f.rawTbs ∧ c.version = f.version ∧ c.serialNumber = some f.serial ∧
      c.signatureAlgorithm = getSignatureAlgorithmFromAI ⟨f.sigOid, { full := f.sigPar }⟩ ∧
      c.rawIssuer = f.rawIssuer ∧ NameFields (toAny f.issuer).flatten c.issuer ∧ c.notBefore = f.notBefore ∧ c.notAfter = f.notAfter ∧
      c.rawSubject = f.rawSubject ∧ NameFields (toAny f.subject).flatten c.subject ∧ c.rawSubjectPublicKeyInfo = f.rawSpki ∧
      c.publicKeyAlgorithm = (if f.keyOid = [1, 2, 840, 113549, 1, 1, 1] then 1 else if f.keyOid = [1, 2, 840, 10040, 4, 1] then 2
        else if f.keyOid = [1, 2, 840, 10045, 2, 1] then 3 else if f.keyOid = [1, 3, 101, 112] then 4 else 0) ∧
      c.extensions = f.extensions ∧ c.signature = f.signature := by
  obtain ⟨f, k, c', h1, h2, h3, rfl⟩ := (ParseCertificate_spec env der c).mp h
  have hc := processLoop_core h3
  refine ⟨f, h1, ?_, ?_, ?_, ?_, ?_, ?_, ?_, ?_, ?_, ?_, ?_, ?_, ?_, ?_, ?_, rfl⟩
  · have := congrArg Certificate.publicKey hc; have e : c'.publicKey = k := this; rw [e]; exact h2
  · have := congrArg Certificate.raw hc; exact this
  · have := congrArg Certificate.rawTBSCertificate hc; exact this
  · have := congrArg Certificate.version hc; exact this
  · have := congrArg Certificate.serialNumber hc; exact this
  · have := congrArg Certificate.signatureAlgorithm hc; exact this
  · have := congrArg Certificate.rawIssuer hc; exact this
  · have := congrArg Certificate.issuer hc
    have e : c'.issuer = Name.fromRDNSequence (toAny f.issuer) := this
    rw [show ({ c' with signature := f.signature } : Certificate).issuer = c'.issuer from rfl, e]
    exact fromRDNSequence_fields _
  · have := congrArg Certificate.notBefore hc; exact this
  · have := congrArg Certificate.notAfter hc; exact this
  · have := congrArg Certificate.rawSubject hc; exact this
  · have := congrArg Certificate.subject hc
    have e : c'.subject = Name.fromRDNSequence (toAny f.subject) := this
    rw [show ({ c' with signature := f.signature } : Certificate).subject = c'.subject from rfl, e]
    exact fromRDNSequence_fields _
  · have := congrArg Certificate.rawSubjectPublicKeyInfo hc; exact this
  · have := congrArg Certificate.publicKeyAlgorithm hc
    have e : c'.publicKeyAlgorithm = (getPublicKeyAlgorithmFromOID f.keyOid).toInt := this
    show c'.publicKeyAlgorithm = _
    rw [e]
    unfold getPublicKeyAlgorithmFromOID
    show _ = (if f.keyOid = oidPublicKeyRSA then 1 else if f.keyOid = oidPublicKeyDSA then 2
        else if f.keyOid = oidPublicKeyECDSA then 3 else if f.keyOid = oidPublicKeyEd25519 then 4 else (0 : Int))
    repeat' split
    all_goals rfl
  · have := congrArg Certificate.extensions hc; exact this

/-! ## C71 The signed part determines the certificate -/

theorem maybe_unique {tag : Der.Tag} {s r r' : Bytes} (h : Maybe tag s r) (h' : Maybe tag s r') : r = r' := by
  have a := (skipOptional_iff _ _ _).mpr h
  have b := (skipOptional_iff _ _ _).mpr h'
  rw [a] at b; exact Option.some.inj b

theorem extensionsDer_unique {v : Int} {s : Bytes} {l l' : List Ext} (h : ExtensionsDer v s l) (h' : ExtensionsDer v s l') :
    l = l' := by
  unfold ExtensionsDer at h h'
  split at h
  · rename_i hv
    rw [if_pos hv] at h'; rw [h, h']
  · rename_i hv
    rw [if_neg hv] at h'
    obtain ⟨s1, s2, a1, a2, a3⟩ := h
    obtain ⟨t1, t2, b1, b2, b3⟩ := h'
    obtain rfl := maybe_unique a1 b1
    obtain rfl := maybe_unique a2 b2
    split at a3
    · rename_i h3
      rw [if_pos h3] at b3
      rcases a3 with ⟨h1, rfl⟩ | ⟨xe, se, bd, tr, junk, rfl, e1, e2, e3⟩
      · rcases b3 with ⟨h1', rfl⟩ | ⟨xe, se, bd, tr, junk, rfl, e1, e2, e3⟩
        · rfl
        · exact absurd ((head_elem e1).mpr rfl) h1
      · rcases b3 with ⟨h1', rfl⟩ | ⟨xe', se', bd', tr', junk', hs, e1', e2', e3'⟩
        · exact absurd ((head_elem e1).mpr rfl) h1'
        · obtain ⟨-, hb, -, -⟩ := elem_unique e1 e1' hs
          obtain ⟨-, rfl, -, -⟩ := elem_unique e2 e2' hb
          have hm := readMany_concat' readExtension_iff (fun e n h => extElem_ne_nil h)
          have a := (hm _ _).mpr e3
          have b := (hm _ _).mpr e3'
          rw [a] at b; exact Option.some.inj b
    · rename_i h3
      rw [if_neg h3] at b3; rw [a3, b3]

theorem algIdBody_unique {b : Bytes} {o o' : Oid} {p p' : Bytes} (h : AlgIdBody b o p) (h' : AlgIdBody b o' p') :
    o = o' ∧ p = p' := by
  obtain ⟨a, h1, h2, h3⟩ := parseAI_complete h
  obtain ⟨a', h1', h2', h3'⟩ := parseAI_complete h'
  rw [h1] at h1'
  obtain rfl := Option.some.inj h1'
  exact ⟨h2.symm.trans h2', h3.symm.trans h3'⟩

theorem bitsElem_unique {e r r' : Bytes} (h : BitsElem e r) (h' : BitsElem e r') : r = r' := by
  obtain ⟨b, v, h1, h2, h3⟩ := (bitsElem_iff _ _).mp h
  obtain ⟨b', v', h1', h2', h3'⟩ := (bitsElem_iff _ _).mp h'
  obtain ⟨_, rfl⟩ := elem_inj h1 h1'
  rw [h2] at h2'
  obtain rfl := Option.some.inj h2'
  rw [← h3, h3']

theorem keyDer_unique {o : Oid} {p b : Bytes} {k k' : PubKey} (h : KeyDer o p b k) (h' : KeyDer o p b k') : k = k' := by
  have a := (parsePublicKey_iff ⟨⟨o, { full := p }⟩, ⟨b, b.length * 8⟩⟩ k).mpr (by
    have : rightAlign ⟨b, b.length * 8⟩ = b := by unfold rightAlign; simp
    simp only [this]; exact h)
  have c := (parsePublicKey_iff ⟨⟨o, { full := p }⟩, ⟨b, b.length * 8⟩⟩ k').mpr (by
    have : rightAlign ⟨b, b.length * 8⟩ = b := by unfold rightAlign; simp
    simp only [this]; exact h')
  rw [a] at c
  injection c

/-- Everything in a certificate but the signature is in the signed part. -/
theorem certDer_tbs {d d' : Bytes} {f f' : CertFields} (h : CertDer d f) (h' : CertDer d' f') (ht : f.rawTbs = f'.rawTbs) :
    f' = { f with signature := f'.signature } := by
  obtain ⟨ab, ae, se, j, ve, sr, va, rest, k1, k2, k3, k4, k5, k6, n1, n2, n3,
      ⟨algE2, algBody2, bitsE, junk2, m1, m2, m3, m4⟩, x1, y⟩ := h
  obtain ⟨ab', ae', se', j', ve', sr', va', rest', k1', k2', k3', k4', k5', k6', n1', n2', n3',
      ⟨algE2', algBody2', bitsE', junk2', m1', m2', m3', m4'⟩, x1', y'⟩ := h'
  rw [← ht] at k2'
  obtain ⟨-, hb⟩ := elem_inj k2 k2'
  have p1 : ∀ r, (sr ++ r).head? ≠ some 0xa0 := fun r => by rw [Ne, head_elem k6]; decide
  have p2 : ∀ r, (sr' ++ r).head? ≠ some 0xa0 := fun r => by rw [Ne, head_elem k6']; decide
  have v1 := (parseVersion_iff _ f.version _
    (p1 (ae ++ (f.rawIssuer ++ (va ++ (f.rawSubject ++ (f.rawSpki ++ rest))))))).mpr ⟨ve, rfl, k5⟩
  have v2 := (parseVersion_iff _ f'.version _
    (p2 (ae' ++ (f'.rawIssuer ++ (va' ++ (f'.rawSubject ++ (f'.rawSpki ++ rest'))))))).mpr ⟨ve', rfl, k5'⟩
  rw [hb, v2] at v1
  simp only [Option.some.injEq, Prod.mk.injEq] at v1
  obtain ⟨hv, hb2⟩ := v1
  have i1 : ∀ r, Der.readInt (sr ++ r) = some (f.serial, r) := fun r => (readInt_iff _ _ _).mpr ⟨sr, rfl, k6⟩
  have i2 : ∀ r, Der.readInt (sr' ++ r) = some (f'.serial, r) := fun r => (readInt_iff _ _ _).mpr ⟨sr', rfl, k6'⟩
  have i3 := congrArg Der.readInt hb2
  rw [i1, i2] at i3
  simp only [Option.some.injEq, Prod.mk.injEq] at i3
  obtain ⟨hi, hb3⟩ := i3
  obtain ⟨-, rfl, -, hb4⟩ := elem_unique k3 k3' hb3.symm
  obtain ⟨ho, hp⟩ := algIdBody_unique k4 k4'
  have d1 := (parseIdentity_iff _ ⟨f.rawIssuer, f.issuer, f.notBefore, f.notAfter, f.rawSubject, f.subject⟩
    (f.rawSpki ++ rest)).mpr ⟨va, rfl, n1, n2, n3⟩
  have d2 := (parseIdentity_iff _ ⟨f'.rawIssuer, f'.issuer, f'.notBefore, f'.notAfter, f'.rawSubject, f'.subject⟩
    (f'.rawSpki ++ rest')).mpr ⟨va', rfl, n1', n2', n3'⟩
  have hb4' : f.rawIssuer ++ (va ++ (f.rawSubject ++ (f.rawSpki ++ rest))) =
      f'.rawIssuer ++ (va' ++ (f'.rawSubject ++ (f'.rawSpki ++ rest'))) := hb4
  rw [hb4', d2] at d1
  simp only [Option.some.injEq, Prod.mk.injEq, Identity.mk.injEq] at d1
  obtain ⟨⟨q1, q2, q3, q4, q5, q6⟩, hb5⟩ := d1
  obtain ⟨-, hb6, hsp, hb7⟩ := elem_unique m1' m1 hb5
  obtain ⟨-, rfl, -, hb8⟩ := elem_unique m2' m2 hb6
  obtain ⟨r1, r2⟩ := algIdBody_unique m3' m3
  have m5 := m4
  have m5' := m4'
  obtain ⟨_, _, w1, _⟩ := m5
  obtain ⟨_, _, w2, _⟩ := m5'
  obtain ⟨-, -, hbe, -⟩ := elem_unique w2 w1 hb8
  rw [hbe] at m4'
  have hk := bitsElem_unique m4' m4
  subst hb7
  rw [hv] at x1'
  have hx := extensionsDer_unique x1' x1
  obtain ⟨⟩ := f
  obtain ⟨⟩ := f'
  simp only [] at *
  subst_vars
  rfl

/-- **C70** The octets of a certificate have one reading only. -/
theorem C70_unambiguous (der : Bytes) (f f' : CertFields) (h : CertDer der f) (h' : CertDer der f') : f = f' := by
  have ht : f.rawTbs = f'.rawTbs ∧ f.signature = f'.signature := by
    obtain ⟨ab, ae, se, j, ve, sr, va, rest, k1, k2, k3, k4, k5, k6, n1, n2, n3, m, x1, y⟩ := h
    obtain ⟨ab', ae', se', j', ve', sr', va', rest', k1', k2', k3', k4', k5', k6', n1', n2', n3', m', x1', y'⟩ := h'
    obtain ⟨-, hb⟩ := elem_inj k1 k1'
    obtain ⟨-, -, ht, hb2⟩ := elem_unique k2 k2' hb
    obtain ⟨-, -, -, hb3⟩ := elem_unique k3 k3' hb2
    have y2 := y
    have y2' := y'
    obtain ⟨_, _, w1, _⟩ := y2
    obtain ⟨_, _, w2, _⟩ := y2'
    obtain ⟨-, -, he, -⟩ := elem_unique w1 w2 hb3
    rw [he] at y
    exact ⟨ht, bitsElem_unique y y'⟩
  have := certDer_tbs h h' ht.1
  rw [this, ← ht.2]

/-- **C71** The signed part determines everything else: of two certificates that parse and have the same signed part,
one differs from the other at most in its whole encoding and in the signature. -/
theorem C71_signed_part_determines (env : Env) (d d' : Bytes) (c c' : Certificate) (h : ParseCertificate env d = .ok c)
    (h' : ParseCertificate env d' = .ok c') (ht : c.rawTBSCertificate = c'.rawTBSCertificate) :
    c' = { c with raw := c'.raw, signature := c'.signature } := by
  obtain ⟨f, k, x, h1, h2, h3, rfl⟩ := (ParseCertificate_spec env d c).mp h
  obtain ⟨f', k', x', h1', h2', h3', rfl⟩ := (ParseCertificate_spec env d' c').mp h'
  have e1 : x.rawTBSCertificate = f.rawTbs := by
    have := congrArg Certificate.rawTBSCertificate (processLoop_core h3); exact this
  have e2 : x'.rawTBSCertificate = f'.rawTbs := by
    have := congrArg Certificate.rawTBSCertificate (processLoop_core h3'); exact this
  have ht' : f.rawTbs = f'.rawTbs := by rw [← e1, ← e2]; exact ht
  have hf := certDer_tbs h1 h1' ht'
  have hk : k' = k := by
    rw [hf] at h2'; exact keyDer_unique h2' h2
  have hx : x' = reseal x'.raw x'.signature x := by
    have r1 : x'.raw = d' := by have := congrArg Certificate.raw (processLoop_core h3'); exact this
    have r2 : x'.signature = [] := by have := congrArg Certificate.signature (processLoop_core h3'); exact this
    have hrec : recordOf d' f' k' = reseal d' [] (recordOf d f k) := by
      rw [hk, hf]; rfl
    have : processExtensionsLoop env (recordOf d' f' k') f'.extensions = some x' := h3'
    rw [hrec, processLoop_reseal] at this
    have hext : f'.extensions = f.extensions := by rw [hf]
    rw [hext] at this
    have h3'' : processExtensionsLoop env (recordOf d f k) f.extensions = some x := h3
    rw [h3''] at this
    rw [r1, r2]
    exact (Option.some.inj this).symm
  show ({ x' with signature := f'.signature } : Certificate) = _
  rw [hx]
  rfl

/-- **C71** In particular a certificate whose signature over `rawTBSCertificate` is genuine cannot be altered in any
field that is used for path validation while the signed part stays the same. -/
theorem C71_fields (env : Env) (d d' : Bytes) (c c' : Certificate) (h : ParseCertificate env d = .ok c)
    (h' : ParseCertificate env d' = .ok c') (ht : c.rawTBSCertificate = c'.rawTBSCertificate) :
    c'.publicKey = c.publicKey ∧ c'.signatureAlgorithm = c.signatureAlgorithm ∧ c'.serialNumber = c.serialNumber ∧
    c'.rawIssuer = c.rawIssuer ∧ c'.rawSubject = c.rawSubject ∧ c'.notBefore = c.notBefore ∧ c'.notAfter = c.notAfter ∧
    c'.isCA = c.isCA ∧ c'.basicConstraintsValid = c.basicConstraintsValid ∧ c'.keyUsage = c.keyUsage ∧
    c'.dnsNames = c.dnsNames ∧ c'.unhandledCriticalExtensions = c.unhandledCriticalExtensions ∧
    c'.extensions = c.extensions := by
  rw [C71_signed_part_determines env d d' c c' h h' ht]
  exact ⟨rfl, rfl, rfl, rfl, rfl, rfl, rfl, rfl, rfl, rfl, rfl, rfl, rfl⟩

/-! ### Examples -/

/-- A version 3 certificate with an Ed25519 key, a one-attribute subject, a critical basic constraints extension, and
`tail` after the signature. -/
def exCertDer (tail : Bytes) : Bytes :=
  Der.tlv 0x30 (
    Der.tlv 0x30 (Der.tlv 0xa0 [2, 1, 2] ++ Der.tlv 0x02 [5] ++ Der.tlv 0x30 [6, 8, 0x2a, 0x81, 0x1c, 0xcf, 0x55, 1, 0x83, 0x75] ++
      Der.tlv 0x30 [] ++
      Der.tlv 0x30 (Der.tlv 0x17 [50, 48, 48, 49, 48, 49, 48, 48, 48, 48, 48, 48, 90] ++
        Der.tlv 0x18 [50, 48, 53, 48, 48, 50, 50, 56, 49, 50, 48, 48, 48, 48, 43, 48, 56, 48, 48]) ++
      Der.tlv 0x30 (Der.tlv 0x31 (Der.tlv 0x30 [6, 3, 85, 4, 3, 0x0c, 1, 97])) ++
      Der.tlv 0x30 (Der.tlv 0x30 [6, 3, 43, 101, 112] ++ Der.tlv 0x03 (0 :: List.replicate 32 7)) ++
      Der.tlv 0xa3 (Der.tlv 0x30 (Der.tlv 0x30 [6, 3, 85, 29, 19, 1, 1, 0xff, 4, 5, 0x30, 3, 1, 1, 0xff]))) ++
    Der.tlv 0x30 [6, 8, 0x2a, 0x81, 0x1c, 0xcf, 0x55, 1, 0x83, 0x75] ++ Der.tlv 0x03 [0, 1, 2] ++ tail)

def exCertEnv : Env := ⟨fun _ => none, fun _ => false⟩

theorem exCert_parses (tail : Bytes) (h : tail = [] ∨ tail = [5, 0]) : ∃ c, ParseCertificate exCertEnv (exCertDer tail) = .ok c ∧
    c.isCA = true ∧ c.version = 3 ∧ c.subject = { commonName := [97], names := [⟨[2, 5, 4, 3], .str [97]⟩] } ∧ c.notAfter = ⟨2050, 2, 28, 12, 0, 0, 480⟩ ∧
    c.publicKey = .ed25519 (List.replicate 32 7) ∧ c.signature = [1, 2] := by
  have key : ∀ tail ∈ [[], [5, 0]], (match ParseCertificate exCertEnv (exCertDer tail) with
      | .ok c => decide (c.isCA = true ∧ c.version = 3 ∧ c.subject = { commonName := [97], names := [⟨[2, 5, 4, 3], .str [97]⟩] } ∧
        c.notAfter = ⟨2050, 2, 28, 12, 0, 0, 480⟩ ∧ c.publicKey = .ed25519 (List.replicate 32 7) ∧ c.signature = [1, 2])
      | _ => false) = true := by decide +kernel
  have := key tail (by rcases h with rfl | rfl <;> simp)
  cases hp : ParseCertificate exCertEnv (exCertDer tail) with
  | ok c => rw [hp] at this; exact ⟨c, rfl, by simpa using this⟩
  | err e => rw [hp] at this; cases this
  | panic => rw [hp] at this; cases this

/-- The right-hand side of C70 is met, and what follows the signature is accepted. -/
example : ∃ f k, CertDer (exCertDer [5, 0]) f ∧ KeyDer f.keyOid f.keyPar f.key k ∧ f.extensions.length = 1 := by
  obtain ⟨c, h, _⟩ := exCert_parses [5, 0] (Or.inr rfl)
  obtain ⟨f, hf, hk, _, _, _, _, _, _, _, _, _, _, _, _, _, he, _⟩ := C70_fields _ _ _ h
  have : (match ParseCertificate exCertEnv (exCertDer [5, 0]) with
      | .ok c => decide (c.extensions.length = 1)
      | _ => false) = true := by decide +kernel
  rw [h] at this
  simp only [decide_eq_true_eq] at this
  exact ⟨f, c.publicKey, hf, hk, by rw [← he]; exact this⟩

/-- Two different encodings with the same signed part. -/
example : ∃ d d' c c', d ≠ d' ∧ ParseCertificate exCertEnv d = .ok c ∧ ParseCertificate exCertEnv d' = .ok c' ∧
    c.rawTBSCertificate = c'.rawTBSCertificate := by
  obtain ⟨c, h, _⟩ := exCert_parses [] (Or.inl rfl)
  obtain ⟨c', h', _⟩ := exCert_parses [5, 0] (Or.inr rfl)
  have : (match ParseCertificate exCertEnv (exCertDer []), ParseCertificate exCertEnv (exCertDer [5, 0]) with
      | .ok c, .ok c' => decide (c.rawTBSCertificate = c'.rawTBSCertificate)
      | _, _ => false) = true := by decide +kernel
  rw [h, h'] at this
  exact ⟨_, _, c, c', by decide +kernel, h, h', by simpa using this⟩

end MCrypto.Props
