import Verif.X509.CreateCert
import Verif.X509.CsrLemmas
import Verif.Props.X509Crl
/-
Certificate requests.

C62 A request made by `CreateCertificateRequest` is read back by `ParseCertificateRequest`.
C76 What `CreateCertificateRequest` requires.
C77 The signed octets of a request determine its contents.
-/
namespace MCrypto.Props
open MCrypto MCrypto.X509 MCrypto.X509Spec MCrypto.Asn1 MCrypto.Sm2Spec

/-! ## C76 -/

/-- The signer can sign with the requested algorithm, and its public key can be marshalled. -/
structure CsrRequires (t : CertificateRequest) (key : Signer) : Prop where
  canSign : CanSign key.pub
  family : t.signatureAlgorithm = 0 ∨ FamilyFits key.pub t.signatureAlgorithm
  marshals : Marshals key.pub

theorem csr_steps {reg : Registry} {t : CertificateRequest} {key : Signer} {der : Bytes}
    (h : CreateCertificateRequest reg t (some key) = .ok der) :
    ∃ hashFunc sigAlgo pkBytes pkAlgo exts raws subject contents digest signature,
      signingParamsForPublicKey key.pub t.signatureAlgorithm = .ok (hashFunc, sigAlgo) ∧
      marshalPublicKey key.pub = .ok (pkBytes, pkAlgo) ∧ buildCSRExtensions t = some exts ∧
      csrAttributes t.attributes exts = some raws ∧ csrSubject t = some subject ∧
      marshal tbsCsr { version := 0, subject := { full := subject }, publicKey := ⟨pkAlgo, ⟨pkBytes, pkBytes.length * 8⟩⟩, rawAttributes := raws } = some contents ∧
      digestFor reg hashFunc contents = .ok digest ∧ key.sign digest (.hash hashFunc) = some signature ∧
      marshal csr { tbs := { version := 0, subject := { full := subject }, publicKey := ⟨pkAlgo, ⟨pkBytes, pkBytes.length * 8⟩⟩, rawAttributes := raws, raw := contents }, signatureAlgorithm := sigAlgo, signatureValue := ⟨signature, signature.length * 8⟩ } = some der := by
  unfold CreateCertificateRequest at h
  simp only [Res.bind_eq_ok, Prod.exists, ofOption_ok', signCsr] at h
  obtain ⟨hashFunc, sigAlgo, g1, pkBytes, pkAlgo, g2, exts, g3, raws, g4, subject, g5, contents, g6, digest, g7, signature, g8, g9⟩ := h
  exact ⟨hashFunc, sigAlgo, pkBytes, pkAlgo, exts, raws, subject, contents, digest, signature, g1, g2, g3, g4, g5, g6, g7, g8, g9⟩

/-- **C76** `CreateCertificateRequest` succeeds only with a signer that meets its requirements. -/
theorem C76_requires (reg : Registry) (t : CertificateRequest) (priv : Option Signer) (der : Bytes)
    (h : CreateCertificateRequest reg t priv = .ok der) : ∃ key, priv = some key ∧ CsrRequires t key := by
  cases priv with
  | none => cases h
  | some key =>
    obtain ⟨hashFunc, sigAlgo, pkBytes, pkAlgo, -, -, -, -, -, -, g1, g2, -⟩ := csr_steps h
    have hs := (C43_signing_ok_iff key.pub t.signatureAlgorithm).mp ⟨_, g1⟩
    refine ⟨key, rfl, hs.1, hs.2, ?_⟩
    cases hp : key.pub with
    | rsa k => trivial
    | ecdsa k => rw [hp] at g2; exact marshalECPub_curve g2
    | sm2 k => rw [hp] at g2; exact marshalECPub_curve g2
    | ed25519 k => trivial
    | dsa k => rw [hp] at g2; cases g2
    | nil => rw [hp] at g2; cases g2
    | other k => rw [hp] at g2; cases g2

/-- **C76** It never panics (with the hashes of the package registered and coordinates of the key that fit the field);
if the requirements are not met the result is an error. -/
theorem C76_no_panic (H : StdHashes) (t : CertificateRequest) (priv : Option Signer) (hf : ∀ key, priv = some key → CoordsFit key.pub) :
    CreateCertificateRequest (initRegistry H) t priv ≠ .panic ∧
    ((∀ key, priv = some key → ¬ CsrRequires t key) → ∃ e, CreateCertificateRequest (initRegistry H) t priv = .err e) := by
  have h : CreateCertificateRequest (initRegistry H) t priv ≠ .panic := by
    cases priv with
    | none => simp [CreateCertificateRequest]
    | some key =>
      unfold CreateCertificateRequest
      simp only []
      refine bind_no_panic (signing_no_panic _ _) ?_
      rintro ⟨hh, ai⟩ hs
      refine bind_no_panic (marshalPublicKey_no_panic (hf key rfl)) ?_
      rintro ⟨pb, alg⟩ _
      refine bind_no_panic (ofOption_no_panic _ _) fun _ _ => bind_no_panic (ofOption_no_panic _ _) fun _ _ =>
        bind_no_panic (ofOption_no_panic _ _) fun _ _ => ?_
      unfold signCsr
      refine bind_no_panic (ofOption_no_panic _ _) fun contents _ => ?_
      obtain ⟨d, hd⟩ := digestFor_init H hs contents
      refine bind_no_panic (by rw [show digestFor _ hh contents = _ from hd]; simp) fun _ _ => ?_
      exact bind_no_panic (ofOption_no_panic _ _) fun sig _ => ofOption_no_panic _ _
  refine ⟨h, fun hr => ?_⟩
  cases hc : CreateCertificateRequest (initRegistry H) t priv with
  | err e => exact ⟨e, rfl⟩
  | panic => exact absurd hc h
  | ok der =>
    obtain ⟨key, hk, hreq⟩ := C76_requires _ _ _ _ hc
    exact absurd hreq (hr key hk)

/-! ## C62 -/

/-- Templates and signers whose requests can be read back. A subject given by octets must be one that asn1.Unmarshal
reads as an RDNSequence; names are restricted as in C51; extra extensions have no SubjectAltName. -/
structure RequestOk (env : Env) (t : CertificateRequest) (key : Signer) : Prop where
  key : KeyOk key.pub
  rawSubject : t.rawSubject ≠ [] → ∃ n, unmarshal rdnSequence t.rawSubject = some (n, [])
  subject : t.rawSubject = [] → ∀ a ∈ t.subject.extraNames, AtvOk a
  extra : ∀ x ∈ t.extraExtensions, OidOk x.id ∧ x.id ≠ [2, 5, 29, 17]
  ips : ∀ ip ∈ t.ipAddresses, ip.length = 4 ∨ ip.length = 16
  uris : ∀ u ∈ t.uris, env.parseURL u.str = some u ∧ (u.host ≠ [] → HostName u.host)
  size : ∀ exts b, buildCSRExtensions t = some exts → marshal (seqOf extension) exts = some b → b.length < 2 ^ 62

/-- What the parsed request `c` has besides attributes and extensions: the octets, version 0, the signer's key, the
template's subject and names, the algorithm that was requested (or the default for the key), and the signature the
signer made for the digest of the signed part with the hash of that algorithm as options. -/
structure RequestRead (reg : Registry) (t : CertificateRequest) (key : Signer) (der : Bytes) (c : CertificateRequest) : Prop where
  raw : c.raw = der
  version : c.version = 0
  publicKey : c.publicKey = sameKey key.pub
  rawSubject : t.rawSubject ≠ [] → c.rawSubject = t.rawSubject
  subject : ∃ rdns, unmarshal rdnSequence c.rawSubject = some (rdns, []) ∧ NameFields rdns.flatten c.subject ∧
    (t.rawSubject = [] → List.Forall₂ List.Perm rdns (nameRdns t.subject))
  /-- a subject whose values are strings is a name that certificates can have too -/
  name : t.rawSubject = [] → (∀ a ∈ t.subject.extraNames, ∃ s, a.value = .str s) → ∃ rdns, NameDer c.rawSubject rdns
  dnsNames : c.dnsNames = t.dnsNames
  emailAddresses : c.emailAddresses = t.emailAddresses
  ipAddresses : c.ipAddresses = t.ipAddresses.map fun ip => (to4 ip).getD ip
  uris : c.uris = t.uris
  algorithm : c.signatureAlgorithm = (if t.signatureAlgorithm = 0 then defaultAlg key.pub else t.signatureAlgorithm)
  signature : ∃ digest, digestFor reg (algHash c.signatureAlgorithm) c.rawTBSCertificateRequest = .ok digest ∧
    key.sign digest (.hash (algHash c.signatureAlgorithm)) = some c.signature

theorem csrSans_none {env : Env} {l : List Ext} (h : ∀ x ∈ l, x.id ≠ [2, 5, 29, 17]) (out : CertificateRequest) :
    csrSans env out l = some out := by
  induction l with
  | nil => rfl
  | cons e l ih =>
    rw [csrSans, if_neg (show ¬ e.id = oidExtensionSubjectAltName from h e (by simp)), ih fun x hx => h x (by simp [hx])]

theorem csrSans_append (env : Env) (l l' : List Ext) (out : CertificateRequest) (h : ∀ x ∈ l, x.id ≠ [2, 5, 29, 17]) :
    csrSans env out (l ++ l') = csrSans env out l' := by
  induction l with
  | nil => rfl
  | cons e l ih =>
    rw [List.cons_append, csrSans, if_neg (show ¬ e.id = oidExtensionSubjectAltName from h e (by simp)), ih fun x hx => h x (by simp [hx])]

theorem oidIn_iff (o : Oid) (l : List Ext) : oidInExtensions o l = true ↔ ∃ x ∈ l, x.id = o := by
  unfold oidInExtensions
  simp [List.any_eq_true]

theorem hasSANs_iff (t : CertificateRequest) : csrHasSANs t = false ↔
    t.dnsNames = [] ∧ t.emailAddresses = [] ∧ t.ipAddresses = [] ∧ t.uris = [] := by
  simp [csrHasSANs, and_assoc]

theorem buildCSR_spec {t : CertificateRequest} {exts : List Ext} (h : buildCSRExtensions t = some exts)
    (hl : ∀ x ∈ exts, x.id = [2, 5, 29, 17] → x.value.length < 2 ^ 31) : RequestedExtensions t exts := by
  unfold buildCSRExtensions at h
  unfold RequestedExtensions
  by_cases h1 : csrHasSANs t = true ∧ oidInExtensions oidExtensionSubjectAltName t.extraExtensions = false
  · rw [if_pos (by simp [h1])] at h
    simp only [Option.pure_def, Option.bind_eq_bind, Option.bind_eq_some_iff, Option.some.injEq] at h
    obtain ⟨v, hv, rfl⟩ := h
    rw [if_neg]
    · refine ⟨v, rfl, ?_⟩
      exact (marshalSANs_ext hv (hl ⟨oidExtensionSubjectAltName, false, v⟩ (by simp) rfl)).2
    · rintro (h2 | h2)
      · rw [(hasSANs_iff t).mpr h2] at h1; simp at h1
      · have h3 := (oidIn_iff _ _).mpr h2
        have h4 := h1.2
        rw [show oidExtensionSubjectAltName = [2, 5, 29, 17] from rfl, h3] at h4; cases h4
  · rw [if_neg (by simpa using h1)] at h
    injection h with h
    rw [if_pos, h]
    by_cases h2 : csrHasSANs t = true
    · right
      have h3 : oidInExtensions oidExtensionSubjectAltName t.extraExtensions = true := by
        cases hx : oidInExtensions oidExtensionSubjectAltName t.extraExtensions with
        | true => rfl
        | false => exact absurd ⟨h2, hx⟩ h1
      exact (oidIn_iff _ _).mp h3
    · left; exact (hasSANs_iff t).mp (by simpa using h2)

/-- The names are found in the extensions, wherever the others without names are. -/
theorem csrSans_built {env : Env} {t : CertificateRequest} {exts pre : List Ext} (h : buildCSRExtensions t = some exts)
    (hl : ∀ x ∈ exts, x.id = [2, 5, 29, 17] → x.value.length < 2 ^ 31) (hx : ∀ x ∈ t.extraExtensions, x.id ≠ [2, 5, 29, 17])
    (hpre : ∀ x ∈ pre, x.id ≠ [2, 5, 29, 17])
    (hip : ∀ ip ∈ t.ipAddresses, ip.length = 4 ∨ ip.length = 16)
    (hu : ∀ u ∈ t.uris, env.parseURL u.str = some u ∧ (u.host ≠ [] → HostName u.host))
    (out : CertificateRequest) (o1 : out.dnsNames = []) (o2 : out.emailAddresses = []) (o3 : out.ipAddresses = [])
    (o4 : out.uris = []) (f : Ext → Ext) (hf : ∀ x, (f x).id = x.id ∧ (f x).value = x.value) (p : Ext → Bool)
    (hp : ∀ x ∈ exts, p x = false → x.id ≠ [2, 5, 29, 17]) :
    csrSans env out (pre ++ (exts.filter p).map f) =
      some { out with
        dnsNames := t.dnsNames, emailAddresses := t.emailAddresses, ipAddresses := t.ipAddresses.map fun ip => (to4 ip).getD ip
        uris := t.uris } := by
  rw [csrSans_append _ _ _ _ hpre]
  have hin : oidInExtensions oidExtensionSubjectAltName t.extraExtensions = false := by
    cases hh : oidInExtensions oidExtensionSubjectAltName t.extraExtensions with
    | false => rfl
    | true => obtain ⟨x, h1, h2⟩ := (oidIn_iff _ _).mp hh; exact absurd h2 (hx x h1)
  have hextra : ∀ x ∈ (t.extraExtensions.filter p).map f, x.id ≠ [2, 5, 29, 17] := by
    intro x hxm
    obtain ⟨y, hy, rfl⟩ := List.mem_map.mp hxm
    rw [(hf y).1]; exact hx y (List.mem_filter.mp hy).1
  unfold buildCSRExtensions at h
  by_cases h1 : csrHasSANs t = true
  · rw [if_pos (by simp [h1, hin])] at h
    simp only [Option.pure_def, Option.bind_eq_bind, Option.bind_eq_some_iff, Option.some.injEq] at h
    obtain ⟨v, hv, rfl⟩ := h
    obtain ⟨ha, hk⟩ := marshalSANs_ext hv (hl ⟨oidExtensionSubjectAltName, false, v⟩ (by simp) rfl)
    have hps : parseSANExtension env v = some ⟨t.dnsNames, t.emailAddresses, t.ipAddresses.map normIP, t.uris⟩ := by
      rw [parseSan_iff]
      exact ⟨_, hk, sanNames_ok env _ _ _ _ ha hip hu, (sanNames_lists env _ _ _ _ fun u h => (hu u h).1).symm⟩
    have hpt : p ⟨oidExtensionSubjectAltName, false, v⟩ = true := by
      cases hq : p ⟨oidExtensionSubjectAltName, false, v⟩ with
      | true => rfl
      | false => exact absurd rfl (hp ⟨oidExtensionSubjectAltName, false, v⟩ (by simp) hq)
    rw [List.filter_cons_of_pos hpt, List.map_cons, csrSans, if_pos (hf _).1, (hf _).2, hps]
    exact csrSans_none hextra _
  · rw [if_neg (by simp [h1])] at h
    injection h with h
    subst h
    obtain ⟨h2, h3, h4, h5⟩ := (hasSANs_iff t).mp (by simpa using h1)
    rw [csrSans_none hextra, h2, h3, h4, h5]
    cases out
    simp only at o1 o2 o3 o4
    subst o1 o2 o3 o4
    rfl

theorem csrSubject_tlv {env : Env} {t : CertificateRequest} {key : Signer} {subject : Bytes} (ht : RequestOk env t key)
    (h : csrSubject t = some subject) :
    ∃ cls comp tag sb, subject = encTLV cls comp tag sb ∧ cls < 4 ∧ tag ≤ 2147483647 := by
  unfold csrSubject at h
  by_cases h0 : t.rawSubject = []
  · rw [if_pos (by rw [h0]; rfl)] at h
    obtain ⟨sb, -, hs⟩ := marshal_tlv _ _ _ h
    exact ⟨0, _, _, sb, hs, by decide, by decide⟩
  · rw [if_neg (by rw [List.length_eq_zero_iff]; exact h0)] at h
    injection h with h
    subst h
    obtain ⟨n, hn⟩ := ht.rawSubject h0
    obtain ⟨sb, hs, -, -⟩ := (unmarshal_iff rdnSequence (by decide) _ _ _).mp hn
    rw [List.append_nil] at hs
    exact ⟨0, _, _, sb, hs, by decide, by decide⟩

theorem csrSubject_spec {env : Env} {t : CertificateRequest} {key : Signer} {subject : Bytes} (ht : RequestOk env t key)
    (h : csrSubject t = some subject) (hl : subject.length < 2 ^ 31) :
    ∃ n, unmarshal rdnSequence subject = some (n, []) ∧ (t.rawSubject ≠ [] → subject = t.rawSubject) ∧
      (t.rawSubject = [] → List.Forall₂ List.Perm n (nameRdns t.subject)) := by
  unfold csrSubject at h
  by_cases h0 : t.rawSubject = []
  · rw [if_pos (by rw [h0]; rfl)] at h
    obtain ⟨n, h1, h2⟩ := rdns_to (ht.subject h0)
    have := unmarshal_to [] h2 h hl (by decide)
    rw [List.append_nil] at this
    exact ⟨n, this, fun h => absurd h0 h, fun _ => h1⟩
  · rw [if_neg (by rw [List.length_eq_zero_iff]; exact h0)] at h
    injection h with h
    subst h
    obtain ⟨n, hn⟩ := ht.rawSubject h0
    exact ⟨n, hn, fun _ => rfl, fun h => absurd h h0⟩

theorem tbsCsr_subject_le {t : TbsCsr} {cls : Nat} {comp : Bool} {tag : Nat} {sb contents : Bytes} (hraw : t.raw = [])
    (hs : t.subject = { full := encTLV cls comp tag sb }) (h : marshal tbsCsr t = some contents) :
    (encTLV cls comp tag sb).length ≤ contents.length := by
  obtain ⟨body, hb, rfl⟩ := marshal_tlv _ _ _ h
  simp only [tbsCsr, hraw, ne_eq, not_true_eq_false, if_false, Option.pure_def, Option.bind_eq_bind, Option.bind_eq_some_iff, Option.some.injEq] at hb
  obtain ⟨e1, h1, e2, h2, e3, h3, e4, h4, rfl⟩ := hb
  rw [hs, marshalRaw_full _ _ (encTLV_ne_nil _ _ _ _) (by
    simp), Option.some.injEq] at h2
  subst h2
  have := encTLV_length_lt 0 tbsCsr.compound tbsCsr.tag (e1 ++ (encTLV cls comp tag sb ++ (e3 ++ e4)))
  simp only [List.length_append] at this ⊢
  omega

/-- What is common to the two cases: `Q` is what is known about the attributes. -/
theorem csr_read {reg : Registry} {env : Env} {t : CertificateRequest} {key : Signer} {der : Bytes}
    (h : CreateCertificateRequest reg t (some key) = .ok der) (hl : der.length < 2 ^ 31 - 6) (ht : RequestOk env t key)
    (Q : List Ext → List RawValue → List Ext → Prop)
    (hattr : ∀ exts raws, buildCSRExtensions t = some exts → csrAttributes t.attributes exts = some raws →
      ∃ es, List.Forall₂ ReadsRaw es raws ∧ ((∀ e ∈ es, e.length < 2 ^ 31) →
        (∀ x ∈ exts, x.id = [2, 5, 29, 17] → x.value.length < 2 ^ 31) ∧ ∃ got, parseCSRExtensions raws = some got ∧ Q exts raws got ∧
          ∃ (pre : List Ext) (f : Ext → Ext) (p : Ext → Bool), got = pre ++ (exts.filter p).map f ∧
            (∀ x ∈ pre, x.id ≠ [2, 5, 29, 17]) ∧ (∀ x, (f x).id = x.id ∧ (f x).value = x.value) ∧
            (∀ x ∈ exts, p x = false → x.id ≠ [2, 5, 29, 17]))) :
    ∃ c exts raws, ParseCertificateRequest env der = .ok c ∧ RequestRead reg t key der c ∧ RequestedExtensions t exts ∧
      c.attributes = parseRawAttributes raws ∧ Q exts raws c.extensions := by
  obtain ⟨hashFunc, sigAlgo, pkBytes, pkAlgo, exts, raws, subject, contents, digest, signature, g1, g2, g3, g4, g5, g6, g7, g8, g9⟩ := csr_steps h
  obtain ⟨es, a1, a2⟩ := hattr exts raws g3 g4
  obtain ⟨cls, comp, tag, sb, hsub, c1, c2⟩ := csrSubject_tlv ht g5
  obtain ⟨ai', s1, s2, s3⟩ := sign_algId_to g1
  obtain ⟨q1, q2⟩ := sign_getAlg g1
  subst hsub
  obtain ⟨alg', k1, k2, k3⟩ := spki_read ht.key g2
  obtain ⟨spkiRaw, -, r1, r2, hpl, r3⟩ := csr_roundtrip (t := ⟨[], 0, { full := encTLV cls comp tag sb }, [], ⟨pkAlgo, ⟨pkBytes, pkBytes.length * 8⟩⟩, raws⟩)
    rfl rfl rfl c1 c2 rfl k1 a1 s1 g6 g9 hl
  obtain ⟨hv, got, p1, p2, pre, f, p, rfl, p3, p4, p5⟩ := a2 r2
  have hsl := tbsCsr_subject_le (t := ⟨[], 0, { full := encTLV cls comp tag sb }, [], ⟨pkAlgo, ⟨pkBytes, pkBytes.length * 8⟩⟩, raws⟩)
    rfl rfl g6
  obtain ⟨n, n1, n2, n3⟩ := csrSubject_spec ht g5 (by omega)
  obtain ⟨out, ho⟩ : ∃ out : CertificateRequest, out =
    { raw := der, rawTBSCertificateRequest := contents, rawSubjectPublicKeyInfo := spkiRaw,
      rawSubject := encTLV cls comp tag sb, signature := signature,
      signatureAlgorithm := getSignatureAlgorithmFromAI ai', publicKeyAlgorithm := (getPublicKeyAlgorithmFromOID alg'.algorithm).toInt,
      publicKey := sameKey key.pub, version := 0, attributes := parseRawAttributes raws,
      subject := .fromRDNSequence n, extensions := pre ++ (exts.filter p).map f } := ⟨_, rfl⟩
  have hsan := csrSans_built g3 hv (fun x hx => (ht.extra x hx).2) p3 ht.ips ht.uris out (by rw [ho]) (by rw [ho]) (by rw [ho])
    (by rw [ho]) f p4 p p5
  have hparse : ParseCertificateRequest env der = .ok { out with
        dnsNames := t.dnsNames, emailAddresses := t.emailAddresses, ipAddresses := t.ipAddresses.map fun ip => (to4 ip).getD ip
        uris := t.uris } := by
    unfold ParseCertificateRequest
    rw [r1]
    simp only [List.length_nil, ne_eq, not_true_eq_false, if_false]
    unfold parseCertificateRequest csrParseSubject
    simp only [k3 hpl, Res.bind_ok, show (rawOf cls comp tag sb).full = encTLV cls comp tag sb from rfl, n1, Res.ofOption, p1,
      rightAlign_octets]
    rw [← ho, hsan]
  refine ⟨_, exts, raws, hparse, ?_, buildCSR_spec g3 hv, ?_, ?_⟩
  · subst ho
    constructor
    all_goals dsimp only
    · exact n2
    · exact ⟨n, n1, fromRDNSequence_fields n, n3⟩
    · intro h0 hstr
      have hn : NameOk ({ subject := t.subject } : Certificate) :=
        ⟨fun h1 => absurd rfl h1, fun _ a ha => ⟨(ht.subject h0 a ha).1, hstr a ha⟩⟩
      have hsb : subjectBytes ({ subject := t.subject } : Certificate) = some (encTLV cls comp tag sb) := by
        unfold csrSubject at g5
        rw [if_pos (by rw [h0]; rfl)] at g5
        exact g5
      obtain ⟨-, rd, hrd⟩ := subject_name hn hsb (by omega)
      exact ⟨rd, hrd.1⟩
    · exact s3
    · exact ⟨digest, by rw [s3, ← q2]; exact g7, by rw [s3, ← q2]; exact g8⟩
  · subst ho; rfl
  · subst ho; exact p2

/-- **C62** A request made from a template whose attributes do not include extensionRequest is accepted by
`ParseCertificateRequest`: it has the subject, key, names and algorithm it was made from, all requested extensions with
their flags, and the attributes of the template (values in any order) followed by one for the extensions, if any. -/
theorem C62_roundtrip (reg : Registry) (env : Env) (t : CertificateRequest) (key : Signer) (der : Bytes)
    (h : CreateCertificateRequest reg t (some key) = .ok der) (hl : der.length < 2 ^ 31 - 6) (ht : RequestOk env t key)
    (ha : ∀ a ∈ t.attributes, AttrOk a ∧ a.type ≠ extensionRequest) :
    ∃ c attrs', ParseCertificateRequest env der = .ok c ∧ RequestRead reg t key der c ∧
      RequestedExtensions t c.extensions ∧ List.Forall₂ SameAttr attrs' t.attributes ∧
      c.attributes = attrs' ++ (if c.extensions = [] then [] else [⟨extensionRequest, [c.extensions.map extAtv]⟩]) := by
  obtain ⟨c, exts, raws, h1, h2, h3, h4, h5, attrs', h6, h7⟩ := csr_read h hl ht
    (fun exts raws got => got = exts ∧ ∃ attrs', List.Forall₂ SameAttr attrs' t.attributes ∧
        parseRawAttributes raws = attrs' ++ if exts = [] then [] else [⟨oidExtensionRequest, [exts.map extAtv]⟩]) (by
    intro exts raws g1 g2
    have hx : ∀ x ∈ exts, OidOk x.id := by
      unfold buildCSRExtensions at g1
      split at g1
      · simp only [Option.pure_def, Option.bind_eq_bind, Option.bind_eq_some_iff, Option.some.injEq] at g1
        obtain ⟨v, -, rfl⟩ := g1
        intro x hx
        rcases List.mem_cons.mp hx with rfl | hx
        · exact ⟨_, _, _, rfl, by decide, by decide⟩
        · exact (ht.extra x hx).1
      · injection g1 with g1; subst g1; exact fun x hx => (ht.extra x hx).1
    obtain ⟨es, e1, e2⟩ := csrAttributes_spec g2 (fun a h => (ha a h).1) hx (fun a h => (ha a h).2) (fun b => ht.size exts b g1)
    refine ⟨es, e1, fun hes => ?_⟩
    obtain ⟨d1, d2, d3⟩ := e2 hes
    exact ⟨fun x hx _ => d1 x hx, exts, d2, ⟨rfl, d3⟩, [], id, fun _ => true, by simp, by simp, fun _ => ⟨rfl, rfl⟩, by simp⟩)
  refine ⟨c, attrs', h1, h2, by rw [h5]; exact h3, h6, ?_⟩
  rw [h4, h7, h5]; rfl

/-- **C62** If the template has an extensionRequest attribute (here with one value, whose extensions are given by octets,
and no SubjectAltName), the requested extensions with other identifiers are added to it. All extensions of the parsed
request are then not critical, whatever the template said. -/
theorem C62_existing_attribute (reg : Registry) (env : Env) (t : CertificateRequest) (key : Signer) (der : Bytes)
    (h : CreateCertificateRequest reg t (some key) = .ok der) (hl : der.length < 2 ^ 31 - 6) (ht : RequestOk env t key)
    (pre post : List AttrSet) (l : List (Oid × Bytes))
    (hattrs : t.attributes = pre ++ ⟨extensionRequest, [l.map fun x => ⟨x.1, .octets x.2⟩]⟩ :: post)
    (ha : ∀ a ∈ pre ++ post, AttrOk a ∧ a.type ≠ extensionRequest) (hlo : ∀ x ∈ l, OidOk x.1 ∧ x.1 ≠ [2, 5, 29, 17]) :
    ∃ c exts, ParseCertificateRequest env der = .ok c ∧ RequestRead reg t key der c ∧ RequestedExtensions t exts ∧
      c.extensions = (l ++ addedExts exts l).map fun x => ⟨x.1, false, x.2⟩ := by
  obtain ⟨c, exts, raws, h1, h2, h3, h4, h5⟩ := csr_read h hl ht
    (fun exts raws got => got = (l ++ addedExts exts l).map fun x => ⟨x.1, false, x.2⟩) (by
    intro exts raws g1 g2
    have hx : ∀ x ∈ exts, OidOk x.id := by
      unfold buildCSRExtensions at g1
      split at g1
      · simp only [Option.pure_def, Option.bind_eq_bind, Option.bind_eq_some_iff, Option.some.injEq] at g1
        obtain ⟨v, -, rfl⟩ := g1
        intro x hx
        rcases List.mem_cons.mp hx with rfl | hx
        · exact ⟨_, _, _, rfl, by decide, by decide⟩
        · exact (ht.extra x hx).1
      · injection g1 with g1; subst g1; exact fun x hx => (ht.extra x hx).1
    rw [hattrs] at g2
    obtain ⟨es, e1, e2⟩ := csrAttributes_added g2 (fun a h => (ha a h).1) hx (fun x h => (hlo x h).1) (fun a h => (ha a h).2)
    refine ⟨es, e1, fun hes => ?_⟩
    obtain ⟨d1, d2⟩ := e2 hes
    have hnot : ∀ x ∈ exts, x.id = [2, 5, 29, 17] → (l.map (·.1)).contains x.id = false := by
      intro x _ hid
      rw [← Bool.not_eq_true, List.contains_iff_mem]
      intro hm
      obtain ⟨y, hy, hy'⟩ := List.mem_map.mp hm
      exact (hlo y hy).2 (hy'.trans hid)
    refine ⟨fun x hx' hid => d1 (x.id, x.value) ?_, _, d2, rfl, l.map fun x => ⟨x.1, false, x.2⟩, fun x => ⟨x.id, false, x.value⟩,
      fun e => !(l.map (·.1)).contains e.id, ?_, ?_, fun x => ⟨rfl, rfl⟩, ?_⟩
    · exact List.mem_map.mpr ⟨x, List.mem_filter.mpr ⟨hx', by rw [hnot x hx' hid]; rfl⟩, rfl⟩
    · rw [List.map_append, addedExts, List.map_map]; rfl
    · intro x hx'
      obtain ⟨y, hy, rfl⟩ := List.mem_map.mp hx'
      exact (hlo y hy).2
    · intro x hx' hp hid
      have hp' : (!(l.map (·.1)).contains x.id) = false := hp
      rw [hnot x hx' hid] at hp'; cases hp')
  exact ⟨c, exts, h1, h2, h3, h5⟩

/-- **C62** If the signatures the signer makes verify under its public key, `CheckSignature` accepts the parsed request. -/
theorem C62_check (reg : Registry) (V : Verifiers) (t : CertificateRequest) (key : Signer) (der : Bytes)
    (c : CertificateRequest) (hc : RequestRead reg t key der c)
    (hsigner : ∀ tbs digest sig, digestFor reg (algHash c.signatureAlgorithm) tbs = .ok digest →
      key.sign digest (.hash (algHash c.signatureAlgorithm)) = some sig →
      checkSignature reg V c.signatureAlgorithm tbs sig (sameKey key.pub) = .ok ()) :
    c.checkSignature reg V = .ok () := by
  obtain ⟨digest, h1, h2⟩ := hc.signature
  unfold CertificateRequest.checkSignature
  rw [hc.publicKey]
  exact hsigner _ _ _ h1 h2

/-- **C62** An SM2 signer gets the SM3 digest without the prefix Z, while `CheckSignature` uses the digest with it: if the
signer signs the digest it is given, the request does not verify, unless the two digests are equal modulo the order. -/
theorem C62_sm2_digest_mismatch (H : StdHashes) (V : Verifiers) (t : CertificateRequest) (key : Signer) (der : Bytes)
    (k : Sm2.PublicKey) (Q : Curve.EP) (c : CertificateRequest) (hc : RequestRead (initRegistry H) t key der c)
    (hk : key.pub = .sm2 k) (hQ : Represents k Q) (hcurve : sameKey key.pub = .sm2 k)
    (hx : k.x < 256 ^ 32) (hy : k.y < 256 ^ 32) (ha : t.signatureAlgorithm = 0 ∨ t.signatureAlgorithm = SM2WithSM3)
    (hsign : ∀ d o sig, key.sign d o = some sig → sig.length < 2 ^ 32 ∧
      ∃ r s, DerSpec.IsSig sig r s ∧ ValidSig Q (ofBytes d) r s)
    (hv : c.checkSignature (initRegistry H) V = .ok ()) :
    ofBytes (Sm3.sum c.rawTBSCertificateRequest) % Curve.N =
      ofBytes (Sm3Spec.sm3 (Z defaultId k.x k.y ++ c.rawTBSCertificateRequest)) % Curve.N := by
  have ha16 : c.signatureAlgorithm = 16 := by
    rw [hc.algorithm]
    rcases ha with h0 | h0
    · rw [if_pos h0, hk]; rfl
    · rw [h0]; rfl
  obtain ⟨digest, h3, h4⟩ := hc.signature
  unfold CertificateRequest.checkSignature at hv
  rw [ha16] at hv h3
  rw [hc.publicKey, hcurve] at hv
  obtain ⟨r, s, g1, g2⟩ := C41_sm2_sound (initCalls H) _ (initRegistry_ok H) (by rw [lastRegistered_init]; simp) V _ _
    _ k Q hQ hx hy hv
  obtain ⟨hl', r', s', g3, g4⟩ := hsign _ _ _ h4
  obtain ⟨rfl, rfl⟩ := isSig_unique hl' g1 g3
  rw [digestFor_sm3 H _ _ h3] at g4
  exact validSig_digest g4 g2

/-! ## C77 -/

theorem csr_tbs_reads {der : Bytes} {x : Csr} {r : Bytes} (h : unmarshal csr der = some (x, r)) :
    ∃ body, x.tbs.raw = encTLV 0 true 16 body ∧ body.length < 2 ^ 31 ∧ tbsCsr.dec body x.tbs.raw = some x.tbs := by
  obtain ⟨body, -, hl, hd⟩ := (unmarshal_iff csr (by decide) _ _ _).mp h
  simp only [csr, Option.pure_def, Option.bind_eq_bind, Option.bind_eq_some_iff, Prod.exists, Option.some.injEq] at hd
  obtain ⟨tb, b1, h1, a, b2, h2, s, b3, h3, rfl⟩ := hd
  obtain ⟨e, -, tbody, he, htl, hdec⟩ := (parseField_reads tbsCsr (by decide) _ _ _).mp h1
  have hraw : tb.raw = e := by
    have hd' := hdec
    simp only [tbsCsr, Option.pure_def, Option.bind_eq_bind, Option.bind_eq_some_iff, Prod.exists, Option.some.injEq] at hd'
    obtain ⟨_, _, -, _, _, -, _, _, _, -, _, _, -, rfl⟩ := hd'
    rfl
  refine ⟨tbody, by rw [hraw]; exact he, htl, by rw [hraw]; exact hdec⟩

theorem parsedRequest {env : Env} {der : Bytes} {c : CertificateRequest} (h : ParseCertificateRequest env der = .ok c) :
    ∃ x pub subject exts, unmarshal csr der = some (x, []) ∧
      parsePublicKey (getPublicKeyAlgorithmFromOID x.tbs.publicKey.algo.algorithm) x.tbs.publicKey = .ok pub ∧
      csrParseSubject x.tbs.subject.full = some subject ∧ parseCSRExtensions x.tbs.rawAttributes = some exts ∧
      csrSans env
        { raw := x.raw, rawTBSCertificateRequest := x.tbs.raw, rawSubjectPublicKeyInfo := x.tbs.spkiRaw,
          rawSubject := x.tbs.subject.full, signature := rightAlign x.signatureValue,
          signatureAlgorithm := getSignatureAlgorithmFromAI x.signatureAlgorithm,
          publicKeyAlgorithm := (getPublicKeyAlgorithmFromOID x.tbs.publicKey.algo.algorithm).toInt,
          publicKey := pub, version := x.tbs.version, attributes := parseRawAttributes x.tbs.rawAttributes,
          subject := .fromRDNSequence subject, extensions := exts } exts = some c := by
  unfold ParseCertificateRequest at h
  split at h
  · cases h
  rename_i x rest hx
  split at h
  · cases h
  rename_i hr
  have hr : rest = [] := List.length_eq_zero_iff.mp (by simpa using hr)
  subst hr
  unfold parseCertificateRequest at h
  simp only [Res.bind_eq_ok, ofOption_ok'] at h
  obtain ⟨pub, h1, subject, h2, exts, h3, h4⟩ := h
  exact ⟨x, pub, subject, exts, hx, h1, h2, h3, h4⟩

/-- Only the names depend on the SubjectAltName. -/
theorem csrSans_frame (env : Env) (l : List Ext) (out : CertificateRequest) (r s : Bytes) (a : Int) :
    csrSans env { out with raw := r, signature := s, signatureAlgorithm := a } l =
      (csrSans env out l).map fun o => { o with raw := r, signature := s, signatureAlgorithm := a } := by
  induction l generalizing out with
  | nil => rfl
  | cons e l ih =>
    rw [csrSans, csrSans]
    split
    · cases parseSANExtension env e.value with
      | none => rfl
      | some n => exact ih { out with dnsNames := n.dns, emailAddresses := n.emails, ipAddresses := n.ips, uris := n.uris }
    · exact ih out

theorem csrSans_keeps {env : Env} {l : List Ext} {out c : CertificateRequest} (h : csrSans env out l = some c) :
    c = { out with dnsNames := c.dnsNames, emailAddresses := c.emailAddresses, ipAddresses := c.ipAddresses, uris := c.uris } := by
  induction l generalizing out with
  | nil => rw [csrSans, Option.some.injEq] at h; subst h; rfl
  | cons e l ih =>
    rw [csrSans] at h
    split at h
    · split at h
      · cases h
      · have := ih h; exact this
    · exact ih h

/-- **C77** Two requests with the same signed octets are parsed alike: everything but the octets of the whole request,
the signature and the algorithm of the signature is determined by what is signed. -/
theorem C77_signed_part_determines (env : Env) (der der' : Bytes) (c c' : CertificateRequest)
    (h : ParseCertificateRequest env der = .ok c) (h' : ParseCertificateRequest env der' = .ok c')
    (heq : c.rawTBSCertificateRequest = c'.rawTBSCertificateRequest) :
    c' = { c with raw := c'.raw, signature := c'.signature, signatureAlgorithm := c'.signatureAlgorithm } := by
  obtain ⟨x, pub, subj, exts, hx, h1, h2, h3, h4⟩ := parsedRequest h
  obtain ⟨x', pub', subj', exts', hx', h1', h2', h3', h4'⟩ := parsedRequest h'
  obtain ⟨b, b1, b2, b3⟩ := csr_tbs_reads hx
  obtain ⟨b', b1', b2', b3'⟩ := csr_tbs_reads hx'
  have e1 : c.rawTBSCertificateRequest = x.tbs.raw := by rw [csrSans_keeps h4]
  have e2 : c'.rawTBSCertificateRequest = x'.tbs.raw := by rw [csrSans_keeps h4']
  have r1 : c'.raw = x'.raw := by rw [csrSans_keeps h4']
  have r2 : c'.signature = rightAlign x'.signatureValue := by rw [csrSans_keeps h4']
  have r3 : c'.signatureAlgorithm = getSignatureAlgorithmFromAI x'.signatureAlgorithm := by rw [csrSans_keeps h4']
  have hraw : x.tbs.raw = x'.tbs.raw := by rw [← e1, ← e2, heq]
  have hb : b = b' := encTLV_inj_body b2 (by rw [← b1, ← b1', hraw])
  have htbs : x'.tbs = x.tbs := by
    rw [← hb, ← hraw, b3, Option.some.injEq] at b3'; exact b3'.symm
  rw [htbs] at h1' h2' h3' h4'
  rw [h1, Res.ok.injEq] at h1'
  rw [h2, Option.some.injEq] at h2'
  rw [h3, Option.some.injEq] at h3'
  subst h1' h2' h3'
  have hf := csrSans_frame env exts
    { raw := x.raw, rawTBSCertificateRequest := x.tbs.raw, rawSubjectPublicKeyInfo := x.tbs.spkiRaw,
      rawSubject := x.tbs.subject.full, signature := rightAlign x.signatureValue,
      signatureAlgorithm := getSignatureAlgorithmFromAI x.signatureAlgorithm,
      publicKeyAlgorithm := (getPublicKeyAlgorithmFromOID x.tbs.publicKey.algo.algorithm).toInt,
      publicKey := pub, version := x.tbs.version, attributes := parseRawAttributes x.tbs.rawAttributes,
      subject := .fromRDNSequence subj, extensions := exts } x'.raw (rightAlign x'.signatureValue) (getSignatureAlgorithmFromAI x'.signatureAlgorithm)
  rw [h4, Option.map_some] at hf
  have hfin := h4'.symm.trans hf
  rw [Option.some.injEq] at hfin
  rw [r1, r2, r3]
  exact hfin

/-! ## Examples -/

/-- A template with names, a critical extension and an attribute with two values. -/
def exRequest : CertificateRequest :=
  { subject := { commonName := [97, 98], country := [[67, 78]], extraNames := [⟨[1, 2, 3, 4], .int 5⟩] }
    dnsNames := [[97, 46, 98]], ipAddresses := [[1, 2, 3, 4]]
    extraExtensions := [⟨[1, 2, 3], true, [5, 0]⟩]
    attributes := [⟨[1, 2, 840, 113549, 1, 9, 7], [[⟨[2, 5, 4, 3], .str [99]⟩], [⟨[2, 5, 4, 3], .octets [1]⟩]]⟩] }

example : okAnd (CreateCertificateRequest exSignEnv.reg exRequest (some exSigner)) (fun der =>
    okAnd (ParseCertificateRequest exEnv der) fun c => decide (c.dnsNames = [[97, 46, 98]]) && c.extensions.length == 2 &&
      c.attributes.length == 2 && okAnd (c.checkSignature exSignEnv.reg exSignEnv.V) fun _ => true) = true := by decide +kernel

example : RequestOk exEnv exRequest exSigner where
  key := by refine ⟨?_, ?_⟩ <;> decide
  rawSubject := fun h => absurd rfl h
  subject := fun _ a ha => by
    rw [List.mem_singleton.mp ha]; exact ⟨⟨_, _, _, rfl, by decide, by decide⟩, by decide, by decide⟩
  extra := fun x hx => by rw [List.mem_singleton.mp hx]; exact ⟨⟨_, _, _, rfl, by decide, by decide⟩, by decide⟩
  ips := by decide
  uris := fun u hu => by cases hu
  size := fun exts b h1 h2 => by
    have hb : (buildCSRExtensions exRequest).bind (fun e => (marshal (seqOf extension) e).map fun b => decide (b.length < 100)) = some true := by decide +kernel
    rw [h1, Option.bind_some, h2, Option.map_some, Option.some.injEq, decide_eq_true_iff] at hb
    exact Nat.lt_trans hb (by decide)

/-- The template with its own extensionRequest attribute: the flag of the added extension is lost. -/
def exRequest2 : CertificateRequest :=
  { exRequest with attributes := [⟨[1, 2, 840, 113549, 1, 9, 14], [[⟨[1, 2, 4], .octets [5, 0]⟩]]⟩] }

example : okAnd (CreateCertificateRequest exSignEnv.reg exRequest2 (some exSigner)) (fun der =>
    okAnd (ParseCertificateRequest exEnv der) fun c => decide (c.dnsNames = [[97, 46, 98]]) &&
      decide (c.extensions.map (fun x => (x.id, x.critical)) = [([1, 2, 4], false), ([2, 5, 29, 17], false), ([1, 2, 3], false)])) = true := by
  decide +kernel

/-- Two requests with the same signed part: C77 speaks about these. -/
example : okAnd (CreateCertificateRequest exSignEnv.reg exRequest (some exSigner)) (fun der =>
    okAnd (CreateCertificateRequest exSignEnv.reg exRequest (some exBadSigner)) fun der' =>
      okAnd (ParseCertificateRequest exEnv der) fun c => okAnd (ParseCertificateRequest exEnv der') fun c' =>
        c.rawTBSCertificateRequest == c'.rawTBSCertificateRequest && c.signature != c'.signature) = true := by decide +kernel

end MCrypto.Props
