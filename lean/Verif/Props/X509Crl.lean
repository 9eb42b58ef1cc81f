import Verif.X509.CrlLemmas
import Verif.X509.CertWriteSpec
import Verif.Props.X509Create
/-
Revocation lists.

C64 What `CreateRevocationList` requires.
C73 A list made by `CreateRevocationList` parses to the contents of its template.
C74 The same for `(*Certificate).CreateCRL`.
C75 The signed octets determine the contents of a list.
-/
namespace MCrypto.Props
open MCrypto MCrypto.X509 MCrypto.X509Spec MCrypto.Asn1 MCrypto.Sm2Spec

/-! ## C64 -/

/-- The requirements of `CreateRevocationList`: the issuer may sign lists and has a key identifier, the list has a
number and does not end before it begins, and the key can sign with the requested algorithm. -/
structure CrlRequires (t : RevocationList) (issuer : Certificate) (key : Signer) : Prop where
  crlSign : ∃ k : Int, issuer.keyUsage / 64 = 2 * k + 1
  keyId : issuer.subjectKeyId ≠ []
  order : ¬ instant t.nextUpdate < instant t.thisUpdate
  number : t.number ≠ none
  canSign : CanSign key.pub
  family : t.signatureAlgorithm = 0 ∨ FamilyFits key.pub t.signatureAlgorithm

theorem crl_steps {E : SignEnv} {t : RevocationList} {issuer : Certificate} {key : Signer} {der : Bytes}
    (h : CreateRevocationList E (some t) (some issuer) key = .ok der) :
    CrlRequires t issuer key ∧ ∃ hashFunc sigAlgo tbs contents digest signature,
      signingParamsForPublicKey key.pub t.signatureAlgorithm = .ok (hashFunc, sigAlgo) ∧
      revocationListFor t issuer sigAlgo = some tbs ∧ marshal tbsCrl tbs = some contents ∧
      digestFor E.reg hashFunc contents = .ok digest ∧
      key.sign digest (signerOpts t.signatureAlgorithm hashFunc) = some signature ∧
      marshal crl ⟨tbs, sigAlgo, ⟨signature, signature.length * 8⟩⟩ = some der := by
  unfold CreateRevocationList at h
  simp only [] at h
  split at h
  · cases h
  rename_i h1
  split at h
  · cases h
  rename_i h2
  split at h
  · cases h
  rename_i h3
  split at h
  · cases h
  rename_i h4
  simp only [Res.bind_eq_ok, Prod.exists, ofOption_ok', signCrl] at h
  obtain ⟨hashFunc, sigAlgo, g1, tbs, g2, contents, g3, digest, g4, signature, g5, g6⟩ := h
  have hs := (C43_signing_ok_iff key.pub t.signatureAlgorithm).mp ⟨_, g1⟩
  refine ⟨⟨?_, ?_, ?_, h4, hs.1, hs.2⟩, hashFunc, sigAlgo, tbs, contents, digest, signature, g1, g2, g3, g4, g5, g6⟩
  · unfold hasBit at h1
    simp only [decide_eq_true_eq, Decidable.not_not] at h1
    have e : (2 : Int) ^ 6 = 64 := rfl
    rw [e] at h1
    exact ⟨issuer.keyUsage / 64 / 2, by omega⟩
  · intro h0; exact h2 (by rw [h0]; rfl)
  · rw [← before_iff]; exact h3

/-- **C64** `CreateRevocationList` succeeds only with a template and an issuer that meet its requirements. -/
theorem C64_requires (E : SignEnv) (t : Option RevocationList) (issuer : Option Certificate) (key : Signer) (der : Bytes)
    (h : CreateRevocationList E t issuer key = .ok der) :
    ∃ t' issuer', t = some t' ∧ issuer = some issuer' ∧ CrlRequires t' issuer' key := by
  cases t with
  | none => cases h
  | some t =>
    cases issuer with
    | none => cases h
    | some issuer => exact ⟨t, issuer, rfl, rfl, (crl_steps h).1⟩

/-- **C64** It never panics (with the hashes of the package registered); otherwise it returns an error. -/
theorem C64_no_panic (H : StdHashes) (V : Verifiers) (sha1 : Bytes → Bytes) (t : Option RevocationList)
    (issuer : Option Certificate) (key : Signer) :
    CreateRevocationList ⟨initRegistry H, V, sha1⟩ t issuer key ≠ .panic ∧
    ((∀ t' issuer', t = some t' → issuer = some issuer' → ¬ CrlRequires t' issuer' key) →
      ∃ e, CreateRevocationList ⟨initRegistry H, V, sha1⟩ t issuer key = .err e) := by
  have h : CreateRevocationList ⟨initRegistry H, V, sha1⟩ t issuer key ≠ .panic := by
    cases t with
    | none => simp [CreateRevocationList]
    | some t =>
      cases issuer with
      | none => simp [CreateRevocationList]
      | some issuer =>
        unfold CreateRevocationList
        simp only []
        split
        · simp
        split
        · simp
        split
        · simp
        split
        · simp
        refine bind_no_panic (signing_no_panic _ _) ?_
        rintro ⟨hh, ai⟩ hs
        refine bind_no_panic (ofOption_no_panic _ _) fun _ _ => bind_no_panic (ofOption_no_panic _ _) fun contents _ => ?_
        obtain ⟨d, hd⟩ := digestFor_init H hs contents
        refine bind_no_panic (by rw [show digestFor _ hh contents = _ from hd]; simp) fun _ _ => ?_
        unfold signCrl
        exact bind_no_panic (ofOption_no_panic _ _) fun sig _ => ofOption_no_panic _ _
  refine ⟨h, fun hr => ?_⟩
  cases hc : CreateRevocationList ⟨initRegistry H, V, sha1⟩ t issuer key with
  | err e => exact ⟨e, rfl⟩
  | panic => exact absurd hc h
  | ok der =>
    obtain ⟨t', i', h1, h2, h3⟩ := C64_requires _ _ _ _ _ hc
    exact absurd h3 (hr t' i' h1 h2)

/-! ## C73 -/

/-- A revoked certificate that has an encoding. -/
structure RevokedOk (r : Revoked) : Prop where
  serial : r.serialNumber ≠ none
  time : ValidTime r.revocationTime
  extensions : ∀ l, r.extensions = some l → ∀ e ∈ l, OidOk e.id

/-- The same entry, with the time possibly in another zone. -/
structure SameRevoked (r r' : Revoked) : Prop where
  serial : r.serialNumber = r'.serialNumber
  time : SameInstant r.revocationTime r'.revocationTime
  extensions : r.extensions = r'.extensions

theorem revokedUTC_spec {l l' : List Revoked} (h : revokedUTC l = some l') (hok : ∀ r ∈ l, RevokedOk r) :
    List.Forall₂ SameRevoked l' l ∧ ∀ r ∈ l', revoked.To r r := by
  induction l generalizing l' with
  | nil => simp only [revokedUTC, Option.some.injEq] at h; subst h; exact ⟨.nil, by simp⟩
  | cons r l ih =>
    simp only [revokedUTC, Option.pure_def, Option.bind_eq_bind, Option.bind_eq_some_iff, Option.some.injEq] at h
    obtain ⟨u, hu, m, hm, rfl⟩ := h
    obtain ⟨i1, i2⟩ := ih hm fun r hr => hok r (by simp [hr])
    obtain ⟨o1, o2, o3⟩ := hok r (by simp)
    obtain ⟨u1, u2, u3⟩ := utc_ok o2 hu
    refine ⟨.cons ⟨rfl, u3, rfl⟩ i1, ?_⟩
    intro x hx
    rcases List.mem_cons.mp hx with rfl | hx
    · obtain ⟨n, hn⟩ := Option.ne_none_iff_exists'.mp o1
      exact revoked_to hn u1 u2 o3
    · exact i2 x hx

/-- Names, times, entries and extensions that have an encoding. -/
structure RevocationListOk (t : RevocationList) (issuer : Certificate) : Prop where
  thisUpdate : ValidTime t.thisUpdate
  nextUpdate : ValidTime t.nextUpdate
  name : ∀ a ∈ issuer.subject.extraNames, AtvOk a
  revoked : ∀ r ∈ t.revokedCertificates, RevokedOk r
  extra : ∀ e ∈ t.extraExtensions, OidOk e.id
  keyIdLen : issuer.subjectKeyId.length < 2 ^ 30

/-- `rdns` read from a list are those of the fields and extra names of `n`, up to the order within a relative
distinguished name. -/
def SameName (rdns : List (List AtvAny)) (n : Name) : Prop := List.Forall₂ List.Perm rdns (nameRdns n)

theorem rdns_to {n : Name} (h : ∀ a ∈ n.extraNames, AtvOk a) :
    ∃ rdns, SameName rdns n ∧ rdnSequence.To n.toRDNSequence rdns := by
  rw [toRDNSequence_eq]
  exact rdnSequence_to (nameRdns_forall h fun f hf _ => ⟨fieldTable_oidOk n f hf, trivial⟩)

theorem signerOpts_eq (req : Int) (pub : PubKey) :
    signerOpts req (algHash (if req = 0 then defaultAlg pub else req)) = optsFor (if req = 0 then defaultAlg pub else req) := by
  unfold signerOpts optsFor
  by_cases hr : req = 0
  · have hd : ¬ (defaultAlg pub = 12 ∨ defaultAlg pub = 13 ∨ defaultAlg pub = 14) := by
      unfold defaultAlg
      split <;> (try split_ifs) <;> decide
    rw [if_neg (fun hc => hc.1 hr), if_pos hr, if_neg hd]
  · rw [if_neg hr]
    by_cases hm : req = 12 ∨ req = 13 ∨ req = 14
    · rw [if_pos hm, if_pos]
      rcases hm with hm | hm | hm <;> rw [hm] <;> decide
    · rw [if_neg hm, if_neg]
      unfold isRSAPSS
      simp only [not_or] at hm
      simp [hm]

/-- **C73** A list made by `CreateRevocationList` is accepted by `ParseDERCRL`, and has the issuer's name, the
template's times and entries, and as extensions the authority key identifier, the list number and the template's extra
extensions; the algorithm is the requested one or the default for the key, and the signature is the one the signer made
for the digest of the signed part with the options of that algorithm. -/
theorem C73_roundtrip (E : SignEnv) (t : RevocationList) (issuer : Certificate) (key : Signer) (der : Bytes)
    (h : CreateRevocationList E (some t) (some issuer) key = .ok der) (hl : der.length < 2 ^ 31)
    (ht : RevocationListOk t issuer) :
    ∃ c n revoked aki num digest opts, ParseDERCRL der = .ok c ∧ t.number = some n ∧ c.tbs.version = 1 ∧
      SameName c.tbs.issuer issuer.subject ∧
      SameInstant c.tbs.thisUpdate t.thisUpdate ∧ SameInstant c.tbs.nextUpdate t.nextUpdate ∧
      c.tbs.revoked = (if t.revokedCertificates = [] then none else some revoked) ∧
      List.Forall₂ SameRevoked revoked t.revokedCertificates ∧
      c.tbs.extensions = some (⟨[2, 5, 29, 35], false, aki⟩ :: ⟨[2, 5, 29, 20], false, num⟩ :: t.extraExtensions) ∧
      AkiExt aki (some issuer.subjectKeyId) ∧ num = Der.tlv 0x02 (Der.encInt n) ∧
      getSignatureAlgorithmFromAI c.signatureAlgorithm =
        (if t.signatureAlgorithm = 0 then defaultAlg key.pub else t.signatureAlgorithm) ∧
      getSignatureAlgorithmFromAI c.tbs.signature = getSignatureAlgorithmFromAI c.signatureAlgorithm ∧
      digestFor E.reg (algHash (getSignatureAlgorithmFromAI c.signatureAlgorithm)) c.tbs.raw = .ok digest ∧
      key.sign digest opts = some c.signatureValue.bytes ∧ c.signatureValue.bitLength = 8 * c.signatureValue.bytes.length ∧
      opts = optsFor (getSignatureAlgorithmFromAI c.signatureAlgorithm) := by
  obtain ⟨hreq, hashFunc, sigAlgo, tbs, contents, digest, signature, g1, g2, g3, g4, g5, g6⟩ := crl_steps h
  obtain ⟨n, hn⟩ := Option.ne_none_iff_exists'.mp hreq.number
  unfold revocationListFor at g2
  simp only [Option.pure_def, Option.bind_eq_bind, Option.bind_eq_some_iff, Option.some.injEq] at g2
  obtain ⟨rs, r1, aki, r2, num, r3, tu, r4, nu, r5, htbs⟩ := g2
  have hkl := ht.keyIdLen
  obtain ⟨aki', a1, a2, a3, a4⟩ := marshalAki_ext issuer.subjectKeyId hreq.keyId (by omega)
  rw [r2] at a1; injection a1 with a1; subst a1
  obtain ⟨v1, v2⟩ := revokedUTC_spec r1 ht.revoked
  obtain ⟨t1, t2, t3⟩ := utc_ok ht.thisUpdate r4
  obtain ⟨u1, u2, u3⟩ := utc_ok ht.nextUpdate r5
  obtain ⟨n', m1, m2⟩ := rdns_to ht.name
  obtain ⟨ai', s1, s2, s3⟩ := sign_algId_to g1
  obtain ⟨q1, q2⟩ := sign_getAlg g1
  have hakieq : aki = ⟨[2, 5, 29, 35], false, aki.value⟩ := by
    rw [show ([2, 5, 29, 35] : Oid) = aki.id from a2.symm, ← a3]
  have hparts : CrlParts tbs { tbs with signature := ai', issuer := n' } := by
    subst htbs
    refine ⟨rfl, ⟨rfl, rfl⟩, s1, m2, ⟨rfl, t1, t2⟩, ⟨rfl, u1, u2⟩, ⟨rfl, ?_⟩, ⟨rfl, ?_⟩⟩
    · intro l hl' r hr
      simp only [] at hl'
      split at hl'
      · injection hl' with hl'; subst hl'; exact v2 r hr
      · cases hl'
    · intro l hl' e he
      simp only [Option.some.injEq] at hl'
      subst hl'
      rcases List.mem_append.mp he with he | he
      · rcases List.mem_cons.mp he with rfl | he
        · rw [a2]; exact ⟨_, _, _, rfl, by decide, by decide⟩
        · rw [List.mem_singleton.mp he]; exact ⟨_, _, _, rfl, by decide, by decide⟩
      · exact ht.extra e he
  have hparse := crl_roundtrip hparts s1 g3 g6 hl
  have hrl : rs = [] ↔ t.revokedCertificates = [] := by
    have := v1.length_eq
    constructor
    · intro h0; rw [h0] at this; exact List.length_eq_zero_iff.mp this.symm
    · intro h0; rw [h0] at this; exact List.length_eq_zero_iff.mp this
  refine ⟨_, n, rs, aki.value, num, digest, _, hparse, hn, ?_, ?_, ?_, ?_, ?_, v1, ?_, a4, ?_, s3, rfl, ?_, g5, ?_, ?_⟩
  all_goals subst htbs
  · rfl
  · exact m1
  · exact t3
  · exact u3
  · show (if rs.length > 0 then some rs else none) = _
    by_cases h0 : t.revokedCertificates = []
    · rw [if_pos h0, hrl.mpr h0]; rfl
    · rw [if_neg h0, if_pos (List.length_pos_iff.mpr fun h => h0 (hrl.mp h))]
  · show some (aki :: ⟨oidExtensionCRLNumber, false, num⟩ :: t.extraExtensions) = _
    rw [← hakieq]; rfl
  · rw [hn] at r3
    obtain ⟨body, hb, hE⟩ := marshal_tlv _ _ _ r3
    have : body = Der.encInt n := by simp only [optInt, Option.map_some, Option.some.injEq] at hb; exact hb.symm
    rw [hE, this]; rfl
  · show digestFor E.reg (algHash (getSignatureAlgorithmFromAI ai')) contents = _
    rw [s3, ← q2]; exact g4
  · show signature.length * 8 = _; exact Nat.mul_comm _ _
  · show _ = optsFor (getSignatureAlgorithmFromAI ai')
    rw [s3, q2]; exact signerOpts_eq _ _

/-- **C73** If the signatures the signer makes with the algorithm verify under its public key, `CheckCRLSignature` of a
certificate with that public key accepts the parsed list. -/
theorem C73_check (E : SignEnv) (t : RevocationList) (issuer : Certificate) (key : Signer) (der : Bytes)
    (h : CreateRevocationList E (some t) (some issuer) key = .ok der) (hl : der.length < 2 ^ 31)
    (ht : RevocationListOk t issuer) (cert : Certificate) (hcert : cert.publicKey = key.pub) (a : Int)
    (ha : a = if t.signatureAlgorithm = 0 then defaultAlg key.pub else t.signatureAlgorithm)
    (hsigner : ∀ tbs digest sig, digestFor E.reg (algHash a) tbs = .ok digest → key.sign digest (optsFor a) = some sig →
      checkSignature E.reg E.V a tbs sig key.pub = .ok ()) :
    ∃ c, ParseDERCRL der = .ok c ∧ cert.checkCRLSignature E.reg E.V c.signedPart = .ok () := by
  obtain ⟨c, -, -, -, -, digest, opts, h1, -, -, -, -, -, -, -, -, -, -, h2, -, h3, h4, h5, h6⟩ := C73_roundtrip E t issuer key der h hl ht
  refine ⟨c, h1, ?_⟩
  unfold Certificate.checkCRLSignature Certificate.checkSignature Crl.signedPart
  simp only []
  have hr : rightAlign c.signatureValue = c.signatureValue.bytes := by
    have : c.signatureValue = ⟨c.signatureValue.bytes, c.signatureValue.bytes.length * 8⟩ := by
      rw [Nat.mul_comm, ← h5]
    rw [this]; exact rightAlign_octets _
  rw [hr, h2, hcert, ← ha]
  rw [h2, ← ha] at h3
  rw [h6, h2, ← ha] at h4
  exact hsigner _ _ _ h3 h4

theorem isSig_unique {b : Bytes} {r s r' s' : Int} (hl : b.length < 2 ^ 32) (h : DerSpec.IsSig b r s)
    (h' : DerSpec.IsSig b r' s') : r = r' ∧ s = s' := by
  have e1 := (Sm2.C11_accepts_iff _ _ _).mpr ⟨h, hl⟩
  rw [(Sm2.C11_accepts_iff _ _ _).mpr ⟨h', hl⟩, Res.ok.injEq, Prod.mk.injEq] at e1
  exact ⟨e1.1.symm, e1.2.symm⟩

theorem digestFor_sm3 (H : StdHashes) (b d : Bytes) (h : digestFor (initRegistry H) (algHash 16) b = .ok d) :
    d = Sm3.sum b := by
  have hh : algHash 16 = hSM3 := rfl
  have h20 : hSM3 ≠ 0 := by decide
  simp only [digestFor, hh, if_pos h20, (C40_init H 0).2.1, Res.bind_ok, Res.pure_eq, Res.ok.injEq] at h
  exact h.symm

/-- **C73** With an SM2 key the signer of `CreateRevocationList` gets the SM3 digest without the prefix Z, while
`CheckCRLSignature` uses the digest with it: if the signer signs the digest it is given, the list does not verify unless
the two digests happen to be equal modulo the order of the curve. -/
theorem C73_sm2_digest_mismatch (H : StdHashes) (V : Verifiers) (sha1 : Bytes → Bytes) (t : RevocationList)
    (issuer : Certificate) (key : Signer) (k : Sm2.PublicKey) (Q : Curve.EP) (der : Bytes)
    (h : CreateRevocationList ⟨initRegistry H, V, sha1⟩ (some t) (some issuer) key = .ok der) (hl : der.length < 2 ^ 31)
    (ht : RevocationListOk t issuer) (hk : key.pub = .sm2 k) (hQ : Represents k Q)
    (hx : k.x < 256 ^ 32) (hy : k.y < 256 ^ 32) (ha : t.signatureAlgorithm = 0 ∨ t.signatureAlgorithm = SM2WithSM3)
    (hsign : ∀ d o sig, key.sign d o = some sig → sig.length < 2 ^ 32 ∧
      ∃ r s, DerSpec.IsSig sig r s ∧ ValidSig Q (ofBytes d) r s)
    (cert : Certificate) (hcert : cert.publicKey = key.pub) :
    ∃ c, ParseDERCRL der = .ok c ∧ (cert.checkCRLSignature (initRegistry H) V c.signedPart = .ok () →
      ofBytes (Sm3.sum c.tbs.raw) % Curve.N = ofBytes (Sm3Spec.sm3 (Z defaultId k.x k.y ++ c.tbs.raw)) % Curve.N) := by
  obtain ⟨c, -, -, -, -, digest, opts, h1, -, -, -, -, -, -, -, -, -, -, h2, -, h3, h4, h5, -⟩ := C73_roundtrip _ t issuer key der h hl ht
  refine ⟨c, h1, fun hc => ?_⟩
  have ha16 : (if t.signatureAlgorithm = 0 then defaultAlg key.pub else t.signatureAlgorithm) = 16 := by
    rcases ha with h0 | h0
    · rw [if_pos h0, hk]; rfl
    · rw [h0]; rfl
  rw [ha16] at h2
  unfold Certificate.checkCRLSignature Certificate.checkSignature Crl.signedPart at hc
  simp only [] at hc
  have hr : rightAlign c.signatureValue = c.signatureValue.bytes := by
    have : c.signatureValue = ⟨c.signatureValue.bytes, c.signatureValue.bytes.length * 8⟩ := by
      rw [Nat.mul_comm, ← h5]
    rw [this]; exact rightAlign_octets _
  rw [hr, h2, hcert, hk] at hc
  rw [h2] at h3
  obtain ⟨r, s, g1, g2⟩ := C41_sm2_sound (initCalls H) _ (initRegistry_ok H) (by rw [lastRegistered_init]; simp) V _ _
    _ k Q hQ hx hy hc
  obtain ⟨hl', r', s', g3, g4⟩ := hsign _ _ _ h4
  obtain ⟨rfl, rfl⟩ := isSig_unique hl' g1 g3
  rw [digestFor_sm3 H _ _ h3] at g4
  exact validSig_digest g4 g2

/-! ## C74 -/

/-- What `CreateCRL` needs so that the list can be read back. -/
structure CreateCrlOk (c : Certificate) (rs : List Revoked) (now expiry : Time) : Prop where
  now : ValidTime now
  expiry : ValidTime expiry
  name : ∀ a ∈ c.subject.extraNames, AtvOk a
  revoked : ∀ r ∈ rs, RevokedOk r
  keyIdLen : c.subjectKeyId.length < 2 ^ 30

/-- **C74** A list made by `CreateCRL` is accepted by `ParseDERCRL`, with the issuer's name, the times and entries given
and the authority key identifier if the issuer has a key identifier. The signer gets the digest of the signed part with
the default hash of its key, or the signed part itself if that is SM3. -/
theorem C74_roundtrip (E : SignEnv) (c : Certificate) (key : Signer) (rs : List Revoked) (now expiry : Time) (der : Bytes)
    (h : c.createCRL E (some key) rs now expiry = .ok der) (hl : der.length < 2 ^ 31) (ht : CreateCrlOk c rs now expiry) :
    ∃ l revoked digest, ParseDERCRL der = .ok l ∧ l.tbs.version = 1 ∧ SameName l.tbs.issuer c.subject ∧
      SameInstant l.tbs.thisUpdate now ∧ SameInstant l.tbs.nextUpdate expiry ∧ l.tbs.revoked = some revoked ∧
      List.Forall₂ SameRevoked revoked rs ∧
      (if c.subjectKeyId = [] then l.tbs.extensions = none
        else ∃ aki, l.tbs.extensions = some [⟨[2, 5, 29, 35], false, aki⟩] ∧ AkiExt aki (some c.subjectKeyId)) ∧
      getSignatureAlgorithmFromAI l.signatureAlgorithm = defaultAlg key.pub ∧
      (if algHash (defaultAlg key.pub) = hSM3 then digest = l.tbs.raw
        else digestFor E.reg (algHash (defaultAlg key.pub)) l.tbs.raw = .ok digest) ∧
      key.sign digest (.hash (algHash (defaultAlg key.pub))) = some l.signatureValue.bytes ∧
      l.signatureValue.bitLength = 8 * l.signatureValue.bytes.length := by
  unfold Certificate.createCRL at h
  simp only [Res.bind_eq_ok, Prod.exists, ofOption_ok', signCrl] at h
  obtain ⟨hashFunc, sigAlgo, g1, tbs, g2, contents, g3, digest, g4, signature, g5, g6⟩ := h
  unfold crlFor at g2
  simp only [Option.pure_def, Option.bind_eq_bind, Option.bind_eq_some_iff, Option.some.injEq] at g2
  obtain ⟨rs', r1, tu, r4, nu, r5, exts, r2, htbs⟩ := g2
  have hkl := ht.keyIdLen
  have hexts : (c.subjectKeyId = [] ∧ exts = none) ∨ (c.subjectKeyId ≠ [] ∧ ∃ aki, exts = some [⟨[2, 5, 29, 35], false, aki⟩] ∧
      AkiExt aki (some c.subjectKeyId)) := by
    unfold crlExtensions at r2
    by_cases hk : c.subjectKeyId = []
    · rw [hk] at r2; simp only [List.length_nil, gt_iff_lt, Nat.lt_irrefl, if_false, Option.some.injEq] at r2
      exact .inl ⟨hk, r2.symm⟩
    · rw [if_pos (List.length_pos_iff.mpr hk)] at r2
      obtain ⟨aki', a1, a2, a3, a4⟩ := marshalAki_ext c.subjectKeyId hk (by omega)
      rw [a1] at r2
      simp only [Option.pure_def, Option.bind_eq_bind, Option.bind_some, Option.some.injEq] at r2
      refine .inr ⟨hk, aki'.value, ?_, a4⟩
      rw [← r2, show ([2, 5, 29, 35] : Oid) = aki'.id from a2.symm, ← a3]
  obtain ⟨v1, v2⟩ := revokedUTC_spec r1 ht.revoked
  obtain ⟨t1, t2, t3⟩ := utc_ok ht.now r4
  obtain ⟨u1, u2, u3⟩ := utc_ok ht.expiry r5
  obtain ⟨n', m1, m2⟩ := rdns_to ht.name
  obtain ⟨ai', s1, s2, s3⟩ := sign_algId_to g1
  obtain ⟨q1, q2⟩ := sign_getAlg g1
  rw [if_pos rfl] at s3 q2
  have hparts : CrlParts tbs { tbs with signature := ai', issuer := n' } := by
    subst htbs
    refine ⟨rfl, ⟨rfl, rfl⟩, s1, m2, ⟨rfl, t1, t2⟩, ⟨rfl, u1, u2⟩, ⟨rfl, ?_⟩, ⟨rfl, ?_⟩⟩
    · intro l hl' r hr
      simp only [Option.some.injEq] at hl'
      subst hl'; exact v2 r hr
    · intro l hl' e he
      simp only [] at hl'
      rcases hexts with ⟨-, hx⟩ | ⟨-, aki, hx, -⟩
      · rw [hx] at hl'; cases hl'
      · rw [hx] at hl'; injection hl' with hl'; subst hl'
        rw [List.mem_singleton.mp he]; exact ⟨_, _, _, rfl, by decide, by decide⟩
  have hparse := crl_roundtrip hparts s1 g3 g6 hl
  subst q2
  refine ⟨_, rs', digest, hparse, ?_, ?_, ?_, ?_, ?_, v1, ?_, s3, ?_, g5, ?_⟩
  all_goals subst htbs
  · rfl
  · exact m1
  · exact t3
  · exact u3
  · rfl
  · rcases hexts with ⟨hk, hx⟩ | ⟨hk, hx⟩
    · rw [if_pos hk]; exact hx
    · rw [if_neg hk]; exact hx
  · by_cases h20 : algHash (defaultAlg key.pub) = hSM3
    · rw [if_pos h20] at g4 ⊢
      simp only [digestFor, ne_eq, not_true_eq_false, if_false, Res.pure_eq, Res.ok.injEq] at g4
      exact g4.symm
    · rw [if_neg h20] at g4 ⊢; exact g4
  · show signature.length * 8 = _; exact Nat.mul_comm _ _

/-- **C74** With an SM2 signer that makes GB/T 32918.2 signatures of the message it is given (with the default
identity), `CheckCRLSignature` of a certificate with its public key accepts the parsed list, unless r is the digest
modulo the order (the signatures the library's verification wrongly rejects, see C09). -/
theorem C74_sm2_verifies (H : StdHashes) (V : Verifiers) (sha1 : Bytes → Bytes) (c : Certificate) (key : Signer)
    (rs : List Revoked) (now expiry : Time) (der : Bytes) (k : Sm2.PublicKey) (Q : Curve.EP)
    (h : c.createCRL ⟨initRegistry H, V, sha1⟩ (some key) rs now expiry = .ok der) (hl : der.length < 2 ^ 31)
    (ht : CreateCrlOk c rs now expiry) (hk : key.pub = .sm2 k) (hc : k.curve = .sm2p256v1) (hQ : Represents k Q)
    (hx : k.x < 256 ^ 32) (hy : k.y < 256 ^ 32)
    (hsign : ∀ m o sig, key.sign m o = some sig → sig.length < 2 ^ 32 ∧ ∃ r s, DerSpec.IsSig sig r s ∧
      ValidSig Q (ofBytes (Sm3Spec.sm3 (Z defaultId k.x k.y ++ m))) r s)
    (cert : Certificate) (hcert : cert.publicKey = key.pub) :
    ∃ l, ParseDERCRL der = .ok l ∧
      ((∀ r s, DerSpec.IsSig l.signatureValue.bytes r s →
        r ≠ ((ofBytes (Sm3Spec.sm3 (Z defaultId k.x k.y ++ l.tbs.raw)) % Curve.N : Nat) : Int)) →
      cert.checkCRLSignature (initRegistry H) V l.signedPart = .ok ()) := by
  obtain ⟨l, -, digest, h1, -, -, -, -, -, -, -, h2, h3, h4, h5⟩ := C74_roundtrip _ c key rs now expiry der h hl ht
  refine ⟨l, h1, fun hne => ?_⟩
  have hd : defaultAlg key.pub = 16 := by rw [hk]; rfl
  rw [hd] at h2 h3
  rw [if_pos (by rfl)] at h3
  subst h3
  obtain ⟨hl', r, s, g3, g4⟩ := hsign _ _ _ h4
  unfold Certificate.checkCRLSignature Certificate.checkSignature Crl.signedPart
  simp only []
  have hr : rightAlign l.signatureValue = l.signatureValue.bytes := by
    have : l.signatureValue = ⟨l.signatureValue.bytes, l.signatureValue.bytes.length * 8⟩ := by
      rw [Nat.mul_comm, ← h5]
    rw [this]; exact rightAlign_octets _
  rw [hr, h2, hcert, hk]
  exact C41_sm2_complete (initCalls H) _ (initRegistry_ok H) (by rw [lastRegistered_init]; simp)
    (by rw [lastRegistered_init]; simp) V _ _ k Q hc hQ hx hy hl' r s g3 g4 (hne r s g3)

/-- A `crypto.Signer` that signs with `sm2.Sign` and the random stream `rd`. -/
def sm2Signer (rd : Reader) (priv : Sm2.PrivateKey) : Signer :=
  ⟨.sm2 priv.pub, fun m _ => match Sm2.sign rd priv m [] with
    | .ok sig => some sig
    | _ => none⟩

/-- Its signatures are valid. -/
theorem sm2Signer_valid (rd : Reader) (priv : Sm2.PrivateKey) (hx : priv.pub.x < 256 ^ 32) (hy : priv.pub.y < 256 ^ 32)
    (m : Bytes) (o : SignOpts) (sig : Bytes) (h : (sm2Signer rd priv).sign m o = some sig) :
    sig.length < 2 ^ 32 ∧ ∃ r s, DerSpec.IsSig sig r s ∧
      ValidSig (priv.d • Curve.Gp) (ofBytes (Sm3Spec.sm3 (Z defaultId priv.pub.x priv.pub.y ++ m))) r s := by
  unfold sm2Signer at h
  simp only [] at h
  split at h
  · rename_i sig' hs
    injection h with h
    subst h
    obtain ⟨r, s, rd', h1, h2⟩ := Sm2.sign_cases hs
    obtain ⟨h3, h4⟩ := (Sm2.C11_accepts_iff _ _ _).mp h2
    have hd := Sm2.C14_digest priv.pub hx hy m []
    rw [if_pos rfl] at hd
    have := Sm2.C06_sign_valid rd priv _ r s rd' h1
    rw [hd] at this
    exact ⟨h4, r, s, h3, this⟩
  · cases h

/-- **C74** In particular for the signatures of the library. -/
theorem C74_sm2_library (H : StdHashes) (V : Verifiers) (sha1 : Bytes → Bytes) (c : Certificate) (rd : Reader)
    (priv : Sm2.PrivateKey) (rs : List Revoked) (now expiry : Time) (der : Bytes) (hkp : KeyPair priv)
    (h : c.createCRL ⟨initRegistry H, V, sha1⟩ (some (sm2Signer rd priv)) rs now expiry = .ok der)
    (hl : der.length < 2 ^ 31) (ht : CreateCrlOk c rs now expiry) (hc : priv.pub.curve = .sm2p256v1)
    (hx : priv.pub.x < 256 ^ 32) (hy : priv.pub.y < 256 ^ 32)
    (cert : Certificate) (hcert : cert.publicKey = .sm2 priv.pub) :
    ∃ l, ParseDERCRL der = .ok l ∧
      ((∀ r s, DerSpec.IsSig l.signatureValue.bytes r s →
        r ≠ ((ofBytes (Sm3Spec.sm3 (Z defaultId priv.pub.x priv.pub.y ++ l.tbs.raw)) % Curve.N : Nat) : Int)) →
      cert.checkCRLSignature (initRegistry H) V l.signedPart = .ok ()) :=
  C74_sm2_verifies H V sha1 c _ rs now expiry der priv.pub _ h hl ht rfl hc hkp hx hy (sm2Signer_valid rd priv hx hy) cert hcert

/-! ## C75 -/

/-- **C75** The signed octets determine the contents: two inputs with the same signed part give the same issuer, times,
entries, extensions and inner algorithm. -/
theorem C75_signed_part_determines (der der' : Bytes) (c c' : Crl) (h : ParseDERCRL der = .ok c)
    (h' : ParseDERCRL der' = .ok c') (hraw : c.tbs.raw = c'.tbs.raw) : c.tbs = c'.tbs := by
  have key : ∀ {d : Bytes} {x : Crl}, ParseDERCRL d = .ok x → ∃ body, x.tbs.raw = encTLV 0 true 16 body ∧
      body.length < 2 ^ 31 ∧ tbsCrl.dec body x.tbs.raw = some x.tbs := by
    intro d x hx
    unfold ParseDERCRL at hx
    split at hx
    · cases hx
    · rename_i y rest hu
      split at hx
      · cases hx
      · injection hx with hx
        subst hx
        obtain ⟨body, -, -, hd⟩ := (unmarshal_iff crl (by decide) _ _ _).mp hu
        simp only [crl, Option.pure_def, Option.bind_eq_bind, Option.bind_eq_some_iff] at hd
        obtain ⟨⟨t, b1⟩, h1, ⟨a, b2⟩, -, ⟨s, b3⟩, -, hb⟩ := hd
        injection hb with hb
        subst hb
        obtain ⟨body1, -, hl1, hd1⟩ := (unmarshal_iff tbsCrl (by decide) _ _ _).mp h1
        have hr : t.raw = encTLV 0 true 16 body1 := by
          have hd2 := hd1
          simp only [tbsCrl, Option.pure_def, Option.bind_eq_bind, Option.bind_eq_some_iff] at hd2
          obtain ⟨_, -, _, -, _, -, _, -, _, -, _, -, _, -, he⟩ := hd2
          injection he with he
          rw [← he]
        refine ⟨body1, hr, hl1, ?_⟩
        show tbsCrl.dec body1 t.raw = some t
        rw [hr]; exact hd1
  obtain ⟨b, h1, h2, h3⟩ := key h
  obtain ⟨b', h1', h2', h3'⟩ := key h'
  have hbb : b = b' := by
    have e1 := stripTagAndLength_tlv 0 true 16 b (by decide) (by decide) h2
    have e2 := stripTagAndLength_tlv 0 true 16 b' (by decide) (by decide) h2'
    rw [← h1] at e1
    rw [← h1', ← hraw] at e2
    rw [← e1, e2]
  rw [hbb, hraw, h3', Option.some.injEq] at h3
  exact h3.symm

/-- **C75** `ParseCRL` reads PEM if the input begins like a PEM block of type "X509 CRL", and DER otherwise. -/
theorem C75_parseCRL_iff (pemDecode : Bytes → Option (Bytes × Bytes)) (b : Bytes) (c : Crl) :
    ParseCRL pemDecode b = .ok c ↔
      ((∃ rest, b = "-----BEGIN X509 CRL".toUTF8.toList ++ rest) ∧
        ∃ bytes, pemDecode b = some ("X509 CRL".toUTF8.toList, bytes) ∧ ParseDERCRL bytes = .ok c) ∨
      ((¬ ∃ rest, b = "-----BEGIN X509 CRL".toUTF8.toList ++ rest) ∧ ParseDERCRL b = .ok c) := by
  have e1 : "-----BEGIN X509 CRL".toUTF8.toList = pemCRLPrefix := by decide +kernel
  have e2 : "X509 CRL".toUTF8.toList = pemType := by decide +kernel
  rw [e1, e2]
  have hp : pemCRLPrefix.isPrefixOf b = true ↔ ∃ rest, b = pemCRLPrefix ++ rest := by
    rw [List.isPrefixOf_iff_prefix]
    constructor
    · rintro ⟨r, rfl⟩; exact ⟨r, rfl⟩
    · rintro ⟨r, rfl⟩; exact ⟨r, rfl⟩
  have hbad : (∃ rest, b = pemCRLPrefix ++ rest) → ParseDERCRL b ≠ .ok c := by
    rintro ⟨rest, rfl⟩ h
    unfold ParseDERCRL at h
    split at h
    · cases h
    · rename_i y r hu
      obtain ⟨body, h1, -, -⟩ := (unmarshal_iff crl (by decide) _ _ _).mp hu
      have h2 := congrArg List.head? h1
      rw [show encTLV 0 crl.compound crl.tag body = Der.tlv 0x30 body from rfl] at h2
      simp [pemCRLPrefix, Der.tlv] at h2
  unfold ParseCRL
  by_cases h : pemCRLPrefix.isPrefixOf b = true
  · rw [if_pos h]
    have h' := hp.mp h
    simp only [h', not_true_eq_false, true_and, false_and, or_false]
    cases hd : pemDecode b with
    | none => simp only [reduceCtorEq, false_and, exists_false, iff_false]; exact hbad h'
    | some x =>
      obtain ⟨ty, bytes⟩ := x
      simp only [Option.some.injEq, Prod.mk.injEq]
      by_cases ht : ty = pemType
      · rw [if_pos ht]; simp [ht]
      · rw [if_neg ht]; simp only [ht, false_and, exists_false, iff_false]; exact hbad h'
  · rw [if_neg h]
    have h' : ¬ ∃ rest, b = pemCRLPrefix ++ rest := fun hh => h (hp.mpr hh)
    simp only [h', not_false_eq_true, true_and, false_and, false_or]

/-! ### Examples -/

/-- A template with one revoked certificate and one extra extension, and its issuer. -/
def exCrlTemplate : RevocationList :=
  { signatureAlgorithm := 3, number := some 7, thisUpdate := ⟨2020, 1, 2, 3, 4, 5, 0⟩, nextUpdate := ⟨2051, 1, 2, 3, 4, 5, 3600⟩,
    revokedCertificates := [⟨some 9, ⟨2019, 12, 31, 23, 0, 0, -60⟩, none⟩], extraExtensions := [⟨[1, 2, 5], true, [1]⟩] }
def exCrlIssuer : Certificate :=
  { subject := { commonName := [97, 98], country := [[67, 78]], extraNames := [⟨[1, 2, 3, 4], .str [120]⟩] }, keyUsage := 96, subjectKeyId := [1, 2, 3], publicKey := .rsa ⟨33, 3⟩ }

example : RevocationListOk exCrlTemplate exCrlIssuer where
  thisUpdate := by constructor <;> decide
  nextUpdate := by constructor <;> decide
  name := fun a ha => by
    rw [List.mem_singleton.mp ha]; exact ⟨⟨_, _, _, rfl, by decide, by decide⟩, trivial⟩
  revoked := fun r hr => by
    rw [List.mem_singleton.mp hr]
    exact ⟨by simp, by constructor <;> decide, fun l hl => by cases hl⟩
  extra := fun e he => by rw [List.mem_singleton.mp he]; exact ⟨_, _, _, rfl, by decide, by decide⟩
  keyIdLen := by decide

/-- The list is made, parsed and verified; without the key usage, key identifier or number, or with the times swapped,
it is not. -/
example : okAnd (CreateRevocationList exSignEnv (some exCrlTemplate) (some exCrlIssuer) exSigner) (fun der =>
    okAnd (ParseDERCRL der) fun c => (c.tbs.revoked.getD []).length == 1 &&
      okAnd (exCrlIssuer.checkCRLSignature exSignEnv.reg exSignEnv.V c.signedPart) fun _ => true) = true := by decide +kernel
example : (CreateRevocationList exSignEnv (some exCrlTemplate) (some { exCrlIssuer with keyUsage := 32 }) exSigner) =
    .err "x509: issuer must have the crlSign key usage bit set" := by decide +kernel
example : (CreateRevocationList exSignEnv (some { exCrlTemplate with nextUpdate := ⟨2019, 1, 1, 0, 0, 0, 0⟩ })
    (some exCrlIssuer) exSigner) = .err "x509: template.ThisUpdate is after template.NextUpdate" := by decide +kernel

/-- **C75** The algorithm outside of the signed part is not compared with the one inside: a list is accepted with
another one. -/
theorem C75_outer_algorithm_free : okAnd (CreateRevocationList exSignEnv (some exCrlTemplate) (some exCrlIssuer) exSigner)
    (fun der => okAnd (ParseDERCRL der) fun c =>
      match marshal crl { c with signatureAlgorithm := ⟨oidSignatureSHA1WithRSA, {}⟩ } with
      | some der' => okAnd (ParseDERCRL der') fun c' => c'.tbs == c.tbs && c.signatureAlgorithm.algorithm == oidSignatureSHA256WithRSA
          && c'.signatureAlgorithm.algorithm == oidSignatureSHA1WithRSA
      | none => false) = true := by decide +kernel

/-- The hypothesis of `C73_check` on the signer is met. -/
example (tbs digest : Bytes) (opts : SignOpts) (sig : Bytes) (h : digestFor exSignEnv.reg (algHash 3) tbs = .ok digest)
    (hs : exSigner.sign digest opts = some sig) :
    checkSignature exSignEnv.reg exSignEnv.V 3 tbs sig exSigner.pub = .ok () := by
  refine ((C41_accepts_iff_init toyH toyV 3 tbs sig exSigner.pub).1).mpr ?_
  have hd : digest = tbs := by
    have h5 : algHash 3 = hSHA256 := rfl
    simp only [digestFor, h5, exSignEnv, (C40_init toyH 0).2.2, Res.bind_ok, Res.pure_eq] at h
    rw [if_pos (by decide)] at h
    injection h with h; exact h.symm
  have hs' : sig = digest := by injection hs with hs; exact hs.symm
  refine ⟨.rsaPkcs1, hSHA256, id, rfl, by rw [lastRegistered_init]; rfl, ?_⟩
  rw [hs', hd]
  simp [exSigner, PrimitiveAccepts, toyV]

/-- A list signed by the library with the key of the standard's example. -/
def exSm2Issuer : Certificate := { subject := { commonName := [97, 98], country := [[67, 78]], extraNames := [⟨[1, 2, 3, 4], .str [120]⟩] }, publicKey := .sm2 Sm2.exKey.pub }
example : CreateCrlOk exSm2Issuer [⟨some 9, ⟨2019, 12, 31, 23, 0, 0, -60⟩, none⟩] ⟨2020, 1, 2, 3, 4, 5, 0⟩
    ⟨2021, 1, 2, 3, 4, 5, 0⟩ where
  now := by constructor <;> decide
  expiry := by constructor <;> decide
  name := fun a ha => by
    rw [List.mem_singleton.mp ha]; exact ⟨⟨_, _, _, rfl, by decide, by decide⟩, trivial⟩
  revoked := fun r hr => by
    rw [List.mem_singleton.mp hr]
    exact ⟨by simp, by constructor <;> decide, fun l hl => by cases hl⟩
  keyIdLen := by decide
example : okAnd (exSm2Issuer.createCRL exSignEnv (some (sm2Signer Sm2.exRd Sm2.exKey))
    [⟨some 9, ⟨2019, 12, 31, 23, 0, 0, -60⟩, none⟩] ⟨2020, 1, 2, 3, 4, 5, 0⟩ ⟨2021, 1, 2, 3, 4, 5, 0⟩) (fun _ => true) = true := by
  decide +kernel

end MCrypto.Props
