import Verif.X509.CreateCert
import Verif.Props.X509Sig
import Verif.Props.X509Ext
import Verif.Props.Sm2Sign
/-
Making certificates.

C63 What `CreateCertificate` requires, and the check of the new signature.
C72 A made certificate parses to the fields of its template.
-/
namespace MCrypto.Props
open MCrypto MCrypto.X509 MCrypto.X509Spec MCrypto.Asn1 MCrypto.Sm2Spec

/-- Public keys that can be marshalled: RSA, Ed25519, and the five named curves. -/
def Marshals : PubKey → Prop
  | .rsa _ => True
  | .ecdsa k => k.curve = P224 ∨ k.curve = P256 ∨ k.curve = P384 ∨ k.curve = P521 ∨ k.curve = SM2P256
  | .sm2 k => k.curve = P224 ∨ k.curve = P256 ∨ k.curve = P384 ∨ k.curve = P521 ∨ k.curve = SM2P256
  | .ed25519 _ => True
  | _ => False

/-- The requirements on the arguments of `CreateCertificate`: a signer, a serial number, no path length limit in a
template that is not for a CA, a signing key that can sign with the requested algorithm, a public key that can be
marshalled, and the parent's public key, if known, is the signer's. -/
structure CreateRequires (t p : Certificate) (pub : PubKey) (key : Signer) : Prop where
  serial : t.serialNumber ≠ none
  pathLen : t.basicConstraintsValid = true → t.isCA = false → pathLimit t.maxPathLen t.maxPathLenZero = none
  canSign : CanSign key.pub
  family : t.signatureAlgorithm = 0 ∨ FamilyFits key.pub t.signatureAlgorithm
  marshals : Marshals pub
  parent : p.publicKey = .nil ∨ key.pub = p.publicKey

theorem badPathLen_iff (t : Certificate) : badPathLen t = false ↔
    (t.basicConstraintsValid = true → t.isCA = false → pathLimit t.maxPathLen t.maxPathLenZero = none) := by
  unfold badPathLen pathLimit
  cases t.basicConstraintsValid <;> cases t.isCA <;> cases t.maxPathLenZero <;> simp <;> omega

theorem marshalECPub_curve {k : Sm2.PublicKey} {x : Bytes × AlgId} (h : marshalECPub k = .ok x) :
    k.curve = P224 ∨ k.curve = P256 ∨ k.curve = P384 ∨ k.curve = P521 ∨ k.curve = SM2P256 := by
  unfold marshalECPub at h
  cases ho : oidFromNamedCurve k.curve with
  | none => rw [ho] at h; cases h
  | some o =>
    have := (C43_oid_from_curve_iff o k.curve).mp ho
    simp only [curveOids, List.mem_cons, Prod.mk.injEq, List.not_mem_nil, or_false] at this
    rcases this with h | h | h | h | h <;> simp [h.1]

/-- **C63** `CreateCertificate` succeeds only if its requirements are met. -/
theorem C63_requires (E : SignEnv) (t p : Certificate) (pub : PubKey) (priv : Option Signer) (der : Bytes)
    (h : CreateCertificate E t p pub priv = .ok der) : ∃ key, priv = some key ∧ CreateRequires t p pub key := by
  cases priv with
  | none => cases h
  | some key =>
    obtain ⟨h1, h2, h3, hashFunc, sigAlgo, pkBytes, pkAlgo, -, -, -, -, -, -, -, -, g1, g2, -⟩ := create_steps h
    have hs := (C43_signing_ok_iff key.pub t.signatureAlgorithm).mp ⟨_, g1⟩
    refine ⟨key, rfl, h1, (badPathLen_iff t).mp h2, hs.1, hs.2, ?_, h3⟩
    cases pub with
    | rsa k => trivial
    | ecdsa k => exact marshalECPub_curve g2
    | sm2 k => exact marshalECPub_curve g2
    | ed25519 k => trivial
    | dsa k => cases g2
    | nil => cases g2
    | other k => cases g2

/-- Coordinates that fit the field of the curve (a curve the package does not know counts as fitting). -/
def CoordsFit : PubKey → Prop
  | .ecdsa k => ∀ c, params k.curve = some c → k.x < 256 ^ c.size ∧ k.y < 256 ^ c.size
  | .sm2 k => ∀ c, params k.curve = some c → k.x < 256 ^ c.size ∧ k.y < 256 ^ c.size
  | _ => True

theorem bind_no_panic {α β : Type} {x : Res α} {f : α → Res β} (hx : x ≠ .panic) (hf : ∀ a, x = .ok a → f a ≠ .panic) :
    (x >>= f) ≠ .panic := by
  cases x with
  | ok a => exact hf a rfl
  | err e => simp
  | panic => exact absurd rfl hx

theorem ofOption_no_panic {α : Type} (e : String) (o : Option α) : Res.ofOption e o ≠ .panic := by
  cases o <;> simp [Res.ofOption]

theorem signing_no_panic (pub : PubKey) (a : Int) : signingParamsForPublicKey pub a ≠ .panic := by
  unfold signingParamsForPublicKey
  refine bind_no_panic ?_ ?_
  · cases pub <;> simp only [signingDefaults] <;> repeat' split
    all_goals simp
  · rintro ⟨_, _, _⟩ _
    simp only []
    split
    · simp
    · split
      · simp
      · split
        · simp
        · split
          · simp
          · simp

theorem marshalPublicKey_no_panic {pub : PubKey} (hf : CoordsFit pub) : marshalPublicKey pub ≠ .panic := by
  have ec : ∀ k : Sm2.PublicKey, (∀ c, params k.curve = some c → k.x < 256 ^ c.size ∧ k.y < 256 ^ c.size) →
      marshalECPub k ≠ .panic := by
    intro k hk
    unfold marshalECPub
    split
    · rename_i o c ho hc
      rw [ellipticMarshal_ok (hk c hc).1 (hk c hc).2]
      exact bind_no_panic (by simp) fun _ _ => bind_no_panic (ofOption_no_panic _ _) fun _ _ => by simp
    · simp
  cases pub with
  | rsa k => exact bind_no_panic (ofOption_no_panic _ _) fun _ _ => by simp
  | ecdsa k => exact ec k hf
  | sm2 k => exact ec k hf
  | ed25519 k => simp [marshalPublicKey]
  | dsa k => simp [marshalPublicKey]
  | nil => simp [marshalPublicKey]
  | other k => simp [marshalPublicKey]

theorem digestFor_init (H : StdHashes) {pub : PubKey} {a : Int} {h : Nat} {ai : AlgId}
    (hs : signingParamsForPublicKey pub a = .ok (h, ai)) (b : Bytes) : ∃ d, digestFor (initRegistry H) h b = .ok d := by
  obtain ⟨d, hd, -, rfl, -, -⟩ := signing_ai hs
  unfold digestFor
  by_cases h0 : d.hash = 0
  · rw [if_neg (by simpa using h0)]; exact ⟨_, rfl⟩
  · rw [if_pos h0]
    have hall : ∀ d ∈ signatureAlgorithmDetails, d.hash ≠ 0 → d.hash = 2 ∨ d.hash = 3 ∨ d.hash = 5 ∨ d.hash = 6 ∨ d.hash = 7 ∨
        d.hash = 20 := by decide
    have hn : ∃ f, hashNew (initRegistry H) d.hash = .ok f := by
      rw [C40_new _ _ (initRegistry_ok H), lastRegistered_init]
      rcases hall d hd h0 with h | h | h | h | h | h <;> rw [h] <;> simp
    obtain ⟨f, hf⟩ := hn
    rw [hf]; exact ⟨_, rfl⟩

/-- **C63** `CreateCertificate` never panics (with the hashes of the package registered, and coordinates of the key
that fit the field): if the requirements are not met the result is an error. -/
theorem C63_no_panic (H : StdHashes) (V : Verifiers) (sha1 : Bytes → Bytes) (t p : Certificate) (pub : PubKey)
    (priv : Option Signer) (hf : CoordsFit pub) :
    CreateCertificate ⟨initRegistry H, V, sha1⟩ t p pub priv ≠ .panic ∧
    ((∀ key, priv = some key → ¬ CreateRequires t p pub key) →
      ∃ e, CreateCertificate ⟨initRegistry H, V, sha1⟩ t p pub priv = .err e) := by
  have h : CreateCertificate ⟨initRegistry H, V, sha1⟩ t p pub priv ≠ .panic := by
    cases priv with
    | none => simp [CreateCertificate]
    | some key =>
      unfold CreateCertificate
      simp only []
      split
      · simp
      split
      · simp
      refine bind_no_panic (signing_no_panic _ _) ?_
      rintro ⟨hh, ai⟩ hs
      refine bind_no_panic (marshalPublicKey_no_panic hf) ?_
      rintro ⟨pb, alg⟩ _
      refine bind_no_panic (ofOption_no_panic _ _) fun _ _ => bind_no_panic (ofOption_no_panic _ _) fun _ _ => ?_
      split
      · simp
      refine bind_no_panic (ofOption_no_panic _ _) fun _ _ => bind_no_panic (ofOption_no_panic _ _) fun c _ => ?_
      unfold signCert
      refine bind_no_panic (ofOption_no_panic _ _) fun contents _ => ?_
      obtain ⟨d, hd⟩ := digestFor_init H hs contents
      refine bind_no_panic (by rw [show digestFor _ hh contents = _ from hd]; simp) fun _ _ => ?_
      refine bind_no_panic (ofOption_no_panic _ _) fun sig _ => bind_no_panic (ofOption_no_panic _ _) fun _ _ => ?_
      refine bind_no_panic ?_ fun _ _ => by simp
      unfold selfCheck
      simp only []
      split
      · simp
      · have := (C41_accepts_iff_init H V (getSignatureAlgorithmFromAI ai) contents sig key.pub).2
        cases hc : checkSignature (initRegistry H) V (getSignatureAlgorithmFromAI ai) contents sig key.pub with
        | ok u => simp
        | err e => simp
        | panic => exact absurd hc this
  refine ⟨h, fun hr => ?_⟩
  cases hc : CreateCertificate ⟨initRegistry H, V, sha1⟩ t p pub priv with
  | err e => exact ⟨e, rfl⟩
  | panic => exact absurd hc h
  | ok der =>
    obtain ⟨key, hk, hreq⟩ := C63_requires _ _ _ _ _ _ hc
    exact absurd hreq (hr key hk)

/-- **C63** The new signature: what is returned consists of the signed part, an algorithm identifier and the octets the
signer returned, for the digest of the signed part; and unless the algorithm is MD5WithRSA, SHA1WithRSA or
ECDSAWithSHA1, that signature was accepted for the signed part and the signer's public key. -/
theorem C63_self_check (E : SignEnv) (t p : Certificate) (pub : PubKey) (key : Signer) (der : Bytes)
    (h : CreateCertificate E t p pub (some key) = .ok der) (hl : der.length < 2 ^ 31) :
    ∃ tbs algE sigE signature a,
      Elem 0x30 (tbs ++ (algE ++ sigE)) der ∧ BitsElem sigE signature ∧
      a = (if t.signatureAlgorithm = 0 then defaultAlg key.pub else t.signatureAlgorithm) ∧
      (∃ digest opts, digestFor E.reg (algHash a) tbs = .ok digest ∧ key.sign digest opts = some signature ∧
        opts = if t.signatureAlgorithm ∈ [12, 13, 14] then .pss (algHash a) else .hash (algHash a)) ∧
      (a ∉ uncheckedAlgorithms → checkSignature E.reg E.V a tbs signature key.pub = .ok ()) := by
  obtain ⟨-, -, -, hashFunc, sigAlgo, pkBytes, pkAlgo, asn1Issuer, asn1Subject, exts, nb, na, contents, signed, signature,
    h1, h2, h3, h4, h5, h6, h7, g1, g2, g3, g4, g5⟩ := create_steps h
  obtain ⟨q1, q2⟩ := sign_getAlg h1
  unfold marshalTbsCert at g1
  obtain ⟨tb, -, hc⟩ := Option.map_eq_some_iff.mp g1
  have hcne : contents ≠ [] := by rw [← hc]; exact encTLV_ne_nil _ _ _ _
  unfold marshalCert at g4
  simp only [Option.pure_def, Option.bind_eq_bind, Option.bind_eq_some_iff, Option.some.injEq] at g4
  obtain ⟨c1, k1, c2, k2, c3, k3, rfl⟩ := g4
  have helder : Elem 0x30 (c1 ++ (c2 ++ c3)) (encTLV 0 true 16 (c1 ++ (c2 ++ c3))) := elem_of rfl (by decide) hl
  have hderl := tlv_body_lt helder
  simp only [List.length_append] at hderl
  have hc1 : c1 = contents := by
    unfold marshalTbsCert encTbsCert at k1
    simp only [ne_eq, hcne, not_false_eq_true, if_true, Option.map_some, Option.some.injEq] at k1
    rw [← hc] at k1
    rw [← k1, strip_encTLV (by rw [k1]; omega), hc]
  rw [q2] at g2 g3
  refine ⟨contents, c2, c3, signature, _, hc1 ▸ helder, bits_elem k3 (by omega), rfl, ⟨signed, _, g2, g3, ?_⟩, ?_⟩
  · unfold signerOpts isRSAPSS
    by_cases hm : t.signatureAlgorithm ∈ [12, 13, 14]
    · rw [if_pos hm, if_pos]
      simp only [List.mem_cons, List.not_mem_nil, or_false] at hm
      rcases hm with hm | hm | hm <;> rw [hm] <;> decide
    · rw [if_neg hm, if_neg]
      simp only [List.mem_cons, List.not_mem_nil, or_false, not_or] at hm
      simp [hm]
  · intro ha
    unfold selfCheck at g5
    simp only [q1] at g5
    rw [if_neg] at g5
    · cases hk : checkSignature E.reg E.V (if t.signatureAlgorithm = 0 then defaultAlg key.pub else t.signatureAlgorithm)
        contents signature key.pub with
      | ok u => rfl
      | err e => rw [hk] at g5; cases g5
      | panic => rw [hk] at g5; cases g5
    · intro hh; apply ha
      unfold uncheckedAlgorithms
      simp only [List.mem_cons, List.not_mem_nil, or_false]
      exact hh

/-- **C63** Consequence: no certificate can be made with an Ed25519 key. -/
theorem C63_ed25519_never (H : StdHashes) (V : Verifiers) (sha1 : Bytes → Bytes) (t p : Certificate) (pub : PubKey)
    (key : Signer) (k : Bytes) (hk : key.pub = .ed25519 k) (der : Bytes) (hl : der.length < 2 ^ 31) :
    CreateCertificate ⟨initRegistry H, V, sha1⟩ t p pub (some key) ≠ .ok der := by
  intro h
  obtain ⟨key', hk', hreq⟩ := C63_requires _ _ _ _ _ _ h
  injection hk' with hk'
  subst hk'
  obtain ⟨tbs, algE, sigE, signature, a, -, -, ha, -, hcheck⟩ := C63_self_check _ _ _ _ _ _ h hl
  have ha15 : a = 15 := by
    rw [ha, hk]
    rcases hreq.family with h0 | h0
    · rw [if_pos h0]; rfl
    · rw [hk] at h0
      have h15 : t.signatureAlgorithm = 15 := h0
      rw [h15]; rfl
  have hok := hcheck (by rw [ha15]; decide)
  have := C41_mismatch_rejected (initCalls H) _ (initRegistry_ok H) (by rw [lastRegistered_init]; simp) V a tbs signature
    key.pub hok
  rw [hk] at this
  rcases this with ⟨k', h1, -⟩ | ⟨k', h1 | h1, -⟩
  · cases h1
  · cases h1
  · cases h1.1

/-- A signature value fits one digest value only, modulo the order. -/
theorem validSig_digest {Q : Curve.EP} {e e' : Nat} {r s : Int} (h : ValidSig Q e r s) (h' : ValidSig Q e' r s) :
    e % Curve.N = e' % Curve.N := by
  obtain ⟨-, -, -, x1, y1, h1, h2⟩ := h
  obtain ⟨-, -, -, x1', y1', h1', h2'⟩ := h'
  rw [h1] at h1'
  simp only [Option.some.injEq, Prod.mk.injEq] at h1'
  rw [h1'.1, ← h2'] at h2
  have h3 : (e + x1') % Curve.N = (e' + x1') % Curve.N := by exact_mod_cast h2
  exact Nat.ModEq.add_right_cancel' x1' h3

/-- **C63** With an SM2 key the signer gets the SM3 digest of the signed part, but the check (and every verifier) uses
the digest with the prefix Z of GB/T 32918.2. So a signer that signs the digest it is given leads to an error, unless
the two digests happen to be equal modulo the order of the curve. -/
theorem C63_sm2_digest_mismatch (H : StdHashes) (V : Verifiers) (sha1 : Bytes → Bytes) (t p : Certificate) (pub : PubKey)
    (key : Signer) (k : Sm2.PublicKey) (Q : Curve.EP) (hk : key.pub = .sm2 k) (hQ : Represents k Q)
    (hx : k.x < 256 ^ 32) (hy : k.y < 256 ^ 32) (ha : t.signatureAlgorithm = 0 ∨ t.signatureAlgorithm = SM2WithSM3)
    (hsign : ∀ d o sig, key.sign d o = some sig → ∃ r s, DerSpec.IsSig sig r s ∧ ValidSig Q (ofBytes d) r s)
    (der : Bytes) (hl : der.length < 2 ^ 31) (h : CreateCertificate ⟨initRegistry H, V, sha1⟩ t p pub (some key) = .ok der) :
    ∃ tbs rest, Elem 0x30 (tbs ++ rest) der ∧
      ofBytes (Sm3.sum tbs) % Curve.N = ofBytes (Sm3Spec.sm3 (Z defaultId k.x k.y ++ tbs)) % Curve.N := by
  obtain ⟨tbs, algE, sigE, signature, a, h1, hbits, h3, ⟨digest, opts, h4, h5, -⟩, hcheck⟩ := C63_self_check _ _ _ _ _ _ h hl
  have ha16 : a = 16 := by
    rw [h3, hk]
    rcases ha with h0 | h0
    · rw [if_pos h0]; rfl
    · rw [h0]; rfl
  subst ha16
  have hd : digest = Sm3.sum tbs := by
    have hh : algHash 16 = hSM3 := rfl
    have h20 : hSM3 ≠ 0 := by decide
    simp only [digestFor, hh, if_pos h20, (C40_init H 0).2.1, Res.bind_ok, Res.pure_eq, Res.ok.injEq] at h4
    exact h4.symm
  have hok := hcheck (by decide)
  rw [hk] at hok
  obtain ⟨r, s, g1, g2⟩ := C41_sm2_sound (initCalls H) _ (initRegistry_ok H) (by rw [lastRegistered_init]; simp) V _ tbs
    signature k Q hQ hx hy hok
  obtain ⟨r', s', g3, g4⟩ := hsign _ _ _ h5
  have huniq : r = r' ∧ s = s' := by
    obtain ⟨pad, bytes, he, -, -, -, hlen, -⟩ := hbits
    have hl' : signature.length < 2 ^ 32 := by have := he.2.2; rw [List.length_cons] at this; omega
    have e1 := (Sm2.C11_accepts_iff _ _ _).mpr ⟨g1, hl'⟩
    rw [(Sm2.C11_accepts_iff _ _ _).mpr ⟨g3, hl'⟩, Res.ok.injEq, Prod.mk.injEq] at e1
    exact ⟨e1.1.symm, e1.2.symm⟩
  obtain ⟨rfl, rfl⟩ := huniq
  rw [hd] at g4
  exact ⟨tbs, algE ++ sigE, h1, validSig_digest g4 g2⟩

/-! ## C72 Made certificates parse -/

/-- What `CreateCertificate` needs so that its result can be read back: keys, times and names that have an encoding,
extensions of the template as in C69, and key identifiers of reasonable length. -/
structure TemplateReadable (env : Env) (sha1 : Bytes → Bytes) (t p : Certificate) (pub : PubKey) : Prop where
  key : KeyOk pub
  notBefore : ValidTime t.notBefore
  notAfter : ValidTime t.notAfter
  subject : NameOk t
  issuer : NameOk p
  template : TemplateOk env t
  extra : ∀ e ∈ t.extraExtensions, OidOk e.id ∧ e.id ∉ knownExtensions
  akiLen : t.authorityKeyId.length < 2 ^ 30
  parentSkiLen : p.subjectKeyId.length < 2 ^ 30
  skiLen : t.subjectKeyId.length < 2 ^ 30
  sha1Len : ∀ b, (sha1 b).length = 20

/-- **C72** A certificate made by `CreateCertificate` is accepted by `ParseCertificate`, and has version 3, the serial
number, the names, the validity period, the public key and the extension fields of its template; the algorithm is the
requested one (or the default for the signing key), the authority key identifier is the parent's subject key identifier
unless the certificate is self-issued or the parent has none, the subject key identifier is the template's or, for a CA
without one, the SHA-1 hash of the key, and the signature is the one the signer made for the digest of the signed part. -/
theorem C72_create_parse (env : Env) (E : SignEnv) (t p : Certificate) (pub : PubKey) (key : Signer) (der : Bytes)
    (h : CreateCertificate E t p pub (some key) = .ok der) (hl : der.length < 2 ^ 31)
    (ht : TemplateReadable env E.sha1 t p pub) :
    ∃ c keyOctets, ParseCertificate env der = .ok c ∧ c.raw = der ∧ c.version = 3 ∧ c.serialNumber = t.serialNumber ∧
      c.signatureAlgorithm = (if t.signatureAlgorithm = 0 then defaultAlg key.pub else t.signatureAlgorithm) ∧
      NameFrom p c.rawIssuer c.issuer ∧ NameFrom t c.rawSubject c.subject ∧
      SameInstant c.notBefore t.notBefore ∧ SameInstant c.notAfter t.notAfter ∧
      c.publicKey = sameKey pub ∧
      SameExtensionFields t c ∧
      c.authorityKeyId = (if c.rawIssuer ≠ c.rawSubject ∧ p.subjectKeyId ≠ [] then p.subjectKeyId else t.authorityKeyId) ∧
      (∃ a e, BitsElem e keyOctets ∧ ∃ junk, Elem 0x30 (a ++ (e ++ junk)) c.rawSubjectPublicKeyInfo) ∧
      c.subjectKeyId = (if t.subjectKeyId = [] ∧ t.isCA then E.sha1 keyOctets else t.subjectKeyId) ∧
      (∃ made, c.extensions = made ++ t.extraExtensions) ∧
      (∃ digest opts, digestFor E.reg (algHash c.signatureAlgorithm) c.rawTBSCertificate = .ok digest ∧
        key.sign digest opts = some c.signature) ∧
      (c.signatureAlgorithm ∉ uncheckedAlgorithms →
        checkSignature E.reg E.V c.signatureAlgorithm c.rawTBSCertificate c.signature key.pub = .ok ()) := by
  obtain ⟨f, pkBytes, pkAlgo, hashFunc, sigAlgo, signed, h1, h2, h3, h4, h5, h6, h7, h8, h9, -, -, h12, h13, h14, h15, h16,
    h17, h18, h19, h20, -⟩ := create_certDer h hl ht.key ht.notBefore ht.notAfter ht.subject ht.issuer
      (fun e he => (ht.extra e he).1)
  have hb : NoExtFields (recordOf der f (sameKey pub)) := by constructor <;> rfl
  have hk1 : (chooseAuthorityKeyId t p f.rawIssuer f.rawSubject).length + 20 < 2 ^ 31 := by
    have a := ht.akiLen; have b := ht.parentSkiLen
    unfold chooseAuthorityKeyId; split <;> omega
  have hk2 : (chooseSubjectKeyId E.sha1 t pkBytes).length + 20 < 2 ^ 31 := by
    have a := ht.skiLen; have b := ht.sha1Len pkBytes
    unfold chooseSubjectKeyId; split <;> omega
  have hp := build_process env t (recordOf der f (sameKey pub)) (f.rawSubject == [0x30, 0]) _ _ _ h15 h16 hk1 hk2 ht.template
    hb (fun e he => (ht.extra e he).2)
  have hp' : processExtensions env (recordOf der f (sameKey pub)) = some _ := hp
  have hparse := (ParseCertificate_spec env der _).mpr ⟨f, _, _, h1, h2, hp', rfl⟩
  obtain ⟨q1, q2⟩ := sign_getAlg h17
  have hspki := h1
  obtain ⟨-, -, -, -, -, -, -, -, -, -, -, -, -, -, -, -, -, ⟨algE2, -, bitsE, junk2, m1, -, -, m4⟩, -, -⟩ := hspki
  refine ⟨_, f.key, hparse, rfl, h3, h4.symm, h5, ⟨_, h6, fromRDNSequence_fields _⟩, ⟨_, h7, fromRDNSequence_fields _⟩, h8, h9, rfl, ?_, ?_, ⟨algE2, bitsE, m4, junk2, m1⟩, ?_, ?_, ?_, ?_⟩
  · constructor
    all_goals try rfl
    · intro hv; show (t.basicConstraintsValid && t.isCA) = t.isCA; simp [hv]
    · intro hv
      simp only [builtFields, hv, Bool.true_and, if_true, pathLimit, bcLen]
      cases t.maxPathLenZero <;> by_cases hm : t.maxPathLen = 0 <;> simp [hm]
    · show (hasNameConstraints t && t.permittedDNSDomainsCritical) = true ↔ _
      simp only [hasNameConstraints, Bool.and_eq_true, Bool.or_eq_true, decide_eq_true_eq, gt_iff_lt, List.length_pos_iff,
        not_and_or]
      tauto
  · show chooseAuthorityKeyId t p f.rawIssuer f.rawSubject = _
    unfold chooseAuthorityKeyId
    simp only [gt_iff_lt, List.length_pos_iff]
    rfl
  · show chooseSubjectKeyId E.sha1 t pkBytes = _
    unfold chooseSubjectKeyId
    simp only [List.length_eq_zero_iff, h13]
  · obtain ⟨made, hm, -⟩ := C69_extra_replaces _ _ _ _ _ h15
    exact ⟨made, hm⟩
  · refine ⟨signed, _, ?_, h19⟩
    show digestFor E.reg (algHash (getSignatureAlgorithmFromAI ⟨f.sigOid, { full := f.sigPar }⟩)) f.rawTbs = _
    rw [h5, ← q2]; exact h18
  · show getSignatureAlgorithmFromAI ⟨f.sigOid, { full := f.sigPar }⟩ ∉ _ →
      checkSignature E.reg E.V (getSignatureAlgorithmFromAI ⟨f.sigOid, { full := f.sigPar }⟩) f.rawTbs f.signature key.pub = _
    rw [h5]
    intro ha
    unfold selfCheck at h20
    simp only [q1] at h20
    rw [if_neg] at h20
    · cases hk : checkSignature E.reg E.V (if t.signatureAlgorithm = 0 then defaultAlg key.pub else t.signatureAlgorithm)
        f.rawTbs f.signature key.pub with
      | ok u => rfl
      | err e => rw [hk] at h20; cases h20
      | panic => rw [hk] at h20; cases h20
    · intro hh; apply ha
      unfold uncheckedAlgorithms
      simp only [List.mem_cons, List.not_mem_nil, or_false]
      exact hh

/-! ### A certificate that is made -/

/-- A toy signer: its signature is the digest (`toyV` accepts exactly that). -/
def exSigner : Signer := ⟨.rsa ⟨33, 3⟩, fun d _ => some d⟩
/-- A signer whose signatures are nonsense. -/
def exBadSigner : Signer := ⟨.rsa ⟨33, 3⟩, fun _ _ => some [1, 2, 3]⟩
def exSignEnv : SignEnv := ⟨initRegistry toyH, toyV, fun _ => List.replicate 20 7⟩
/-- A template: version 3, serial 5, CN=ab, valid in 2020 (UTCTime) to 2051 (GeneralizedTime), CA with path length 3
and all the extensions of `exTemplate`. -/
def exCreateTemplate : Certificate :=
  { exTemplate with
    serialNumber := some 5, 
    subject := { commonName := [97, 98], organization := [[99], [98]], extraNames := [⟨[1, 2, 3, 4], .str [120]⟩] },
    notBefore := ⟨2020, 1, 2, 3, 4, 5, 0⟩, notAfter := ⟨2051, 1, 2, 3, 4, 5, 3600⟩, signatureAlgorithm := 4 }


/-- The call returns a value with the given property. -/
def okAnd {α : Type} (r : Res α) (q : α → Bool) : Bool :=
  match r with
  | .ok a => q a
  | _ => false

/-- The certificate is made, and read back. -/
example : okAnd (CreateCertificate exSignEnv exCreateTemplate exCreateTemplate (.rsa ⟨33, 3⟩) (some exSigner)) (fun der =>
    der.length < 1000 && okAnd (ParseCertificate exEnv der) fun c => c.isCA && c.maxPathLen = 3 && c.serialNumber == some 5)
    = true := by decide +kernel

/-- The arguments meet the conditions of `C72_create_parse`. -/
example : TemplateReadable exEnv exSignEnv.sha1 exCreateTemplate exCreateTemplate (.rsa ⟨33, 3⟩) where
  key := ⟨by decide, by decide, by decide⟩
  notBefore := by constructor <;> decide
  notAfter := by constructor <;> decide
  subject := ⟨fun h => absurd rfl h, fun _ a ha => by
    rw [List.mem_singleton.mp ha]; exact ⟨⟨_, _, _, rfl, by decide, by decide⟩, _, rfl⟩⟩
  issuer := ⟨fun h => absurd rfl h, fun _ a ha => by
    rw [List.mem_singleton.mp ha]; exact ⟨⟨_, _, _, rfl, by decide, by decide⟩, _, rfl⟩⟩
  template := by
    obtain ⟨h1, h2, h3, h4, h5, h6, h7⟩ := exTemplate_ok
    exact ⟨h1, h2, h3, h4, h5, h6, h7⟩
  extra := by
    intro e he
    rw [List.mem_singleton.mp he]; exact ⟨⟨_, _, _, rfl, by decide, by decide⟩, by decide⟩
  akiLen := by decide
  parentSkiLen := by decide
  skiLen := by decide
  sha1Len := fun _ => rfl

/-- Nothing is made when the signature does not verify. -/
example : okAnd (CreateCertificate exSignEnv exCreateTemplate exCreateTemplate (.rsa ⟨33, 3⟩) (some exBadSigner))
    (fun _ => true) = false := by decide +kernel

/-- With SHA1WithRSA the signature is not checked: a certificate with a nonsense signature is returned. -/
theorem C63_unchecked_example : okAnd (CreateCertificate exSignEnv { exCreateTemplate with signatureAlgorithm := 2 }
    exCreateTemplate (.rsa ⟨33, 3⟩) (some exBadSigner)) (fun der => okAnd (ParseCertificate exEnv der) fun c =>
      c.signature == [1, 2, 3] &&
      !okAnd (checkSignature (initRegistry toyH) toyV 2 c.rawTBSCertificate c.signature (.rsa ⟨33, 3⟩)) fun _ => true)
    = true := by decide +kernel

end MCrypto.Props
