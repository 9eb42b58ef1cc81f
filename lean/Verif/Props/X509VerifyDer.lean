import Verif.Props.X509Cert
import Verif.Props.X509Sig
import Verif.Props.X509Tables
import Verif.Props.X509ListDer
import Verif.Props.Pkcs7
import Verif.Props.X509Crl
/-
C99: certificates, revocation lists and requests that parse and whose signature is accepted, octet by octet.
The model is Verif/X509/{Parser,Create,Cert,SigAlg}.lean (x509.go, parser.go).
-/
namespace MCrypto.Props
open MCrypto MCrypto.X509 MCrypto.X509Spec MCrypto.Asn1 MCrypto.Dg

theorem sigAccepted_ne_zero {hashes : Nat → Option HashFn} {V : Verifiers} {a : Int} {p s : Bytes} {k : PubKey}
    (h : SigAccepted hashes V a p s k) : a ≠ 0 := by
  rintro rfl
  obtain ⟨_, _, _, h, _⟩ := h
  simp [scheme] at h

/-- The algorithm read from an identifier accepts exactly when the identifier identifies an algorithm that accepts. -/
theorem sigAccepted_identified (hashes : Nat → Option HashFn) (V : Verifiers) (ai : AlgId) (p s : Bytes) (k : PubKey) :
    SigAccepted hashes V (getSignatureAlgorithmFromAI ai) p s k ↔ ∃ a, Identifies ai a ∧ SigAccepted hashes V a p s k := by
  constructor
  · intro h
    exact ⟨_, (C43_recognised_iff ai _ (sigAccepted_ne_zero h)).mp rfl, h⟩
  · rintro ⟨a, h, h'⟩
    rw [(C43_recognised_iff ai a (sigAccepted_ne_zero h')).mpr h]
    exact h'

/-- **C99** A certificate parses and its signature is accepted by `CheckSignatureFrom` exactly when its octets are those of
a certificate with a key and extensions that are well formed, the parent may sign certificates, and the octets of the
signature are a signature by the parent's key of the octets of the signed part, under the algorithm that the identifier
inside the signed part names. -/
theorem C99_certificate (env : Env) (H : StdHashes) (V : Verifiers) (parent : Certificate) (der : Bytes) :
    (∃ c, ParseCertificate env der = .ok c ∧ c.checkSignatureFrom (initRegistry H) V parent = .ok ()) ↔
      ∃ f k a, CertDer der f ∧ KeyDer f.keyOid f.keyPar f.key k ∧ (∀ e ∈ f.extensions, WellFormed env e) ∧
        MaySignCerts parent ∧ parent.publicKeyAlgorithm ≠ 0 ∧ Identifies ⟨f.sigOid, { full := f.sigPar }⟩ a ∧
        SigAccepted (lastRegistered (initCalls H)) V a f.rawTbs f.signature parent.publicKey := by
  have h42 := fun c => (C42_checkSignatureFrom_iff (initCalls H) _ (initRegistry_ok H) (by rw [lastRegistered_init]; simp)
    V c parent).1
  constructor
  · rintro ⟨c, hp, hs⟩
    obtain ⟨f, k, h1, h2, h3⟩ := (C70_accept_iff env der).mp ⟨c, hp⟩
    obtain ⟨f', g1, g2, -, g3, -, -, g4, -, -, -, -, -, -, -, -, -, g5⟩ := C70_fields env der c hp
    obtain rfl := C70_unambiguous der f f' h1 g1
    obtain ⟨m1, m2, m3⟩ := (h42 c).mp hs
    rw [g3, g4, g5] at m3
    obtain ⟨a, ha, hb⟩ := (sigAccepted_identified _ _ _ _ _ _).mp m3
    exact ⟨f, k, a, h1, h2, h3, m1, m2, ha, hb⟩
  · rintro ⟨f, k, a, h1, h2, h3, m1, m2, ha, hb⟩
    obtain ⟨c, hp⟩ := (C70_accept_iff env der).mpr ⟨f, k, h1, h2, h3⟩
    obtain ⟨f', g1, g2, -, g3, -, -, g4, -, -, -, -, -, -, -, -, -, g5⟩ := C70_fields env der c hp
    obtain rfl := C70_unambiguous der f f' h1 g1
    refine ⟨c, hp, (h42 c).mpr ⟨m1, m2, ?_⟩⟩
    rw [g3, g4, g5]
    exact (sigAccepted_identified _ _ _ _ _ _).mpr ⟨a, ha, hb⟩

/-- The octets that a bit string stands for when its unused bits are shifted out. -/
def Shifted (bytes : Bytes) (bits : Nat) (octets : Bytes) : Prop :=
  octets.length = bytes.length ∧ ofBytes octets = ofBytes bytes / 2 ^ (8 * bytes.length - bits)

theorem shifted_iff {b bytes : Bytes} {u bits : Nat} (h : IsBits b bytes u) (hb : bits = 8 * bytes.length - u) (r : Bytes) :
    Shifted bytes bits r ↔ rightAlign ⟨bytes, bits⟩ = r := by
  obtain ⟨_, -, -, h1, -⟩ := h
  unfold Shifted rightAlign
  subst hb
  simp only []
  by_cases h0 : bytes = []
  · subst h0
    simp
    intro h; subst h; rfl
  · have hp := List.length_pos_of_ne_nil h0
    rw [show 8 * bytes.length - (8 * bytes.length - u) = u by omega]
    by_cases hp0 : u = 0
    · rw [hp0, if_pos (by omega)]
      simp only [Nat.pow_zero, Nat.div_one]
      constructor
      · rintro ⟨a, b⟩; exact (ofBytes_inj a b).symm
      · rintro rfl; exact ⟨rfl, rfl⟩
    · rw [if_neg (by omega), show 8 - (8 * bytes.length - u) % 8 = u by omega]
      have hlt : ofBytes bytes / 2 ^ u < 256 ^ bytes.length :=
        Nat.lt_of_le_of_lt (Nat.div_le_self _ _) (ofBytes_lt bytes)
      constructor
      · rintro ⟨a, b⟩
        rw [← b, ← a]; exact beBytes_ofBytes r
      · rintro rfl
        exact ⟨by simp, ofBytes_beBytes_of_lt hlt⟩

/-- **C99** A revocation list parses and `CheckCRLSignature` accepts it exactly when its octets are those of a list, and its
signature is one of the octets of the signed part by the certificate's key under the algorithm that the identifier
outside the signed part names. Neither the identifier in the signed part nor the issuer's right to sign lists matters. -/
theorem C99_crl (H : StdHashes) (V : Verifiers) (cert : Certificate) (der : Bytes) :
    (∃ c, ParseDERCRL der = .ok c ∧ cert.checkCRLSignature (initRegistry H) V c.signedPart = .ok ()) ↔
      ∃ f s a, CrlDer der f ∧ Shifted f.signature f.sigBits s ∧ Identifies ⟨f.algOid, { full := f.algPar }⟩ a ∧
        SigAccepted (lastRegistered (initCalls H)) V a f.rawTbs s cert.publicKey := by
  constructor
  · rintro ⟨c, hp, hs⟩
    have hf := (C94_crl_grammar der (crlFields c)).mp ⟨c, hp, rfl⟩
    obtain ⟨a, ha, hb⟩ := (sigAccepted_identified _ _ _ _ _ _).mp ((C41_accepts_iff_init H V _ _ _ _).1.mp hs)
    have hf' := hf
    obtain ⟨_, _, _, b, u, -, -, -, -, h5, h6⟩ := hf'
    exact ⟨crlFields c, _, a, hf, (shifted_iff h5 h6 _).mpr rfl, ha, hb⟩
  · rintro ⟨f, s, a, hf, hs, ha, hb⟩
    obtain ⟨c, hp, rfl⟩ := (C94_crl_grammar der f).mpr hf
    have hf' := hf
    obtain ⟨_, _, _, b, u, -, -, -, -, h5, h6⟩ := hf'
    have hs' : rightAlign c.signatureValue = s := (shifted_iff h5 h6 _).mp hs
    refine ⟨c, hp, (C41_accepts_iff_init H V _ _ _ _).1.mpr ((sigAccepted_identified _ _ _ _ _ _).mpr ⟨a, ha, ?_⟩)⟩
    show SigAccepted _ _ _ _ (rightAlign c.signatureValue) _
    rw [hs']
    exact hb

/-- **C99** A request parses and `CheckSignature` accepts it exactly when its octets are those of a request and its signature
is one of the octets of the signed part by the key in the signed part. -/
theorem C99_request (env : Env) (H : StdHashes) (V : Verifiers) (der : Bytes) :
    (∃ c, ParseCertificateRequest env der = .ok c ∧ c.checkSignature (initRegistry H) V = .ok ()) ↔
      ∃ f k attrs exts names a, CsrDer der f ∧ KeyDer f.keyOid f.keyPar f.key k ∧ AttributesAre f.attributes attrs ∧
        RequestsAre f.attributes exts ∧ SansAre env exts names ∧ Identifies ⟨f.algOid, { full := f.algPar }⟩ a ∧
        SigAccepted (lastRegistered (initCalls H)) V a f.rawTbs f.signature k := by
  constructor
  · rintro ⟨c, hp, hs⟩
    obtain ⟨f, k, attrs, exts, names, h1, h2, h3, h4, h5, rfl⟩ := (C95_csr_grammar env der c).mp hp
    obtain ⟨a, ha, hb⟩ := (sigAccepted_identified _ _ _ _ _ _).mp ((C41_accepts_iff_init H V _ _ _ _).1.mp hs)
    exact ⟨f, k, attrs, exts, names, a, h1, h2, h3, h4, h5, ha, hb⟩
  · rintro ⟨f, k, attrs, exts, names, a, h1, h2, h3, h4, h5, ha, hb⟩
    exact ⟨_, (C95_csr_grammar env der _).mpr ⟨f, k, attrs, exts, names, h1, h2, h3, h4, h5, rfl⟩,
      (C41_accepts_iff_init H V _ _ _ _).1.mpr ((sigAccepted_identified _ _ _ _ _ _).mpr ⟨a, ha, hb⟩)⟩

/-! ## SM2 -/

theorem keyDer_sm2_on {o : Oid} {par key : Bytes} {k : Sm2.PublicKey} (h : KeyDer o par key (.sm2 k)) :
    Curve.isOnCurve Curve.P Curve.B (k.x, k.y) = true := by
  unfold KeyDer at h
  split at h
  · obtain ⟨-, _, _, _, _, _, _, _, -, -, -, -, -, -, -, h⟩ := h; cases h
  split at h
  · obtain ⟨_, _, _, _, _, _, _, _, _, _, _, _, -, -, -, -, -, -, -, -, -, -, -, h⟩ := h; cases h
  split at h
  · obtain ⟨_, _, _, c, cp, x, y, -, -, -, hp, -, hon, h⟩ := h
    unfold ecPubKey at h
    split at h
    · rename_i hc
      have hc' : c = SM2P256 := hc
      subst hc'
      have h1 : params SM2P256 = some sm2p256 := rfl
      rw [h1] at hp
      have h2 := Option.some.inj hp
      subst h2
      have h3 := PubKey.sm2.inj h
      subst h3
      exact hon
    · cases h
  split at h
  · obtain ⟨-, -, h⟩ := h; cases h
  · cases h

theorem keyDer_sm2 {o : Oid} {par key : Bytes} {k : Sm2.PublicKey} (h : KeyDer o par key (.sm2 k)) :
    ∃ Q : Curve.EP, Q ≠ 0 ∧ Sm2Spec.Represents k Q :=
  (Curve.isOnCurve_rep (k.x, k.y)).mp (keyDer_sm2_on h)

theorem keyDer_sm2_lt {o : Oid} {par key : Bytes} {k : Sm2.PublicKey} (h : KeyDer o par key (.sm2 k)) :
    k.x < 256 ^ 32 ∧ k.y < 256 ^ 32 := by
  have h := keyDer_sm2_on h
  unfold Curve.isOnCurve at h
  have hP : Curve.P < 256 ^ 32 := by decide +kernel
  rw [Bool.and_eq_true, Bool.and_eq_true] at h
  exact ⟨Nat.lt_trans (of_decide_eq_true h.1.1) hP, Nat.lt_trans (of_decide_eq_true h.1.2) hP⟩

/-- **C99** A certificate whose parent is itself a parsed certificate with an SM2 key: acceptance means a valid GB/T
32918.2 signature of the octets of the signed part by a point of the curve other than infinity. -/
theorem C99_certificate_sm2 (env : Env) (H : StdHashes) (V : Verifiers) (der pder : Bytes) (c parent : Certificate)
    (k : Sm2.PublicKey) (h : ParseCertificate env der = .ok c) (hp : ParseCertificate env pder = .ok parent)
    (hk : parent.publicKey = .sm2 k) (hs : c.checkSignatureFrom (initRegistry H) V parent = .ok ()) :
    ∃ f Q, CertDer der f ∧ Q ≠ 0 ∧ Sm2Spec.Represents k Q ∧ Sm2Valid k Q f.rawTbs f.signature := by
  obtain ⟨-, hx, hy, -⟩ := parsed_sm2 hp hk
  obtain ⟨pf, p1, p2, -⟩ := C70_fields env pder parent hp
  rw [hk] at p2
  obtain ⟨Q, q0, hQ⟩ := keyDer_sm2 p2
  obtain ⟨f, g1, g2, -, g3, -, -, g4, -, -, -, -, -, -, -, -, -, g5⟩ := C70_fields env der c h
  obtain ⟨m1, m2, m3⟩ := ((C42_checkSignatureFrom_iff (initCalls H) _ (initRegistry_ok H) (by rw [lastRegistered_init]; simp)
    V c parent).1).mp hs
  rw [hk, g3, g5] at m3
  exact ⟨f, Q, g1, q0, hQ, C41_sm2_sound (initCalls H) _ (initRegistry_ok H) (by rw [lastRegistered_init]; simp) V _ _ _ k Q hQ hx hy
    (((C41_accepts_iff_init H V _ _ _ _).1).mpr m3)⟩

/-- **C99** The same for a revocation list. -/
theorem C99_crl_sm2 (env : Env) (H : StdHashes) (V : Verifiers) (der pder : Bytes) (c : Crl) (parent : Certificate)
    (k : Sm2.PublicKey) (h : ParseDERCRL der = .ok c) (hp : ParseCertificate env pder = .ok parent)
    (hk : parent.publicKey = .sm2 k) (hs : parent.checkCRLSignature (initRegistry H) V c.signedPart = .ok ()) :
    ∃ f s Q, CrlDer der f ∧ Shifted f.signature f.sigBits s ∧ Q ≠ 0 ∧ Sm2Spec.Represents k Q ∧ Sm2Valid k Q f.rawTbs s := by
  obtain ⟨-, hx, hy, -⟩ := parsed_sm2 hp hk
  obtain ⟨pf, p1, p2, -⟩ := C70_fields env pder parent hp
  rw [hk] at p2
  obtain ⟨Q, q0, hQ⟩ := keyDer_sm2 p2
  obtain ⟨f, s, a, h1, h2, h3, h4⟩ := (C99_crl H V parent der).mp ⟨c, h, hs⟩
  rw [hk] at h4
  exact ⟨f, s, Q, h1, h2, q0, hQ, C41_sm2_sound (initCalls H) _ (initRegistry_ok H) (by rw [lastRegistered_init]; simp) V _ _ _ k Q hQ hx hy
    (((C41_accepts_iff_init H V _ _ _ _).1).mpr h4)⟩

/-- **C99** A request with an SM2 key proves possession of that key: acceptance means a valid signature of the octets of
the signed part by the point of the curve that the signed part names. -/
theorem C99_request_sm2 (env : Env) (H : StdHashes) (V : Verifiers) (der : Bytes) (c : CertificateRequest)
    (k : Sm2.PublicKey) (h : ParseCertificateRequest env der = .ok c) (hk : c.publicKey = .sm2 k)
    (hs : c.checkSignature (initRegistry H) V = .ok ()) :
    ∃ f Q, CsrDer der f ∧ KeyDer f.keyOid f.keyPar f.key (.sm2 k) ∧ Q ≠ 0 ∧ Sm2Spec.Represents k Q ∧
      Sm2Valid k Q f.rawTbs f.signature := by
  obtain ⟨f, k', attrs, exts, names, h1, h2, h3, h4, h5, rfl⟩ := (C95_csr_grammar env der c).mp h
  have hk' : k' = .sm2 k := hk
  subst hk'
  obtain ⟨Q, q0, hQ⟩ := keyDer_sm2 h2
  obtain ⟨hx, hy⟩ := keyDer_sm2_lt h2
  exact ⟨f, Q, h1, h2, q0, hQ, C41_sm2_sound (initCalls H) _ (initRegistry_ok H) (by rw [lastRegistered_init]; simp) V _ _ _ k Q hQ hx hy hs⟩

/-! ## The signed part -/

/-- **C99** Two lists with the same signed part have the same contents, apart from algorithm identifier and signature
outside of it. -/
theorem C99_crl_signed_part (d d' : Bytes) (f f' : CrlFields) (h : CrlDer d f) (h' : CrlDer d' f') (ht : f.rawTbs = f'.rawTbs) :
    f' = { f with algOid := f'.algOid, algPar := f'.algPar, signature := f'.signature, sigBits := f'.sigBits } := by
  obtain ⟨c, -, rfl⟩ := (C94_crl_grammar d f).mpr h
  obtain ⟨c', -, rfl⟩ := (C94_crl_grammar d' f').mpr h'
  obtain ⟨_, _, _, _, _, -, h2, -⟩ := h
  obtain ⟨_, _, _, _, _, -, h2', -⟩ := h'
  obtain ⟨t, ht1, ht2⟩ := (tbsCrl_iff _ [] c).mpr ⟨(List.append_nil _).symm, h2⟩
  obtain ⟨t', ht1', ht2'⟩ := (tbsCrl_iff _ [] c').mpr ⟨(List.append_nil _).symm, h2'⟩
  have ht' : c.tbs.raw = c'.tbs.raw := ht
  rw [ht', ht1'] at ht1
  injection ht1 with ht1
  injection ht1 with ht1
  subst ht1
  rw [← ht2', ← ht2]
  rfl

/-! ## Examples -/

/-- SHA256WithRSA. -/
def exRsaAlg : Bytes := Der.tlv 0x30 [6, 9, 0x2a, 0x86, 0x48, 0x86, 0xf7, 0x0d, 1, 1, 11, 5, 0]
def exRsaSpki : Bytes := Der.tlv 0x30 (Der.tlv 0x30 [6, 9, 0x2a, 0x86, 0x48, 0x86, 0xf7, 0x0d, 1, 1, 1, 5, 0] ++
  Der.tlv 0x03 (0 :: Der.tlv 0x30 [2, 1, 33, 2, 1, 3]))
/-- A signed part with a signature that the toy verifier (signature = signed part) accepts. -/
def exSeal (tbs sig : Bytes) : Bytes := Der.tlv 0x30 (tbs ++ exRsaAlg ++ Der.tlv 0x03 (0 :: sig))
def exRsaTbs : Bytes :=
  Der.tlv 0x30 (Der.tlv 0x02 [5] ++ exRsaAlg ++ Der.tlv 0x30 [] ++
    Der.tlv 0x30 (Der.tlv 0x17 [50, 48, 48, 49, 48, 49, 48, 48, 48, 48, 48, 48, 90] ++
      Der.tlv 0x17 [50, 48, 48, 49, 48, 49, 48, 48, 48, 48, 48, 48, 90]) ++ Der.tlv 0x30 [] ++ exRsaSpki)
def exCrlTbs : Bytes := Der.tlv 0x30 (Der.tlv 0x30 [6, 2, 42, 3] ++ Der.tlv 0x30 [] ++
  Der.tlv 0x17 [50, 48, 48, 49, 48, 49, 48, 48, 48, 48, 48, 48, 90])
def exCsrTbs : Bytes := Der.tlv 0x30 (Der.tlv 0x02 [0] ++ Der.tlv 0x30 [] ++ exRsaSpki ++ Der.tlv 0xa0 [])
def exRsaParent : Certificate :=
  { version := 3, basicConstraintsValid := true, isCA := true, keyUsage := 32, publicKeyAlgorithm := pkRSA, publicKey := .rsa ⟨33, 3⟩ }

/-- The three equivalences are met: sealed objects are on the right-hand side, altered ones are not. -/
example : ∃ f k a, CertDer (exSeal exRsaTbs exRsaTbs) f ∧ KeyDer f.keyOid f.keyPar f.key k ∧
    (∀ e ∈ f.extensions, WellFormed exCertEnv e) ∧ MaySignCerts exRsaParent ∧ exRsaParent.publicKeyAlgorithm ≠ 0 ∧
    Identifies ⟨f.sigOid, { full := f.sigPar }⟩ a ∧
    SigAccepted (lastRegistered (initCalls toyH)) toyV a f.rawTbs f.signature exRsaParent.publicKey := by
  refine (C99_certificate exCertEnv toyH toyV exRsaParent _).mp ?_
  have h : okAnd (ParseCertificate exCertEnv (exSeal exRsaTbs exRsaTbs)) (fun c =>
      decide (c.checkSignatureFrom (initRegistry toyH) toyV exRsaParent = .ok ())) = true := by decide +kernel
  cases hc : ParseCertificate exCertEnv (exSeal exRsaTbs exRsaTbs) with
  | ok c => rw [hc] at h; exact ⟨c, rfl, of_decide_eq_true h⟩
  | err e => rw [hc] at h; cases h
  | panic => rw [hc] at h; cases h

example : ¬ ∃ c, ParseCertificate exCertEnv (exSeal exRsaTbs [1]) = .ok c ∧
    c.checkSignatureFrom (initRegistry toyH) toyV exRsaParent = .ok () := by
  rintro ⟨c, hc, hs⟩
  have h : okAnd (ParseCertificate exCertEnv (exSeal exRsaTbs [1])) (fun c =>
      decide (c.checkSignatureFrom (initRegistry toyH) toyV exRsaParent = .ok ())) = false := by decide +kernel
  rw [hc] at h
  exact of_decide_eq_false h hs

example : ∃ f s a, CrlDer (exSeal exCrlTbs exCrlTbs) f ∧ Shifted f.signature f.sigBits s ∧
    Identifies ⟨f.algOid, { full := f.algPar }⟩ a ∧
    SigAccepted (lastRegistered (initCalls toyH)) toyV a f.rawTbs s exRsaParent.publicKey := by
  refine (C99_crl toyH toyV exRsaParent _).mp ?_
  have h : okAnd (ParseDERCRL (exSeal exCrlTbs exCrlTbs)) (fun c =>
      decide (exRsaParent.checkCRLSignature (initRegistry toyH) toyV c.signedPart = .ok ())) = true := by decide +kernel
  cases hc : ParseDERCRL (exSeal exCrlTbs exCrlTbs) with
  | ok c => rw [hc] at h; exact ⟨c, rfl, of_decide_eq_true h⟩
  | err e => rw [hc] at h; cases h
  | panic => rw [hc] at h; cases h

example : ∃ f k attrs exts names a, CsrDer (exSeal exCsrTbs exCsrTbs) f ∧ KeyDer f.keyOid f.keyPar f.key k ∧
    AttributesAre f.attributes attrs ∧ RequestsAre f.attributes exts ∧ SansAre exCertEnv exts names ∧
    Identifies ⟨f.algOid, { full := f.algPar }⟩ a ∧
    SigAccepted (lastRegistered (initCalls toyH)) toyV a f.rawTbs f.signature k := by
  refine (C99_request exCertEnv toyH toyV _).mp ?_
  have h : okAnd (ParseCertificateRequest exCertEnv (exSeal exCsrTbs exCsrTbs)) (fun c =>
      decide (c.checkSignature (initRegistry toyH) toyV = .ok ())) = true := by decide +kernel
  cases hc : ParseCertificateRequest exCertEnv (exSeal exCsrTbs exCsrTbs) with
  | ok c => rw [hc] at h; exact ⟨c, rfl, of_decide_eq_true h⟩
  | err e => rw [hc] at h; cases h
  | panic => rw [hc] at h; cases h

/-- A list that is accepted although the signed part names another algorithm. -/
example : ∃ f s a, CrlDer (exSeal exCrlTbs exCrlTbs) f ∧ f.sigOid = [1, 2, 3] ∧
    Identifies ⟨f.algOid, { full := f.algPar }⟩ a ∧ SigAccepted (lastRegistered (initCalls toyH)) toyV a f.rawTbs s exRsaParent.publicKey := by
  have h : okAnd (ParseDERCRL (exSeal exCrlTbs exCrlTbs)) (fun c => decide (c.tbs.signature.algorithm = [1, 2, 3] ∧
      exRsaParent.checkCRLSignature (initRegistry toyH) toyV c.signedPart = .ok ())) = true := by decide +kernel
  cases hc : ParseDERCRL (exSeal exCrlTbs exCrlTbs) with
  | ok c =>
    rw [hc] at h
    obtain ⟨h1, h2⟩ := of_decide_eq_true h
    obtain ⟨a, ha, hb⟩ := (sigAccepted_identified _ _ _ _ _ _).mp ((C41_accepts_iff_init toyH toyV _ _ _ _).1.mp h2)
    exact ⟨crlFields c, _, a, (C94_crl_grammar _ _).mp ⟨c, hc, rfl⟩, h1, ha, hb⟩
  | err e => rw [hc] at h; cases h
  | panic => rw [hc] at h; cases h

end MCrypto.Props
