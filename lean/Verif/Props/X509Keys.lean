import Verif.X509.KeysLemmas2
import Verif.Props.Sm2Enc
import Mathlib.RingTheory.Coprime.Lemmas
import Mathlib.Algebra.BigOperators.Group.List.Basic
/-
C53-C56: private and public key formats. Vocabulary: Verif/X509/KeysSpec.lean.
-/
namespace MCrypto.X509
open MCrypto MCrypto.Curve MCrypto.Asn1 MCrypto.X509Spec
open MCrypto.Sm2 (CurveId)

/-! ## C54: SEC 1 -/

theorem keyPair_fits {k : Sm2.PrivateKey} {c : CurveParams} (hc : params k.pub.curve = some c) (h : IsKeyPair k) :
    k.d < 256 ^ c.nSize ∧ k.pub.x < 256 ^ c.size ∧ k.pub.y < 256 ^ c.size := by
  obtain ⟨c', hc', hd, hp⟩ := h
  rw [hc] at hc'
  injection hc' with hc'
  subst hc'
  have hg := good_of_params hc
  have hlt := scalarMult_lt ⟨hg.g1, hg.g2⟩ (toBytes k.d)
  rw [← hp] at hlt
  exact ⟨Nat.lt_trans hd (n_lt_nSize c), Nat.lt_trans hlt.1 hg.psize, Nat.lt_trans hlt.2 hg.psize⟩

/-- C54: a marshalled EC private key parses back to the same key (with the Go type that belongs to its
curve); bytes behind the structure are ignored. -/
theorem C54_sec1_roundtrip (k : Sm2.PrivateKey) (h : IsKeyPair k) (rest : Bytes) :
    ∃ b, marshalECPrivateKey k = .ok b ∧ parseECPrivateKey none (b ++ rest) = .ok (ecPrivKey k) := by
  obtain ⟨c, hc, hd, hp⟩ := h
  obtain ⟨o, ho, hok⟩ := oid_of_params hc
  obtain ⟨f1, f2, f3⟩ := keyPair_fits hc ⟨c, hc, hd, hp⟩
  obtain ⟨e, he, _, hu⟩ := marshalEC_ok (good_of_params hc) (Or.inr ho) f1 f2 f3
  refine ⟨e, ?_, ?_⟩
  · unfold marshalECPrivateKey; rw [ho, hc]; exact he
  · rw [parseEC_of (hu rest) rfl ((oidFromNamedCurve_iff _ _).mp ho) hc]
    simp only [ofBytes_beBytes_of_lt f1]
    rw [if_neg (by omega), ← (isKeyPair_eq hc ⟨c, hc, hd, hp⟩).1]

/-- C54: whatever the SEC 1 parser accepts is a key pair of the curve named by the outer OID if there is
one, else by the inner one: d below the order and public point [d]G. -/
theorem C54_sec1_sound (o : Option Oid) (der : Bytes) (key : PrivKey) (h : parseECPrivateKey o der = .ok key) :
    ∃ k, key = ecPrivKey k ∧ IsKeyPair k ∧ ∀ out, o = some out → oidFromNamedCurve k.pub.curve = some out := by
  obtain ⟨v, rest, curve, c, _, _, hc, hp, hk, rfl⟩ := parseEC_inv h
  refine ⟨ecKeyOf curve c _, rfl, ecKeyOf_isKeyPair hp hk, ?_⟩
  intro out hout
  subst hout
  exact (oidFromNamedCurve_iff curve out).mpr hc

/-- C54: for a version-1 structure with a known curve, every octet string below the order is accepted,
whatever number of leading zeros it has, and gives that scalar; every other octet string is rejected. The
public key in the structure is not looked at. -/
theorem C54_sec1_octets (s : Bytes) (id : CurveId) (c : CurveParams) (hc : params id = some c) (o : Oid)
    (ho : oidFromNamedCurve id = some o) (pb : Bytes) (hpb : pb ≠ []) (b : Bytes)
    (hb : marshal ecPriv ⟨1, s, o, ⟨pb, 0⟩⟩ = some b) (hl : b.length < 2 ^ 31) :
    (ofBytes s < c.n → ∃ k, parseECPrivateKey none b = .ok (ecPrivKey k) ∧ IsKeyPair k ∧ k.d = ofBytes s ∧
      k.pub.curve = id) ∧
    (c.n ≤ ofBytes s → ∃ e, parseECPrivateKey none b = .err e) := by
  obtain ⟨_, _, _, _, hok⟩ := curveOid_enc ho
  have hu := unmarshal_to [] (ecPriv_to s o (Or.inr hok) pb hpb) hb hl (by decide)
  rw [List.append_nil] at hu
  have hp := parseEC_of (o := none) hu rfl ((oidFromNamedCurve_iff _ _).mp ho) hc
  rw [hp]
  simp only [ge_iff_le]
  constructor
  · intro hs
    rw [if_neg (by omega)]
    exact ⟨ecKeyOf id c (ofBytes s), rfl, ecKeyOf_isKeyPair hc hs, rfl, rfl⟩
  · intro hs
    rw [if_pos hs]
    exact ⟨_, rfl⟩

/-- C54: other versions are rejected. -/
theorem C54_sec1_version (v : EcPriv) (hv : v.version ≠ 1) (b rest : Bytes)
    (h : unmarshal ecPriv b = some (v, rest)) (o : Option Oid) : ∃ e, parseECPrivateKey o b = .err e := by
  unfold parseECPrivateKey; rw [h]; simp [hv]

/-- C54: no input makes the parser panic. -/
theorem C54_sec1_no_panic (o : Option Oid) (der : Bytes) : parseECPrivateKey o der ≠ .panic :=
  parseEC_no_panic o der

/-- C54: the encoder panics exactly when a number does not fit its field. -/
theorem C54_sec1_marshal_panics_iff (k : Sm2.PrivateKey) (c : CurveParams) (hc : params k.pub.curve = some c) :
    marshalECPrivateKey k = .panic ↔
      ¬ (k.d < 256 ^ byteLen c.n ∧ k.pub.x < 256 ^ ((c.bitSize + 7) / 8) ∧ k.pub.y < 256 ^ ((c.bitSize + 7) / 8)) := by
  obtain ⟨o, ho, _⟩ := oid_of_params hc
  have heq : marshalECPrivateKey k = marshalECPrivateKeyWithOID c k o := by
    unfold marshalECPrivateKey; rw [ho, hc]
  rw [heq]
  constructor
  · intro h hf
    obtain ⟨e, he, _⟩ := marshalEC_ok (good_of_params hc) (Or.inr ho) hf.1 hf.2.1 hf.2.2
    rw [he] at h; cases h
  · exact marshalEC_panic

/-! ## C53: PKCS #8 -/

theorem oid_ecdsa_ok : OidOk oidPublicKeyECDSA := by decide
theorem oid_rsa_ok : OidOk oidPublicKeyRSA := by decide
theorem oid_ed_ok : OidOk oidPublicKeyEd25519 := by decide

/-- The EC branch: whatever inner OID is written, the outer one decides. -/
theorem pkcs8_ec_roundtrip (edPub : Bytes → Bytes) (k : Sm2.PrivateKey) (h : IsKeyPair k) (inner : Oid) (id : CurveId)
    (hi : inner = [] ∨ oidFromNamedCurve id = some inner) (rest : Bytes) :
    ∃ s b, pkcs8EC k inner = .ok s ∧ marshal pkcs8 s = some b ∧
      parsePKCS8PrivateKey edPub (b ++ rest) = .ok (ecPrivKey k) := by
  obtain ⟨c, hc, hd, hp⟩ := h
  obtain ⟨o, ho, hok⟩ := oid_of_params hc
  obtain ⟨ob, he, hobl, _, _⟩ := curveOid_enc ho
  obtain ⟨f1, f2, f3⟩ := keyPair_fits hc ⟨c, hc, hd, hp⟩
  obtain ⟨e, hm, hel, hu⟩ := marshalEC_ok (good_of_params hc) hi f1 f2 f3
  have hraw : marshalRaw { opt := some {} } { full := encTLV 0 false 6 ob } = some (encTLV 0 false 6 ob) :=
    marshalRaw_full _ _ (encTLV_ne_nil _ _ _ _) (by
      intro hh; injection hh with hh; injection hh with _ _ _ _ hh; exact encTLV_ne_nil _ _ _ _ hh.symm)
  have hlen := encTLV_length_le 0 false 6 ob (by decide) (by omega)
  have hec : ∃ x, encOid oidPublicKeyECDSA = some x ∧ x.length ≤ 10 := ⟨_, rfl, by decide⟩
  obtain ⟨x, hx, hxl⟩ := hec
  obtain ⟨ab, hab, habl⟩ := algId_enc_len hx (by omega) { full := encTLV 0 false 6 ob } hraw
  obtain ⟨b, hb, hbl⟩ := pkcs8_marshal hab e (by omega)
  refine ⟨⟨0, ⟨oidPublicKeyECDSA, { full := encTLV 0 false 6 ob }⟩, e⟩, b, ?_, hb, ?_⟩
  · unfold pkcs8EC
    rw [ho, hc]
    simp only [marshal_oid he, Res.ofOption, Res.bind_ok, hm, Res.pure_eq]
  · have hto := unmarshal_to rest (pkcs8_to (algId_oid_to oid_ecdsa_ok he) e) hb (by omega) (by decide)
    unfold parsePKCS8PrivateKey
    rw [hto]
    simp only []
    rw [if_neg (by decide), if_pos trivial]
    unfold parsePKCS8EC
    simp only [rawOf]
    rw [unmarshal_oid hok he (by omega)]
    simp only [Option.map_some]
    have hu' := hu []
    rw [List.append_nil] at hu'
    rw [parseEC_of hu' rfl ((oidFromNamedCurve_iff _ _).mp ho) hc]
    simp only [ofBytes_beBytes_of_lt f1]
    rw [if_neg (by omega), ← (isKeyPair_eq hc ⟨c, hc, hd, hp⟩).1]

/-- C53: SM2 private keys round-trip (bytes behind the structure are ignored). -/
theorem C53_pkcs8_sm2_roundtrip (edPub : Bytes → Bytes) (k : Sm2.PrivateKey) (h : IsKeyPair k)
    (hs : k.pub.curve = .sm2p256v1) (rest : Bytes) :
    ∃ b, marshalPKCS8PrivateKey (.sm2 k) = .ok b ∧ parsePKCS8PrivateKey edPub (b ++ rest) = .ok (.sm2 k) := by
  obtain ⟨s, b, h1, h2, h3⟩ := pkcs8_ec_roundtrip edPub k h oidNamedCurveSM2P256 SM2P256 (Or.inr (by decide)) rest
  refine ⟨b, ?_, ?_⟩
  · unfold marshalPKCS8PrivateKey; simp only [pkcs8Of, h1, Res.bind_ok, h2, Res.ofOption]
  · rw [h3]; unfold ecPrivKey; rw [if_pos hs]

/-- C53: every key pair that `sm2.GenerateKey` can return round-trips. -/
theorem C53_pkcs8_generated (edPub : Bytes → Bytes) (rd rd' : Reader) (k : Sm2.PrivateKey)
    (h : Sm2.generateKey rd = .ok (k, rd')) :
    ∃ b, marshalPKCS8PrivateKey (.sm2 k) = .ok b ∧ parsePKCS8PrivateKey edPub b = .ok (.sm2 k) := by
  rcases Sm2.C23_generateKey rd with ⟨j, key, _, h2, _, h4, _, h6, h7⟩ | ⟨_, h2⟩
  · rw [h2] at h
    simp only [Res.ok.injEq, Prod.mk.injEq] at h
    obtain ⟨rfl, -⟩ := h
    have hk : IsKeyPair key := by
      refine ⟨sm2p256, by rw [h7]; rfl, h4, ?_⟩
      show (key.pub.x, key.pub.y) = Sm2.baseMult (toBytes key.d)
      unfold Sm2Spec.KeyPair Sm2Spec.Represents at h6
      exact Rep.pt_eq h6 (Sm2.rep_base key.d)
    obtain ⟨b, h1, h2⟩ := C53_pkcs8_sm2_roundtrip edPub key hk h7 []
    rw [List.append_nil] at h2
    exact ⟨b, h1, h2⟩
  · rw [h2] at h; cases h

/-- C53: ECDSA keys on the NIST curves round-trip. -/
theorem C53_pkcs8_ecdsa_roundtrip (edPub : Bytes → Bytes) (k : Sm2.PrivateKey) (h : IsKeyPair k)
    (hs : k.pub.curve ≠ .sm2p256v1) (rest : Bytes) :
    ∃ b, marshalPKCS8PrivateKey (.ecdsa k) = .ok b ∧ parsePKCS8PrivateKey edPub (b ++ rest) = .ok (.ecdsa k) := by
  obtain ⟨s, b, h1, h2, h3⟩ := pkcs8_ec_roundtrip edPub k h [] SM2P256 (Or.inl rfl) rest
  refine ⟨b, ?_, ?_⟩
  · unfold marshalPKCS8PrivateKey; simp only [pkcs8Of, h1, Res.bind_ok, h2, Res.ofOption]
  · rw [h3]; unfold ecPrivKey; rw [if_neg hs]

/-- C53 (what happens otherwise): the Go type is chosen by the curve alone, so an `*ecdsa.PrivateKey` on
sm2p256v1 comes back as an `*sm2.PrivateKey` and an `*sm2.PrivateKey` on a NIST curve as an
`*ecdsa.PrivateKey`. -/
theorem C53_pkcs8_type_change (edPub : Bytes → Bytes) (k : Sm2.PrivateKey) (h : IsKeyPair k) :
    (∃ b, marshalPKCS8PrivateKey (.ecdsa k) = .ok b ∧ parsePKCS8PrivateKey edPub b = .ok (ecPrivKey k)) ∧
    (∃ b, marshalPKCS8PrivateKey (.sm2 k) = .ok b ∧ parsePKCS8PrivateKey edPub b = .ok (ecPrivKey k)) := by
  constructor
  · obtain ⟨s, b, h1, h2, h3⟩ := pkcs8_ec_roundtrip edPub k h [] SM2P256 (Or.inl rfl) []
    refine ⟨b, ?_, by rwa [List.append_nil] at h3⟩
    unfold marshalPKCS8PrivateKey; simp only [pkcs8Of, h1, Res.bind_ok, h2, Res.ofOption]
  · obtain ⟨s, b, h1, h2, h3⟩ := pkcs8_ec_roundtrip edPub k h oidNamedCurveSM2P256 SM2P256 (Or.inr (by decide)) []
    refine ⟨b, ?_, by rwa [List.append_nil] at h3⟩
    unfold marshalPKCS8PrivateKey; simp only [pkcs8Of, h1, Res.bind_ok, h2, Res.ofOption]

/-- C53: Ed25519 keys (seed followed by the public key of the seed) round-trip. -/
theorem C53_pkcs8_ed25519_roundtrip (edPub : Bytes → Bytes) (seed : Bytes) (hs : seed.length = 32) (rest : Bytes) :
    ∃ b, marshalPKCS8PrivateKey (.ed25519 (seed ++ edPub seed)) = .ok b ∧
      parsePKCS8PrivateKey edPub (b ++ rest) = .ok (.ed25519 (seed ++ edPub seed)) := by
  have ht : (seed ++ edPub seed).take 32 = seed := List.take_left' hs
  have hkey : marshal octets seed = some (encTLV 0 false 4 seed) := by
    unfold marshal marshalField; rw [if_neg (by simp)]; rfl
  have hlen := encTLV_length_le 0 false 4 seed (by decide) (by omega)
  have hec : ∃ x, encOid oidPublicKeyEd25519 = some x ∧ x.length ≤ 10 := ⟨_, rfl, by decide⟩
  obtain ⟨x, hx, hxl⟩ := hec
  obtain ⟨ab, hab, habl⟩ := algId_enc_len hx (by omega) {} (pb := []) (by unfold marshalRaw; rw [if_pos rfl])
  obtain ⟨b, hb, hbl⟩ := pkcs8_marshal hab (encTLV 0 false 4 seed) (by simp at habl; omega)
  simp only [List.length_nil] at habl
  refine ⟨b, ?_, ?_⟩
  · unfold marshalPKCS8PrivateKey
    simp only [pkcs8Of]
    rw [if_neg (by simp; omega), ht]
    simp only [hkey, Res.ofOption, Res.bind_ok, Res.pure_eq, hb]
  · have hto := unmarshal_to rest (pkcs8_to (algId_to_none oid_ed_ok) (encTLV 0 false 4 seed)) hb (by omega) (by decide)
    unfold parsePKCS8PrivateKey
    rw [hto]
    simp only []
    rw [if_neg (by decide), if_neg (by decide), if_pos trivial]
    unfold parsePKCS8Ed
    simp only [List.length_nil, ne_eq, not_true_eq_false, if_false]
    have hu := unmarshal_to [] (octets_to seed) hkey (by omega) (by decide)
    rw [List.append_nil] at hu
    rw [hu]
    simp only []
    rw [if_neg (by omega)]
    rfl

/-- C53: keys of other types are an error. -/
theorem C53_pkcs8_other (n : Nat) : ∃ e, marshalPKCS8PrivateKey (.other n) = .err e := ⟨_, rfl⟩

/-- C53: EC keys on curves the package does not know are an error. -/
theorem C53_pkcs8_unknown_curve (k : Sm2.PrivateKey) (h : params k.pub.curve = none) :
    (∃ e, marshalPKCS8PrivateKey (.ecdsa k) = .err e) ∧ ∃ e, marshalPKCS8PrivateKey (.sm2 k) = .err e := by
  have hec : ∀ inner, pkcs8EC k inner = .err "x509: unknown curve while marshaling to PKCS#8" := by
    intro inner
    unfold pkcs8EC
    rw [h]
    cases oidFromNamedCurve k.pub.curve <;> rfl
  exact ⟨⟨_, by simp only [marshalPKCS8PrivateKey, pkcs8Of, hec, Res.bind_err]; rfl⟩,
    ⟨_, by simp only [marshalPKCS8PrivateKey, pkcs8Of, hec, Res.bind_err]; rfl⟩⟩

/-! ## C55: PKCS #1 -/

theorem rsaValidate_iff (k : RsaPriv) :
    (rsaValidate k = true ∧ 2 ≤ k.primes.length ∧ 0 < k.d) ↔ IsRsaKey k := by
  unfold rsaValidate
  simp only [Bool.and_eq_true, decide_eq_true_eq, List.all_eq_true]
  have hprod : k.primes.foldl (· * ·) 1 = k.primes.prod := (List.prod_eq_foldl).symm
  rw [hprod]
  constructor
  · rintro ⟨⟨⟨⟨⟨h1, h2⟩, h3⟩, h4⟩, h5⟩, h6, h7⟩
    refine ⟨h1, by omega, ?_, h6, h4, ?_, h7⟩
    · intro p hp
      have a := h3 p hp
      have b := h5 p hp
      by_contra hc
      have : p = 2 := by omega
      subst this
      norm_num at b
    · intro p hp
      have a := h3 p hp
      have b := h5 p hp
      exact Int.dvd_self_sub_of_emod_eq b
  · rintro ⟨h1, h2, h3, h4, h5, h6, h7⟩
    refine ⟨⟨⟨⟨⟨h1, by omega⟩, fun p hp => by have := h3 p hp; omega⟩, h5⟩, fun p hp => ?_⟩, h4, h7⟩
    have a := h3 p hp
    obtain ⟨q, hq⟩ := h6 p hp
    have : k.pub.e * k.d = 1 + (p - 1) * q := by rw [← hq]; ring
    rw [this, Int.add_mul_emod_self_left]
    exact Int.emod_eq_of_lt (by omega) (by omega)

theorem crtValues_ok (d r : Int) (ps : List Int) (hp : ps.Pairwise (fun p q => Int.gcd p q = 1))
    (hr : ∀ p ∈ ps, Int.gcd r p = 1) :
    (∀ a ∈ crtValues d r ps, a.prime ≠ none ∧ a.exp ≠ none ∧ a.coeff ≠ none) := by
  induction ps generalizing r with
  | nil => simp [crtValues]
  | cons p ps ih =>
    rw [crtValues]
    intro a ha
    rcases List.mem_cons.mp ha with rfl | ha
    · refine ⟨by simp, by simp, ?_⟩
      unfold modInverse
      rw [if_pos (hr p (by simp))]
      simp
    · rw [List.pairwise_cons] at hp
      refine ih (r * p) hp.2 ?_ a ha
      intro q hq
      rw [← Int.isCoprime_iff_gcd_eq_one]
      exact IsCoprime.mul_left (Int.isCoprime_iff_gcd_eq_one.mpr (hr q (by simp [hq])))
        (Int.isCoprime_iff_gcd_eq_one.mpr (hp.1 q hq))

theorem crtValues_primes (d r : Int) (ps : List Int) : (crtValues d r ps).map (·.prime.getD 0) = ps := by
  induction ps generalizing r with
  | nil => rfl
  | cons p ps ih => rw [crtValues, List.map_cons, ih]; rfl

theorem crtValues_prime_mem (d r : Int) (ps : List Int) (a : AddPrime) (ha : a ∈ crtValues d r ps) :
    a.prime.getD 0 ∈ ps := by
  rw [← crtValues_primes d r ps]
  exact List.mem_map.mpr ⟨a, ha, rfl⟩

theorem optInt_enc {v : Option Int} (h : v ≠ none) : ∃ b, optInt.enc v = some b := by
  cases v with
  | none => exact absurd rfl h
  | some x => exact ⟨_, rfl⟩

theorem pkcs1Priv_marshal (v : Pkcs1Priv) (hdp : v.dp ≠ none) (hdq : v.dq ≠ none)
    (hadd : ∀ a ∈ v.additional, a.prime ≠ none ∧ a.exp ≠ none ∧ a.coeff ≠ none) :
    ∃ e, marshal pkcs1Priv v = some e := by
  obtain ⟨e1, h1⟩ := marshalField_isSome goInt {} v.version ⟨_, rfl⟩
  obtain ⟨e2, h2⟩ := marshalField_isSome bigInt {} v.n ⟨_, rfl⟩
  obtain ⟨e3, h3⟩ := marshalField_isSome goInt {} v.e ⟨_, rfl⟩
  obtain ⟨e4, h4⟩ := marshalField_isSome bigInt {} v.d ⟨_, rfl⟩
  obtain ⟨e5, h5⟩ := marshalField_isSome bigInt {} v.p ⟨_, rfl⟩
  obtain ⟨e6, h6⟩ := marshalField_isSome bigInt {} v.q ⟨_, rfl⟩
  obtain ⟨e7, h7⟩ := marshalField_isSome optInt { opt := some none } v.dp (optInt_enc hdp)
  obtain ⟨e8, h8⟩ := marshalField_isSome optInt { opt := some none } v.dq (optInt_enc hdq)
  have h9 : ∃ e9, marshalField optInt { opt := some none } v.qinv = some e9 := by
    by_cases hq : v.qinv = none
    · exact ⟨[], marshalField_absent _ _ _ (by rw [hq])⟩
    · exact marshalField_isSome optInt { opt := some none } v.qinv (optInt_enc hq)
  obtain ⟨e9, h9⟩ := h9
  have hs : ∃ b, (seqOf addPrime).enc v.additional = some b := by
    obtain ⟨es, hes⟩ := marshalElems_some (marshalField addPrime {}) v.additional (by
      intro a ha
      obtain ⟨p1, p2, p3⟩ := hadd a ha
      obtain ⟨x1, g1⟩ := marshalField_isSome optInt {} a.prime (optInt_enc p1)
      obtain ⟨x2, g2⟩ := marshalField_isSome optInt {} a.exp (optInt_enc p2)
      obtain ⟨x3, g3⟩ := marshalField_isSome optInt {} a.coeff (optInt_enc p3)
      refine marshalField_isSome addPrime {} a ⟨x1 ++ (x2 ++ x3), ?_⟩
      simp only [addPrime, g1, g2, g3, Option.bind_eq_bind, Option.bind_some, Option.pure_def])
    exact ⟨es.flatten, by simp only [seqOf, hes, Option.map_some]⟩
  obtain ⟨e10, h10⟩ := marshalField_isSome (seqOf addPrime) { opt := some [] } v.additional hs
  exact marshalField_isSome pkcs1Priv {} v ⟨_, by
    simp only [pkcs1Priv, h1, h2, h3, h4, h5, h6, h7, h8, h9, h10, Option.bind_eq_bind, Option.bind_some,
      Option.pure_def]
    rfl⟩

/-- C55: the encoding of an RSA key with two factors, or with pairwise coprime factors, parses back to the
same key. -/
theorem C55_pkcs1_private_roundtrip (k : RsaPriv) (h : IsRsaKey k) (hf : Factors k.primes) :
    ∃ b, marshalPKCS1PrivateKey k = .ok b ∧ (b.length < 2 ^ 31 → parsePKCS1PrivateKey b = .ok k) := by
  obtain ⟨hval, hlen, hd⟩ := (rsaValidate_iff k).mpr h
  obtain ⟨⟨n, e⟩, d, primes⟩ := k
  match primes, hlen with
  | p :: q :: more, _ =>
    have hp2 : 2 < p := h.primes p (by simp)
    have hq2 : 2 < q := h.primes q (by simp)
    have hm2 : ∀ x ∈ more, 2 < x := fun x hx => h.primes x (by simp [hx])
    have hadd : ∀ a ∈ crtValues d (p * q) more, a.prime ≠ none ∧ a.exp ≠ none ∧ a.coeff ≠ none := by
      rcases hf with hf | hf
      · have : more = [] := by simpa using hf
        subst this; simp [crtValues]
      · simp only [List.pairwise_cons] at hf
        refine crtValues_ok d (p * q) more hf.2.2 ?_
        intro x hx
        rw [← Int.isCoprime_iff_gcd_eq_one]
        exact IsCoprime.mul_left (Int.isCoprime_iff_gcd_eq_one.mpr (hf.1 x (by simp [hx])))
          (Int.isCoprime_iff_gcd_eq_one.mpr (hf.2.1 x hx))
    obtain ⟨b, hb⟩ := pkcs1Priv_marshal ⟨if (p :: q :: more).length > 2 then 1 else 0, n, e, d, p, q,
      some (d % (p - 1)), some (d % (q - 1)), modInverse q p, crtValues d (p * q) more⟩ (by simp) (by simp) hadd
    refine ⟨b, ?_, ?_⟩
    · unfold marshalPKCS1PrivateKey
      simp only []
      rw [if_neg (by
        rintro (h1 | h1 | h1)
        · omega
        · omega
        · have := hm2 1 h1; omega), hb]
      rfl
    · intro hbl
      have e1 := h.e_ge
      have e2 := h.e_lt
      simp only [] at e1 e2
      have hto := unmarshal_to [] (pkcs1Priv_to ⟨if (p :: q :: more).length > 2 then 1 else 0, n, e, d, p, q,
        some (d % (p - 1)), some (d % (q - 1)), modInverse q p, crtValues d (p * q) more⟩
        (by dsimp only; split <;> simp) (by dsimp only; omega) (by dsimp only; omega) (by simp) (by simp) hadd)
        hb hbl (by decide)
      rw [List.append_nil] at hto
      unfold parsePKCS1PrivateKey
      rw [hto]
      simp only [List.length_nil, gt_iff_lt, Nat.lt_irrefl, if_false]
      have hn : 0 < n := by
        have := h.prod
        simp only [] at this
        rw [← this]
        exact List.prod_pos (fun a ha => by have := h.primes a ha; omega)
      have hd' : 0 < d := hd
      have hver : ¬ ((1 : Int) < if 2 < (p :: q :: more).length then 1 else 0) := by split <;> omega
      rw [if_neg hver, if_neg (by omega), if_neg, crtValues_primes, if_pos hval]
      rw [List.any_eq_true]
      rintro ⟨a, ha, hle⟩
      have := hm2 _ (crtValues_prime_mem d (p * q) more a ha)
      simp only [decide_eq_true_eq] at hle
      omega

/-- C55: whatever `ParsePKCS1PrivateKey` accepts is a valid RSA key. -/
theorem C55_pkcs1_private_sound (der : Bytes) (k : RsaPriv) (h : parsePKCS1PrivateKey der = .ok k) : IsRsaKey k := by
  unfold parsePKCS1PrivateKey at h
  split at h
  · cases h
  · rename_i priv rest _
    split at h
    · cases h
    · split at h
      · cases h
      · split at h
        · cases h
        · rename_i h1
          split at h
          · cases h
          · simp only [] at h
            split at h
            · rename_i hv
              injection h with h
              subst h
              exact (rsaValidate_iff _).mp ⟨hv, by simp, by simp only []; omega⟩
            · cases h

/-- C55: trailing data is rejected. -/
theorem C55_pkcs1_private_trailing (der t : Bytes) (k : RsaPriv) (h : parsePKCS1PrivateKey der = .ok k) (ht : t ≠ []) :
    ∃ e, parsePKCS1PrivateKey (der ++ t) = .err e := by
  unfold parsePKCS1PrivateKey at h ⊢
  match hu : unmarshal pkcs1Priv der with
  | none => rw [hu] at h; cases h
  | some (priv, rest) =>
    rw [unmarshal_append _ _ t hu]
    simp only []
    rw [if_pos (by
      rw [List.length_append]
      have := List.length_pos_of_ne_nil ht
      omega)]
    exact ⟨_, rfl⟩

/-- C55: a structure of version above 1, or with a value that is not positive, is rejected. -/
theorem C55_pkcs1_private_rejects (v : Pkcs1Priv) (b rest : Bytes) (hb : unmarshal pkcs1Priv b = some (v, rest))
    (h : v.version > 1 ∨ v.n ≤ 0 ∨ v.d ≤ 0 ∨ v.p ≤ 0 ∨ v.q ≤ 0 ∨ ∃ a ∈ v.additional, ∃ x, a.prime = some x ∧ x ≤ 0) :
    ∃ e, parsePKCS1PrivateKey b = .err e := by
  unfold parsePKCS1PrivateKey
  rw [hb]
  simp only []
  split
  · exact ⟨_, rfl⟩
  · split
    · exact ⟨_, rfl⟩
    · rename_i h1
      split
      · exact ⟨_, rfl⟩
      · rename_i h2
        rw [if_pos]
        · exact ⟨_, rfl⟩
        · have : ∃ a ∈ v.additional, ∃ x, a.prime = some x ∧ x ≤ 0 := by
            rcases h with h | h | h | h | h | h
            · exact absurd h h1
            · omega
            · omega
            · omega
            · omega
            · exact h
          obtain ⟨a, ha, x, hx, hle⟩ := this
          rw [List.any_eq_true]
          exact ⟨a, ha, by rw [hx]; simpa using hle⟩

/-- C55 and C53: RSA private keys round-trip through PKCS #8 as well. -/
theorem C53_pkcs8_rsa_roundtrip (edPub : Bytes → Bytes) (k : RsaPriv) (h : IsRsaKey k) (hf : Factors k.primes)
    (rest : Bytes) :
    ∃ kb, marshalPKCS1PrivateKey k = .ok kb ∧ (kb.length < 2 ^ 30 - 100 →
      ∃ b, marshalPKCS8PrivateKey (.rsa k) = .ok b ∧ parsePKCS8PrivateKey edPub (b ++ rest) = .ok (.rsa k)) := by
  obtain ⟨kb, hkb, hp⟩ := C55_pkcs1_private_roundtrip k h hf
  refine ⟨kb, hkb, fun hl => ?_⟩
  have hec : ∃ x, encOid oidPublicKeyRSA = some x ∧ x.length ≤ 10 := ⟨_, rfl, by decide⟩
  obtain ⟨x, hx, hxl⟩ := hec
  obtain ⟨ab, hab, habl⟩ := algId_enc_len hx (by omega) nullRaw (pb := [5, 0]) (by decide)
  simp only [List.length_cons, List.length_nil] at habl
  obtain ⟨b, hb, hbl⟩ := pkcs8_marshal hab kb (by omega)
  refine ⟨b, ?_, ?_⟩
  · unfold marshalPKCS8PrivateKey
    simp only [pkcs8Of, hkb, Res.bind_ok, Res.pure_eq, hb, Res.ofOption]
  · have hto := unmarshal_to rest (pkcs8_to (algId_null_to oid_rsa_ok) kb) hb (by omega) (by decide)
    unfold parsePKCS8PrivateKey
    rw [hto]
    simp only []
    rw [if_pos trivial]
    unfold parsePKCS8RSA
    simp only [hp (by omega)]

/-- C55: RSA public keys round-trip exactly when the modulus is positive and 0 < e < 2^31. -/
theorem C55_pkcs1_public_roundtrip (k : RsaPub) (hl : (marshalPKCS1PublicKey k).length < 2 ^ 31)
    (he1 : -(2 ^ 63 : Int) ≤ k.e) (he2 : k.e < 2 ^ 63) :
    parsePKCS1PublicKey (marshalPKCS1PublicKey k) = .ok k ↔ 0 < k.n ∧ 0 < k.e ∧ k.e < 2 ^ 31 := by
  obtain ⟨e1, h1⟩ := marshalField_isSome bigInt {} k.n ⟨_, rfl⟩
  obtain ⟨e2, h2⟩ := marshalField_isSome goInt {} k.e ⟨_, rfl⟩
  obtain ⟨b, hb⟩ := marshalField_isSome pkcs1Pub {} k ⟨e1 ++ e2, by
    simp only [pkcs1Pub, h1, h2, Option.bind_eq_bind, Option.bind_some, Option.pure_def]⟩
  have hm : marshal pkcs1Pub k = some b := hb
  have hmb : marshalPKCS1PublicKey k = b := by unfold marshalPKCS1PublicKey; rw [hm]; rfl
  rw [hmb] at hl ⊢
  have hto := unmarshal_to [] (pkcs1Pub_to k he1 he2) hm hl (by decide)
  rw [List.append_nil] at hto
  unfold parsePKCS1PublicKey
  rw [hto]
  simp only [List.length_nil, gt_iff_lt, Nat.lt_irrefl, if_false]
  constructor
  · intro h
    split at h
    · cases h
    · split at h
      · cases h
      · omega
  · rintro ⟨a, b, c⟩
    rw [if_neg (by omega), if_neg (by omega)]

/-- C55: whatever `ParsePKCS1PublicKey` accepts has a positive modulus and 0 < e < 2^31, and trailing data is
rejected. -/
theorem C55_pkcs1_public_sound (der : Bytes) (k : RsaPub) (h : parsePKCS1PublicKey der = .ok k) :
    0 < k.n ∧ 0 < k.e ∧ k.e < 2 ^ 31 ∧ ∀ t, t ≠ [] → ∃ e, parsePKCS1PublicKey (der ++ t) = .err e := by
  unfold parsePKCS1PublicKey at h
  match hu : unmarshal pkcs1Pub der with
  | none => rw [hu] at h; cases h
  | some (pub, rest) =>
    rw [hu] at h
    simp only [] at h
    split at h
    · cases h
    · split at h
      · cases h
      · split at h
        · cases h
        · injection h with h
          subst h
          refine ⟨by omega, by omega, by omega, fun t ht => ?_⟩
          unfold parsePKCS1PublicKey
          rw [unmarshal_append _ _ t hu]
          simp only []
          rw [if_pos (by
            rw [List.length_append]
            have := List.length_pos_of_ne_nil ht
            omega)]
          exact ⟨_, rfl⟩

end MCrypto.X509
