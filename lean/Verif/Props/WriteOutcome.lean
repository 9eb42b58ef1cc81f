import Verif.Props.Pkcs7Write
import Verif.Props.Sm2Sign
/-
C117: the outcome of every writer of keys, of `pkcs12.Encode` and of the PKCS#7 signers (x509/pkcs1.go:104-133,
x509/sec1.go:44-73, x509/pkcs8.go:85-154, x509/x509.go:79-157, pkcs12/pkcs12.go:405-492, x509/pkcs7.go:176-319): when
they return octets, when an error, and when they panic.
-/
namespace MCrypto.Props
open MCrypto MCrypto.Asn1 MCrypto.X509 MCrypto.X509Spec MCrypto.Dg MCrypto.P12 MCrypto.P12Spec

/-! ## Specification -/

/-- The coordinates fit the octets the curve provides for them. -/
def CoordsFitIn (c : CurveParams) (x y : Nat) : Prop := x < 256 ^ ((c.bitSize + 7) / 8) ∧ y < 256 ^ ((c.bitSize + 7) / 8)

/-- A private key that cannot be written without a crash: an RSA key with fewer than two primes or with a prime that is 1, an EC key
of a known curve with a number too long for its field, an Ed25519 key shorter than its seed. -/
def CrashKey : PrivKey → Prop
  | .rsa k => k.primes.length < 2 ∨ ∃ p ∈ k.primes, p < 2
  | .ecdsa k | .sm2 k => ∃ c, params k.pub.curve = some c ∧ ¬ (k.d < 256 ^ byteLen c.n ∧ CoordsFitIn c k.pub.x k.pub.y)
  | .ed25519 b => b.length < 32
  | .other _ => False

/-- A private key the package does not know how to write. -/
def UnknownKey : PrivKey → Prop
  | .ecdsa k | .sm2 k => params k.pub.curve = none
  | .other _ => True
  | .rsa _ | .ed25519 _ => False

/-- RSA primes are positive numbers (`big.Int` allows others; what `Precompute` does with those is not modelled). -/
def PositivePrimes : PrivKey → Prop
  | .rsa k => ∀ p ∈ k.primes, 1 ≤ p
  | _ => True

/-- A public key that cannot be written without a crash, and one the package does not know how to write. -/
def CrashPub : PubKey → Prop
  | .ecdsa k | .sm2 k => ∃ c, params k.curve = some c ∧ ¬ CoordsFitIn c k.x k.y
  | _ => False

def UnknownPub : PubKey → Prop
  | .ecdsa k | .sm2 k => params k.curve = none
  | .dsa _ | .nil | .other _ => True
  | .rsa _ | .ed25519 _ => False

/-! ## Proofs -/

theorem bind_panic_iff {α β : Type} {x : Res α} {f : α → Res β} :
    (x >>= f) = .panic ↔ x = .panic ∨ ∃ a, x = .ok a ∧ f a = .panic := by
  cases x with
  | ok a => simp
  | err e => simp
  | panic => simp

theorem bind_err_iff {α β : Type} {x : Res α} {f : α → Res β} :
    (∃ e, (x >>= f) = .err e) ↔ (∃ e, x = .err e) ∨ ∃ a, x = .ok a ∧ ∃ e, f a = .err e := by
  cases x with
  | ok a => simp
  | err e => simp
  | panic => simp

/-- A key with the given outcome: panic if `C`, else error if `U`, else octets. -/
def Outcome {α : Type} (r : Res α) (C U : Prop) : Prop :=
  (r = .panic ↔ C) ∧ ((∃ e, r = .err e) ↔ U) ∧ ((∃ a, r = .ok a) ↔ ¬ C ∧ ¬ U)

theorem outcome_of {α : Type} {r : Res α} {C U : Prop} (h1 : C → r = .panic) (h2 : U → ∃ e, r = .err e)
    (h3 : ¬ C → ¬ U → ∃ a, r = .ok a) : Outcome r C U := by
  refine ⟨⟨?_, h1⟩, ⟨?_, h2⟩, ⟨?_, fun h => h3 h.1 h.2⟩⟩
  · intro h; by_contra hc
    by_cases hu : U
    · obtain ⟨e, he⟩ := h2 hu; rw [h] at he; cases he
    · obtain ⟨e, he⟩ := h3 hc hu; rw [h] at he; cases he
  · rintro ⟨e, h⟩; by_contra hu
    by_cases hc : C
    · rw [h1 hc] at h; cases h
    · obtain ⟨a, ha⟩ := h3 hc hu; rw [h] at ha; cases ha
  · rintro ⟨a, h⟩
    constructor
    · intro hc; rw [h1 hc] at h; cases h
    · intro hu; obtain ⟨e, he⟩ := h2 hu; rw [h] at he; cases he

theorem params_oid (id : Sm2.CurveId) : params id = none ↔ oidFromNamedCurve id = none := by
  constructor
  · intro h
    cases ho : oidFromNamedCurve id with
    | none => rfl
    | some o =>
      have : ∀ id o, oidFromNamedCurve id = some o → ∃ c, params id = some c := by
        intro id o h
        unfold oidFromNamedCurve at h
        split at h
        · subst_vars; exact ⟨_, rfl⟩
        split at h
        · subst_vars; exact ⟨_, rfl⟩
        split at h
        · subst_vars; exact ⟨_, rfl⟩
        split at h
        · subst_vars; exact ⟨_, rfl⟩
        split at h
        · subst_vars; exact ⟨_, rfl⟩
        · cases h
      obtain ⟨c, hc⟩ := this id o ho
      rw [h] at hc; cases hc
  · intro h
    cases hc : params id with
    | none => rfl
    | some c => obtain ⟨o, ho, -⟩ := oid_of_params hc; rw [h] at ho; cases ho

/-- **C117** SEC 1 private keys. -/
theorem C117_sec1 (k : Sm2.PrivateKey) : Outcome (marshalECPrivateKey k) (CrashKey (.sm2 k)) (UnknownKey (.sm2 k)) := by
  apply outcome_of
  · rintro ⟨c, hc, h⟩; exact (C54_sec1_marshal_panics_iff k c hc).mpr h
  · intro h
    unfold marshalECPrivateKey
    rw [(params_oid _).mp h]; exact ⟨_, rfl⟩
  · intro h1 h2
    cases hc : params k.pub.curve with
    | none => exact absurd hc h2
    | some c =>
      obtain ⟨o, ho, -⟩ := oid_of_params hc
      have hf : k.d < 256 ^ byteLen c.n ∧ CoordsFitIn c k.pub.x k.pub.y := by
        by_contra h; exact h1 ⟨c, hc, h⟩
      obtain ⟨e, he, -⟩ := marshalEC_ok (good_of_params hc) (Or.inr ho) hf.1 hf.2.1 hf.2.2
      exact ⟨e, by unfold marshalECPrivateKey; rw [ho, hc]; exact he⟩

/-- **C117** PKCS#1 private keys: there is no error; where the numbers have no PKCS#1 form the result is empty. -/
theorem C117_pkcs1 (k : RsaPriv) (hp : PositivePrimes (.rsa k)) :
    Outcome (marshalPKCS1PrivateKey k) (CrashKey (.rsa k)) False := by
  have one : ∀ p : Int, p ∈ k.primes → (p = 1 ↔ p < 2) := fun p h => by have := hp p h; omega
  apply outcome_of
  · intro h
    unfold marshalPKCS1PrivateKey
    rcases hk : k.primes with _ | ⟨p, _ | ⟨q, rs⟩⟩
    · rfl
    · rfl
    · simp only []
      rcases h with h | ⟨x, hx, h2⟩
      · rw [hk] at h; simp only [List.length_cons] at h; omega
      · have := (one x hx).mpr h2
        subst this
        rw [hk] at hx
        simp only [List.mem_cons] at hx
        rw [if_pos (by rcases hx with h | h | h; exacts [Or.inl h.symm, Or.inr (Or.inl h.symm), Or.inr (Or.inr h)])]
  · exact False.elim
  · intro h _
    unfold marshalPKCS1PrivateKey
    rcases hk : k.primes with _ | ⟨p, _ | ⟨q, rs⟩⟩
    · exact absurd (Or.inl (by rw [hk]; simp)) h
    · exact absurd (Or.inl (by rw [hk]; simp)) h
    · simp only []
      have hn : ∀ x ∈ k.primes, x ≠ 1 := fun x hx he => h (Or.inr ⟨x, hx, (one x hx).mp he⟩)
      rw [hk] at hn
      rw [if_neg (by
        rintro (h | h | h)
        · exact hn p (by simp) h
        · exact hn q (by simp) h
        · exact hn 1 (by simp [h]) rfl)]
      exact ⟨_, rfl⟩

theorem pkcs8_isSome {o : Oid} (ho : OidOk o) (raw : RawValue) (key : Bytes) : ∃ e, marshal pkcs8 ⟨0, ⟨o, raw⟩, key⟩ = some e := by
  obtain ⟨x, hx⟩ := oid_isSome ho {}
  obtain ⟨r, hr⟩ := marshalRaw_isSome { opt := some {} } raw
  obtain ⟨a, ha⟩ := marshalField_isSome algId {} ⟨o, raw⟩ ⟨x ++ r, by
    simp only [algId, hx, hr, Option.bind_eq_bind, Option.bind_some, Option.pure_def]⟩
  obtain ⟨v, hv⟩ := goInt_isSome 0 {}
  obtain ⟨t, ht⟩ := octets_isSome key {}
  exact marshalField_isSome pkcs8 {} _ ⟨v ++ (a ++ t), by
    simp only [pkcs8, hv, ha, ht, Option.bind_eq_bind, Option.bind_some, Option.pure_def]⟩

theorem pkcs8EC_outcome (k : Sm2.PrivateKey) (inner : Oid) (id : Sm2.CurveId) (hi : inner = [] ∨ oidFromNamedCurve id = some inner) :
    Outcome (pkcs8EC k inner >>= fun s => Res.ofOption "asn1" (marshal pkcs8 s)) (CrashKey (.sm2 k)) (UnknownKey (.sm2 k)) := by
  apply outcome_of
  · rintro ⟨c, hc, h⟩
    obtain ⟨o, ho, -⟩ := oid_of_params hc
    obtain ⟨ob, he, -⟩ := curveOid_enc ho
    unfold pkcs8EC
    rw [ho, hc]
    simp only [marshal_oid he, Res.ofOption, Res.bind_ok, marshalEC_panic (o := inner) h]
    rfl
  · intro h
    unfold pkcs8EC
    rw [(params_oid _).mp h]; exact ⟨_, rfl⟩
  · intro h1 h2
    cases hc : params k.pub.curve with
    | none => exact absurd hc h2
    | some c =>
      obtain ⟨o, ho, -⟩ := oid_of_params hc
      obtain ⟨ob, he, -⟩ := curveOid_enc ho
      have hf : k.d < 256 ^ byteLen c.n ∧ CoordsFitIn c k.pub.x k.pub.y := by
        by_contra h; exact h1 ⟨c, hc, h⟩
      obtain ⟨e, hm, -⟩ := marshalEC_ok (good_of_params hc) hi hf.1 hf.2.1 hf.2.2
      obtain ⟨b, hb⟩ := pkcs8_isSome oid_ecdsa_ok { full := encTLV 0 false 6 ob } e
      refine ⟨b, ?_⟩
      unfold pkcs8EC
      rw [ho, hc]
      simp only [marshal_oid he, Res.ofOption, Res.bind_ok, hm, Res.pure_eq, hb]

/-- **C117** PKCS#8 private keys. -/
theorem C117_pkcs8 (k : PrivKey) (hp : PositivePrimes k) :
    Outcome (marshalPKCS8PrivateKey k) (CrashKey k) (UnknownKey k) := by
  unfold marshalPKCS8PrivateKey
  cases k with
  | rsa k =>
    obtain ⟨g1, g2, g3⟩ := C117_pkcs1 k hp
    apply outcome_of
    · intro h; simp only [pkcs8Of, g1.mpr h]; rfl
    · exact False.elim
    · intro h _
      obtain ⟨a, ha⟩ := g3.mpr ⟨h, not_false⟩
      obtain ⟨b, hb⟩ := pkcs8_isSome oid_rsa_ok nullRaw a
      exact ⟨b, by simp only [pkcs8Of, ha, Res.bind_ok, Res.pure_eq, hb, Res.ofOption]⟩
  | ecdsa k => exact pkcs8EC_outcome k [] P256 (Or.inl rfl)
  | sm2 k => exact pkcs8EC_outcome k _ SM2P256 (Or.inr rfl)
  | ed25519 b =>
    apply outcome_of
    · intro h; simp only [pkcs8Of]; rw [if_pos (show b.length < 32 from h)]; rfl
    · exact False.elim
    · intro h _
      simp only [pkcs8Of]; rw [if_neg (show ¬ b.length < 32 from h)]
      obtain ⟨t, ht⟩ := octets_isSome (b.take 32) {}
      obtain ⟨x, hx⟩ := pkcs8_isSome oid_ed_ok {} t
      exact ⟨x, by simp only [marshal, ht, Res.ofOption, Res.bind_ok, Res.pure_eq]; rw [show marshalField pkcs8 {} _ = some x from hx]⟩
  | other n =>
    apply outcome_of
    · exact False.elim
    · intro _; exact ⟨_, rfl⟩
    · intro _ h; exact absurd trivial h

/-- **C117** PKIX public keys. -/
theorem C117_pkix (k : PubKey) : Outcome (marshalPKIXPublicKey k) (CrashPub k) (UnknownPub k) := by
  have bind_ok : ∀ {r : Bytes × AlgId}, marshalPublicKey k = .ok r → ∃ e, marshalPKIXPublicKey k = .ok e := by
    intro r h; exact ⟨_, by unfold marshalPKIXPublicKey; rw [h]; rfl⟩
  have ec : ∀ p : Sm2.PublicKey, marshalPublicKey k = marshalECPub p →
      Outcome (marshalPKIXPublicKey k) (CrashPub (.sm2 p)) (UnknownPub (.sm2 p)) := by
    intro p hp
    apply outcome_of
    · rintro ⟨c, hc, h⟩
      obtain ⟨o, ho, -⟩ := oid_of_params hc
      have : ellipticMarshal c p.x p.y = .panic := by
        unfold ellipticMarshal fillBytes CurveParams.size
        by_cases hx : p.x < 256 ^ ((c.bitSize + 7) / 8)
        · rw [if_pos hx, if_neg (fun hy => h ⟨hx, hy⟩)]; rfl
        · rw [if_neg hx]; rfl
      unfold marshalPKIXPublicKey; rw [hp]; unfold marshalECPub; rw [ho, hc]; simp only [this]; rfl
    · intro h
      unfold marshalPKIXPublicKey; rw [hp]; unfold marshalECPub; rw [(params_oid _).mp h]; exact ⟨_, rfl⟩
    · intro h1 h2
      cases hc : params p.curve with
      | none => exact absurd hc h2
      | some c =>
        obtain ⟨o, ho, -⟩ := oid_of_params hc
        obtain ⟨ob, he, -⟩ := curveOid_enc ho
        have hf : CoordsFitIn c p.x p.y := by by_contra h; exact h1 ⟨c, hc, h⟩
        refine bind_ok (r := ?_) (hp.trans ?_)
        rotate_left
        · unfold marshalECPub; rw [ho, hc]
          simp only [ellipticMarshal_ok hf.1 hf.2, marshal_oid he, Res.ofOption, Res.bind_ok, Res.pure_eq]
          rfl
  cases k with
  | rsa r =>
    apply outcome_of False.elim False.elim
    intro _ _
    obtain ⟨e1, h1⟩ := marshalField_isSome bigInt {} r.n ⟨_, rfl⟩
    obtain ⟨e2, h2⟩ := marshalField_isSome goInt {} r.e ⟨_, rfl⟩
    obtain ⟨e, he⟩ := marshalField_isSome pkcs1Pub {} r ⟨e1 ++ e2, by
      simp only [pkcs1Pub, h1, h2, Option.bind_eq_bind, Option.bind_some, Option.pure_def]⟩
    exact bind_ok (r := (e, _)) (by simp only [marshalPublicKey, marshal, he, Res.ofOption, Res.bind_ok]; rfl)
  | ecdsa p => exact ec p rfl
  | sm2 p => exact ec p rfl
  | ed25519 b => exact outcome_of False.elim False.elim fun _ _ => bind_ok rfl
  | dsa d => exact outcome_of False.elim (fun _ => ⟨_, rfl⟩) fun _ h => absurd trivial h
  | nil => exact outcome_of False.elim (fun _ => ⟨_, rfl⟩) fun _ h => absurd trivial h
  | other d => exact outcome_of False.elim (fun _ => ⟨_, rfl⟩) fun _ h => absurd trivial h

theorem readSalt_ne_panic (r : Reader) : readSalt r ≠ .panic := by
  unfold readSalt readFull; repeat' split
  all_goals simp

theorem pbEncrypt_ne_panic (P : Prims) (alg : AlgId) (m pw : Bytes) : pbEncrypt P alg m pw ≠ .panic := by
  rcases pbeCipherFor_cases P alg pw with ⟨e, he⟩ | ⟨t, ps, h1, h2⟩
  · unfold pbEncrypt; rw [he]; simp
  · obtain ⟨c, hc, -⟩ := pbEncrypt_ok P t alg m pw ps h1 h2; rw [hc]; simp

theorem makeSafe_ne_panic (P : Prims) (bags : List SafeBag) (pw : Option Bytes) (r : Reader) : makeSafeContents P bags pw r ≠ .panic := by
  unfold makeSafeContents
  refine bind_ne_panic (ofOption_no_panic _ _) fun d _ => ?_
  cases pw with
  | none => exact bind_ne_panic (ofOption_no_panic _ _) fun _ _ => by simp
  | some pw =>
    refine bind_ne_panic (readSalt_ne_panic _) ?_
    rintro ⟨salt, r⟩ _
    refine bind_ne_panic (ofOption_no_panic _ _) fun _ _ => ?_
    refine bind_ne_panic (pbEncrypt_ne_panic _ _ _ _) fun _ _ => ?_
    exact bind_ne_panic (ofOption_no_panic _ _) fun _ _ => by simp

/-- **C117** `pkcs12.Encode` panics exactly for the keys that cannot be written (with a password it accepts), whatever the
certificates and the source of random octets; it returns octets exactly if password, key and source allow it. -/
theorem C117_pkcs12 (P : Prims) (key : PrivKey) (hp : PositivePrimes key) (leaf : Bytes) (cas : List Bytes) (password : Bytes) (rnd : Reader) :
    Outcome (encode P key leaf cas password rnd) ((∃ pw, BmpPassword password pw) ∧ CrashKey key)
      ((¬ ∃ pw, BmpPassword password pw) ∨ UnknownKey key ∨ (¬ CrashKey key ∧ rnd.length < 24)) := by
  obtain ⟨g1, g2, g3⟩ := C117_pkcs8 key hp
  have hs := C35_encode_succeeds_iff P key leaf cas password rnd
  simp only [bmpPassword_iff] at hs
  have hcu : ¬ (CrashKey key ∧ UnknownKey key) := by
    rintro ⟨a, b⟩
    rw [← g1] at a; rw [← g2] at b
    obtain ⟨e, b⟩ := b; rw [a] at b; cases b
  have hpan : encode P key leaf cas password rnd = .panic ↔ (∃ pw, BmpPassword password pw) ∧ CrashKey key := by
    constructor
    · intro h
      unfold encode at h
      rw [bind_panic_iff] at h
      rcases h with h | ⟨pw, hpw, h⟩
      · exact absurd h (bmpString_ne_panic _)
      refine ⟨⟨pw, (bmpPassword_iff _ _).mp hpw⟩, ?_⟩
      by_contra hc
      revert h
      refine bind_ne_panic ?_ fun attr _ => ?_
      · exact bind_ne_panic (ofOption_no_panic _ _) fun _ _ => by simp
      refine bind_ne_panic ?_ fun lf _ => ?_
      · obtain ⟨v, hv⟩ := certBag_enc leaf
        unfold makeCertBag; rw [hv]; simp
      refine bind_ne_panic ?_ fun cs _ => ?_
      · obtain ⟨bs, hb, -⟩ := makeCaBags_ok cas; rw [hb]; simp
      refine bind_ne_panic ?_ ?_
      · unfold encodePkcs8ShroudedKeyBag
        refine bind_ne_panic (fun h => hc (g1.mp h)) fun pk _ => ?_
        refine bind_ne_panic (readSalt_ne_panic _) ?_
        rintro ⟨salt, r⟩ hsalt
        refine bind_ne_panic (ofOption_no_panic _ _) fun pb hpb => ?_
        refine bind_ne_panic (pbEncrypt_ne_panic _ _ _ _) fun d _ => ?_
        exact bind_ne_panic (ofOption_no_panic _ _) fun _ _ => by simp
      rintro ⟨kv, r⟩ _
      refine bind_ne_panic (makeSafe_ne_panic _ _ _ _) ?_
      rintro ⟨s0, r⟩ _
      refine bind_ne_panic (makeSafe_ne_panic _ _ _ _) ?_
      rintro ⟨s1, r⟩ _
      refine bind_ne_panic (ofOption_no_panic _ _) fun au _ => ?_
      refine bind_ne_panic (readSalt_ne_panic _) ?_
      rintro ⟨ms, r⟩ _
      refine bind_ne_panic ?_ fun md _ => ?_
      · obtain ⟨md, h, -⟩ := C34_compute_verify P ⟨⟨⟨oidSHA1, {}⟩, []⟩, ms, 1⟩ au pw rfl
        rw [h]; simp
      refine bind_ne_panic (ofOption_no_panic _ _) fun _ _ => ?_
      exact bind_ne_panic (ofOption_no_panic _ _) fun _ _ => by simp
    · rintro ⟨⟨pw, hpw⟩, hc⟩
      unfold encode
      rw [(bmpPassword_iff _ _).mpr hpw]
      obtain ⟨v1, h1⟩ := octets_isSome (P.sha1 leaf) {}
      obtain ⟨v2, h2⟩ := certBag_enc leaf
      obtain ⟨bs, hb, -⟩ := makeCaBags_ok cas
      simp only [Res.bind_ok, localKeyIdAttr, marshalR, marshal, h1, Res.ofOption, Res.pure_eq, makeCertBag, h2, hb,
        encodePkcs8ShroudedKeyBag, g1.mpr hc]
      rfl
  apply outcome_of hpan.mpr
  · rintro (h | h | ⟨h1, h2⟩)
    all_goals
      rcases hr : encode P key leaf cas password rnd with ⟨a, b⟩ | e | _
      · obtain ⟨q1, q2, q3⟩ := hs.mp ⟨a, b, hr⟩
        first
          | exact absurd q1 h
          | omega
          | exact absurd (g2.mpr h) (by obtain ⟨kb, q2⟩ := q2; rw [q2]; simp)
      · exact ⟨e, rfl⟩
      · obtain ⟨q1, q2⟩ := hpan.mp hr
        first
          | exact absurd q1 h
          | exact absurd q2 h1
          | exact absurd ⟨q2, h⟩ hcu
  · intro h1 h2
    rw [not_or, not_or, not_not] at h2
    obtain ⟨q1, q2, q3⟩ := h2
    have q4 : ¬ CrashKey key := fun h => h1 ⟨q1, h⟩
    obtain ⟨a, b, h⟩ := hs.mpr ⟨q1, g3.mpr ⟨q4, q2⟩, by by_contra hx; exact q3 ⟨q4, by omega⟩⟩
    exact ⟨(a, b), h⟩

/-! ## PKCS#7 -/

theorem sm2_sign_panic_iff (rd : Reader) (k : Sm2.PrivateKey) (m uid : Bytes) :
    Sm2.sign rd k m uid = .panic ↔ Sm2.signDigestRS rd k (k.pub.sm3Digest m uid) = .panic := by
  unfold Sm2.sign Sm2.signRS
  simp only []
  cases h : Sm2.signDigestRS rd k (k.pub.sm3Digest m uid) with
  | ok r =>
    obtain ⟨r, s, rd'⟩ := r
    simp only [reduceCtorEq, iff_false]
    unfold Sm2.marshalSign
    split
    · exact ofOption_no_panic _ _
    · simp
  | err e => simp
  | panic => simp

theorem newSignedDataWith_panic_iff (cert : Certificate) (si : Res SignerInfo) (data : Bytes) :
    newSignedDataWith cert si data = .panic ↔ si = .panic := by
  unfold newSignedDataWith
  obtain ⟨c, hc⟩ := octets_isSome data {}
  rw [show marshal octets data = some c from hc, show Res.ofOption "asn1" (some c) = .ok c from rfl, Res.bind_ok]
  cases si with
  | panic => simp
  | ok s =>
    simp only [Res.bind_ok, reduceCtorEq, iff_false]
    exact bind_ne_panic (ofOption_no_panic _ _) fun _ _ => ofOption_no_panic _ _
  | err e =>
    simp only [Res.bind_ok, reduceCtorEq, iff_false]
    exact bind_ne_panic (ofOption_no_panic _ _) fun _ _ => ofOption_no_panic _ _

theorem signer_panic_iff {now : Time} (ht : ClockTime now) (cert : Certificate) (sign : Bytes → Res Bytes) (data : Bytes) :
    getSignerInfo cert sign now data = .panic ↔ ∃ attrs m, SignedAttrsOut now data attrs ∧ El 0x31 attrs m ∧ sign m = .panic := by
  obtain ⟨al, attrs, m, h1, h2, h3, h4, -, -⟩ := attrs_spec ht data
  unfold getSignerInfo
  rw [h1]
  simp only [h3, Res.ofOption, Res.bind_ok, bind_panic_iff, Res.pure_eq, reduceCtorEq, and_false, exists_false, or_false]
  constructor
  · intro h; exact ⟨attrs, m, (h2 _).mpr rfl, (h4 _).mpr rfl, h⟩
  · rintro ⟨a, m', g1, g2, g3⟩
    obtain rfl := (h2 _).mp g1
    obtain rfl := (h4 _).mp g2
    exact g3

/-- **C117** `NewSignedData` panics exactly if the key is an SM2 key with D = -1 modulo the order of the curve and the random source
holds a usable nonce before it ends; any other key and any certificate give a message or an error. -/
theorem C117_new_signed_data (rd : Reader) (now : Time) (ht : ClockTime now) (cert : Certificate) (key : PrivKey) (data : Bytes) :
    NewSignedData rd now cert key data = .panic ↔ ∃ k attrs m, key = .sm2 k ∧ SignedAttrsOut now data attrs ∧ El 0x31 attrs m ∧
      (k.d + 1) % Curve.N = 0 ∧
      ∃ j, 40 * (j + 1) ≤ rd.length ∧ Sm2Spec.goodNonce (ofBytes (k.pub.sm3Digest m [])) (Sm2Spec.nonce rd j) := by
  unfold NewSignedData
  rw [newSignedDataWith_panic_iff, signer_panic_iff ht]
  constructor
  · rintro ⟨attrs, m, h1, h2, h3⟩
    cases key with
    | sm2 k =>
      simp only [signWithKey, sm2_sign_panic_iff, Sm2.C13_panics_iff] at h3
      exact ⟨k, attrs, m, rfl, h1, h2, h3⟩
    | rsa k => cases h3
    | ecdsa k => cases h3
    | ed25519 k => cases h3
    | other k => cases h3
  · rintro ⟨k, attrs, m, rfl, h1, h2, h3⟩
    refine ⟨attrs, m, h1, h2, ?_⟩
    simp only [signWithKey, sm2_sign_panic_iff, Sm2.C13_panics_iff]
    exact h3

/-- **C117** `NewSignedDataCallBack` never panics by itself. -/
theorem C117_callback (now : Time) (cert : Certificate) (f : Bytes → Option Bytes) (data : Bytes) :
    NewSignedDataCallBack now cert f data ≠ .panic := by
  unfold NewSignedDataCallBack
  intro h
  rw [newSignedDataWith_panic_iff] at h
  revert h
  unfold getSignerInfo
  refine bind_ne_panic (ofOption_no_panic _ _) fun _ _ => ?_
  refine bind_ne_panic (ofOption_no_panic _ _) fun _ _ => ?_
  exact bind_ne_panic (ofOption_no_panic _ _) fun _ _ => by simp

/-! ## Cases -/

/-- The example key with its private part replaced by N-1. -/
def lastKey : Sm2.PrivateKey := ⟨Sm2.exKey.pub, Curve.N - 1⟩

theorem lastKey_panics : Sm2.signDigestRS Sm2.exRd lastKey p7D = .panic := by
  have h := p7SignD_ok
  rw [Sm2.C13_panics_iff]
  refine ⟨by decide +kernel, ?_⟩
  have hd : (Sm2.exKey.d + 1) % Curve.N ≠ 0 := by decide +kernel
  rcases Sm2.C13_sign_spec Sm2.exRd Sm2.exKey p7D hd with ⟨j, r, s, h1, -, hr, h3, h4, -⟩ | ⟨-, h2⟩
  · subst hr; exact ⟨j, h1, h3, h4⟩
  · rw [h2] at h; cases h

/-- Non-vacuity of the crash of `NewSignedData`: the certificate, content and random octets of the PKCS#7 example, with the key N-1. -/
theorem C117_new_signed_data_case : NewSignedData Sm2.exRd p7Now p7Cert (.sm2 lastKey) [97] = .panic := by
  unfold NewSignedData
  rw [newSignedDataWith_panic_iff]
  unfold getSignerInfo
  have h : Sm2.sign Sm2.exRd lastKey p7M [] = .panic := by
    rw [sm2_sign_panic_iff, show lastKey.pub = Sm2.exKey.pub from rfl, p7D_ok]
    exact lastKey_panics
  rw [p7Attrs_ok, show Res.ofOption "asn1" (some p7Attrs) = .ok p7Attrs from rfl, Res.bind_ok, p7M_ok,
    show Res.ofOption "asn1" (some p7M) = .ok p7M from rfl, Res.bind_ok, show signWithKey Sm2.exRd (.sm2 lastKey) p7M =
      Sm2.sign Sm2.exRd lastKey p7M [] from rfl, h]
  rfl

/-- Non-vacuity: each kind of key has a member that crashes the writers, and each has one that does not. -/
theorem C117_cases :
    (CrashKey (.rsa ⟨⟨33, 3⟩, 7, [33]⟩) ∧ PositivePrimes (.rsa ⟨⟨33, 3⟩, 7, [33]⟩)) ∧
    (¬ CrashKey (.rsa ⟨⟨33, 3⟩, 7, [3, 11]⟩) ∧ PositivePrimes (.rsa ⟨⟨33, 3⟩, 7, [3, 11]⟩)) ∧
    CrashKey (.sm2 ⟨⟨SM2P256, 2 ^ 256, 1⟩, 1⟩) ∧ ¬ CrashKey (.sm2 ⟨⟨SM2P256, 2 ^ 256 - 1, 1⟩, 1⟩) ∧
    CrashKey (.ecdsa ⟨⟨P521, 1, 1⟩, 2 ^ 528⟩) ∧ ¬ CrashKey (.ecdsa ⟨⟨P521, 1, 1⟩, 2 ^ 528 - 1⟩) ∧
    CrashKey (.ed25519 (List.replicate 31 0)) ∧ ¬ CrashKey (.ed25519 (List.replicate 32 0)) ∧
    UnknownKey (.ecdsa ⟨⟨.other 7, 1, 1⟩, 1⟩) ∧ UnknownPub (.dsa ⟨7, 3, 2, 4⟩) ∧
    CrashPub (.ecdsa ⟨P224, 0, 2 ^ 224⟩) ∧ ¬ CrashPub (.ecdsa ⟨P224, 0, 2 ^ 224 - 1⟩) := by
  have h1 : params SM2P256 = some (_ : CurveParams) := rfl
  have h2 : params P521 = some (_ : CurveParams) := rfl
  have h3 : params P224 = some (_ : CurveParams) := rfl
  simp only [CrashKey, CrashPub, UnknownKey, UnknownPub, PositivePrimes, CoordsFitIn, h1, h2, h3, Option.some.injEq, exists_eq_left']
  decide +kernel

/-- An RSA key that has no PKCS#1 form (a third prime that is not coprime to the others) is written without an error, as a PKCS#8
structure around an empty string, which the parser refuses. -/
theorem C117_empty_rsa (edPub : Bytes → Bytes) :
    marshalPKCS1PrivateKey ⟨⟨245, 5⟩, 5, [5, 7, 7]⟩ = .ok [] ∧
    marshalPKCS8PrivateKey (.rsa ⟨⟨245, 5⟩, 5, [5, 7, 7]⟩) =
      .ok [48, 20, 2, 1, 0, 48, 13, 6, 9, 42, 134, 72, 134, 247, 13, 1, 1, 1, 5, 0, 4, 0] ∧
    ∀ k, parsePKCS8PrivateKey edPub [48, 20, 2, 1, 0, 48, 13, 6, 9, 42, 134, 72, 134, 247, 13, 1, 1, 1, 5, 0, 4, 0] ≠ .ok k := by
  refine ⟨by decide +kernel, by decide +kernel, ?_⟩
  intro k
  have h : parsePKCS8PrivateKey edPub [48, 20, 2, 1, 0, 48, 13, 6, 9, 42, 134, 72, 134, 247, 13, 1, 1, 1, 5, 0, 4, 0] =
      .err "x509: failed to parse RSA private key embedded in PKCS#8" := by
    unfold parsePKCS8PrivateKey
    have hu : unmarshal pkcs8 [48, 20, 2, 1, 0, 48, 13, 6, 9, 42, 134, 72, 134, 247, 13, 1, 1, 1, 5, 0, 4, 0] =
        some (⟨0, ⟨oidPublicKeyRSA, ⟨0, 5, false, [], [5, 0]⟩⟩, []⟩, []) := by decide +kernel
    rw [hu]
    simp only [if_true]
    decide +kernel
  rw [h]; simp

end MCrypto.Props
