import Verif.Ecdsa.Lemmas
import Verif.Props.X509Sig
import Verif.X509.KeysSpec
/-
C138: ECDSA keys (x509.go:1044 and the signers of x509.go:1682-1807, 1847-1910, 2059-2215, 2324-2425; model Verif/Ecdsa/Model.lean, specification
Verif/Ecdsa/Spec.lean).
-/
namespace MCrypto.Props
open MCrypto MCrypto.Der MCrypto.Curve MCrypto.X509 MCrypto.X509Spec MCrypto.Ecdsa MCrypto.EcdsaSpec WeierstrassCurve

theorem lawful_of {k : Sm2.CurveId} {c : CurveParams} (h : params k = some c) : Lawful c := by
  unfold params at h
  split at h
  · obtain rfl := Option.some.inj h; exact sm2p256_lawful
  · repeat' split at h
    · obtain rfl := Option.some.inj h; exact p224_lawful
    · obtain rfl := Option.some.inj h; exact p256_lawful
    · obtain rfl := Option.some.inj h; exact p384_lawful
    · obtain rfl := Option.some.inj h; exact p521_lawful
    · cases h

/-- **C138** `VerifyASN1` with a key whose point is on its curve accepts exactly the DER encodings of ECDSA signatures of the digest. -/
theorem C138_verify_iff {k : Sm2.PublicKey} (hk : OnCurve k) (digest sig : Bytes) :
    verifyASN1 k digest sig = true ↔ Signed k digest sig := by
  obtain ⟨c, hc, hon⟩ := hk
  have hl := lawful_of hc
  haveI : Fact c.p.Prime := ⟨hl.p_prime⟩
  obtain ⟨Q, q0, hQ⟩ := (isOnCurve_rep hl _).mp hon
  have hat : At c (k.x, k.y) Q := (at_iff _ _).mpr ⟨q0, hQ⟩
  unfold verifyASN1 Signed
  rw [hc]
  cases hu : Sm2.unmarshalSign sig with
  | ok rs =>
    obtain ⟨r, s⟩ := rs
    obtain ⟨h1, h2⟩ := (Sm2.C11_accepts_iff _ _ _).mp hu
    show verify c (k.x, k.y) digest r s = true ↔ _
    rw [verify_iff hl hat]
    constructor
    · intro hv; exact ⟨h2, c, ⟨hl.p_prime⟩, Q, r, s, rfl, hat, h1, hv⟩
    · rintro ⟨-, c', _, Q', r', s', e, hat', h3, hv⟩
      obtain rfl := Option.some.inj e
      obtain rfl : Q' = Q := Rep.eq_of_eq (coef_ne hl) ((at_iff _ _).mp hat').2 hQ
      have := (Sm2.C11_accepts_iff _ _ _).mpr ⟨h3, h2⟩
      rw [hu] at this
      obtain ⟨rfl, rfl⟩ := Prod.mk.inj (Res.ok.inj this)
      exact hv
  | err e =>
    refine ⟨fun h => (by cases h), ?_⟩
    rintro ⟨h2, c', _, Q', r', s', e, hat', h3, hv⟩
    have := (Sm2.C11_accepts_iff _ _ _).mpr ⟨h3, h2⟩
    rw [hu] at this; cases this
  | panic =>
    refine ⟨fun h => (by cases h), ?_⟩
    rintro ⟨h2, c', _, Q', r', s', e, hat', h3, hv⟩
    have := (Sm2.C11_accepts_iff _ _ _).mpr ⟨h3, h2⟩
    rw [hu] at this; cases this

/-! ## Signing -/

theorem readFull_iff (n : Nat) (rd : Reader) (b : Bytes) (rd' : Reader) : readFull n rd = .ok (b, rd') ↔ rd = b ++ rd' ∧ b.length = n := by
  unfold readFull
  constructor
  · intro h
    split at h
    · rename_i hn
      obtain ⟨rfl, rfl⟩ := Prod.mk.inj (Res.ok.inj h)
      exact ⟨(List.take_append_drop n rd).symm, List.length_take_of_le hn⟩
    · split at h <;> cases h
  · rintro ⟨rfl, rfl⟩
    rw [if_pos (by simp)]
    simp

theorem nonce_zero {c : CurveParams} {b rest : Bytes} (hb : b.length = c.bitSize / 8 + 8) {k : Nat} :
    Nonce c (b ++ rest) 0 k ↔ k = ofBytes b % (c.n - 1) + 1 := by
  constructor
  · rintro ⟨pre, block, rest', e, h1, h2, rfl⟩
    rw [Nat.zero_mul, List.length_eq_zero_iff] at h2
    subst h2
    rw [List.nil_append] at e
    obtain ⟨rfl, -⟩ := List.append_inj e (hb.trans h1.symm)
    rfl
  · rintro rfl
    exact ⟨[], b, rest, rfl, hb, (Nat.zero_mul _).symm, rfl⟩

theorem nonce_succ {c : CurveParams} {b rest : Bytes} (hb : b.length = c.bitSize / 8 + 8) {i k : Nat} :
    Nonce c (b ++ rest) (i + 1) k ↔ Nonce c rest i k := by
  constructor
  · rintro ⟨pre, block, rest', e, h1, h2, rfl⟩
    have hl : b.length ≤ pre.length := by rw [h2, h1, hb, Nat.add_mul]; omega
    obtain ⟨pre', rfl⟩ : ∃ pre', pre = b ++ pre' := by
      refine ⟨pre.drop b.length, ?_⟩
      have := congrArg (List.take b.length) e
      rw [List.take_left, List.append_assoc, List.take_append_of_le_length hl] at this
      conv_lhs => rw [← List.take_append_drop b.length pre, ← this]
    rw [List.append_assoc, List.append_assoc] at e
    have e := List.append_cancel_left e
    refine ⟨pre', block, rest', by rw [e, List.append_assoc], h1, ?_, rfl⟩
    rw [List.length_append, Nat.add_mul] at h2
    omega
  · rintro ⟨pre, block, rest', rfl, h1, h2, rfl⟩
    refine ⟨b ++ pre, block, rest', by simp, h1, ?_, rfl⟩
    rw [List.length_append, h2, Nat.add_mul]; omega

theorem nonce_short {c : CurveParams} {stream : Bytes} (hs : stream.length < c.bitSize / 8 + 8) {i k : Nat} : ¬ Nonce c stream i k := by
  rintro ⟨pre, block, rest, rfl, h1, -, -⟩
  simp only [List.length_append] at hs
  omega

/-- The signature comes from the first number of the stream that gives one. -/
theorem signLoop_iff {c : CurveParams} [Fact c.p.Prime] (h : Lawful c) (d : Nat) (digest : Bytes) (rd : Reader) (r s : Nat) :
    (∃ rd', signLoop c d digest rd = .ok (r, s, rd')) ↔
      ∃ i k, Nonce c rd i k ∧ Made c d k digest r s ∧ ∀ j k', j < i → Nonce c rd j k' → ¬ ∃ r s, Made c d k' digest r s := by
  have h2 := h.two_lt_n
  induction hn : rd.length using Nat.strongRecOn generalizing rd with
  | ind n ih =>
    subst hn
    by_cases hlen : c.bitSize / 8 + 8 ≤ rd.length
    · obtain ⟨b, rest, rfl, hb⟩ : ∃ b rest, rd = b ++ rest ∧ b.length = c.bitSize / 8 + 8 :=
        ⟨rd.take _, rd.drop _, (List.take_append_drop _ rd).symm, List.length_take_of_le hlen⟩
      have hr := (readFull_iff _ _ _ _).mpr ⟨(rfl : b ++ rest = b ++ rest), hb⟩
      have hrf : randFieldElement c (b ++ rest) = .ok (ofBytes b % (c.n - 1) + 1, rest) := by
        unfold randFieldElement
        rw [hr]; rfl
      generalize hk : ofBytes b % (c.n - 1) + 1 = k at hrf
      have hkr : 0 < k ∧ k < c.n := by
        have := Nat.mod_lt (ofBytes b) (y := c.n - 1) (by omega)
        omega
      have hz : ∀ k', Nonce c (b ++ rest) 0 k' ↔ k' = k := fun k' => by rw [nonce_zero hb, hk]
      have next : (¬ ∃ r s, Made c d k digest r s) → ((∃ rd', signLoop c d digest rest = .ok (r, s, rd')) ↔
          ∃ i k, Nonce c (b ++ rest) i k ∧ Made c d k digest r s ∧ ∀ j k', j < i → Nonce c (b ++ rest) j k' → ¬ ∃ r s, Made c d k' digest r s) := by
        intro hno
        have ih := ih rest.length (by rw [List.length_append]; omega) rest rfl
        refine ih.trans ?_
        constructor
        · rintro ⟨i, k', a1, a2, a3⟩
          refine ⟨i + 1, k', (nonce_succ hb).mpr a1, a2, ?_⟩
          intro j k'' hj hnn
          cases j with
          | zero => rw [hz] at hnn; subst hnn; exact hno
          | succ j => exact a3 j k'' (by omega) ((nonce_succ hb).mp hnn)
        · rintro ⟨i, k', a1, a2, a3⟩
          cases i with
          | zero => rw [hz] at a1; subst a1; exact absurd ⟨r, s, a2⟩ hno
          | succ i =>
            exact ⟨i, k', (nonce_succ hb).mp a1, a2, fun j k'' hj hnn => a3 (j + 1) k'' (by omega) ((nonce_succ hb).mpr hnn)⟩
      rw [signLoop]
      split
      · rename_i k' rd' e
        rw [hrf] at e
        obtain ⟨rfl, rfl⟩ := Prod.mk.inj (Res.ok.inj e)
        simp only []
        split
        · rename_i h0
          refine next ?_
          rintro ⟨r', s', hm⟩
          rw [made_iff h] at hm
          exact hm.2.2.1 (hm.2.1.trans h0)
        · rename_i h0
          split
          · rename_i h1
            refine next ?_
            rintro ⟨r', s', hm⟩
            rw [made_iff h] at hm
            obtain ⟨-, rfl, -, hs, hs0⟩ := hm
            exact hs0 (hs.trans h1)
          · rename_i h1
            have hm : ∀ r s, Made c d k digest r s ↔ r = (baseMult c (toBytes k)).1 % c.n ∧
                s = (d * ((baseMult c (toBytes k)).1 % c.n) + hashToInt c digest) * finv c.n k % c.n := by
              intro r s
              rw [made_iff h]
              constructor
              · rintro ⟨-, rfl, -, hs, -⟩; exact ⟨rfl, hs⟩
              · rintro ⟨rfl, rfl⟩; exact ⟨hkr, rfl, h0, rfl, h1⟩
            constructor
            · rintro ⟨rd', e⟩
              simp only [Res.ok.injEq, Prod.mk.injEq] at e
              exact ⟨0, k, (hz k).mpr rfl, (hm r s).mpr ⟨e.1.symm, e.2.1.symm⟩, fun j _ hj => by omega⟩
            · rintro ⟨i, k', a1, a2, a3⟩
              cases i with
              | zero =>
                rw [hz] at a1; subst a1
                obtain ⟨rfl, rfl⟩ := (hm r s).mp a2
                exact ⟨_, rfl⟩
              | succ i => exact absurd ⟨_, _, (hm _ _).mpr ⟨rfl, rfl⟩⟩ (a3 0 k (by omega) ((hz k).mpr rfl))
      · rename_i e he; rw [hrf] at he; cases he
      · rename_i he; rw [hrf] at he; cases he
    · have hrf : ∀ x, randFieldElement c rd ≠ .ok x := by
        rintro ⟨k, rd'⟩ e
        unfold randFieldElement readFull at e
        rw [if_neg hlen] at e
        split at e <;> cases e
      constructor
      · rintro ⟨rd', e⟩
        rw [signLoop] at e
        split at e
        · rename_i he; exact absurd he (hrf _)
        · cases e
        · cases e
      · rintro ⟨i, k, a1, -⟩
        exact absurd a1 (nonce_short (by omega))

theorem order_size {k : Sm2.CurveId} {c : CurveParams} (h : params k = some c) : c.n < 256 ^ 66 := by
  unfold params at h
  split at h
  · obtain rfl := Option.some.inj h; decide +kernel
  · repeat' split at h
    all_goals first
      | (obtain rfl := Option.some.inj h; decide +kernel)
      | cases h

/-- Small numbers have one encoding as a signature; `MarshalSign` gives it. -/
theorem marshal_isSig {r s : Nat} (hr : r < 256 ^ 66) (hs : s < 256 ^ 66) (sig : Bytes) :
    Sm2.marshalSign r s = .ok sig ↔ DerSpec.IsSig sig r s := by
  obtain ⟨b, h1, h2, h3⟩ := Sm2.C10_roundtrip r s 66 (by decide) (by simpa using hr) (by simpa using hs)
  have key : ∀ sig, DerSpec.IsSig sig r s → sig = b := by
    have hb := ((Sm2.unmarshalSign_iff _ _ _).mp h3).1
    rintro sig ⟨rb, sb, re, se, a1, a2, a3, a4, a5⟩
    rw [DerSpec.isInt_iff] at a1 a2
    subst a1 a2
    have l1 := Sm2.encInt_length_le (r : Int)
    have l2 := Sm2.encInt_length_le (s : Int)
    have l3 := (byteLen_le_iff (r : Int).natAbs 66).mpr (by simpa using hr)
    have l4 := (byteLen_le_iff (s : Int).natAbs 66).mpr (by simpa using hs)
    have big : (1000 : Nat) < 256 ^ 127 := by decide +kernel
    rw [DerSpec.isTLV_iff _ _ _ (by omega)] at a3 a4
    subst a3 a4
    have t1 := Sm2.tlv_length 0x02 (encInt (r : Int))
    have t2 := Sm2.tlv_length 0x02 (encInt (s : Int))
    have o1 : (lenOctets (encInt (r : Int)).length).length ≤ 3 := by
      unfold lenOctets; split
      · simp
      · have := (byteLen_le_iff (encInt (r : Int)).length 1).mpr (by omega)
        simp only [List.length_cons, toBytes_length]; omega
    have o2 : (lenOctets (encInt (s : Int)).length).length ≤ 3 := by
      unfold lenOctets; split
      · simp
      · have := (byteLen_le_iff (encInt (s : Int)).length 1).mpr (by omega)
        simp only [List.length_cons, toBytes_length]; omega
    rw [DerSpec.isTLV_iff _ _ _ (by rw [List.length_append]; omega)] at a5
    rw [a5, hb]; rfl
  constructor
  · intro h
    rw [h1] at h
    obtain rfl := Res.ok.inj h
    exact h2
  · intro h
    rw [h1, key sig h]

/-- **C138** What `Sign` returns: the DER encoding of the signature that the first suitable number of the stream gives, and nothing else. -/
theorem C138_sign_iff {key : Sm2.PrivateKey} {c : CurveParams} (hc : params key.pub.curve = some c) [Fact c.p.Prime]
    (stream : Reader) (digest sig : Bytes) :
    sign key stream digest = .ok sig ↔ ∃ i k r s, Nonce c stream i k ∧ Made c key.d k digest r s ∧ DerSpec.IsSig sig r s ∧
      ∀ j k', j < i → Nonce c stream j k' → ¬ ∃ r s, Made c key.d k' digest r s := by
  have hl := lawful_of hc
  have hsz := order_size hc
  have small : ∀ {k r s}, Made c key.d k digest r s → r < 256 ^ 66 ∧ s < 256 ^ 66 := by
    intro k r s hm
    rw [made_iff hl] at hm
    obtain ⟨-, rfl, -, rfl, -⟩ := hm
    exact ⟨(Nat.mod_lt _ hl.n_prime.pos).trans hsz, (Nat.mod_lt _ hl.n_prime.pos).trans hsz⟩
  unfold sign
  rw [hc]
  show (signLoop c key.d digest stream >>= fun x => Sm2.marshalSign x.1 x.2.1) = .ok sig ↔ _
  rw [Res.bind_eq_ok]
  constructor
  · rintro ⟨⟨r, s, rd'⟩, h1, h2⟩
    obtain ⟨i, k, a1, a2, a3⟩ := (signLoop_iff hl _ _ _ _ _).mp ⟨rd', h1⟩
    exact ⟨i, k, r, s, a1, a2, (marshal_isSig (small a2).1 (small a2).2 _).mp h2, a3⟩
  · rintro ⟨i, k, r, s, a1, a2, a3, a4⟩
    obtain ⟨rd', h1⟩ := (signLoop_iff hl _ _ _ _ _).mpr ⟨i, k, a1, a2, a4⟩
    exact ⟨_, h1, (marshal_isSig (small a2).1 (small a2).2 _).mpr a3⟩

theorem signLoop_no_panic (c : CurveParams) (d : Nat) (digest : Bytes) (rd : Reader) : signLoop c d digest rd ≠ .panic := by
  induction hn : rd.length using Nat.strongRecOn generalizing rd with
  | ind n ih =>
    subst hn
    rw [signLoop]
    split
    · rename_i k rd' e
      have hlt := randFieldElement_lt e
      simp only []
      repeat' split
      · exact ih _ hlt _ rfl
      · exact ih _ hlt _ rfl
      · intro h; cases h
    · intro h; cases h
    · rename_i e
      unfold randFieldElement readFull at e
      repeat' split at e
      all_goals cases e

/-- **C138** `Sign` with a key on a known curve never crashes; it fails exactly if no number of the stream gives a signature. -/
theorem C138_sign_fails_iff {key : Sm2.PrivateKey} {c : CurveParams} (hc : params key.pub.curve = some c) [Fact c.p.Prime]
    (stream : Reader) (digest : Bytes) :
    sign key stream digest ≠ .panic ∧
    ((∃ e, sign key stream digest = .err e) ↔ ∀ i k, Nonce c stream i k → ¬ ∃ r s, Made c key.d k digest r s) := by
  have hl := lawful_of hc
  have hsz := order_size hc
  have hp : sign key stream digest ≠ .panic := by
    unfold sign
    rw [hc]
    show (signLoop c key.d digest stream >>= fun x => Sm2.marshalSign x.1 x.2.1) ≠ .panic
    cases h : signLoop c key.d digest stream with
    | ok x =>
      obtain ⟨r, s, rd'⟩ := x
      rw [Res.bind_ok]
      obtain ⟨i, k, a1, a2, a3⟩ := (signLoop_iff hl _ _ _ _ _).mp ⟨rd', h⟩
      rw [made_iff hl] at a2
      obtain ⟨-, hr, -, hs, -⟩ := a2
      obtain ⟨b, h1, -⟩ := Sm2.C10_roundtrip r s 66 (by decide)
        (by rw [Int.natAbs_natCast, hr]; exact (Nat.mod_lt _ hl.n_prime.pos).trans hsz)
        (by rw [Int.natAbs_natCast, hs]; exact (Nat.mod_lt _ hl.n_prime.pos).trans hsz)
      rw [h1]
      intro e; cases e
    | err e => intro e; cases e
    | panic => exact absurd h (signLoop_no_panic _ _ _ _)
  refine ⟨hp, ?_⟩
  constructor
  · rintro ⟨e, he⟩ i k hn hm
    -- the first of them
    classical
    have hex : ∃ i, ∃ k, Nonce c stream i k ∧ ∃ r s, Made c key.d k digest r s := ⟨i, k, hn, hm⟩
    obtain ⟨k0, n0, r0, s0, m0⟩ := Nat.find_spec hex
    obtain ⟨b, -, h1, -⟩ := Sm2.C10_roundtrip r0 s0 66 (by decide)
        (by rw [Int.natAbs_natCast]; rw [made_iff hl] at m0; rw [m0.2.1]; exact (Nat.mod_lt _ hl.n_prime.pos).trans hsz)
        (by rw [Int.natAbs_natCast]; rw [made_iff hl] at m0; rw [m0.2.2.2.1]; exact (Nat.mod_lt _ hl.n_prime.pos).trans hsz)
    have := (C138_sign_iff hc stream digest b).mpr ⟨_, k0, r0, s0, n0, m0, h1, fun j k' hj a1 a2 => Nat.find_min hex hj ⟨k', a1, a2⟩⟩
    rw [he] at this
    cases this
  · intro hno
    cases h : sign key stream digest with
    | ok sig =>
      obtain ⟨i, k, r, s, a1, a2, -⟩ := (C138_sign_iff hc stream digest sig).mp h
      exact absurd ⟨r, s, a2⟩ (hno i k a1)
    | err e => exact ⟨e, rfl⟩
    | panic => exact absurd h hp

theorem keyPair_point {key : Sm2.PrivateKey} (hk : IsKeyPair key) (h0 : 0 < key.d) :
    OnCurve key.pub ∧ ∃ c, ∃ _ : Fact c.p.Prime, ∃ G : Points c, params key.pub.curve = some c ∧ Lawful c ∧ At c c.g G ∧
      At c (key.pub.x, key.pub.y) (key.d • G) := by
  obtain ⟨c, hc, hd, hpt⟩ := hk
  have hl := lawful_of hc
  haveI : Fact c.p.Prime := ⟨hl.p_prime⟩
  obtain ⟨G, g0, hG⟩ := exists_base hl
  have hr := rep_scalarMult hl.two_lt (coef_ne hl) hG (toBytes key.d)
  rw [ofBytes_toBytes, ← hpt] at hr
  have hne : key.d • G ≠ 0 := fun e => by
    have := addOrderOf_dvd_of_nsmul_eq_zero e
    rw [order_base hl g0 hG] at this
    have := Nat.le_of_dvd h0 this
    omega
  exact ⟨⟨c, hc, (isOnCurve_rep hl _).mpr ⟨_, hne, hr⟩⟩, c, ⟨hl.p_prime⟩, G, hc, hl, (at_iff _ _).mpr ⟨g0, hG⟩, (at_iff _ _).mpr ⟨hne, hr⟩⟩

/-- **C138** Whatever `Sign` returns for a key pair with a private number other than 0 verifies under its public key, for any digest. -/
theorem C138_sign_verifies {key : Sm2.PrivateKey} (hk : IsKeyPair key) (h0 : 0 < key.d) (stream : Reader)
    (digest sig : Bytes) (h : sign key stream digest = .ok sig) : Signed key.pub digest sig ∧ verifyASN1 key.pub digest sig = true := by
  obtain ⟨hon, c, hf, G, hc, hl, hG, hQ⟩ := keyPair_point hk h0
  obtain ⟨i, k, r, s, a1, a2, a3, -⟩ := (C138_sign_iff hc stream digest sig).mp h
  have hsz := order_size hc
  have hv := made_valid hl a2 hG
  obtain ⟨⟨b1, b2⟩, ⟨b3, b4⟩, -⟩ := hv
  have hlen : sig.length < 2 ^ 32 := by
    obtain ⟨b, c1, c2, c3⟩ := Sm2.C10_roundtrip r s 66 (by decide) (by rw [Int.natAbs_natCast]; omega) (by rw [Int.natAbs_natCast]; omega)
    have := (marshal_isSig (by omega) (by omega) sig).mpr a3
    rw [c1] at this
    obtain rfl := Res.ok.inj this
    exact ((Sm2.C11_accepts_iff _ _ _).mp c3).2
  have hs : Signed key.pub digest sig := ⟨hlen, c, hf, _, r, s, hc, hQ, a3, made_valid hl a2 hG⟩
  exact ⟨hs, (C138_verify_iff hon digest sig).mpr hs⟩

end MCrypto.Props
