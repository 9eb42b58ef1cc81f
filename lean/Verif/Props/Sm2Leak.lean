import Verif.Props.Sm2SignEx
/-
C101, C102: what SM2 signatures say about keys (sm2.go:244-383; model Verif/Sm2/Model.lean).
-/
namespace MCrypto.Props
open MCrypto MCrypto.Sm2 MCrypto.Sm2Spec MCrypto.Curve

/-- What the equations of two signatures with the same nonce, or of one with a known nonce, give for the key. -/
theorem sigEq_cast {d k r s : Nat} (h : SigEq d k r s) : (1 + (d : ZMod N)) * s + r * d = k := by
  have := h.2
  rw [← ZMod.natCast_eq_natCast_iff'] at this
  push_cast at this
  exact this

/-- **C101** A signature and the 40 random octets that it was made with give the private key away: if the signature consumed
`40 (j + 1)` octets of the random stream, the key modulo N is (k - s) / (r + s), k being the value of the last 40 of
them modulo N - 1, plus one. -/
theorem C101_known_randomness (rd : Reader) (priv : PrivateKey) (digest : Bytes) (r s : Int) (j : Nat) (hj : 40 * (j + 1) ≤ rd.length)
    (h : signDigestRS rd priv digest = .ok (r, s, rd.drop (40 * (j + 1)))) :
    ((r + s : Int) : ZMod N) ≠ 0 ∧
    (priv.d : ZMod N) = (((ofBytes ((rd.drop (40 * j)).take 40) % (N - 1) + 1 : Nat) : ZMod N) - (s : ZMod N)) / ((r + s : Int) : ZMod N) := by
  have hd : (priv.d + 1) % N ≠ 0 := by
    intro hd
    have hi := modInverseN_none.mpr hd
    unfold signDigestRS at h
    rw [signOuter_bad _ _ hi] at h
    rcases signInner_spec (ofBytes digest) rd with ⟨j, h1, h2, -, h4⟩ | ⟨h1, h2⟩
    · simp only [h4] at h; cases h
    · simp only [h2] at h; cases h
  rcases C13_sign_spec rd priv digest hd with ⟨i, r', s', h1, h2, -, -, -, h5, -, -⟩ | ⟨-, h2⟩
  swap
  · rw [h2] at h; cases h
  have hr := (C13_ranges rd priv digest r s _ h).2.2
  rw [h2] at h
  have h := Res.ok.inj h
  simp only [Prod.mk.injEq] at h
  obtain ⟨rfl, rfl, h3⟩ := h
  have hij : i = j := by
    have := congrArg List.length h3
    simp only [List.length_drop] at this
    omega
  subst hij
  have hne : (((r' : Int) + (s' : Int) : Int) : ZMod N) ≠ 0 := by
    rw [Ne, ZMod.intCast_zmod_eq_zero_iff_dvd]
    intro hdv
    exact hr (Int.emod_eq_zero_of_dvd hdv)
  refine ⟨hne, ?_⟩
  rw [eq_div_iff hne]
  have := sigEq_cast h5
  unfold nonce at this
  rw [← this]
  push_cast
  ring

/-- **C101** Two signatures made with the same 40 random octets, of digests that differ modulo N, give the private key away
without knowing these octets: it is (s' - s) / (r + s - r' - s') modulo N. -/
theorem C101_repeated_randomness (rd rd' : Reader) (priv : PrivateKey) (digest digest' : Bytes) (r s r' s' : Int) (hl : 40 ≤ rd.length)
    (hl' : 40 ≤ rd'.length) (hp : rd.take 40 = rd'.take 40)
    (h : signDigestRS rd priv digest = .ok (r, s, rd.drop 40)) (h' : signDigestRS rd' priv digest' = .ok (r', s', rd'.drop 40))
    (hne : ofBytes digest % N ≠ ofBytes digest' % N) :
    ((r + s - (r' + s') : Int) : ZMod N) ≠ 0 ∧
    (priv.d : ZMod N) = ((s' - s : Int) : ZMod N) / ((r + s - (r' + s') : Int) : ZMod N) := by
  have hd : (priv.d + 1) % N ≠ 0 := by
    intro hd
    have hi := modInverseN_none.mpr hd
    unfold signDigestRS at h
    rw [signOuter_bad _ _ hi] at h
    rcases signInner_spec (ofBytes digest) rd with ⟨j, h1, h2, -, h4⟩ | ⟨h1, h2⟩
    · simp only [h4] at h; cases h
    · simp only [h2] at h; cases h
  have one : ∀ (rd : Reader) (digest : Bytes) (r s : Int), 40 ≤ rd.length → signDigestRS rd priv digest = .ok (r, s, rd.drop 40) →
      ∃ a b : Nat, r = a ∧ s = b ∧ a = (ofBytes digest + xOf (nonce rd 0)) % N ∧ SigEq priv.d (nonce rd 0) a b := by
    intro rd digest r s hl h
    rcases C13_sign_spec rd priv digest hd with ⟨i, a, b, h1, h2, h3, -, -, h5, -, -⟩ | ⟨-, h2⟩
    swap
    · rw [h2] at h; cases h
    rw [h2] at h
    have h := Res.ok.inj h
    simp only [Prod.mk.injEq] at h
    obtain ⟨rfl, rfl, h4⟩ := h
    have hi : i = 0 := by
      have := congrArg List.length h4
      simp only [List.length_drop] at this
      omega
    subst hi
    exact ⟨a, b, rfl, rfl, h3, h5⟩
  have hn : nonce rd 0 = nonce rd' 0 := by
    unfold nonce
    simp only [Nat.mul_zero, List.drop_zero, hp]
  obtain ⟨a, b, rfl, rfl, e1, e2⟩ := one rd digest r s hl h
  obtain ⟨a', b', rfl, rfl, e1', e2'⟩ := one rd' digest' r' s' hl' h'
  have q1 := sigEq_cast e2
  have q2 := sigEq_cast e2'
  rw [← hn] at q2
  have ha : (a : ZMod N) ≠ a' := by
    rw [e1, e1', ZMod.natCast_mod, ZMod.natCast_mod, ← hn]
    push_cast
    intro hc
    have hc' : ((ofBytes digest : Nat) : ZMod N) = ((ofBytes digest' : Nat) : ZMod N) := by linear_combination hc
    rw [ZMod.natCast_eq_natCast_iff'] at hc'
    exact hne hc'
  have hq : (priv.d : ZMod N) * ((a : ZMod N) + b - (a' + b')) = b' - b := by linear_combination q1 - q2
  have hc : ((a : ZMod N) + b - (a' + b')) ≠ 0 := by
    intro h0
    rw [h0, mul_zero] at hq
    apply ha
    linear_combination h0 - hq
  refine ⟨by push_cast; exact hc, ?_⟩
  push_cast
  rw [eq_div_iff hc]
  exact hq

/-! ## C102: signatures of digests do not identify the signer -/

/-- A point with an x-coordinate that gives `r` for the digest `e`. -/
def GivesR (e : Nat) (r : Int) (R : EP) : Prop := ∃ x y, coords R = some (x, y) ∧ (((e + x) % N : Nat) : Int) = r

/-- The inverse of `t` modulo N, as a scalar. -/
def invN (t : Nat) : Nat := ((t : ZMod N)⁻¹).val

theorem invN_smul {t : Nat} (ht : t % N ≠ 0) (Q : EP) : t • (invN t • Q) = Q ∧ invN t • (t • Q) = Q := by
  have hne : (t : ZMod N) ≠ 0 := by
    rw [Ne, ZMod.natCast_eq_zero_iff, Nat.dvd_iff_mod_eq_zero]; exact ht
  have h : (t * invN t) % N = 1 % N := by
    rw [← ZMod.natCast_eq_natCast_iff']
    push_cast
    unfold invN
    rw [ZMod.natCast_zmod_val, mul_inv_cancel₀ hne]
  have key : (t * invN t) • Q = Q := by
    have h2 : (t * invN t) = N * (t * invN t / N) + 1 := by
      have h3 := Nat.div_add_mod (t * invN t) N
      rw [h, Nat.mod_eq_of_lt N_prime.one_lt] at h3
      exact h3.symm
    rw [h2, add_smul, mul_comm, mul_smul, N_smul, nsmul_zero, zero_add, one_smul]
  refine ⟨by rw [← mul_smul]; exact key, ?_⟩
  rw [← mul_smul, mul_comm]; exact key

/-- **C102** The keys for which `(r, s)` is a valid signature of a digest: those that come, by one formula that needs no secret,
from the points whose x-coordinate gives `r`. -/
theorem C102_keys_iff (Q : EP) (e : Nat) (r s : Int) (hr : 1 ≤ r ∧ r ≤ N - 1) (hs : 1 ≤ s ∧ s ≤ N - 1) (ht : (r + s) % N ≠ 0) :
    ValidSig Q e r s ↔ ∃ R, GivesR e r R ∧ Q = invN ((r + s) % N).toNat • (R - s.toNat • Gp) := by
  have hN := N_pos
  have ht' : ((r + s) % N).toNat % N ≠ 0 := by
    have h1 := Int.emod_nonneg (r + s) (b := (N : Int)) (by omega)
    have h2 := Int.emod_lt_of_pos (r + s) (b := (N : Int)) (by omega)
    rw [Nat.mod_eq_of_lt (by omega)]
    omega
  constructor
  · rintro ⟨-, -, -, x, y, h1, h2⟩
    refine ⟨_, ⟨x, y, h1, h2⟩, ?_⟩
    rw [add_sub_cancel_left, (invN_smul ht' Q).2]
  · rintro ⟨R, ⟨x, y, h1, h2⟩, rfl⟩
    refine ⟨hr, hs, ht, x, y, ?_, h2⟩
    rw [(invN_smul ht' _).1, add_sub_cancel]
    exact h1

theorem coords_neg {R : EP} {x y : Nat} (h : coords R = some (x, y)) : ∃ y', coords (-R) = some (x, y') := by
  cases R with
  | zero => cases h
  | some a b hab =>
    rw [WeierstrassCurve.Affine.Point.neg_some]
    simp only [coords, Option.some.injEq, Prod.mk.injEq] at h ⊢
    exact ⟨_, h.1, rfl⟩

theorem coords_same {R S : EP} {x y y' : Nat} (h : coords R = some (x, y)) (h' : coords S = some (x, y')) : R = S ∨ R = -S := by
  cases R with
  | zero => cases h
  | some a b hab =>
    cases S with
    | zero => cases h'
    | some c d hcd =>
      simp only [coords, Option.some.injEq, Prod.mk.injEq] at h h'
      have hac : a = c := ZMod.val_injective _ (h.1.trans h'.1.symm)
      subst hac
      rw [WeierstrassCurve.Affine.Point.neg_some]
      rcases WeierstrassCurve.Affine.Y_eq_of_X_eq hab.1 hcd.1 rfl with e | e
      · left; subst e; rfl
      · right; subst e; rfl

/-- **C102** A signature of a digest is always valid for another key as well, one that anybody can compute from the signature:
`VerifyDigest` alone does not tell who signed. -/
theorem C102_second_key (Q : EP) (e : Nat) (r s : Int) (h : ValidSig Q e r s) : ∃ Q', Q' ≠ Q ∧ ValidSig Q' e r s := by
  have h' := h
  obtain ⟨hr, hs, ht, -⟩ := h'
  have hN := N_pos
  have ht' : ((r + s) % N).toNat % N ≠ 0 := by
    have h1 := Int.emod_nonneg (r + s) (b := (N : Int)) (by omega)
    have h2 := Int.emod_lt_of_pos (r + s) (b := (N : Int)) (by omega)
    rw [Nat.mod_eq_of_lt (by omega)]
    omega
  obtain ⟨R, ⟨x, y, h1, h2⟩, rfl⟩ := (C102_keys_iff Q e r s hr hs ht).mp h
  obtain ⟨y', h3⟩ := coords_neg h1
  refine ⟨_, ?_, (C102_keys_iff _ e r s hr hs ht).mpr ⟨-R, ⟨x, y', h3, h2⟩, rfl⟩⟩
  intro heq
  have h4 := congrArg (fun Z => ((r + s) % N).toNat • Z) heq
  simp only [(invN_smul ht' _).1] at h4
  have h5 : -R = R := sub_left_injective h4
  have h6 : R = 0 := no_two_torsion R (by
    have : R + R = R - -R := by rw [sub_neg_eq_add]
    rw [this, h5, sub_self])
  subst h6
  cases h1

/-- At most four points give `r`: two for each of the at most two x-coordinates. -/
theorem givesR_card (e : Nat) (r : Int) : {R | GivesR e r R}.ncard ≤ 4 := by
  have two : ∀ x : Nat, {R : EP | ∃ y, coords R = some (x, y)}.ncard ≤ 2 := by
    intro x
    by_cases hx : ∃ R y, coords R = some (x, y)
    · obtain ⟨R, y, hR⟩ := hx
      refine le_trans (Set.ncard_le_ncard (t := {R, -R}) ?_ (Set.toFinite _)) (le_trans (Set.ncard_insert_le _ _) (by rw [Set.ncard_singleton]))
      rintro S ⟨y', hS⟩
      exact coords_same hS hR
    · have : {R : EP | ∃ y, coords R = some (x, y)} = ∅ := by
        ext R; simp only [Set.mem_setOf_eq, Set.mem_empty_iff_false, iff_false]; exact fun ⟨y, h⟩ => hx ⟨R, y, h⟩
      rw [this]; simp
  have hN := N_pos
  have hPN : P < 2 * N := by decide +kernel
  let x0 := (r.toNat + (N - e % N)) % N
  have hsub2 : {R | GivesR e r R} ⊆ {R : EP | ∃ y, coords R = some (x0, y)} ∪ {R : EP | ∃ y, coords R = some (x0 + N, y)} := by
    rintro R ⟨x, y, h1, h2⟩
    have hxP : x < P := by
      cases R with
      | zero => cases h1
      | some a b _ =>
        simp only [coords, Option.some.injEq, Prod.mk.injEq] at h1
        rw [← h1.1]; exact ZMod.val_lt a
    have h3 : x % N = x0 := by
      have e1 : (e + x) % N = r.toNat := by omega
      have e2 : x0 = ((e + x) % N + (N - e % N)) % N := by rw [e1]
      rw [e2, Nat.mod_add_mod]
      have e3 : e + x + (N - e % N) = x + N * (e / N + 1) := by
        have := Nat.div_add_mod e N
        have := Nat.mod_lt e hN
        rw [Nat.mul_add, Nat.mul_one]
        omega
      rw [e3, Nat.add_mul_mod_self_left]
    have h4 := Nat.div_add_mod x N
    have h5 : x / N < 2 := Nat.div_lt_of_lt_mul (by omega)
    have h7 : ∀ q : Nat, q < 2 → q = 0 ∨ q = 1 := by omega
    rcases h7 _ h5 with h6 | h6
    · left; refine ⟨y, ?_⟩; rw [h1, ← h3]; rw [h6] at h4; simp only [Option.some.injEq, Prod.mk.injEq, and_true]; omega
    · right; refine ⟨y, ?_⟩; rw [h1, ← h3]; rw [h6] at h4; simp only [Option.some.injEq, Prod.mk.injEq, and_true]; omega
  have hfin : Finite EP := Nat.finite_of_card_ne_zero (by rw [card_EP]; omega)
  calc {R | GivesR e r R}.ncard ≤ _ := Set.ncard_le_ncard hsub2 (Set.toFinite _)
    _ ≤ _ := Set.ncard_union_le _ _
    _ ≤ 4 := by have := two x0; have := two (x0 + N); omega

/-- **C102** At most four keys fit a signature of a digest. -/
theorem C102_at_most_four (e : Nat) (r s : Int) : {Q : EP | ValidSig Q e r s}.ncard ≤ 4 := by
  by_cases hne : ∃ Q, ValidSig Q e r s
  swap
  · have : {Q : EP | ValidSig Q e r s} = ∅ := by
      ext Q; simp only [Set.mem_setOf_eq, Set.mem_empty_iff_false, iff_false]; exact fun h => hne ⟨Q, h⟩
    rw [this]; simp
  obtain ⟨Q0, h0⟩ := hne
  have hr := h0.1
  have hs := h0.2.1
  have ht := h0.2.2.1
  have hsub : {Q : EP | ValidSig Q e r s} ⊆ (fun R => invN ((r + s) % N).toNat • (R - s.toNat • Gp)) '' {R | GivesR e r R} := by
    intro Q hQ
    obtain ⟨R, h1, h2⟩ := (C102_keys_iff Q e r s hr hs ht).mp hQ
    exact ⟨R, h1, h2.symm⟩
  have hfin : Finite EP := Nat.finite_of_card_ne_zero (by rw [card_EP]; have := N_pos; omega)
  calc {Q : EP | ValidSig Q e r s}.ncard
      ≤ ((fun R => invN ((r + s) % N).toNat • (R - s.toNat • Gp)) '' {R | GivesR e r R}).ncard :=
        Set.ncard_le_ncard hsub (Set.toFinite _)
    _ ≤ {R | GivesR e r R}.ncard := Set.ncard_image_le (Set.toFinite _)
    _ ≤ 4 := givesR_card e r

theorem exists_pub (c : CurveId) (Q : EP) : ∃ pub : PublicKey, pub.curve = c ∧ Represents pub Q := by
  obtain ⟨k, -, rfl⟩ := exists_dlog Q
  have h := rep_scalarMult two_lt_P bF_ne rep_G (toBytes k)
  rw [ofBytes_toBytes] at h
  exact ⟨⟨c, (scalarMult P G (toBytes k)).1, (scalarMult P G (toBytes k)).2⟩, rfl, h⟩

/-- **C102** In terms of the API: whatever signature `VerifyDigestRS` accepts for a public key on the curve, it accepts for the same
digest under another one (a point of the curve, or infinity, written (0, 0)). -/
theorem C102_verifyDigest_other_key (pub : PublicKey) (Q : EP) (hQ : Represents pub Q) (digest : Bytes) (r s : Int)
    (h : verifyDigestRS pub digest r s = true) :
    ∃ pub' : PublicKey, pub'.curve = pub.curve ∧ (pub'.x, pub'.y) ≠ (pub.x, pub.y) ∧ verifyDigestRS pub' digest r s = true ∧
      (isOnCurve P B (pub'.x, pub'.y) = true ∨ (pub'.x, pub'.y) = (0, 0)) := by
  obtain ⟨hv, hx⟩ := (verifyDigestRS_iff hQ digest r s).mp h
  have h' := hv
  obtain ⟨hr, hs, ht, -⟩ := h'
  have hN := N_pos
  have ht' : ((r + s) % N).toNat % N ≠ 0 := by
    have h1 := Int.emod_nonneg (r + s) (b := (N : Int)) (by omega)
    have h2 := Int.emod_lt_of_pos (r + s) (b := (N : Int)) (by omega)
    rw [Nat.mod_eq_of_lt (by omega)]
    omega
  obtain ⟨R, ⟨x, y, h1, h2⟩, hR⟩ := (C102_keys_iff Q _ r s hr hs ht).mp hv
  have hvp : ∀ R : EP, vpoint (invN ((r + s) % N).toNat • (R - s.toNat • Gp)) r s = R := by
    intro R
    unfold vpoint
    rw [(invN_smul ht' _).1, add_sub_cancel]
  obtain ⟨y', h3⟩ := coords_neg h1
  obtain ⟨pub', hc, hp⟩ := exists_pub pub.curve (invN ((r + s) % N).toNat • (-R - s.toNat • Gp))
  have hv' := (C102_keys_iff _ (ofBytes digest) r s hr hs ht).mpr ⟨-R, ⟨x, y', h3, h2⟩, rfl⟩
  have hx0 : x ≠ 0 := hx x y (by rw [hR, hvp]; exact h1)
  refine ⟨pub', hc, ?_, (verifyDigestRS_iff hp digest r s).mpr ⟨hv', ?_⟩, ?_⟩
  · intro heq
    have hp2 : Rep bF (pub.x, pub.y) (invN ((r + s) % N).toNat • (-R - s.toNat • Gp)) := by rw [← heq]; exact hp
    have hQ2 : Q = _ := Rep.eq_of_eq bF_ne hQ hp2
    rw [hR] at hQ2
    have h4 := congrArg (fun Z => ((r + s) % N).toNat • Z) hQ2
    simp only [(invN_smul ht' _).1] at h4
    have h5 : R = -R := sub_left_injective h4
    have h6 : R = 0 := no_two_torsion R (by
      have : R + R = R - -R := by rw [sub_neg_eq_add]
      rw [this, ← h5, sub_self])
    subst h6
    cases h1
  · intro a b hab
    rw [hvp, h3] at hab
    simp only [Option.some.injEq, Prod.mk.injEq] at hab
    rw [← hab.1]; exact hx0
  · by_cases h0 : invN ((r + s) % N).toNat • (-R - s.toNat • Gp) = 0
    · right; exact (Rep.zero_iff bF_ne hp).mpr h0
    · left; exact (isOnCurve_rep (pub'.x, pub'.y)).mpr ⟨_, h0, hp⟩

/-- The nonce that 40 random octets give: their value modulo N - 1, plus one (GB/T 32918.2 asks for a number from 1 to N - 1). -/
def nonceOf (octets : Bytes) : Nat := ofBytes octets % (N - 1) + 1

/-- **C101** Random octets that are not repeated but related: if the nonces of two signatures with one key satisfy k' = a k + b modulo N for known a, b
(a counter, a linear congruential generator), the key is (a s + b - s') / (r' + s' - a (r + s)) modulo N, unless that divisor is 0. -/
theorem C101_related_randomness (rd rd' : Reader) (priv : PrivateKey) (digest digest' : Bytes) (r s r' s' : Int) (j j' : Nat)
    (hj : 40 * (j + 1) ≤ rd.length) (hj' : 40 * (j' + 1) ≤ rd'.length)
    (h : signDigestRS rd priv digest = .ok (r, s, rd.drop (40 * (j + 1))))
    (h' : signDigestRS rd' priv digest' = .ok (r', s', rd'.drop (40 * (j' + 1)))) (a b : ZMod N)
    (hk : (nonceOf ((rd'.drop (40 * j')).take 40) : ZMod N) = a * (nonceOf ((rd.drop (40 * j)).take 40) : ZMod N) + b)
    (hne : ((r' + s' : Int) : ZMod N) - a * ((r + s : Int) : ZMod N) ≠ 0) :
    (priv.d : ZMod N) = (a * (s : ZMod N) + b - (s' : ZMod N)) / (((r' + s' : Int) : ZMod N) - a * ((r + s : Int) : ZMod N)) := by
  obtain ⟨n1, e1⟩ := C101_known_randomness rd priv digest r s j hj h
  obtain ⟨n2, e2⟩ := C101_known_randomness rd' priv digest' r' s' j' hj' h'
  unfold nonceOf at hk
  rw [eq_div_iff n1] at e1
  rw [eq_div_iff n2, hk] at e2
  rw [eq_div_iff hne]
  linear_combination e2 - a * e1

/-- **C101** Two signers with different keys and the same random octets (a copied machine): each can compute the key of the other from the two
signatures and its own key. -/
theorem C101_shared_randomness (rd rd' : Reader) (priv priv' : PrivateKey) (digest digest' : Bytes) (r s r' s' : Int) (j j' : Nat)
    (hj : 40 * (j + 1) ≤ rd.length) (hj' : 40 * (j' + 1) ≤ rd'.length)
    (h : signDigestRS rd priv digest = .ok (r, s, rd.drop (40 * (j + 1))))
    (h' : signDigestRS rd' priv' digest' = .ok (r', s', rd'.drop (40 * (j' + 1))))
    (hk : (rd.drop (40 * j)).take 40 = (rd'.drop (40 * j')).take 40) :
    (priv'.d : ZMod N) = (((r + s : Int) : ZMod N) * (priv.d : ZMod N) + (s : ZMod N) - (s' : ZMod N)) / ((r' + s' : Int) : ZMod N) := by
  obtain ⟨n1, e1⟩ := C101_known_randomness rd priv digest r s j hj h
  obtain ⟨n2, e2⟩ := C101_known_randomness rd' priv' digest' r' s' j' hj' h'
  rw [eq_div_iff n1, hk] at e1
  rw [eq_div_iff n2] at e2 ⊢
  linear_combination e2 - e1

/-! ## Examples -/

theorem ex_two : (signDigestRS exRd exKey [1]).isOk = true ∧ (signDigestRS exRd exKey [2]).isOk = true := by
  decide +kernel

theorem ex_first (e : UInt8) (h : (signDigestRS exRd exKey [e]).isOk = true) :
    ∃ r s, signDigestRS exRd exKey [e] = .ok (r, s, exRd.drop 40) := by
  rcases C13_sign_spec exRd exKey [e] (by decide +kernel) with ⟨j, r, s, h1, h2, -⟩ | ⟨-, h2⟩
  · have hl : exRd.length = 40 := by decide +kernel
    have : j = 0 := by omega
    subst this
    exact ⟨_, _, h2⟩
  · rw [h2] at h; cases h

/-- The hypotheses of C101 are met: two signatures with the random octets of the standard's example. -/
example : ∃ r s r' s' : Int, signDigestRS exRd exKey [1] = .ok (r, s, exRd.drop 40) ∧
    signDigestRS exRd exKey [2] = .ok (r', s', exRd.drop 40) ∧
    (exKey.d : ZMod N) = ((s' - s : Int) : ZMod N) / ((r + s - (r' + s') : Int) : ZMod N) := by
  obtain ⟨r, s, h⟩ := ex_first 1 ex_two.1
  obtain ⟨r', s', h'⟩ := ex_first 2 ex_two.2
  exact ⟨r, s, r', s', h, h', (C101_repeated_randomness exRd exRd exKey [1] [2] r s r' s' (by decide +kernel) (by decide +kernel) rfl h h'
    (by decide +kernel)).2⟩

/-- A second random stream: the octets of the first with 3 added, so that the nonce is the first one plus 3. -/
def exRd3 : Reader := beBytes 40 (ofBytes exRd + 3)

/-- Both succeed with one reading, and the sums r + s differ modulo N. -/
def exDiffer : Bool :=
  match signDigestRS exRd exKey [1], signDigestRS exRd3 exKey [2] with
  | .ok (r, s, l), .ok (r', s', l') => l == exRd.drop 40 && l' == exRd3.drop 40 && !((r' + s' - (r + s)) % N == 0)
  | _, _ => false

theorem exDiffer_true : exDiffer = true := by decide +kernel

/-- The hypotheses of `C101_related_randomness` are met: a random source that counts up by 3. -/
theorem C101_related_case : ∃ r s r' s' : Int, signDigestRS exRd exKey [1] = .ok (r, s, exRd.drop 40) ∧
    signDigestRS exRd3 exKey [2] = .ok (r', s', exRd3.drop 40) ∧
    (nonceOf ((exRd3.drop 0).take 40) : ZMod N) = 1 * (nonceOf ((exRd.drop 0).take 40) : ZMod N) + 3 ∧
    ((r' + s' : Int) : ZMod N) - 1 * ((r + s : Int) : ZMod N) ≠ 0 := by
  have h := exDiffer_true
  unfold exDiffer at h
  split at h
  · rename_i r s l r' s' l' h1 h2
    simp only [Bool.and_eq_true, beq_iff_eq, Bool.not_eq_true', beq_eq_false_iff_ne] at h
    obtain ⟨⟨rfl, rfl⟩, h⟩ := h
    refine ⟨r, s, r', s', h1, h2, ?_, ?_⟩
    · have : nonceOf ((exRd3.drop 0).take 40) = nonceOf ((exRd.drop 0).take 40) + 3 := by decide +kernel
      rw [this]
      push_cast
      rw [one_mul]
    · rw [one_mul, ← Int.cast_sub, Ne, ZMod.intCast_zmod_eq_zero_iff_dvd]
      intro hd
      exact h (Int.emod_eq_zero_of_dvd hd)
  · cases h

/-- The hypotheses of C102 are met by the standard's example. -/
example : ∃ pub' : PublicKey, (pub'.x, pub'.y) ≠ (exKey.pub.x, exKey.pub.y) ∧ verifyDigestRS pub' exE
    0xF5A03B0648D2C4630EEAC513E1BB81A15944DA3827D5B74143AC7EACEEE720B3
    0xB1B6AA29DF212FD8763182BC0D421CA1BB9038FD1F7F42D4840B69C485BBC1AA = true := by
  obtain ⟨pub', -, h1, h2, -⟩ := C102_verifyDigest_other_key exKey.pub _ exKey_keyPair exE _ _
    (C06_sign_verify_partial exRd exKey exKey_keyPair exE _ _ [] (by rw [← exE_ok]; exact ex_signRS) (by decide +kernel))
  exact ⟨pub', h1, h2⟩

end MCrypto.Props
