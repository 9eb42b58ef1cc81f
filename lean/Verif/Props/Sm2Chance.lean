import Verif.Props.Sm2Prob
import Mathlib.Tactic.Positivity
/-
C142: the probabilities (counting over all strings of the octets read; `count` in Sm2Prob.lean).
-/
namespace MCrypto.Props
open MCrypto MCrypto.Sm2 MCrypto.Sm2Spec MCrypto.Curve

/-! ### the nonce of one attempt -/

theorem nextk_exact {b : Bytes} (h : b.length = 40) (k : Nat) : nextk b = .ok (k, []) ↔ ofBytes b % (N - 1) + 1 = k := by
  rw [nextk_ok (by omega), List.take_of_length_le (by omega), List.drop_of_length_le (by omega)]
  simp only [Res.ok.injEq, Prod.mk.injEq, and_true]

/-- **C142** The exact number of 40-octet strings that give the nonce `k`: all of [1, N-1] are hit
equally often, up to one. -/
theorem C142_nonce (k : Nat) (h1 : 1 ≤ k) (h2 : k ≤ N - 1) :
    count 40 (fun b => nextk b = .ok (k, [])) = 256 ^ 40 / (N - 1) + if k - 1 < 256 ^ 40 % (N - 1) then 1 else 0 := by
  rw [← count_nextk k h1 h2]
  exact count_congr fun b hb => nextk_exact hb k

/-- **C142** The distance of the nonce from the uniform distribution on [1, N-1] is at most 2⁻⁶⁴: no
set of nonces is more or less likely than its share by more than that. -/
theorem C142_uniform (S : Finset Nat) (hS : ∀ k ∈ S, 1 ≤ k ∧ k ≤ N - 1) :
    |(count 40 (fun b => ∃ k ∈ S, nextk b = .ok (k, [])) : ℚ) / 256 ^ 40 - S.card / ((N - 1 : Nat) : ℚ)| ≤ 1 / 2 ^ 64 := by
  have hN := one_lt_N
  obtain ⟨h1, h2⟩ := count_nonce_set S hS
  have e : count 40 (fun b => ∃ k ∈ S, nextk b = .ok (k, [])) = count 40 (fun b => ofBytes b % (N - 1) + 1 ∈ S) := by
    refine count_congr fun b hb => ?_
    constructor
    · rintro ⟨k, hk, h⟩; rw [(nextk_exact hb k).mp h]; exact hk
    · intro h; exact ⟨_, h, (nextk_exact hb _).mpr rfl⟩
  rw [e]
  generalize count 40 (fun b => ofBytes b % (N - 1) + 1 ∈ S) = c at h1 h2
  have hc : S.card ≤ N - 1 := by
    have : S ⊆ Finset.Icc 1 (N - 1) := fun k hk => Finset.mem_Icc.mpr (hS k hk)
    have := Finset.card_le_card this
    rwa [Nat.card_Icc, Nat.add_sub_cancel] at this
  have hM2 : (N - 1) * 2 ^ 64 ≤ 256 ^ 40 := by decide +kernel
  have hM : 0 < N - 1 := by omega
  unfold perNonce at h2
  generalize hMd : N - 1 = M at *
  generalize hT : 256 ^ 40 = T at *
  have hdm := Nat.div_add_mod T M
  have hml := Nat.mod_lt T hM
  have hTpos : 0 < T := lt_of_lt_of_le (Nat.mul_pos hM (by decide)) hM2
  have hTc : ((256 : ℚ) ^ 40) = (T : ℚ) := by rw [← hT]; norm_num
  rw [hTc]
  generalize hq : T / M = q at *
  -- the two bounds over the integers
  have b1 : S.card * T ≤ c * M + S.card * M := by
    have : S.card * T ≤ S.card * (M * q + M) := Nat.mul_le_mul_left _ (by omega)
    have := Nat.mul_le_mul_right M h1
    nlinarith
  have b2 : c * M ≤ S.card * T + S.card * M := by
    have := Nat.mul_le_mul_right M h2
    have : S.card * (M * q) ≤ S.card * T := Nat.mul_le_mul_left _ (by omega)
    nlinarith
  have hMq : (0 : ℚ) < M := by exact_mod_cast hM
  have hTq : (0 : ℚ) < T := by exact_mod_cast hTpos
  have b1q : (S.card : ℚ) * T ≤ c * M + S.card * M := by exact_mod_cast b1
  have b2q : (c : ℚ) * M ≤ S.card * T + S.card * M := by exact_mod_cast b2
  have hcq : (S.card : ℚ) ≤ M := by exact_mod_cast hc
  have hM2q : (M : ℚ) * 2 ^ 64 ≤ T := by exact_mod_cast hM2
  rw [div_sub_div _ _ hTq.ne' hMq.ne', abs_div, abs_of_pos (mul_pos hTq hMq), div_le_div_iff₀ (mul_pos hTq hMq) (by positivity)]
  have habs : |(c : ℚ) * M - T * S.card| ≤ S.card * M := by
    rw [abs_le]; constructor <;> linarith
  calc |(c : ℚ) * M - T * S.card| * (2 ^ 64 : ℚ) ≤ ((S.card : ℚ) * M) * (2 ^ 64 : ℚ) := by gcongr
    _ ≤ ((M : ℚ) * M) * (2 ^ 64 : ℚ) := by gcongr
    _ = ((M : ℚ) * 2 ^ 64) * M := by ring
    _ ≤ (T : ℚ) * M := by gcongr
    _ = 1 * ((T : ℚ) * M) := by ring

theorem perNonce_le : perNonce ≤ 2 ^ 65 := by decide +kernel

/-- The bound for `n` attempts as a share of all streams. -/
theorem share {n c m t : Nat} (h : c ≤ n * (m * perNonce) * 256 ^ (40 * n - 40)) (ht : m * perNonce * t ≤ 256 ^ 40) :
    c * t ≤ n * 256 ^ (40 * n) := by
  cases n with
  | zero =>
    rw [Nat.zero_mul, Nat.zero_mul] at h
    rw [Nat.le_zero.mp h]; simp
  | succ n =>
    have e : 40 * (n + 1) - 40 = 40 * n := by omega
    rw [e] at h
    calc c * t ≤ ((n + 1) * (m * perNonce) * 256 ^ (40 * n)) * t := Nat.mul_le_mul_right _ h
      _ = (n + 1) * 256 ^ (40 * n) * (m * perNonce * t) := by ring
      _ ≤ (n + 1) * 256 ^ (40 * n) * 256 ^ 40 := Nat.mul_le_mul_left _ ht
      _ = (n + 1) * 256 ^ (40 * (n + 1)) := by rw [Nat.mul_assoc, ← pow_add]; congr 2

/-! ### signing -/

theorem nonces_x (x : Nat) : {k : Nat | (1 ≤ k ∧ k ≤ N - 1) ∧ ∃ y, coords (k • Gp) = some (x, y)}.ncard ≤ 2 :=
  (nonces_le_points _ (fun R => ∃ y, coords R = some (x, y)) fun _ _ _ h => h).trans (points_x x)

/-- **C142** Signing a digest with a key pair and getting a signature the package then rejects
(possible, C06) happens for at most `n·2⁻²⁵⁴` of the streams of `n` attempts. -/
theorem C142_sign_verify (priv : PrivateKey) (hk : KeyPair priv) (digest : Bytes) (n : Nat) :
    count (40 * n) (fun b => ∃ r s rd', signDigestRS b priv digest = .ok (r, s, rd') ∧ verifyDigestRS priv.pub digest r s = false) * 2 ^ 254
      ≤ n * 256 ^ (40 * n) := by
  refine share (m := 2) (le_trans (count_mono fun b hb => ?_) (count_attempts n (fun k => ∃ y, coords (k • Gp) = some (0, y)) 2 (nonces_x 0))) ?_
  · rintro ⟨r, s, rd', h1, h2⟩
    obtain ⟨j, g1, -, g3⟩ := C06_verifies_iff b priv hk digest r s rd' h1
    refine ⟨j, by omega, ?_⟩
    obtain ⟨y, hy⟩ := coords_nonce b j
    have : xOf (nonce b j) = 0 := by
      by_contra hne
      rw [g3.mpr hne] at h2
      cases h2
    rw [this] at hy
    exact ⟨y, hy⟩
  · decide +kernel

/-- **C142** The same for messages: what `Sign` returns, `Verify` accepts, except for at most
`n·2⁻²⁵⁴` of the streams of `n` attempts. -/
theorem C142_message_verify (priv : PrivateKey) (hk : KeyPair priv) (msg uid : Bytes) (n : Nat) :
    count (40 * n) (fun b => ∃ sig, sign b priv msg uid = .ok sig ∧ verify priv.pub msg uid sig = false) * 2 ^ 254
      ≤ n * 256 ^ (40 * n) := by
  refine le_trans (Nat.mul_le_mul_right _ (count_mono fun b hb => ?_)) (C142_sign_verify priv hk (priv.pub.sm3Digest msg uid) n)
  rintro ⟨sig, h1, h2⟩
  obtain ⟨r, s, rd', h3, h4⟩ := sign_cases h1
  refine ⟨r, s, rd', h3, ?_⟩
  unfold verify at h2
  rw [h4] at h2
  exact h2

/-- **C142** No signature is likelier than `n·2⁻²⁵⁵`: a signature fixes its nonce. -/
theorem C142_signature (priv : PrivateKey) (digest : Bytes) (r s : Int) (n : Nat) :
    count (40 * n) (fun b => ∃ rd', signDigestRS b priv digest = .ok (r, s, rd')) * 2 ^ 255 ≤ n * 256 ^ (40 * n) := by
  refine share (m := 1) (le_trans (count_mono fun b hb => ?_)
    (count_attempts n (fun k => s.toNat • Gp + ((r + s) % N).toNat • (priv.d • Gp) = k • Gp) 1 ?_)) ?_
  · rintro ⟨rd', h1⟩
    obtain ⟨-, j, g1, -, g3, -⟩ := signDigestRS_valid h1
    exact ⟨j, by omega, g3⟩
  · refine (nonces_le_points _ (fun R => s.toNat • Gp + ((r + s) % N).toNat • (priv.d • Gp) = R) fun _ _ _ h => h).trans ?_
    rw [show {R : EP | s.toNat • Gp + ((r + s) % N).toNat • (priv.d • Gp) = R} = {s.toNat • Gp + ((r + s) % N).toNat • (priv.d • Gp)} from by
      ext R; simp only [Set.mem_setOf_eq, Set.mem_singleton_iff]; exact eq_comm, Set.ncard_singleton]
  · decide +kernel

/-- A valid signature is the one of exactly one nonce. -/
theorem signature_nonce (priv : PrivateKey) (hd : (priv.d + 1) % N ≠ 0) (digest : Bytes) (r s : Int)
    (hv : ValidSig (priv.d • Gp) (ofBytes digest) r s) :
    ∃ k, 1 ≤ k ∧ k ≤ N - 1 ∧ ∀ b : Bytes, b.length = 40 → (signDigestRS b priv digest = .ok (r, s, []) ↔ nextk b = .ok (k, [])) := by
  have hN := one_lt_N
  obtain ⟨hr, hs, hsum, x1, y1, hc, hx⟩ := hv
  rw [kOf_point] at hc
  have hcast := kOf_cast (d := priv.d) (r := r) hs.1
  let k := kOf priv.d r s % N
  have hkc : (k : ZMod N) = kOf priv.d r s := ZMod.natCast_mod _ _
  have hkp : k • Gp = kOf priv.d r s • Gp := smul_eq_cast.mpr hkc
  rw [← hkp] at hc
  have hkN : k < N := Nat.mod_lt _ (by omega)
  have hk0 : k ≠ 0 := by
    intro h0
    rw [h0, zero_nsmul] at hc
    cases hc
  have hx1 := xOf_coords hc
  have hsr : ((s.toNat : Nat) : ZMod N) = (s : ZMod N) := by rw [← Int.cast_natCast, Int.toNat_of_nonneg (by omega)]
  have hrr : ((r.toNat : Nat) : ZMod N) = (r : ZMod N) := by rw [← Int.cast_natCast, Int.toNat_of_nonneg (by omega)]
  have hreq : r.toNat = (ofBytes digest + xOf k) % N := by rw [hx1]; omega
  have hsig : SigEq priv.d k r.toNat s.toNat := by
    refine ⟨by omega, ?_⟩
    rw [← ZMod.natCast_eq_natCast_iff', hkc, hcast]
    push_cast
    rw [hsr, hrr]
  have hgood : goodNonce (ofBytes digest) k := by
    unfold goodNonce
    rw [← hreq]
    refine ⟨by omega, ?_⟩
    intro hh
    have h1 : ((r.toNat + k : Nat) : ZMod N) = 0 := by rw [hh]; exact ZMod.natCast_self N
    push_cast at h1
    rw [hkc, hcast, hrr] at h1
    have h2 : (1 + (priv.d : ZMod N)) * ((r : ZMod N) + s) = 0 := by linear_combination h1
    rcases mul_eq_zero.mp h2 with h3 | h3
    · exact d_cast_ne hd h3
    · apply hsum
      have h4 : ((r + s : Int) : ZMod N) = 0 := by push_cast; exact h3
      rw [ZMod.intCast_zmod_eq_zero_iff_dvd] at h4
      exact Int.emod_eq_zero_of_dvd h4
  refine ⟨k, by omega, by omega, fun b hb => ?_⟩
  rw [nextk_exact hb]
  have hnon : nonce b 0 = ofBytes b % (N - 1) + 1 := by rw [nonce_zero, List.take_of_length_le (by omega)]
  rw [← hnon]
  constructor
  · intro h
    obtain ⟨-, j, g1, -, g3, -⟩ := signDigestRS_valid h
    have : j = 0 := by omega
    subst this
    unfold vpoint at g3
    rw [kOf_point, ← hkp] at g3
    have e := smul_eq_cast.mp g3
    have hr0 := nonce_range b 0
    rw [ZMod.natCast_eq_natCast_iff', Nat.mod_eq_of_lt hkN, Nat.mod_eq_of_lt (by omega)] at e
    exact e.symm
  · intro h
    rcases C13_sign_spec b priv digest hd with ⟨j, r', s', g1, g2, g3, g4, g5, g6, g7, g8⟩ | ⟨g1, -⟩
    · have : j = 0 := by omega
      subst this
      rw [h] at g3 g6
      rw [← hreq] at g3
      subst g3
      have e := sigEq_unique hd hsig g6
      rw [g2, ← e, Int.toNat_of_nonneg (by omega), Int.toNat_of_nonneg (by omega), List.drop_of_length_le (by omega)]
    · refine absurd ⟨?_, ?_⟩ (g1 0 (by omega))
      · rw [h]; exact hgood
      · rw [h, ← hreq]
        intro h0
        have := sigEq_unique hd hsig h0
        omega

/-- **C142** Signing chooses uniformly among the valid signatures: with one attempt, each valid signature of the digest is returned for
⌊2³²⁰/(N-1)⌋ of the random strings or one more, and nothing else is ever returned. So up to one string in 2⁶⁴ per
signature the result is distributed as a function of the public key and the digest only. -/
theorem C142_signature_uniform (priv : PrivateKey) (hd : (priv.d + 1) % N ≠ 0) (digest : Bytes) (r s : Int) :
    (ValidSig (priv.d • Gp) (ofBytes digest) r s →
      count 40 (fun b => signDigestRS b priv digest = .ok (r, s, [])) = 256 ^ 40 / (N - 1) ∨
      count 40 (fun b => signDigestRS b priv digest = .ok (r, s, [])) = 256 ^ 40 / (N - 1) + 1) ∧
    (¬ ValidSig (priv.d • Gp) (ofBytes digest) r s → count 40 (fun b => signDigestRS b priv digest = .ok (r, s, [])) = 0) := by
  constructor
  · intro hv
    obtain ⟨k, h1, h2, h3⟩ := signature_nonce priv hd digest r s hv
    rw [count_congr h3, C142_nonce k h1 h2]
    split
    · exact Or.inr rfl
    · exact Or.inl rfl
  · intro hv
    unfold count
    rw [Set.ncard_eq_zero (strings_finite _ _)]
    ext b
    simp only [Set.mem_setOf_eq, Set.mem_empty_iff_false, iff_false]
    rintro ⟨-, h⟩
    exact hv (C06_sign_valid _ _ _ _ _ _ h)

/-! ### repeated nonces -/

theorem count_fiber (a m M : Nat) (Q : Bytes → Bytes → Prop) (h : ∀ u : Bytes, u.length = a → count m (Q u) ≤ M) :
    count (a + m) (fun b => Q (b.take a) (b.drop a)) ≤ M * 256 ^ a := by
  classical
  have hf := strings_finite (a + m) (fun b => Q (b.take a) (b.drop a))
  have hall := strings_finite a (fun _ => True)
  unfold count
  rw [Set.ncard_eq_toFinset_card _ hf]
  refine (Finset.card_le_mul_card_image (f := fun b : Bytes => b.take a) hf.toFinset M ?_).trans ?_
  · intro u hu
    obtain ⟨b, hb, rfl⟩ := Finset.mem_image.mp hu
    rw [Set.Finite.mem_toFinset] at hb
    have hl : (b.take a).length = a := by rw [List.length_take]; have := hb.1; omega
    refine le_trans ?_ (h (b.take a) hl)
    unfold count
    rw [← Set.ncard_coe_finset]
    refine Set.ncard_le_ncard_of_injOn (fun c : Bytes => c.drop a) ?_ ?_ (strings_finite m _)
    · intro c hc
      simp only [Finset.coe_filter, Set.Finite.mem_toFinset, Set.mem_setOf_eq] at hc
      refine ⟨by rw [List.length_drop, hc.1.1]; omega, ?_⟩
      have := hc.1.2
      rw [hc.2] at this
      exact this
    · intro c hc d hd hcd
      simp only [Finset.coe_filter, Set.Finite.mem_toFinset, Set.mem_setOf_eq] at hc hd
      rw [← List.take_append_drop a c, ← List.take_append_drop a d, hc.2, hd.2]
      exact congrArg _ hcd
  · refine Nat.mul_le_mul_left _ ?_
    rw [← count_all a]
    unfold count
    rw [Set.ncard_eq_toFinset_card _ hall]
    refine Finset.card_le_card fun u hu => ?_
    obtain ⟨b, hb, rfl⟩ := Finset.mem_image.mp hu
    rw [Set.Finite.mem_toFinset] at hb ⊢
    refine ⟨?_, trivial⟩
    rw [List.length_take]; have := hb.1; omega

theorem pair_repeat (n i j : Nat) (hij : i < j) (hj : j < n) :
    count (40 * n) (fun b => nonce b i = nonce b j) ≤ perNonce * 256 ^ (40 * n - 40) := by
  have e : 40 * n = 40 * j + (40 * n - 40 * j) := by omega
  have h := count_fiber (40 * j) (40 * n - 40 * j) (perNonce * 256 ^ (40 * n - 40 * j - 40))
    (fun u v => nonce u i = ofBytes ((v.drop 0).take 40) % (N - 1) + 1) ?_
  · rw [← e] at h
    refine le_trans (count_mono fun b hb hh => ?_) (h.trans (Nat.le_of_eq ?_))
    · unfold nonce at hh ⊢
      rw [List.drop_zero, ← hh]
      rw [List.drop_take, List.take_take, Nat.min_eq_left (by omega)]
    · rw [Nat.mul_assoc, ← pow_add]
      congr 2
      omega
  · intro u hu
    have h2 := count_chunk 40 0 (40 * n - 40 * j) (by omega) (fun b => nonce u i = ofBytes b % (N - 1) + 1)
    rw [h2]
    refine Nat.mul_le_mul_right _ ?_
    have h3 := count_nonce_le (fun k => nonce u i = k) 1 ?_
    · rw [Nat.one_mul] at h3; exact h3
    · refine le_trans (Set.ncard_le_ncard (t := {nonce u i}) ?_ (Set.finite_singleton _)) (by rw [Set.ncard_singleton])
      rintro k ⟨-, h⟩
      exact h.symm

/-- **C142** Among `n` nonces read from one stream two are equal (which reveals the key, C101) for at
most `n²·2⁻²⁵⁵` of the streams. -/
theorem C142_repeats (n : Nat) :
    count (40 * n) (fun b => ∃ i j, i < j ∧ j < n ∧ nonce b i = nonce b j) * 2 ^ 255 ≤ n * n * 256 ^ (40 * n) := by
  have inner : ∀ j, j < n → ∀ t, t ≤ j → count (40 * n) (fun b => ∃ i, i < t ∧ nonce b i = nonce b j) ≤ t * (perNonce * 256 ^ (40 * n - 40)) := by
    intro j hj t
    induction t with
    | zero =>
      intro _
      have : count (40 * n) (fun b => ∃ i, i < 0 ∧ nonce b i = nonce b j) = 0 := by unfold count; simp
      rw [this]; exact Nat.zero_le _
    | succ t ih =>
      intro ht
      refine le_trans (count_mono fun b _ hb => ?_) ((count_or (fun b => ∃ i, i < t ∧ nonce b i = nonce b j) (fun b => nonce b t = nonce b j)).trans ?_)
      · obtain ⟨i, h1, h2⟩ := hb
        rcases Nat.lt_succ_iff_lt_or_eq.mp h1 with h3 | rfl
        · exact Or.inl ⟨i, h3, h2⟩
        · exact Or.inr h2
      · rw [Nat.add_mul, Nat.one_mul]
        exact Nat.add_le_add (ih (by omega)) (pair_repeat n t j (by omega) hj)
  have outer : ∀ t, t ≤ n → count (40 * n) (fun b => ∃ i j, i < j ∧ j < t ∧ nonce b i = nonce b j) ≤ t * (n * (perNonce * 256 ^ (40 * n - 40))) := by
    intro t
    induction t with
    | zero =>
      intro _
      have : count (40 * n) (fun b => ∃ i j, i < j ∧ j < 0 ∧ nonce b i = nonce b j) = 0 := by unfold count; simp
      rw [this]; exact Nat.zero_le _
    | succ t ih =>
      intro ht
      refine le_trans (count_mono fun b _ hb => ?_)
        ((count_or (fun b => ∃ i j, i < j ∧ j < t ∧ nonce b i = nonce b j) (fun b => ∃ i, i < t ∧ nonce b i = nonce b t)).trans ?_)
      · obtain ⟨i, j, h1, h2, h3⟩ := hb
        rcases Nat.lt_succ_iff_lt_or_eq.mp h2 with h4 | rfl
        · exact Or.inl ⟨i, j, h1, h4, h3⟩
        · exact Or.inr ⟨i, h1, h3⟩
      · rw [Nat.add_mul, Nat.one_mul]
        exact Nat.add_le_add (ih (by omega)) ((inner t (by omega) t le_rfl).trans (Nat.mul_le_mul_right _ (by omega)))
  have h := outer n le_rfl
  have h' : count (40 * n) (fun b => ∃ i j, i < j ∧ j < n ∧ nonce b i = nonce b j) ≤ n * (n * perNonce) * 256 ^ (40 * n - 40) := by
    refine h.trans (Nat.le_of_eq ?_); ring
  cases n with
  | zero =>
    rw [Nat.zero_mul, Nat.zero_mul] at h'
    rw [Nat.le_zero.mp h', Nat.zero_mul]; exact Nat.zero_le _
  | succ n =>
    have e : 40 * (n + 1) - 40 = 40 * n := by omega
    rw [e] at h'
    have hp : perNonce * 2 ^ 255 ≤ 256 ^ 40 := by decide +kernel
    calc _ ≤ ((n + 1) * ((n + 1) * perNonce) * 256 ^ (40 * n)) * 2 ^ 255 := Nat.mul_le_mul_right _ h'
      _ = (n + 1) * (n + 1) * 256 ^ (40 * n) * (perNonce * 2 ^ 255) := by ring
      _ ≤ (n + 1) * (n + 1) * 256 ^ (40 * n) * 256 ^ 40 := Nat.mul_le_mul_left _ hp
      _ = (n + 1) * (n + 1) * 256 ^ (40 * (n + 1)) := by rw [Nat.mul_assoc, ← pow_add]; congr 2

end MCrypto.Props
