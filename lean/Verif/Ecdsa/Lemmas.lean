import Verif.Ecdsa.Model
import Verif.Ecdsa.Spec
import Verif.Ecdsa.Primes
import Verif.Props.Sm2Sign
/-
The model of crypto/ecdsa meets the specification of ECDSA.
-/
namespace MCrypto.Ecdsa
open MCrypto MCrypto.Curve MCrypto.X509 MCrypto.EcdsaSpec WeierstrassCurve

theorem leading_iff {c : CurveParams} (hn : 0 < c.n) (digest : Bytes) (e : Nat) : Leading c.n digest e ↔ e = hashToInt c digest := by
  have hb : Rsa.bitLen c.n = c.n.log2 + 1 := by unfold Rsa.bitLen; rw [if_neg (by omega)]
  have key : hashToInt c digest = if 8 * digest.length ≤ c.n.log2 + 1 then ofBytes digest
      else ofBytes digest / 2 ^ (8 * digest.length - (c.n.log2 + 1)) := by
    unfold hashToInt
    simp only [hb]
    generalize c.n.log2 + 1 = L
    by_cases h1 : digest.length > (L + 7) / 8
    · rw [if_pos h1, if_neg (by omega : ¬ 8 * digest.length ≤ L), List.length_take, Nat.min_eq_left (by omega)]
      have e1 : ofBytes (digest.take ((L + 7) / 8)) = ofBytes digest / 256 ^ (digest.length - (L + 7) / 8) := by
        have ha := ofBytes_append (digest.take ((L + 7) / 8)) (digest.drop ((L + 7) / 8))
        have hl := ofBytes_lt (digest.drop ((L + 7) / 8))
        rw [List.take_append_drop] at ha
        rw [List.length_drop] at hl ha
        rw [ha, Nat.add_comm (_ * _) _, Nat.add_mul_div_right _ _ (Nat.pow_pos (by omega)), Nat.div_eq_of_lt hl, Nat.zero_add]
      have e2 : (256 : Nat) = 2 ^ 8 := rfl
      split
      · rw [Nat.shiftRight_eq_div_pow, e1, Nat.div_div_eq_div_mul, e2, ← Nat.pow_mul, ← Nat.pow_add]
        congr 2; omega
      · rw [e1, e2, ← Nat.pow_mul]
        congr 2; omega
    · rw [if_neg h1]
      by_cases h2 : 8 * digest.length ≤ L
      · rw [if_pos h2, if_neg (by omega)]
      · rw [if_neg h2, if_pos (by omega), Nat.shiftRight_eq_div_pow]
        congr 2; omega
  have hlog : 2 ^ c.n.log2 ≤ c.n ∧ c.n < 2 ^ (c.n.log2 + 1) := ⟨Nat.log2_self_le (by omega), Nat.lt_log2_self⟩
  constructor
  · rintro ⟨L, h1, h2, rfl⟩
    have : L = c.n.log2 + 1 := by
      rcases h2 with rfl | h2
      · simp at h1; omega
      · have a1 := (Nat.pow_lt_pow_iff_right (a := 2) (by omega)).mp (hlog.1.trans_lt h1)
        have a2 := (Nat.pow_lt_pow_iff_right (a := 2) (by omega)).mp (h2.trans_lt hlog.2)
        omega
    rw [key, this]
  · rintro rfl
    exact ⟨_, hlog.2, .inr hlog.1, key⟩

section
variable {c : CurveParams} [Fact c.p.Prime]

theorem at_iff (q : Pt) (A : Points c) : At c q A ↔ A ≠ 0 ∧ Rep (coef c) q A := by
  obtain ⟨x, y⟩ := q
  constructor
  · rintro ⟨hx, hy, h, rfl⟩
    exact ⟨Affine.Point.some_ne_zero h, Rep.some x y hx hy h⟩
  · rintro ⟨h0, h⟩
    generalize hq : ((x, y) : Pt) = q at h
    cases h with
    | zero => exact absurd rfl h0
    | some x' y' hx hy hn =>
      obtain ⟨rfl, rfl⟩ := Prod.mk.inj hq
      exact ⟨hx, hy, hn, rfl⟩

theorem quotient_iff (h : Lawful c) {s : Nat} (h0 : 0 < s) (h1 : s < c.n) (x u : Nat) :
    (u < c.n ∧ s * u % c.n = x % c.n) ↔ u = x * finv c.n s % c.n := by
  haveI : Fact c.n.Prime := ⟨h.n_prime⟩
  have h2 := h.two_lt_n
  have hs : (s : ZMod c.n) ≠ 0 := by rw [Ne, cast_eq_zero_of_lt h1]; omega
  have hm := Nat.mod_lt (x * finv c.n s) h.n_prime.pos
  have e : s * u % c.n = x % c.n ↔ (u : ZMod c.n) = ((x * finv c.n s % c.n : ℕ) : ZMod c.n) := by
    rw [← ZMod.natCast_eq_natCast_iff', ZMod.natCast_mod, Nat.cast_mul, Nat.cast_mul, cast_finv h2, eq_mul_inv_iff_mul_eq₀ hs, mul_comm]
  rw [e]
  constructor
  · rintro ⟨a, b⟩; exact (cast_inj_of_lt a hm).mp b
  · rintro rfl; exact ⟨hm, rfl⟩

omit [Fact c.p.Prime] in
theorem verify_eq (q : Pt) (digest : Bytes) (r s : Int) : verify c q digest r s = true ↔ (0 < r ∧ r < c.n) ∧ (0 < s ∧ s < c.n) ∧
    ∃ u1 u2 pt, u1 = hashToInt c digest * finv c.n s.toNat % c.n ∧ u2 = r.toNat * finv c.n s.toNat % c.n ∧
      pt = add c.p (baseMult c (toBytes u1)) (scalarMult c.p q (toBytes u2)) ∧ pt ≠ (0, 0) ∧ pt.1 % c.n = r.toNat := by
  have key : ∀ (P Q : Prop) [Decidable P] [Decidable Q], (if P then false else decide Q) = true ↔ ¬ P ∧ Q := by
    intro P Q _ _
    by_cases h : P <;> simp [h]
  unfold verify
  by_cases h1 : r ≤ 0 ∨ s ≤ 0
  · rw [if_pos h1]
    exact ⟨(by intro h; cases h), (by rintro ⟨a, b, -⟩; omega)⟩
  rw [if_neg h1]
  by_cases h2 : r ≥ c.n ∨ s ≥ c.n
  · rw [if_pos h2]
    exact ⟨(by intro h; cases h), (by rintro ⟨a, b, -⟩; omega)⟩
  rw [if_neg h2]
  simp only []
  rw [key]
  constructor
  · rintro ⟨a, b⟩
    exact ⟨by omega, by omega, _, _, _, rfl, rfl, rfl, fun e => a (Prod.ext_iff.mp e), b⟩
  · rintro ⟨-, -, _, _, _, rfl, rfl, rfl, a, b⟩
    exact ⟨fun e => a (Prod.ext_iff.mpr e), b⟩

theorem cast_quotient (s u x n : Nat) : (s : Int) * u % n = (x : Int) % n ↔ s * u % n = x % n := by
  exact_mod_cast Iff.rfl

/-- `Verify` accepts exactly the signatures of ECDSA. -/
theorem verify_iff (h : Lawful c) {q : Pt} {Q : Points c} (hq : At c q Q) (digest : Bytes) (r s : Int) :
    verify c q digest r s = true ↔ Valid c Q digest r s := by
  have hn := h.n_prime.pos
  have hQ := (at_iff _ _).mp hq
  have hb := coef_ne h
  obtain ⟨G, g0, hG⟩ := exists_base h
  have hR : ∀ u1 u2, Rep (coef c) (add c.p (baseMult c (toBytes u1)) (scalarMult c.p q (toBytes u2))) (u1 • G + u2 • Q) := by
    intro u1 u2
    have a1 := rep_scalarMult h.two_lt hb hG (toBytes u1)
    have a2 := rep_scalarMult h.two_lt hb hQ.2 (toBytes u2)
    rw [ofBytes_toBytes] at a1 a2
    exact rep_add h.two_lt hb a1 a2
  rw [verify_eq]
  unfold Valid
  refine and_congr_right fun hr => and_congr_right fun hs => ?_
  obtain ⟨r, rfl⟩ := Int.eq_ofNat_of_zero_le (a := r) (by omega)
  obtain ⟨s, rfl⟩ := Int.eq_ofNat_of_zero_le (a := s) (by omega)
  rw [Int.toNat_natCast, Int.toNat_natCast]
  have hs1 : 0 < s := by omega
  have hs2 : s < c.n := by omega
  have er : r % c.n = r := Nat.mod_eq_of_lt (by omega)
  have er' : ((r : Nat) : Int) = (r : Int) % c.n := by exact_mod_cast er.symm
  constructor
  · rintro ⟨u1, u2, pt, h1, h2, h3, h4, h5⟩
    have hpt := hR u1 u2
    rw [← h3] at hpt
    refine ⟨G, pt, hashToInt c digest, u1, u2, (at_iff _ _).mpr ⟨g0, hG⟩, (leading_iff hn _ _).mpr rfl, ?_, ?_,
        (at_iff _ _).mpr ⟨fun e => h4 ((Rep.zero_iff hb hpt).mpr e), hpt⟩, ?_⟩
    · rw [cast_quotient]; exact (quotient_iff h hs1 hs2 _ _).mpr h1
    · have := (quotient_iff h hs1 hs2 r u2).mpr h2
      rw [← cast_quotient, ← er'] at this
      exact this
    · exact_mod_cast h5
  · rintro ⟨G', q', e, v1, v2, hG', he, hv1, hv2, hat, hx⟩
    obtain rfl : G' = G := Rep.eq_of_eq hb ((at_iff _ _).mp hG').2 hG
    rw [leading_iff hn] at he
    subst he
    rw [cast_quotient, quotient_iff h hs1 hs2] at hv1
    rw [er', cast_quotient, quotient_iff h hs1 hs2] at hv2
    have hat' := (at_iff _ _).mp hat
    have e := Rep.pt_eq hat'.2 (hR v1 v2)
    exact ⟨v1, v2, q', hv1, hv2, e, fun e => hat'.1 ((Rep.zero_iff hb hat'.2).mp e), by exact_mod_cast hx⟩

/-- What one round of `signGeneric` computes. -/
theorem made_iff (h : Lawful c) (d k : Nat) (digest : Bytes) (r s : Nat) : Made c d k digest r s ↔ (0 < k ∧ k < c.n) ∧
    r = (baseMult c (toBytes k)).1 % c.n ∧ r ≠ 0 ∧ s = (d * r + hashToInt c digest) * finv c.n k % c.n ∧ s ≠ 0 := by
  have hn := h.n_prime.pos
  have hb := coef_ne h
  obtain ⟨G, g0, hG⟩ := exists_base h
  have ho := order_base h g0 hG
  have hR : Rep (coef c) (baseMult c (toBytes k)) (k • G) := by
    have := rep_scalarMult h.two_lt hb hG (toBytes k)
    rw [ofBytes_toBytes] at this
    exact this
  have hk0 : (0 < k ∧ k < c.n) → k • G ≠ 0 := fun hk e => by
    have := addOrderOf_dvd_of_nsmul_eq_zero e
    rw [ho] at this
    have := Nat.le_of_dvd hk.1 this
    omega
  unfold Made
  constructor
  · rintro ⟨G', q, e, a1, hk, a3, a4, a5, a6, a7, a8⟩
    obtain rfl : G' = G := Rep.eq_of_eq hb ((at_iff _ _).mp a1).2 hG
    rw [leading_iff hn] at a6
    subst a6
    obtain rfl := Rep.pt_eq ((at_iff _ _).mp a3).2 hR
    refine ⟨hk, a4, by omega, ?_, by omega⟩
    refine (quotient_iff h hk.1 hk.2 _ _).mp ⟨a7.2, ?_⟩
    rw [a8, Nat.add_comm, Nat.mul_comm r d]
  · rintro ⟨hk, a1, a2, a3, a4⟩
    obtain ⟨b1, b2⟩ := (quotient_iff h hk.1 hk.2 _ _).mpr a3
    refine ⟨G, _, _, (at_iff _ _).mpr ⟨g0, hG⟩, hk, (at_iff _ _).mpr ⟨hk0 hk, hR⟩, a1, by omega, (leading_iff hn _ _).mpr rfl, ⟨by omega, b1⟩, ?_⟩
    rw [b2, Nat.add_comm, Nat.mul_comm r d]

/-- A signature made with the private number is valid under the public point. -/
theorem made_valid (h : Lawful c) {d k : Nat} {digest : Bytes} {r s : Nat} (hm : Made c d k digest r s) {G : Points c} (hG : At c c.g G) :
    Valid c (d • G) digest r s := by
  have hn := h.n_prime.pos
  haveI : Fact c.n.Prime := ⟨h.n_prime⟩
  obtain ⟨g0, hG'⟩ := (at_iff _ _).mp hG
  have ho := order_base h g0 hG'
  obtain ⟨G', q, e, a1, hk, a3, a4, a5, a6, a7, a8⟩ := hm
  obtain rfl : G' = G := Rep.eq_of_eq (coef_ne h) ((at_iff _ _).mp a1).2 hG'
  have hr : r < c.n := by rw [a4]; exact Nat.mod_lt _ hn
  obtain ⟨u1, hu1⟩ : ∃ u1, u1 = e * finv c.n s % c.n := ⟨_, rfl⟩
  obtain ⟨u2, hu2⟩ : ∃ u2, u2 = r * finv c.n s % c.n := ⟨_, rfl⟩
  obtain ⟨b1, b2⟩ := (quotient_iff h a7.1 a7.2 _ _).mpr hu1
  obtain ⟨b3, b4⟩ := (quotient_iff h a7.1 a7.2 _ _).mpr hu2
  have hs : (s : ZMod c.n) ≠ 0 := by rw [Ne, cast_eq_zero_of_lt a7.2]; omega
  have hp : u1 • G' + u2 • d • G' = k • G' := by
    rw [smul_smul, ← add_smul, ← sub_eq_zero]
    have : ((u1 + u2 * d : ℕ) : ZMod c.n) = k := by
      have c1 : (s : ZMod c.n) * u1 = e := by rw [← Nat.cast_mul, ZMod.natCast_eq_natCast_iff']; exact b2
      have c2 : (s : ZMod c.n) * u2 = r := by rw [← Nat.cast_mul, ZMod.natCast_eq_natCast_iff']; exact b4
      have c3 : (k : ZMod c.n) * s = e + r * d := by
        rw [← Nat.cast_mul, ← Nat.cast_mul, ← Nat.cast_add, ZMod.natCast_eq_natCast_iff']; exact a8
      have : (s : ZMod c.n) * ((u1 + u2 * d : ℕ) : ZMod c.n) = s * k := by
        push_cast
        rw [mul_add, c1, ← mul_assoc, c2, ← c3, mul_comm]
      exact mul_left_cancel₀ hs this
    rw [ZMod.natCast_eq_natCast_iff, ← ho] at this
    rw [nsmul_eq_nsmul_iff_modEq.mpr this, sub_self]
  refine ⟨by omega, by omega, G', q, e, u1, u2, hG, a6, ⟨b1, ?_⟩, ⟨b3, ?_⟩, ?_, ?_⟩
  · rw [cast_quotient]; exact b2
  · rw [Nat.mod_eq_of_lt hr] at b4; exact_mod_cast b4
  · rw [hp]; exact a3
  · exact_mod_cast a4.symm

/-- The other signature: with `s` replaced by its negative the point is the negative one, with the same first coordinate. -/
theorem valid_neg (h : Lawful c) {Q : Points c} (hQ : c.n • Q = 0) {digest : Bytes} {r s : Int} (hv : Valid c Q digest r s) :
    Valid c Q digest r (c.n - s) := by
  obtain ⟨hr, hs, G, q, e, u1, u2, a1, a2, ⟨a3, a4⟩, ⟨a5, a6⟩, a7, a8⟩ := hv
  have hn := h.n_prime.pos
  obtain ⟨g0, hG⟩ := (at_iff _ _).mp a1
  have hGn : c.n • G = 0 := by rw [← order_base h g0 hG]; exact addOrderOf_nsmul_eq_zero G
  have neg : ∀ (u : Nat) (A : Points c), u < c.n → c.n • A = 0 → ((c.n - u) % c.n) • A = -(u • A) := by
    intro u A hu hA
    have e : ((c.n - u) % c.n) • A = (c.n - u) • A := by
      conv_rhs => rw [← Nat.mod_add_div (c.n - u) c.n, add_smul, Nat.mul_comm, mul_smul, hA, nsmul_zero, add_zero]
    rw [e, eq_neg_iff_add_eq_zero, ← add_smul, Nat.sub_add_cancel hu.le, hA]
  have quo : ∀ (u x : Nat), u < c.n → s * u % c.n = (x : Int) % c.n → (c.n - s) * ((c.n - u) % c.n : ℕ) % c.n = (x : Int) % c.n := by
    intro u x hu hx
    rw [← hx]
    have : (((c.n - u) % c.n : ℕ) : Int) = ((c.n : Int) - u) % c.n := by
      rw [Int.natCast_mod, Nat.cast_sub hu.le]
    rw [this]
    refine (Int.ModEq.mul_left _ (Int.mod_modEq _ _)).trans ?_
    rw [Int.modEq_iff_dvd]
    exact ⟨s + u - c.n, by ring⟩
  obtain ⟨hx, hy, hns, hR⟩ := a7
  have er : (r : Int) = (r.toNat : Int) % c.n := by
    rw [Int.toNat_of_nonneg (by omega)]; exact (Int.emod_eq_of_lt (by omega) (by omega)).symm
  have hnegR : ((c.n - u1) % c.n) • G + ((c.n - u2) % c.n) • Q = -(u1 • G + u2 • Q) := by
    rw [neg u1 G a3 hGn, neg u2 Q a5 hQ, neg_add]
  refine ⟨hr, by omega, G, (q.1, fsub c.p 0 q.2), e, (c.n - u1) % c.n, (c.n - u2) % c.n, a1, a2, ⟨Nat.mod_lt _ hn, quo u1 e a3 a4⟩,
    ⟨Nat.mod_lt _ hn, ?_⟩, ?_, a8⟩
  · rw [er] at a6 ⊢
    exact quo u2 _ a5 a6
  · rw [hnegR, hR, Affine.Point.neg_some]
    refine ⟨hx, fsub_lt _ _, ?_⟩
    have ey : ((fsub c.p 0 q.2 : ℕ) : ZMod c.p) = (E c.p (coef c)).negY (q.1 : ZMod c.p) (q.2 : ZMod c.p) := by
      rw [cast_fsub, E_negY]; simp
    refine ⟨?_, ?_⟩
    · show (E c.p (coef c)).Nonsingular (q.1 : ZMod c.p) ((fsub c.p 0 q.2 : ℕ) : ZMod c.p)
      rw [ey]; exact (Affine.nonsingular_neg _ _).mpr hns
    · simp only [Affine.Point.some.injEq, true_and]
      exact ey.symm

end
end MCrypto.Ecdsa
