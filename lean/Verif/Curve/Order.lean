import Verif.Curve.Sm2Curve
import Mathlib.GroupTheory.Perm.Cycle.Type
import Mathlib.GroupTheory.Coset.Card
/-
The group of points of sm2p256v1 has exactly N elements: it is generated by the base point.
Proof: at most 2P+1 < 3N points, N divides the order, and an order of 2N would give a point of
order two, i.e. a root of x³ - 3x + b, which a kernel computation of x^P modulo that cubic excludes.
-/
namespace MCrypto.Curve
open MCrypto WeierstrassCurve

/-- Polynomials of degree < 3 over F_P. -/
abbrev Tri := Nat × Nat × Nat

/-- Multiplication modulo x³ - 3x + b. -/
def mul3 (a c : Tri) : Tri :=
  let e3 := a.2.1 * c.2.2 + a.2.2 * c.2.1
  let e4 := a.2.2 * c.2.2
  ((a.1 * c.1 + (P - B) * e3) % P,
   (a.1 * c.2.1 + a.2.1 * c.1 + 3 * e3 + (P - B) * e4) % P,
   (a.1 * c.2.2 + a.2.1 * c.2.1 + a.2.2 * c.1 + 3 * e4) % P)

/-- Powers modulo x³ - 3x + b. -/
def pow3 : Nat → Tri → Nat → Tri
  | 0, _, _ => (1, 0, 0)
  | f + 1, a, n => if n = 0 then (1, 0, 0) else
    let h := pow3 f a (n / 2)
    let h2 := mul3 h h
    if n % 2 = 1 then mul3 h2 a else h2

/-- Value at a field element. -/
def ev (a : Tri) (α : ZMod P) : ZMod P := a.1 + a.2.1 * α + a.2.2 * α ^ 2

theorem B_le : B ≤ P := by decide +kernel

theorem ev_mul3 {α : ZMod P} (hα : α * α * α - 3 * α + bF = 0) (a c : Tri) :
    ev (mul3 a c) α = ev a α * ev c α := by
  unfold ev mul3 bF at *
  simp only [ZMod.natCast_mod, Nat.cast_add, Nat.cast_mul, Nat.cast_sub B_le, ZMod.natCast_self]
  push_cast
  generalize (B : ZMod P) = b at *
  generalize (a.1 : ZMod P) = a0
  generalize (a.2.1 : ZMod P) = a1
  generalize (a.2.2 : ZMod P) = a2
  generalize (c.1 : ZMod P) = c0
  generalize (c.2.1 : ZMod P) = c1
  generalize (c.2.2 : ZMod P) = c2
  linear_combination (-(a1 * c2 + a2 * c1) - a2 * c2 * α) * hα

theorem ev_pow3 {α : ZMod P} (hα : α * α * α - 3 * α + bF = 0) (f : Nat) (a : Tri) (n : Nat)
    (h : n < 2 ^ f) : ev (pow3 f a n) α = ev a α ^ n := by
  induction f generalizing n with
  | zero =>
    have : n = 0 := by simpa using h
    subst this
    simp [pow3, ev]
  | succ f ih =>
    rw [pow3]
    split
    · rename_i h0; subst h0; simp [ev]
    · have h2 := ih (n / 2) (by rw [pow_succ] at h; omega)
      dsimp only
      split
      · rename_i ho
        rw [ev_mul3 hα, ev_mul3 hα, h2, ← pow_add, ← pow_succ]
        congr 1; omega
      · rename_i ho
        rw [ev_mul3 hα, h2, ← pow_add]
        congr 1; omega

/-- x^P mod (x³ - 3x + b) -/
def frobX : Tri :=
  (0x359865aceb51b6bdbb593b2ef47adcfc3f45e863340cf767d4064d47e8c104f3,
   0x1a5d31e005823ce76ebd68c618616c3b124e72376ab0f34ef26c933456e8cc28,
   0x6533cd290a5724a12253626885c29181e05d0bcde5f9844c95fcd95c0b9f7d86)

/-- The inverse of x^P - x modulo x³ - 3x + b. -/
def frobInv : Tri :=
  (0xeb9539fb12a69fa8a00429afc717f1319f0c8d5b6b742939772c4ea8ae886749,
   0xbbea3c6e4f9890bc31aef1ce9abbeaf4847d5c84bfa4437849cb29256264e8b1,
   0x4eacc0d01f9e2a10d4f0056c0628ef26e06a3759ce9c5557561509c6fc21376f)

theorem frobX_ok : pow3 256 (0, 1, 0) P = frobX := by decide +kernel
theorem frobInv_ok : mul3 frobInv (frobX.1, frobX.2.1 + (P - 1), frobX.2.2) = (1, 0, 0) := by
  decide +kernel

/-- The cubic has no root in F_P. -/
theorem no_root (α : ZMod P) : α * α * α - 3 * α + bF ≠ 0 := by
  intro hα
  have h1 := ev_pow3 hα 256 (0, 1, 0) P (by decide +kernel)
  rw [frobX_ok] at h1
  have h2 : ev (0, 1, 0) α = α := by simp [ev]
  rw [h2, ZMod.pow_card] at h1
  have h3 := ev_mul3 hα frobInv (frobX.1, frobX.2.1 + (P - 1), frobX.2.2)
  rw [frobInv_ok] at h3
  have h4 : ev (frobX.1, frobX.2.1 + (P - 1), frobX.2.2) α = ev frobX α - α := by
    unfold ev
    have : 1 ≤ P := by have := two_lt_P; omega
    simp only [Nat.cast_add, Nat.cast_sub this, ZMod.natCast_self, Nat.cast_one]
    ring
  rw [h4, h1, sub_self, mul_zero] at h3
  simp [ev] at h3

/-- Injection of the points into infinity + (abscissa, half of the ordinate). -/
noncomputable def code : EP → Option (ZMod P × Bool)
  | .zero => none
  | .some x y _ => some (x, decide (y.val ≤ P / 2))

theorem P_odd : P % 2 = 1 := by decide +kernel

theorem code_inj : Function.Injective code := by
  intro a c h
  rcases a with _ | ⟨x, y, ha⟩ <;> rcases c with _ | ⟨x', y', hc⟩
  · rfl
  · simp [code] at h
  · simp [code] at h
  · simp only [code, Option.some.injEq, Prod.mk.injEq, decide_eq_decide] at h
    obtain ⟨rfl, h⟩ := h
    have e1 := (E_equation (b := bF) _ _).mp ha.1
    have e2 := (E_equation (b := bF) _ _).mp hc.1
    have e3 : y * y = y' * y' := by rw [e1, e2]
    rcases mul_self_eq_mul_self_iff.mp e3 with h1 | h1
    · subst h1; rfl
    · by_cases h0 : y' = 0
      · subst h0; rw [neg_zero] at h1; subst h1; rfl
      · exfalso
        have : NeZero y' := ⟨h0⟩
        rw [h1, ZMod.val_neg_of_ne_zero] at h
        have := ZMod.val_lt y'
        have := P_odd
        omega

instance : Finite EP := Finite.of_injective code code_inj
noncomputable instance : Fintype EP := Fintype.ofFinite EP

theorem card_le : Nat.card EP ≤ 2 * P + 1 := by
  have h := Nat.card_le_card_of_injective code code_inj
  have h2 : Nat.card (Option (ZMod P × Bool)) = 2 * P + 1 := by
    rw [Nat.card_eq_fintype_card, Fintype.card_option, Fintype.card_prod, ZMod.card, Fintype.card_bool]
    ring
  omega

/-- No point of order two. -/
theorem no_two_torsion (Q : EP) (h : Q + Q = 0) : Q = 0 := by
  rcases Q with _ | ⟨x, y, hn⟩
  · rfl
  · exfalso
    have hy : y = -y := by
      by_contra hne
      have hh : y ≠ (E P bF).negY x y := by rw [E_negY]; exact hne
      rw [Affine.Point.add_self_of_Y_ne hh] at h
      exact Affine.Point.some_ne_zero _ h
    have hy0 : y = 0 := by
      have h2 : (2 : ZMod P) * y = 0 := by linear_combination hy
      rcases mul_eq_zero.mp h2 with h3 | h3
      · exfalso
        have h4 : ((2 : ℕ) : ZMod P) = 0 := by exact_mod_cast h3
        rw [ZMod.natCast_eq_zero_iff] at h4
        have := Nat.le_of_dvd (by decide) h4
        have := two_lt_P
        omega
      · exact h3
    have e := (E_equation (b := bF) _ _).mp hn.1
    rw [hy0, mul_zero] at e
    exact no_root x e.symm

/-- The curve has exactly N points (cofactor 1). -/
theorem card_EP : Nat.card EP = N := by
  have h1 : N ∣ Nat.card EP := by
    rw [← addOrderOf_Gp]; exact addOrderOf_dvd_natCard Gp
  obtain ⟨c, hc⟩ := h1
  have h2 := card_le
  have h3 : 2 * P + 1 < N * 3 := by decide +kernel
  have hpos : 0 < Nat.card EP := Nat.card_pos
  have hc3 : c < 3 := by
    by_contra hh
    have : N * 3 ≤ N * c := Nat.mul_le_mul_left N (by omega)
    omega
  have hc0 : c ≠ 0 := by rintro rfl; omega
  have hc2 : c ≠ 2 := by
    rintro rfl
    have : Fact (Nat.Prime 2) := ⟨Nat.prime_two⟩
    obtain ⟨Q, hQ⟩ := exists_prime_addOrderOf_dvd_card' 2 (G := EP) (by rw [hc]; exact ⟨N, by ring⟩)
    have h4 : (2 : ℕ) • Q = 0 := by rw [← hQ]; exact addOrderOf_nsmul_eq_zero Q
    rw [two_nsmul] at h4
    have := no_two_torsion Q h4
    rw [this, addOrderOf_zero] at hQ
    omega
  have : c = 1 := by omega
  rw [hc, this, Nat.mul_one]

/-- Every point is a multiple of the base point. -/
theorem exists_dlog (Q : EP) : ∃ k, k < N ∧ Q = k • Gp := by
  have h : AddSubgroup.zmultiples Gp = ⊤ := by
    apply AddSubgroup.eq_top_of_card_eq
    rw [Nat.card_zmultiples, addOrderOf_Gp, card_EP]
  have hQ : Q ∈ AddSubgroup.zmultiples Gp := by rw [h]; trivial
  obtain ⟨k, hk⟩ := mem_zmultiples_iff_mem_range_addOrderOf.mp hQ |> Finset.mem_image.mp
  rw [addOrderOf_Gp] at hk
  exact ⟨k, Finset.mem_range.mp hk.1, hk.2.symm⟩

theorem N_smul (Q : EP) : N • Q = 0 := by
  obtain ⟨k, -, rfl⟩ := exists_dlog Q
  rw [← mul_smul, mul_comm, mul_smul, N_smul_Gp, nsmul_zero]

end MCrypto.Curve
