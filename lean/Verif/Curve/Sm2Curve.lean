import Verif.Curve.Group
import Mathlib.GroupTheory.OrderOfElement
/-
The concrete curve sm2p256v1: on-curve test, base point and its order N, all checked by the kernel.
-/
namespace MCrypto.Curve
open MCrypto WeierstrassCurve

theorem two_lt_P : 2 < P := by decide +kernel
theorem one_lt_N : 1 < N := by decide +kernel
theorem N_lt_P : N < P := by decide +kernel
theorem P_lt : P < 256 ^ 32 := by decide +kernel
theorem N_lt : N < 256 ^ 32 := by decide +kernel
theorem A_eq : A = P - 3 := by decide +kernel

/-- The coefficient b as a field element. -/
def bF : ZMod P := (B : ZMod P)

theorem bF_ne : bF ≠ 0 := by
  unfold bF
  rw [Ne, ZMod.natCast_eq_zero_iff]
  intro h
  have := Nat.le_of_dvd (by decide +kernel) h
  revert this
  decide +kernel

/-- Points of sm2p256v1. -/
abbrev EP := (E P bF).Point

theorem disc_ne : (E P bF).Δ ≠ 0 := by
  have h1 : (E P bF).Δ = ((1728 + (P - 432 * (B * B) % P) : ℕ) : ZMod P) := by
    rw [Nat.cast_add, Nat.cast_sub (Nat.mod_lt _ P_prime.pos).le, ZMod.natCast_self, ZMod.natCast_mod]
    simp only [WeierstrassCurve.Δ, WeierstrassCurve.b₂, WeierstrassCurve.b₄, WeierstrassCurve.b₆,
      WeierstrassCurve.b₈, E, bF]
    push_cast
    ring
  rw [h1, Ne, ZMod.natCast_eq_zero_iff, Nat.dvd_iff_mod_eq_zero]
  decide +kernel

theorem isOnCurve_iff (x y : ℕ) :
    isOnCurve P B (x, y) = true ↔ x < P ∧ y < P ∧ (E P bF).Equation (x : ZMod P) (y : ZMod P) := by
  simp only [isOnCurve, Bool.and_eq_true, decide_eq_true_eq, and_assoc]
  refine and_congr_right fun _ => and_congr_right fun _ => ?_
  rw [E_equation, ← ZMod.natCast_eq_natCast_iff', Nat.cast_add, cast_fsub]
  simp only [Nat.cast_mul, bF]
  norm_num

/-- On-curve affine pairs are exactly the representations of finite points. -/
theorem isOnCurve_rep (q : Pt) : isOnCurve P B q = true ↔ ∃ A : EP, A ≠ 0 ∧ Rep bF q A := by
  obtain ⟨x, y⟩ := q
  rw [isOnCurve_iff]
  constructor
  · rintro ⟨hx, hy, h⟩
    have hn := (Affine.equation_iff_nonsingular_of_Δ_ne_zero disc_ne).mp h
    exact ⟨_, Affine.Point.some_ne_zero hn, Rep.some x y hx hy hn⟩
  · rintro ⟨A, hA, h⟩
    generalize hq : ((x, y) : Pt) = q at h
    cases h with
    | zero => exact absurd rfl hA
    | some x' y' hx hy hn =>
      obtain ⟨rfl, rfl⟩ := Prod.mk.inj hq
      exact ⟨hx, hy, hn.1⟩

theorem G_onCurve : isOnCurve P B G = true := by decide +kernel

theorem exists_G : ∃ A : EP, A ≠ 0 ∧ Rep bF G A := (isOnCurve_rep G).mp G_onCurve

/-- The base point as a group element. -/
noncomputable def Gp : EP := exists_G.choose
theorem Gp_ne : Gp ≠ 0 := exists_G.choose_spec.1
theorem rep_G : Rep bF G Gp := exists_G.choose_spec.2

/-- Kernel computation: [N]G is the point at infinity. -/
theorem smul_N_G : scalarMult P G (toBytes N) = (0, 0) := by decide +kernel

theorem N_smul_Gp : N • Gp = 0 := by
  have h := rep_scalarMult two_lt_P bF_ne rep_G (toBytes N)
  rw [ofBytes_toBytes] at h
  exact (Rep.zero_iff bF_ne h).mp smul_N_G

theorem addOrderOf_Gp : addOrderOf Gp = N :=
  addOrderOf_eq_prime N_smul_Gp Gp_ne

theorem nsmul_Gp_eq_zero_iff (k : ℕ) : k • Gp = 0 ↔ N ∣ k := by
  rw [← addOrderOf_Gp, addOrderOf_dvd_iff_nsmul_eq_zero]

theorem nsmul_Gp_eq_iff (j k : ℕ) : j • Gp = k • Gp ↔ j % N = k % N := by
  rw [← addOrderOf_Gp]; exact nsmul_inj_mod

end MCrypto.Curve
