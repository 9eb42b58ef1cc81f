import Verif.X509.Curves
import Verif.Curve.Sm2Curve
/-
What a curve of crypto/elliptic must satisfy for ECDSA, and its consequences on Mathlib's group of points.
-/
namespace MCrypto.Ecdsa
open MCrypto MCrypto.Curve MCrypto.X509 WeierstrassCurve

/-- The parameters are those of a group of prime order on a curve y² = x³ - 3x + b without singular points. -/
structure Lawful (c : CurveParams) : Prop where
  p_prime : c.p.Prime
  two_lt : 2 < c.p
  n_prime : c.n.Prime
  two_lt_n : 2 < c.n
  b_ne : c.b % c.p ≠ 0
  disc : (1728 + (c.p - 432 * (c.b * c.b) % c.p)) % c.p ≠ 0
  onG : isOnCurve c.p c.b c.g = true
  order : scalarMult c.p c.g (toBytes c.n) = (0, 0)

section
variable {c : CurveParams} [Fact c.p.Prime]

/-- The coefficient b as a field element. -/
abbrev coef (c : CurveParams) : ZMod c.p := (c.b : ZMod c.p)

/-- The points of the curve. -/
abbrev Pts (c : CurveParams) [Fact c.p.Prime] := (E c.p (coef c)).Point

theorem coef_ne (h : Lawful c) : coef c ≠ 0 := by
  unfold coef
  rw [Ne, ZMod.natCast_eq_zero_iff, Nat.dvd_iff_mod_eq_zero]
  exact h.b_ne

theorem disc_ne (h : Lawful c) : (E c.p (coef c)).Δ ≠ 0 := by
  have h1 : (E c.p (coef c)).Δ = ((1728 + (c.p - 432 * (c.b * c.b) % c.p) : ℕ) : ZMod c.p) := by
    rw [Nat.cast_add, Nat.cast_sub (Nat.mod_lt _ h.p_prime.pos).le, ZMod.natCast_self, ZMod.natCast_mod]
    simp only [WeierstrassCurve.Δ, WeierstrassCurve.b₂, WeierstrassCurve.b₄, WeierstrassCurve.b₆,
      WeierstrassCurve.b₈, E, coef]
    push_cast
    ring
  rw [h1, Ne, ZMod.natCast_eq_zero_iff, Nat.dvd_iff_mod_eq_zero]
  exact h.disc

theorem isOnCurve_iff (x y : ℕ) :
    isOnCurve c.p c.b (x, y) = true ↔ x < c.p ∧ y < c.p ∧ (E c.p (coef c)).Equation (x : ZMod c.p) (y : ZMod c.p) := by
  simp only [isOnCurve, Bool.and_eq_true, decide_eq_true_eq, and_assoc]
  refine and_congr_right fun _ => and_congr_right fun _ => ?_
  rw [E_equation, ← ZMod.natCast_eq_natCast_iff', Nat.cast_add, cast_fsub]
  simp only [Nat.cast_mul, coef]
  norm_num

theorem isOnCurve_rep (h : Lawful c) (q : Pt) : isOnCurve c.p c.b q = true ↔ ∃ A : Pts c, A ≠ 0 ∧ Rep (coef c) q A := by
  obtain ⟨x, y⟩ := q
  rw [isOnCurve_iff]
  constructor
  · rintro ⟨hx, hy, he⟩
    have hn := (Affine.equation_iff_nonsingular_of_Δ_ne_zero (disc_ne h)).mp he
    exact ⟨_, Affine.Point.some_ne_zero hn, Rep.some x y hx hy hn⟩
  · rintro ⟨A, hA, h⟩
    generalize hq : ((x, y) : Pt) = q at h
    cases h with
    | zero => exact absurd rfl hA
    | some x' y' hx hy hn =>
      obtain ⟨rfl, rfl⟩ := Prod.mk.inj hq
      exact ⟨hx, hy, hn.1⟩

/-- `Q` is the point with the coordinates `q`. -/
theorem exists_base (h : Lawful c) : ∃ A : Pts c, A ≠ 0 ∧ Rep (coef c) c.g A := (isOnCurve_rep h c.g).mp h.onG

theorem order_base (h : Lawful c) {A : Pts c} (h0 : A ≠ 0) (hA : Rep (coef c) c.g A) : addOrderOf A = c.n := by
  haveI : Fact c.n.Prime := ⟨h.n_prime⟩
  refine addOrderOf_eq_prime ?_ h0
  have hr := rep_scalarMult h.two_lt (coef_ne h) hA (toBytes c.n)
  rw [ofBytes_toBytes] at hr
  exact (Rep.zero_iff (coef_ne h) hr).mp h.order

end

end MCrypto.Ecdsa
