import Verif.Sm2.Lemmas
import Verif.Curve.Order
/-
Verification in terms of the specification.
-/
namespace MCrypto.Sm2
open MCrypto MCrypto.Curve MCrypto.Der MCrypto.Sm2Spec WeierstrassCurve

/-- No finite point of the curve has ordinate 0. -/
theorem rep_y_ne {q : Pt} {A : EP} (h : Rep bF q A) (hq : q ≠ (0, 0)) : q.2 ≠ 0 := by
  obtain ⟨k, -, rfl⟩ := exists_dlog A
  exact y_ne_zero h hq

/-- The point computed by verification. -/
noncomputable def vpoint (Q : EP) (r s : Int) : EP := s.toNat • Gp + ((r + s) % N).toNat • Q

theorem verifyDigestRS_iff {pub : PublicKey} {Q : EP} (hQ : Represents pub Q) (digest : Bytes) (r s : Int) :
    verifyDigestRS pub digest r s = true ↔
      ValidSig Q (ofBytes digest) r s ∧ ∀ x y, coords (vpoint Q r s) = some (x, y) → x ≠ 0 := by
  have hN : (0 : Int) < N := by have := N_pos; omega
  unfold verifyDigestRS ValidSig
  by_cases hr : r < 1 ∨ r ≥ (N : Int)
  · rw [if_pos hr]
    simp only [Bool.false_eq_true, false_iff]
    rintro ⟨⟨h1, -⟩, -⟩
    omega
  rw [if_neg hr]
  by_cases hs : s < 1 ∨ s ≥ (N : Int)
  · rw [if_pos hs]
    simp only [Bool.false_eq_true, false_iff]
    rintro ⟨⟨-, h1, -⟩, -⟩
    omega
  rw [if_neg hs]
  simp only
  by_cases ht : (r + s) % (N : Int) = 0
  · rw [if_pos ht]
    simp only [Bool.false_eq_true, false_iff]
    rintro ⟨⟨-, -, h1, -⟩, -⟩
    exact h1 ht
  rw [if_neg ht]
  have hs' : s.natAbs = s.toNat := by omega
  have ht' : ((r + s) % (N : Int)).natAbs = ((r + s) % (N : Int)).toNat := by
    have := Int.emod_nonneg (r + s) (show (N : Int) ≠ 0 by omega)
    omega
  have hrep := rep_add two_lt_P bF_ne (rep_base s.natAbs) (rep_mult hQ ((r + s) % (N : Int)).natAbs)
  have hrep' : Rep bF (add P (baseMult (toBytes s.natAbs))
      (scalarMult P (pub.x, pub.y) (toBytes ((r + s) % (N : Int)).natAbs))) (vpoint Q r s) := by
    unfold vpoint; rw [← hs', ← ht']; exact hrep
  generalize hq : add P (baseMult (toBytes s.natAbs))
      (scalarMult P (pub.x, pub.y) (toBytes ((r + s) % (N : Int)).natAbs)) = q at hrep'
  have hco := coords_rep hrep'
  change _ ↔ (_ ∧ _ ∧ _ ∧ ∃ x1 y1, coords (vpoint Q r s) = some (x1, y1) ∧ _) ∧ _
  rw [hco]
  by_cases hq0 : q = (0, 0)
  · rw [if_pos hq0]
    simp [hq0]
  · rw [if_neg hq0]
    obtain ⟨qx, qy⟩ := q
    have hy : qy ≠ 0 := rep_y_ne hrep' hq0
    simp only [Option.some.injEq, Prod.mk.injEq, hy, or_false]
    by_cases hx : qx = 0
    · rw [if_pos hx]
      simp only [Bool.false_eq_true, false_iff, not_and]
      intro _ h
      exact absurd (h qx qy ⟨rfl, rfl⟩) (by simp [hx])
    · rw [if_neg hx, decide_eq_true_eq]
      constructor
      · intro h
        refine ⟨⟨by omega, by omega, ht, qx, qy, ⟨rfl, rfl⟩, ?_⟩, ?_⟩
        · rw [← h, Nat.add_comm]
        · rintro x y ⟨rfl, rfl⟩; exact hx
      · rintro ⟨⟨-, -, -, x1, y1, ⟨rfl, rfl⟩, h⟩, -⟩
        rw [← h, Nat.add_comm]

/-- Signing yields a signature that is valid in the sense of the standard; its verification point
is the nonce point. -/
theorem signDigestRS_valid {rd : Reader} {priv : PrivateKey} {digest : Bytes} {r s : Int} {rd' : Reader}
    (h : signDigestRS rd priv digest = .ok (r, s, rd')) :
    ValidSig (priv.d • Gp) (ofBytes digest) r s ∧
    ∃ j, 40 * (j + 1) ≤ rd.length ∧ rd' = rd.drop (40 * (j + 1)) ∧
      vpoint (priv.d • Gp) r s = nonce rd j • Gp ∧
      r = (((ofBytes digest + xOf (nonce rd j)) % N : Nat) : Int) := by
  unfold signDigestRS at h
  cases hd : modInverseN (priv.d + 1) with
  | none =>
    rw [signOuter_bad _ _ hd] at h
    split at h
    · rename_i hh; split at hh <;> cases hh
    · cases h
    · cases h
  | some i =>
    rcases signOuter_spec (ofBytes digest) rd hd with ⟨j, h1, h2, h3, h4, h5⟩ | ⟨h1, h2⟩
    · rw [h5] at h
      simp only [Res.ok.injEq, Prod.mk.injEq] at h
      obtain ⟨rfl, rfl, rfl⟩ := h
      have hpt := sig_point hd _ _ _ (rfl : (ofBytes digest + xOf (nonce rd j)) % N = _)
        (rfl : sOf priv.d (ofBytes digest) (nonce rd j) i = _) rfl
      have hkr := nonce_range rd j
      have hne := sum_ne_zero hd hkr h2
      have hlt := sOf_lt priv.d (ofBytes digest) (nonce rd j) i
      have hg := h2.1
      have hrlt : (ofBytes digest + xOf (nonce rd j)) % N < N := Nat.mod_lt _ N_pos
      generalize hs : sOf priv.d (ofBytes digest) (nonce rd j) i = s at *
      generalize hr : (ofBytes digest + xOf (nonce rd j)) % N = r at *
      have hcast : (((r : Int) + (s : Int)) % (N : Int)) = (((r + s) % N : Nat) : Int) := by push_cast; rfl
      have hv : vpoint (priv.d • Gp) r s = nonce rd j • Gp := by
        unfold vpoint
        rw [hcast, Int.toNat_natCast, Int.toNat_natCast]
        exact hpt
      refine ⟨⟨by omega, by omega, by rw [hcast]; exact_mod_cast hne, ?_⟩, j, h1, rfl, hv, by exact_mod_cast hr.symm⟩
      change ∃ x1 y1, coords (vpoint _ _ _) = _ ∧ _
      rw [hv]
      have hk0 : nonce rd j • Gp ≠ 0 := by
        rw [Ne, nsmul_Gp_eq_zero_iff]
        intro hdv
        have := Nat.le_of_dvd (by omega) hdv
        omega
      have hco := coords_rep (rep_base (nonce rd j))
      have hq0 : baseMult (toBytes (nonce rd j)) ≠ (0, 0) := by
        intro hh; exact hk0 ((Rep.zero_iff bF_ne (rep_base _)).mp hh)
      rw [if_neg hq0] at hco
      refine ⟨(baseMult (toBytes (nonce rd j))).1, (baseMult (toBytes (nonce rd j))).2, hco, ?_⟩
      rw [← xOf_eq]
      exact_mod_cast hr
    · rw [h2] at h; cases h

end MCrypto.Sm2
