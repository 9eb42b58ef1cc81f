import Verif.Sm2.Spec
import Verif.Der.Lemmas
/-
Helper lemmas for the SM2 properties.
-/
namespace MCrypto.Sm2
open MCrypto MCrypto.Curve MCrypto.Der MCrypto.Sm2Spec WeierstrassCurve

/-! ### Points -/

theorem rep_baseMult (k : Bytes) : Rep bF (baseMult k) (ofBytes k • Gp) :=
  rep_scalarMult two_lt_P bF_ne rep_G k

theorem rep_base (k : Nat) : Rep bF (baseMult (toBytes k)) (k • Gp) := by
  simpa using rep_baseMult (toBytes k)

theorem rep_mult {q : Pt} {A : EP} (h : Rep bF q A) (k : Nat) :
    Rep bF (scalarMult P q (toBytes k)) (k • A) := by
  simpa using rep_scalarMult two_lt_P bF_ne h (toBytes k)

theorem coords_rep {q : Pt} {A : EP} (h : Rep bF q A) :
    coords A = if q = (0, 0) then none else some q := by
  have h' := h
  cases h with
  | zero => rfl
  | some x y hx hy hn =>
    rw [if_neg (not_origin bF_ne hn)]
    simp only [coords, ZMod.val_natCast, Nat.mod_eq_of_lt hx, Nat.mod_eq_of_lt hy]

theorem xOf_eq (k : Nat) : xOf k = (baseMult (toBytes k)).1 := by
  unfold xOf
  rw [coords_rep (rep_base k)]
  split
  · rename_i h; rw [h]; rfl
  · rfl

theorem N_odd : N % 2 = 1 := by decide +kernel

/-- A multiple of the base point has no zero ordinate unless it is infinity (no 2-torsion). -/
theorem y_ne_zero {q : Pt} {k : Nat} (h : Rep bF q (k • Gp)) (hq : q ≠ (0, 0)) : q.2 ≠ 0 := by
  intro hy
  obtain ⟨x, y⟩ := q
  simp only at hy
  subst hy
  have h2 := rep_add two_lt_P bF_ne h h
  have : add P (x, 0) (x, 0) = (0, 0) := by
    have hx : x ≠ 0 := fun h => hq (by rw [h])
    have h0 : (jDouble P ⟨x, 0, 1⟩).z = 0 := by
      have hlt : (jDouble P ⟨x, 0, 1⟩).z < P := fsub_lt _ _
      refine (cast_eq_zero_of_lt (p := P) hlt).mp ?_
      exact (cast_jDouble (p := P) ⟨x, 0, 1⟩).2.2.trans (by simp)
    have hj : jAdd P ⟨x, 0, 1⟩ ⟨x, 0, 1⟩ = jDouble P ⟨x, 0, 1⟩ :=
      (cast_jAdd (p := P) (q := ⟨x, 0, 1⟩) (r := ⟨x, 0, 1⟩) one_ne_zero one_ne_zero).1 ⟨by simp, by simp⟩
    have ht : toJac (x, 0) = ⟨x, 0, 1⟩ := by simp [toJac, hx]
    rw [add, ht, hj, Curve.toAffine, if_pos h0]
  rw [this] at h2
  have h3 := (Rep.zero_iff bF_ne h2).mp rfl
  rw [← add_smul, nsmul_Gp_eq_zero_iff] at h3
  have h4 : ¬ N ∣ k := by
    intro hd
    rw [← nsmul_Gp_eq_zero_iff] at hd
    exact hq ((Rep.zero_iff bF_ne h).mpr hd)
  rw [← two_mul] at h3
  rcases (N_prime.dvd_mul).mp h3 with h5 | h5
  · have := Nat.le_of_dvd (by decide) h5
    have := one_lt_N
    have := N_odd
    omega
  · exact h4 h5

/-! ### Arithmetic mod N -/

theorem N_pos : 0 < N := N_prime.pos

theorem modInverseN_none {a : Nat} : modInverseN a = none ↔ a % N = 0 := by
  unfold modInverseN; split <;> simp_all

theorem modInverseN_some {a i : Nat} (h : modInverseN a = some i) : (a * i : ZMod N) = 1 := by
  unfold modInverseN at h
  split at h
  · cases h
  · rename_i ha
    obtain rfl := Option.some.inj h
    have h2 : 2 < N := by decide +kernel
    have hne : (a : ZMod N) ≠ 0 := by
      rw [Ne, ZMod.natCast_eq_zero_iff, Nat.dvd_iff_mod_eq_zero]; exact ha
    rw [powMod_eq, ZMod.natCast_mod, Nat.cast_pow, ZMod.natCast_mod, ← pow_succ',
      show N - 2 + 1 = N - 1 by omega, ZMod.pow_card_sub_one_eq_one hne]

/-! ### Readers and nonces -/

theorem nextk_ok {rd : Reader} (h : 40 ≤ rd.length) :
    nextk rd = .ok (ofBytes (rd.take 40) % (N - 1) + 1, rd.drop 40) := by
  unfold nextk readFull; rw [if_pos h]

theorem nextk_err {rd : Reader} (h : rd.length < 40) :
    nextk rd = .err (if rd.length = 0 then "EOF" else "unexpected EOF") := by
  unfold nextk readFull
  rw [if_neg (by omega)]
  by_cases h0 : rd.length = 0
  · rw [if_pos h0, if_pos h0]
  · rw [if_neg h0, if_neg h0]

theorem nonce_zero (rd : Bytes) : nonce rd 0 = ofBytes (rd.take 40) % (N - 1) + 1 := by
  simp [nonce]

theorem nonce_drop (rd : Bytes) (i j : Nat) : nonce (rd.drop (40 * j)) i = nonce rd (j + i) := by
  unfold nonce
  rw [List.drop_drop]
  congr 5
  omega

theorem nonce_range (rd : Bytes) (i : Nat) : 1 ≤ nonce rd i ∧ nonce rd i ≤ N - 1 := by
  unfold nonce
  have h1 := one_lt_N
  have := Nat.mod_lt (ofBytes ((rd.drop (40 * i)).take 40)) (show 0 < N - 1 by omega)
  omega

noncomputable instance (e k : Nat) : Decidable (goodNonce e k) := by unfold goodNonce; infer_instance

/-- The error reported when a stream of this length runs out. -/
def endErr (rd : Bytes) : String := if rd.length % 40 = 0 then "EOF" else "unexpected EOF"

theorem signInner_eq (e : Nat) (rd : Reader) :
    signInner e rd =
      if 40 ≤ rd.length then
        if goodNonce e (nonce rd 0) then .ok ((e + xOf (nonce rd 0)) % N, nonce rd 0, rd.drop 40)
        else signInner e (rd.drop 40)
      else .err (endErr rd) := by
  rw [signInner]
  by_cases h : 40 ≤ rd.length
  · rw [if_pos h]
    split
    · rename_i k rd' hn
      rw [nextk_ok h, ← nonce_zero] at hn
      simp only [Res.ok.injEq, Prod.mk.injEq] at hn
      obtain ⟨rfl, rfl⟩ := hn
      simp only [← xOf_eq]
      rfl
    · rename_i hn; rw [nextk_ok h] at hn; cases hn
    · rename_i hn; rw [nextk_ok h] at hn; cases hn
  · rw [if_neg h]
    have hlt : rd.length < 40 := by omega
    split
    · rename_i hn; rw [nextk_err hlt] at hn; cases hn
    · rename_i er hn
      rw [nextk_err hlt] at hn
      obtain rfl := Res.err.inj hn
      unfold endErr
      by_cases h0 : rd.length = 0
      · rw [h0]
      · rw [if_neg h0, if_neg (by omega)]
    · rename_i hn; rw [nextk_err hlt] at hn; cases hn

/-- What the inner loop computes: the first good nonce, or the end of the stream. -/
theorem signInner_spec (e : Nat) (rd : Reader) :
    (∃ i, 40 * (i + 1) ≤ rd.length ∧ goodNonce e (nonce rd i) ∧
      (∀ j, j < i → ¬ goodNonce e (nonce rd j)) ∧
      signInner e rd = .ok ((e + xOf (nonce rd i)) % N, nonce rd i, rd.drop (40 * (i + 1)))) ∨
    ((∀ i, 40 * (i + 1) ≤ rd.length → ¬ goodNonce e (nonce rd i)) ∧
      signInner e rd = .err (endErr rd)) := by
  generalize hn : rd.length = n
  induction n using Nat.strongRecOn generalizing rd with
  | _ n ih =>
    subst hn
    rw [signInner_eq]
    by_cases h : 40 ≤ rd.length
    · rw [if_pos h]
      by_cases hg : goodNonce e (nonce rd 0)
      · left
        exact ⟨0, by omega, hg, fun j hj => absurd hj (by omega), by rw [if_pos hg]⟩
      · rw [if_neg hg]
        have hlen : (rd.drop 40).length = rd.length - 40 := by simp
        have nd : ∀ i, nonce (rd.drop 40) i = nonce rd (i + 1) := by
          intro i; have := nonce_drop rd i 1; rw [Nat.mul_one] at this; rw [this, Nat.add_comm]
        rcases ih (rd.drop 40).length (by omega) (rd.drop 40) rfl with ⟨i, h1, h2, h3, h4⟩ | ⟨h1, h2⟩
        · left
          refine ⟨i + 1, by omega, by rw [← nd]; exact h2, ?_, ?_⟩
          · intro j hj
            cases j with
            | zero => exact hg
            | succ j => rw [← nd]; exact h3 j (by omega)
          · rw [h4, nd, List.drop_drop]
            congr 4; omega
        · right
          refine ⟨?_, ?_⟩
          · intro i hi
            cases i with
            | zero => exact hg
            | succ i => rw [← nd]; exact h1 i (by omega)
          · rw [h2]; unfold endErr
            rw [hlen, show (rd.length - 40) % 40 = rd.length % 40 by omega]
    · rw [if_neg h]
      right
      exact ⟨fun i hi => absurd hi (by omega), rfl⟩

/-- The value of `s` for a nonce (the standard's A6), for a private key with invertible 1+d. -/
noncomputable def sOf (d e k : Nat) (inv : Nat) : Nat :=
  (((k : Int) - (((e + xOf k) % N : Nat) : Int) * (d : Int)) * (inv : Int) % (N : Int)).toNat

theorem signOuter_bad {d : Nat} (e : Nat) (rd : Reader) (hd : modInverseN (d + 1) = none) :
    signOuter d e rd = match signInner e rd with
      | .ok _ => .panic
      | .err er => .err er
      | .panic => .panic := by
  rw [signOuter]
  split
  · rename_i h; simp only [h, hd]
  · rename_i h; rw [h]
  · rename_i h; rw [h]

theorem signOuter_step {d i : Nat} (e : Nat) (rd : Reader) (hd : modInverseN (d + 1) = some i) :
    signOuter d e rd = match signInner e rd with
      | .ok (r, k, rd') =>
        let s := (((k : Int) - (r : Int) * (d : Int)) * (i : Int) % (N : Int)).toNat
        if s ≠ 0 then .ok (r, s, rd') else signOuter d e rd'
      | .err er => .err er
      | .panic => .panic := by
  rw [signOuter]
  split
  · rename_i h; simp only [h, hd]
  · rename_i h; rw [h]
  · rename_i h; rw [h]

theorem endErr_drop (rd : Bytes) (i : Nat) (h : 40 * i ≤ rd.length) :
    endErr (rd.drop (40 * i)) = endErr rd := by
  unfold endErr
  rw [List.length_drop, show (rd.length - 40 * i) % 40 = rd.length % 40 by omega]

/-- What signing computes for an invertible 1+d. -/
theorem signOuter_spec {d i : Nat} (e : Nat) (rd : Reader) (hd : modInverseN (d + 1) = some i) :
    (∃ j, 40 * (j + 1) ≤ rd.length ∧ goodNonce e (nonce rd j) ∧ sOf d e (nonce rd j) i ≠ 0 ∧
      (∀ l, l < j → ¬ (goodNonce e (nonce rd l) ∧ sOf d e (nonce rd l) i ≠ 0)) ∧
      signOuter d e rd =
        .ok ((e + xOf (nonce rd j)) % N, sOf d e (nonce rd j) i, rd.drop (40 * (j + 1)))) ∨
    ((∀ j, 40 * (j + 1) ≤ rd.length → ¬ (goodNonce e (nonce rd j) ∧ sOf d e (nonce rd j) i ≠ 0)) ∧
      signOuter d e rd = .err (endErr rd)) := by
  generalize hn : rd.length = n
  induction n using Nat.strongRecOn generalizing rd with
  | _ n ih =>
    subst hn
    rw [signOuter_step e rd hd]
    rcases signInner_spec e rd with ⟨j, h1, h2, h3, h4⟩ | ⟨h1, h2⟩
    · rw [h4]
      simp only
      by_cases hs : sOf d e (nonce rd j) i ≠ 0
      · left
        refine ⟨j, h1, h2, hs, fun l hl hc => h3 l hl hc.1, ?_⟩
        unfold sOf at hs
        rw [if_pos hs]; rfl
      · have hs' : ¬ ((((nonce rd j : Nat) : Int) - (((e + xOf (nonce rd j)) % N : Nat) : Int) * (d : Int)) *
            (i : Int) % (N : Int)).toNat ≠ 0 := hs
        rw [if_neg hs']
        have hlen : (rd.drop (40 * (j + 1))).length = rd.length - 40 * (j + 1) := by simp
        have before : ∀ l, l < j + 1 → ¬ (goodNonce e (nonce rd l) ∧ sOf d e (nonce rd l) i ≠ 0) := by
          intro l hl hc
          rcases Nat.lt_or_ge l j with h | h
          · exact h3 l h hc.1
          · have : l = j := by omega
            subst this; exact hs hc.2
        rcases ih _ (by omega) (rd.drop (40 * (j + 1))) hlen with ⟨l, g1, g2, g3, g4, g5⟩ | ⟨g1, g2⟩
        · left
          simp only [nonce_drop] at g2 g3 g4 g5
          refine ⟨j + 1 + l, by omega, g2, g3, ?_, ?_⟩
          · intro m hm
            rcases Nat.lt_or_ge m (j + 1) with h | h
            · exact before m h
            · have := g4 (m - (j + 1)) (by omega)
              rwa [show j + 1 + (m - (j + 1)) = m by omega] at this
          · rw [g5, List.drop_drop]; congr 4; omega
        · right
          refine ⟨?_, by rw [g2, endErr_drop _ _ h1]⟩
          intro m hm
          rcases Nat.lt_or_ge m (j + 1) with h | h
          · exact before m h
          · have := g1 (m - (j + 1)) (by omega)
            rw [nonce_drop] at this
            rwa [show j + 1 + (m - (j + 1)) = m by omega] at this
    · right
      rw [h2]
      exact ⟨fun j hj hc => h1 j hj hc.1, rfl⟩

theorem sOf_cast {d e k i : Nat} : ((sOf d e k i : Nat) : ZMod N) =
    ((k : ZMod N) - ((e : ZMod N) + xOf k) * d) * i := by
  unfold sOf
  have hN : (N : Int) ≠ 0 := by have := N_pos; omega
  have h0 := Int.emod_nonneg (((k : Int) - (((e + xOf k) % N : Nat) : Int) * (d : Int)) * (i : Int)) hN
  have : ((((((k : Int) - (((e + xOf k) % N : Nat) : Int) * (d : Int)) * (i : Int) % (N : Int)).toNat : Nat) : Int) : ZMod N)
      = ((((k : Int) - (((e + xOf k) % N : Nat) : Int) * (d : Int)) * (i : Int) % (N : Int) : Int) : ZMod N) := by
    rw [Int.toNat_of_nonneg h0]
  rw [Int.cast_natCast] at this
  rw [this, ZMod.intCast_mod]
  push_cast
  ring

theorem sOf_lt (d e k i : Nat) : sOf d e k i < N := by
  unfold sOf
  have hN : (0 : Int) < N := by have := N_pos; omega
  have h1 := Int.emod_lt_of_pos (((k : Int) - (((e + xOf k) % N : Nat) : Int) * (d : Int)) * (i : Int)) hN
  have h0 := Int.emod_nonneg (((k : Int) - (((e + xOf k) % N : Nat) : Int) * (d : Int)) * (i : Int)) (show (N : Int) ≠ 0 by omega)
  omega

/-- The core identity of SM2: [s]G + [t]P_A = [k]G. -/
theorem sig_point {d e k i : Nat} (hd : modInverseN (d + 1) = some i) (r s t : Nat)
    (hr : r = (e + xOf k) % N) (hs : s = sOf d e k i) (ht : t = (r + s) % N) :
    s • Gp + t • (d • Gp) = k • Gp := by
  rw [← mul_smul, ← add_smul, nsmul_Gp_eq_iff]
  have hinv := modInverseN_some hd
  rw [← ZMod.natCast_eq_natCast_iff']
  push_cast
  have ht' : (t : ZMod N) = (r : ZMod N) + s := by rw [ht, ZMod.natCast_mod]; push_cast; rfl
  have hr' : (r : ZMod N) = (e : ZMod N) + xOf k := by rw [hr, ZMod.natCast_mod]; push_cast; rfl
  have hs' : (s : ZMod N) = ((k : ZMod N) - r * d) * i := by rw [hs, sOf_cast, hr']
  push_cast at hinv
  rw [ht', hs']
  linear_combination ((k : ZMod N) - r * d) * hinv

theorem sum_ne_zero {d e k i : Nat} (hd : modInverseN (d + 1) = some i) (hk : 1 ≤ k ∧ k ≤ N - 1)
    (hg : goodNonce e k) : ((e + xOf k) % N + sOf d e k i) % N ≠ 0 := by
  intro h
  have hinv := modInverseN_some hd
  generalize hr : (e + xOf k) % N = r at h
  have hrlt : r < N := hr ▸ Nat.mod_lt _ N_pos
  have hz : ((r : ZMod N) + (sOf d e k i : Nat)) = 0 := by
    have := (ZMod.natCast_eq_zero_iff (r + sOf d e k i) N).mpr (Nat.dvd_of_mod_eq_zero h)
    push_cast at this
    exact this
  have hr' : (r : ZMod N) = (e : ZMod N) + xOf k := by rw [← hr, ZMod.natCast_mod]; push_cast; rfl
  rw [sOf_cast, ← hr'] at hz
  push_cast at hinv
  have hz2 : (r : ZMod N) + k = 0 := by
    linear_combination ((d : ZMod N) + 1) * hz - ((k : ZMod N) - r * d) * hinv
  have hz3 : N ∣ r + k := by
    rw [← ZMod.natCast_eq_zero_iff]; push_cast; exact hz2
  obtain ⟨c, hc⟩ := hz3
  have hg2 := hg.2
  rw [hr] at hg2
  have h1 := one_lt_N
  rcases c with _ | _ | c
  · omega
  · omega
  · have h2 : N * 2 ≤ N * (c + 1 + 1) := Nat.mul_le_mul_left N (by omega)
    omega

end MCrypto.Sm2
