import Mathlib.FieldTheory.IsAlgClosed.AlgebraicClosure
import Mathlib.Algebra.Polynomial.Degree.SmallDegree
import Mathlib.FieldTheory.Finite.Basic
import Mathlib.Algebra.CharP.Frobenius
import Mathlib.Tactic.LinearCombination
import Mathlib.Tactic.ByContra
import Verif.Curve.Prime
/-
Primality of the order of P-521 (crypto/elliptic, the curve x509.go:709-710 names), whose `n - 1` is not factored enough for a Pratt certificate.
The proof combines the factored parts of `n - 1` (Pocklington) and `n + 1` (Morrison). No part of this file is a model: it only proves a number prime.
-/
namespace MCrypto.Curve

theorem prime_pow_dvd_order {G : Type*} [Monoid G] {g : G} {n q e : Nat} (hq : q.Prime) (hd : q ^ e ∣ n) (h1 : g ^ n = 1)
    (h2 : g ^ (n / q) ≠ 1) : q ^ e ∣ orderOf g := by
  rcases e with _ | e
  · simp
  have ho : orderOf g ∣ n := orderOf_dvd_of_pow_eq_one h1
  have hn : ¬ orderOf g ∣ n / q := fun h => h2 (orderOf_dvd_iff_pow_eq_one.mp h)
  have hqn : q ∣ n := (Dvd.intro_left _ (by rw [Nat.pow_succ] : q ^ e * q = q ^ (e + 1))).trans hd
  by_contra hc
  obtain ⟨c, hc'⟩ := ho
  have hqc : q ∣ c := by
    by_contra hqc
    have hcop : Nat.Coprime (q ^ (e + 1)) c := Nat.Coprime.pow_left _ ((Nat.Prime.coprime_iff_not_dvd hq).mpr hqc)
    exact hc (hcop.dvd_of_dvd_mul_right (hc' ▸ hd))
  obtain ⟨c', rfl⟩ := hqc
  refine hn ⟨c', ?_⟩
  rw [hc', show orderOf g * (q * c') = q * (orderOf g * c') by ring, Nat.mul_div_cancel_left _ hq.pos]

theorem dvd_of_parts {fs : List (Nat × Nat)} {o : Nat} (hp : ∀ x ∈ fs, x.1.Prime) (hn : (fs.map (·.1)).Nodup)
    (h : ∀ x ∈ fs, x.1 ^ x.2 ∣ o) : (fs.map fun x => x.1 ^ x.2).prod ∣ o := by
  induction fs with
  | nil => simp
  | cons f fs ih =>
    simp only [List.map_cons, List.prod_cons, List.nodup_cons] at hn ⊢
    refine Nat.Coprime.mul_dvd_of_dvd_of_dvd ?_ (h f (by simp)) (ih (fun x hx => hp x (by simp [hx])) hn.2 fun x hx => h x (by simp [hx]))
    refine Nat.coprime_list_prod_right_iff.mpr ?_
    intro y hy
    obtain ⟨x, hx, rfl⟩ := List.mem_map.mp hy
    refine Nat.Coprime.pow _ _ ((Nat.coprime_primes (hp f (by simp)) (hp x (by simp [hx]))).mpr ?_)
    rintro he
    exact hn.1 (List.mem_map.mpr ⟨x, hx, he.symm⟩)

/-! ### the factored part of `n - 1` -/

def checkMinus (n a : Nat) (fs : List (Nat × Nat)) : Bool :=
  powMod a (n - 1) n == 1 && fs.all fun x => Nat.gcd (powMod a ((n - 1) / x.1) n + (n - 1)) n == 1 && (n - 1) % x.1 ^ x.2 == 0

theorem minus_sound {n a : Nat} {fs : List (Nat × Nat)} (h1n : 1 < n) (hp : ∀ x ∈ fs, x.1.Prime) (hn : (fs.map (·.1)).Nodup)
    (h : checkMinus n a fs = true) {p : Nat} (hpp : p.Prime) (hpn : p ∣ n) : (fs.map fun x => x.1 ^ x.2).prod ∣ p - 1 := by
  simp only [checkMinus, Bool.and_eq_true, beq_iff_eq, List.all_eq_true, powMod_eq] at h
  obtain ⟨h1, h2⟩ := h
  haveI : Fact p.Prime := ⟨hpp⟩
  have hn0 : ((n : Nat) : ZMod p) = 0 := (ZMod.natCast_eq_zero_iff _ _).mpr hpn
  have hn1 : ((n - 1 : Nat) : ZMod p) = -1 := by rw [Nat.cast_sub h1n.le, hn0]; simp
  have hm : ∀ x : Nat, ((x % n : Nat) : ZMod p) = (x : ZMod p) := fun x =>
    (ZMod.natCast_eq_natCast_iff' _ _ _).mpr (Nat.mod_mod_of_dvd _ hpn)
  have e1 : (a : ZMod p) ^ (n - 1) = 1 := by
    have := hm (a ^ (n - 1)); rw [h1] at this; simpa using this.symm
  have ha : (a : ZMod p) ≠ 0 := by
    intro h0; rw [h0, zero_pow (by omega)] at e1; exact zero_ne_one e1
  refine (dvd_of_parts hp hn fun x hx => ?_).trans (orderOf_dvd_of_pow_eq_one (ZMod.pow_card_sub_one_eq_one ha))
  obtain ⟨g1, g2⟩ := h2 x hx
  refine prime_pow_dvd_order (hp x hx) (Nat.dvd_of_mod_eq_zero g2) e1 ?_
  intro hc
  have : p ∣ a ^ ((n - 1) / x.1) % n + (n - 1) := by
    rw [← ZMod.natCast_eq_zero_iff, Nat.cast_add, hm, hn1, Nat.cast_pow, hc]; ring
  have := Nat.dvd_gcd this hpn
  rw [g1] at this
  exact hpp.one_lt.ne' (Nat.dvd_one.mp this)

/-! ### the factored part of `n + 1` -/

/-- The pair `V(k), V(k+1)` of the Lucas sequence `V(0) = 2, V(1) = t, V(k+2) = t·V(k+1) - V(k)` mod `n`. -/
def lucasF (n t : Nat) : Nat → Nat → Nat × Nat
  | 0, _ => (2, t)
  | f + 1, k =>
    let v := lucasF n t f (k / 2)
    if k % 2 = 0 then ((v.1 * v.1 + (n - 2)) % n, (v.1 * v.2 + (n - t)) % n)
    else ((v.1 * v.2 + (n - t)) % n, (v.2 * v.2 + (n - 2)) % n)

def lucas (n t k : Nat) : Nat := (lucasF n t (k.log2 + 1) k).1

theorem lucasF_sound {L : Type*} [Field L] {n t : Nat} (h2n : 2 ≤ n) (htn : t ≤ n) (hL : (n : L) = 0) {z : L} (hz : z ≠ 0)
    (hzt : z + z⁻¹ = (t : L)) (f k : Nat) (hk : k < 2 ^ f) :
    ((lucasF n t f k).1 : L) = z ^ k + z⁻¹ ^ k ∧ ((lucasF n t f k).2 : L) = z ^ (k + 1) + z⁻¹ ^ (k + 1) := by
  have hm : ∀ x : Nat, ((x % n : Nat) : L) = (x : L) := fun x => by
    conv_rhs => rw [← Nat.div_add_mod x n]
    rw [Nat.cast_add, Nat.cast_mul, hL]; ring
  induction f generalizing k with
  | zero =>
    have : k = 0 := by simpa using hk
    subst this
    simp only [lucasF, zero_add, pow_zero, pow_one, hzt]
    exact ⟨by norm_num, trivial⟩
  | succ f ih =>
    obtain ⟨i1, i2⟩ := ih (k / 2) (by rw [Nat.pow_succ] at hk; omega)
    have hzz : z * z⁻¹ = 1 := mul_inv_cancel₀ hz
    generalize hj : k / 2 = j at i1 i2
    have hpj : z ^ j * z⁻¹ ^ j = 1 := by rw [← mul_pow, hzz, one_pow]
    rw [lucasF]
    simp only [hj]
    split
    · rename_i h0
      obtain rfl : k = 2 * j := by omega
      refine ⟨?_, ?_⟩
      · rw [hm, Nat.cast_add, Nat.cast_mul, i1, Nat.cast_sub h2n, hL]
        have : z ^ (2 * j) = (z ^ j) ^ 2 := by ring
        have : z⁻¹ ^ (2 * j) = (z⁻¹ ^ j) ^ 2 := by ring
        push_cast
        simp only [*]
        linear_combination 2 * hpj
      · rw [hm, Nat.cast_add, Nat.cast_mul, i1, i2, Nat.cast_sub htn, hL, ← hzt]
        have : z ^ (2 * j + 1) = (z ^ j) ^ 2 * z := by ring
        have : z⁻¹ ^ (2 * j + 1) = (z⁻¹ ^ j) ^ 2 * z⁻¹ := by ring
        simp only [*, pow_succ]
        linear_combination (z + z⁻¹) * hpj + hzt
    · rename_i h0
      obtain rfl : k = 2 * j + 1 := by omega
      refine ⟨?_, ?_⟩
      · rw [hm, Nat.cast_add, Nat.cast_mul, i1, i2, Nat.cast_sub htn, hL, ← hzt]
        have : z ^ (2 * j + 1) = (z ^ j) ^ 2 * z := by ring
        have : z⁻¹ ^ (2 * j + 1) = (z⁻¹ ^ j) ^ 2 * z⁻¹ := by ring
        simp only [*, pow_succ]
        linear_combination (z + z⁻¹) * hpj + hzt
      · rw [hm, Nat.cast_add, Nat.cast_mul, i2, Nat.cast_sub h2n, hL]
        have e1 : z ^ (2 * j + 1 + 1) = (z ^ (j + 1)) ^ 2 := by ring
        have e2 : z⁻¹ ^ (2 * j + 1 + 1) = (z⁻¹ ^ (j + 1)) ^ 2 := by ring
        have e3 : z ^ (j + 1) * z⁻¹ ^ (j + 1) = 1 := by rw [← mul_pow, hzz, one_pow]
        rw [e1, e2]
        push_cast
        linear_combination 2 * e3

def checkPlus (n t : Nat) (fs : List (Nat × Nat)) : Bool :=
  lucas n t (n + 1) == 2 && fs.all fun x => Nat.gcd (lucas n t ((n + 1) / x.1) + (n - 2)) n == 1 && (n + 1) % x.1 ^ x.2 == 0

theorem exists_root {p : Nat} [Fact p.Prime] (t : Nat) : ∃ z : AlgebraicClosure (ZMod p), z ≠ 0 ∧ z + z⁻¹ = (t : AlgebraicClosure (ZMod p)) := by
  obtain ⟨z, hz⟩ := IsAlgClosed.exists_root (k := AlgebraicClosure (ZMod p))
    (Polynomial.X ^ 2 - Polynomial.C (t : AlgebraicClosure (ZMod p)) * Polynomial.X + Polynomial.C 1) (by
      have : (Polynomial.X ^ 2 - Polynomial.C (t : AlgebraicClosure (ZMod p)) * Polynomial.X + Polynomial.C 1)
        = Polynomial.C 1 * Polynomial.X ^ 2 + Polynomial.C (-(t : AlgebraicClosure (ZMod p))) * Polynomial.X + Polynomial.C 1 := by
        simp only [map_neg, map_one]; ring
      rw [this, Polynomial.degree_quadratic one_ne_zero]; decide)
  have h : z ^ 2 - (t : AlgebraicClosure (ZMod p)) * z + 1 = 0 := by simpa [Polynomial.IsRoot] using hz
  have h0 : z ≠ 0 := by rintro rfl; simp at h
  refine ⟨z, h0, ?_⟩
  field_simp
  linear_combination h

theorem plus_sound {n t : Nat} {fs : List (Nat × Nat)} (h2n : 2 ≤ n) (htn : t ≤ n) (hp : ∀ x ∈ fs, x.1.Prime) (hn : (fs.map (·.1)).Nodup)
    (h : checkPlus n t fs = true) {p : Nat} (hpp : p.Prime) (hpn : p ∣ n) :
    (fs.map fun x => x.1 ^ x.2).prod ∣ p - 1 ∨ (fs.map fun x => x.1 ^ x.2).prod ∣ p + 1 := by
  simp only [checkPlus, Bool.and_eq_true, beq_iff_eq, List.all_eq_true] at h
  obtain ⟨h1, h2⟩ := h
  haveI : Fact p.Prime := ⟨hpp⟩
  obtain ⟨z, hz, hzt⟩ := exists_root (p := p) t
  have hL : ((n : Nat) : AlgebraicClosure (ZMod p)) = 0 := (CharP.cast_eq_zero_iff _ p n).mpr hpn
  have hv : ∀ k, ((lucas n t k : Nat) : AlgebraicClosure (ZMod p)) = z ^ k + z⁻¹ ^ k := fun k =>
    (lucasF_sound h2n htn hL hz hzt _ k Nat.lt_log2_self).1
  have hone : ∀ k, z ^ k = 1 ↔ ((lucas n t k : Nat) : AlgebraicClosure (ZMod p)) = 2 := by
    intro k
    rw [hv, inv_pow]
    constructor
    · intro h; rw [h]; norm_num
    · intro h
      have h0 : z ^ k ≠ 0 := pow_ne_zero _ hz
      have : (z ^ k - 1) ^ 2 = 0 := by
        field_simp at h
        linear_combination h
      exact sub_eq_zero.mp (pow_eq_zero_iff (two_ne_zero) |>.mp this)
  have e1 : z ^ (n + 1) = 1 := (hone _).mpr (by rw [h1]; norm_num)
  have hord : (fs.map fun x => x.1 ^ x.2).prod ∣ orderOf z := by
    refine dvd_of_parts hp hn fun x hx => ?_
    obtain ⟨g1, g2⟩ := h2 x hx
    refine prime_pow_dvd_order (hp x hx) (Nat.dvd_of_mod_eq_zero g2) e1 ?_
    intro hc
    have : p ∣ lucas n t ((n + 1) / x.1) + (n - 2) := by
      rw [← CharP.cast_eq_zero_iff (AlgebraicClosure (ZMod p)), Nat.cast_add, (hone _).mp hc, Nat.cast_sub h2n, hL]; norm_num
    have := Nat.dvd_gcd this hpn
    rw [g1] at this
    exact hpp.one_lt.ne' (Nat.dvd_one.mp this)
  have htp : (t : AlgebraicClosure (ZMod p)) ^ p = t := by
    have := congrArg (algebraMap (ZMod p) (AlgebraicClosure (ZMod p))) (ZMod.pow_card (t : ZMod p))
    rw [map_pow, map_natCast] at this
    exact this
  have hzp : z ^ p + (z ^ p)⁻¹ = t := by
    rw [← inv_pow, ← add_pow_char, hzt, htp]
  have hprod : (z ^ p - z) * (z ^ p * z - 1) = 0 := by
    have a0 : z ^ p ≠ 0 := pow_ne_zero _ hz
    have : z ^ p + (z ^ p)⁻¹ = z + z⁻¹ := hzp.trans hzt.symm
    field_simp at this
    linear_combination this
  rcases mul_eq_zero.mp hprod with h | h
  · left
    refine hord.trans (orderOf_dvd_of_pow_eq_one ?_)
    have h' : z ^ (p - 1) * z = 1 * z := by
      rw [← pow_succ, Nat.sub_add_cancel hpp.one_le, one_mul]; exact sub_eq_zero.mp h
    exact mul_right_cancel₀ hz h'
  · right
    refine hord.trans (orderOf_dvd_of_pow_eq_one ?_)
    rw [pow_succ]; exact sub_eq_zero.mp h

/-! ### from the residues of the prime divisors to the absence of divisors -/

theorem divisor_residues {n F1 F2 : Nat} (hn : n ≠ 0) (h1 : ∀ p : Nat, p.Prime → p ∣ n → F1 ∣ p - 1)
    (h2 : ∀ p : Nat, p.Prime → p ∣ n → F2 ∣ p - 1 ∨ F2 ∣ p + 1) (d : Nat) (hd : d ∣ n) :
    (d : ZMod F1) = 1 ∧ ((d : ZMod F2) = 1 ∨ (d : ZMod F2) = -1) := by
  induction d using Nat.recOnMul with
  | zero => exact absurd (Nat.eq_zero_of_zero_dvd hd) hn
  | one => simp
  | prime p hp =>
    have hs : ∀ F : Nat, F ∣ p - 1 → (p : ZMod F) = 1 := fun F h => by
      have := (ZMod.natCast_eq_zero_iff (p - 1) F).mpr h
      rw [Nat.cast_sub hp.one_le] at this
      simpa [sub_eq_zero] using this
    refine ⟨hs _ (h1 p hp hd), (h2 p hp hd).imp (hs _) fun h => ?_⟩
    have := (ZMod.natCast_eq_zero_iff (p + 1) F2).mpr h
    push_cast at this
    exact eq_neg_of_add_eq_zero_left this
  | mul a b ha hb =>
    obtain ⟨a1, a2⟩ := ha (Dvd.dvd.trans (Nat.dvd_mul_right _ _) hd)
    obtain ⟨b1, b2⟩ := hb (Dvd.dvd.trans (Nat.dvd_mul_left _ _) hd)
    push_cast
    refine ⟨by rw [a1, b1]; simp, ?_⟩
    rcases a2 with a2 | a2 <;> rcases b2 with b2 | b2 <;> rw [a2, b2] <;> simp

theorem no_split {n m R K T : Nat} {u a c s w : Int} (hm : 0 < m) (hR : n % m = R) (hRn : n % R ≠ 0) (hK : n < (K + 1) * (m * m))
    (hT : n = T * m + R) (ha : u * R = a + s * m) (hc : u * T = c + w * m)
    (b1 : (K : Int) * (|a| + |u|) < |c|) (b2 : (K : Int) * (|a| + |u|) + |c| < m)
    {A B : Nat} (hAB : n = A * B) (h1A : 1 < A) (hA : A % m = 1 % m) : False := by
  have hm1 : m ≠ 1 := by
    rintro rfl
    have h0 : 0 ≤ (K : Int) * (|a| + |u|) := by positivity
    have : 0 ≤ |c| := abs_nonneg c
    have h1 : ((1 : Nat) : Int) = 1 := rfl
    omega
  have hA' : A % m = 1 := by rw [hA]; exact Nat.mod_eq_of_lt (by omega)
  have hB : B % m = R := by rw [← hR, hAB, Nat.mul_mod, hA', one_mul, Nat.mod_mod]
  obtain ⟨x, hx⟩ : ∃ x, A = x * m + 1 := ⟨A / m, by have := Nat.div_add_mod A m; rw [hA'] at this; rw [Nat.mul_comm]; exact this.symm⟩
  obtain ⟨y, hy⟩ : ∃ y, B = y * m + R := ⟨B / m, by have := Nat.div_add_mod B m; rw [hB] at this; rw [Nat.mul_comm]; exact this.symm⟩
  have hx1 : 1 ≤ x := by
    rcases Nat.eq_zero_or_pos x with rfl | h
    · omega
    · exact h
  have hy1 : 1 ≤ y := by
    rcases Nat.eq_zero_or_pos y with rfl | h
    · exfalso; apply hRn; rw [hAB, hy]; simp
    · exact h
  have hexp : n = x * y * (m * m) + (x * R + y) * m + R := by rw [hAB, hx, hy]; ring
  have hxy : x * y < K + 1 := by
    refine Nat.lt_of_mul_lt_mul_right (a := m * m) ?_
    calc x * y * (m * m) ≤ n := by rw [hexp]; omega
      _ < _ := hK
  have hxK : x ≤ K := by nlinarith
  have hyK : y ≤ K := by nlinarith
  have hTe : T = x * y * m + x * R + y := by
    refine Nat.eq_of_mul_eq_mul_right hm ?_
    have : T * m + R = x * y * (m * m) + (x * R + y) * m + R := by rw [← hT, ← hexp]
    have h3 : (x * y * m + x * R + y) * m = x * y * (m * m) + (x * R + y) * m := by ring
    omega
  have key : c - (x * a + u * y) = (u * x * y + x * s - w) * m := by
    have h1 : (T : Int) = x * y * m + x * R + y := by exact_mod_cast hTe
    rw [h1] at hc
    linear_combination (x : Int) * ha - hc
  have habs : |(x : Int) * a + u * y| ≤ K * (|a| + |u|) := by
    have hx' : (x : Int) ≤ K := by exact_mod_cast hxK
    have hy' : (y : Int) ≤ K := by exact_mod_cast hyK
    calc |(x : Int) * a + u * y| ≤ |(x : Int) * a| + |u * y| := abs_add_le _ _
      _ = x * |a| + y * |u| := by rw [abs_mul, abs_mul, Nat.abs_cast, Nat.abs_cast]; ring
      _ ≤ K * |a| + K * |u| := by
        have := mul_le_mul_of_nonneg_right hx' (abs_nonneg a)
        have := mul_le_mul_of_nonneg_right hy' (abs_nonneg u)
        linarith
      _ = _ := by ring
  have hlt : |(u * x * y + x * s - w) * m| < m := by
    rw [← key]
    calc |c - (x * a + u * y)| ≤ |c| + |(x : Int) * a + u * y| := abs_sub _ _
      _ ≤ |c| + K * (|a| + |u|) := by linarith
      _ < m := by linarith
  have hz : u * x * y + x * s - w = 0 := by
    rw [abs_mul, Nat.abs_cast] at hlt
    have hm' : (0 : Int) < m := by exact_mod_cast hm
    have : |u * x * y + x * s - w| < 1 := by
      by_contra hcc
      have : (1 : Int) ≤ |u * x * y + x * s - w| := by omega
      nlinarith
    exact Int.abs_lt_one_iff.mp this
  rw [hz, zero_mul] at key
  have : |c| ≤ K * (|a| + |u|) := by rw [sub_eq_zero.mp key]; exact habs
  linarith

theorem prime_of_parts {n F1 F2 m R K T : Nat} {u a c s w : Int} (h1n : 1 < n) (hcop : Nat.Coprime F1 F2) (hmm : m = F1 * F2)
    (h1 : ∀ p : Nat, p.Prime → p ∣ n → F1 ∣ p - 1) (h2 : ∀ p : Nat, p.Prime → p ∣ n → F2 ∣ p - 1 ∨ F2 ∣ p + 1)
    (hF2 : 2 < F2) (hn2 : F2 ∣ n + 1) (hm : 0 < m) (hR : n % m = R) (hRn : n % R ≠ 0) (hK : n < (K + 1) * (m * m))
    (hT : n = T * m + R) (ha : u * R = a + s * m) (hc : u * T = c + w * m)
    (b1 : (K : Int) * (|a| + |u|) < |c|) (b2 : (K : Int) * (|a| + |u|) + |c| < m) : n.Prime := by
  by_contra hnp
  obtain ⟨A, hAn, hA1, hAlt⟩ := (Nat.not_prime_iff_exists_dvd_lt h1n).mp hnp
  obtain ⟨B, hB⟩ := hAn
  have hB1 : 1 < B := by
    rcases B with _ | _ | B
    · omega
    · omega
    · omega
  have rA := divisor_residues (by omega) h1 h2 A ⟨B, hB⟩
  have rB := divisor_residues (by omega) h1 h2 B ⟨A, by rw [hB, Nat.mul_comm]⟩
  have hne : (1 : ZMod F2) ≠ -1 := by
    intro h
    have : ((2 : Nat) : ZMod F2) = 0 := by push_cast; linear_combination h
    exact absurd (Nat.le_of_dvd (by decide) ((ZMod.natCast_eq_zero_iff _ _).mp this)) (by omega)
  have hnm : (n : ZMod F2) = -1 := by
    have := (ZMod.natCast_eq_zero_iff (n + 1) F2).mpr hn2
    push_cast at this
    exact eq_neg_of_add_eq_zero_left this
  have hprod : (A : ZMod F2) * B = -1 := by rw [← hnm, hB]; push_cast; ring
  have hone : ∀ d : Nat, (d : ZMod F1) = 1 → (d : ZMod F2) = 1 → d % m = 1 % m := by
    intro d g1 g2
    have e1 : d ≡ 1 [MOD F1] := (ZMod.natCast_eq_natCast_iff _ _ _).mp (by simpa using g1)
    have e2 : d ≡ 1 [MOD F2] := (ZMod.natCast_eq_natCast_iff _ _ _).mp (by simpa using g2)
    rw [hmm]
    exact (Nat.modEq_and_modEq_iff_modEq_mul hcop).mp ⟨e1, e2⟩
  have : (A : ZMod F2) = 1 ∨ (B : ZMod F2) = 1 := by
    rcases rA.2 with h | h
    · exact Or.inl h
    · rcases rB.2 with h' | h'
      · exact Or.inr h'
      · rw [h, h'] at hprod; simp at hprod; exact absurd hprod hne
  rcases this with h | h
  · exact no_split hm hR hRn hK hT ha hc b1 b2 hB (by omega) (hone A rA.1 h)
  · exact no_split hm hR hRn hK hT ha hc b1 b2 (by rw [hB, Nat.mul_comm]) hB1 (hone B rB.1 h)

/-! ### the order of P-521 -/

/-- Pratt certificates for the primes of the factored parts. -/
def parts521Cert : List Step := [
  (3, 2, [(2, 1)]),
  (5, 2, [(2, 2)]),
  (11, 2, [(2, 1), (5, 1)]),
  (31, 3, [(2, 1), (3, 1), (5, 1)]),
  (311, 17, [(2, 1), (5, 1), (31, 1)]),
  (73, 5, [(2, 3), (3, 2)]),
  (877, 2, [(2, 2), (3, 1), (73, 1)]),
  (1458105463, 3, [(2, 1), (3, 5), (11, 1), (311, 1), (877, 1)]),
  (17, 3, [(2, 4)]),
  (7, 3, [(2, 1), (3, 1)]),
  (13, 2, [(2, 2), (3, 1)]),
  (547, 2, [(2, 1), (3, 1), (7, 1), (13, 1)]),
  (19, 2, [(2, 1), (3, 2)]),
  (281, 3, [(2, 3), (5, 1), (7, 1)]),
  (37, 2, [(2, 2), (3, 2)]),
  (593, 3, [(2, 4), (37, 1)]),
  (1187, 2, [(2, 1), (593, 1)]),
  (61, 2, [(2, 2), (3, 1), (5, 1)]),
  (157, 5, [(2, 2), (3, 1), (13, 1)]),
  (811, 3, [(2, 1), (3, 4), (5, 1)]),
  (186406729, 7, [(2, 3), (3, 1), (61, 1), (157, 1), (811, 1)]),
  (88599952463812275001, 11, [(2, 3), (3, 1), (5, 5), (19, 1), (281, 1), (1187, 1), (186406729, 1)]),
  (1647781915921980690468599, 13, [(2, 1), (17, 1), (547, 1), (88599952463812275001, 1)]),
  (23, 5, [(2, 1), (11, 1)]),
  (41, 6, [(2, 3), (5, 1)]),
  (1723, 3, [(2, 1), (3, 1), (7, 1), (41, 1)]),
  (17231, 13, [(2, 1), (5, 1), (1723, 1)]),
  (1585253, 2, [(2, 2), (23, 1), (17231, 1)]),
  (22193543, 5, [(2, 1), (7, 1), (1585253, 1)]),
  (102337, 5, [(2, 6), (3, 1), (13, 1), (41, 1)]),
  (191, 19, [(2, 1), (5, 1), (19, 1)]),
  (383, 5, [(2, 1), (191, 1)]),
  (631, 3, [(2, 1), (3, 2), (5, 1), (7, 1)]),
  (101, 2, [(2, 2), (5, 2)]),
  (113, 3, [(2, 4), (7, 1)]),
  (13421689, 11, [(2, 3), (3, 1), (7, 2), (101, 1), (113, 1)]),
  (3140675227, 2, [(2, 1), (3, 2), (13, 1), (13421689, 1)]),
  (1518032808269543, 5, [(2, 1), (383, 1), (631, 1), (3140675227, 1)]),
  (18952812666985387082903, 5, [(2, 1), (61, 1), (102337, 1), (1518032808269543, 1)]),
  (641, 3, [(2, 7), (5, 1)]),
  (1283, 2, [(2, 1), (641, 1)])]

/-- A factored part of `n - 1`. -/
def minus521 : List (Nat × Nat) := [(2, 3), (7, 1), (11, 1), (1283, 1), (1458105463, 1), (1647781915921980690468599, 1)]

/-- A factored part of `n + 1`. -/
def plus521 : List (Nat × Nat) := [(3, 2), (5, 2), (22193543, 1), (18952812666985387082903, 1)]

theorem parts521_prime : ∀ x ∈ minus521 ++ plus521, x.1.Prime := by
  have h : ((checkAll [2] parts521Cert).any fun out => (minus521 ++ plus521).all fun x => out.contains x.1) = true := by decide +kernel
  cases hc : checkAll [2] parts521Cert with
  | none => rw [hc] at h; simp at h
  | some out =>
    rw [hc] at h
    simp only [Option.any_some, List.all_eq_true, List.contains_iff_mem] at h
    exact fun x hx => checkAll_sound _ [2] out (by simpa using Nat.prime_two) hc x.1 (h x hx)

def order521 : Nat := 6864797660130609714981900799081393217269435300143305409394463459185543183397655394245057746333217197532963996371363321113864768612440380340372808892707005449

theorem order521_minus {p : Nat} (hp : p.Prime) (h : p ∣ order521) : (minus521.map fun x => x.1 ^ x.2).prod ∣ p - 1 :=
  minus_sound (n := order521) (a := 3) (by decide +kernel) (fun x hx => parts521_prime x (by simp [hx])) (by decide +kernel) (by decide +kernel) hp h

theorem order521_plus {p : Nat} (hp : p.Prime) (h : p ∣ order521) :
    (plus521.map fun x => x.1 ^ x.2).prod ∣ p - 1 ∨ (plus521.map fun x => x.1 ^ x.2).prod ∣ p + 1 :=
  plus_sound (n := order521) (t := 4) (by decide +kernel) (by decide +kernel) (fun x hx => parts521_prime x (by simp [hx])) (by decide +kernel)
    (by decide +kernel) hp h

theorem order521_prime : order521.Prime :=
  prime_of_parts (n := order521) (F1 := (minus521.map fun x => x.1 ^ x.2).prod) (F2 := (plus521.map fun x => x.1 ^ x.2).prod)
    (m := 179712739689112280584095435606435218572493577805657884613208142186377400)
    (R := 4538224083760702604191761936900882829901033986392200996260067527406849)
    (K := 212554356650393)
    (T := 38198725766498938545605096331794390815088317132919606374421803025498270576035691671239)
    (u := (94641764151529095434111766449025))
    (a := (94641764151529095434111766449025))
    (c := (-60697906679502565578834186698754430654814504691795852904611526082304225))
    (s := (2389955960523876029609128079968))
    (w := (20116519291486562473719160248460159056150231363))
    (by decide +kernel) (by unfold Nat.Coprime; decide +kernel) (by decide +kernel) (fun _ => order521_minus) (fun _ => order521_plus)
    (by decide +kernel) (Nat.dvd_of_mod_eq_zero (by decide +kernel)) (by decide +kernel) (by decide +kernel) (by decide +kernel) (by decide +kernel)
    (by decide +kernel) (by decide +kernel) (by decide +kernel) (by decide +kernel) (by decide +kernel)

end MCrypto.Curve
