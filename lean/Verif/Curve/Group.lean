import Verif.Curve.Model
import Mathlib.AlgebraicGeometry.EllipticCurve.Affine.Point
import Mathlib.FieldTheory.Finite.Basic
import Mathlib.Tactic.Ring
import Mathlib.Tactic.FieldSimp
/-
The computable point arithmetic of Curve/Model agrees with Mathlib's group law on the
Weierstrass curve over `ZMod p`.
-/
namespace MCrypto.Curve
open MCrypto WeierstrassCurve

section
variable (p : ℕ) [Fact p.Prime] (b : ZMod p)

/-- y² = x³ - 3x + b over F_p. -/
def E : WeierstrassCurve.Affine (ZMod p) := ⟨0, 0, 0, -3, b⟩

variable {p b}

theorem E_equation (x y : ZMod p) : (E p b).Equation x y ↔ y * y = x * x * x - 3 * x + b := by
  rw [Affine.equation_iff]
  simp only [E]
  constructor <;> intro h <;> linear_combination h

theorem E_negY (x y : ZMod p) : (E p b).negY x y = -y := by
  simp [Affine.negY, E]

/-- The affine pair `q` (with `(0,0)` for infinity) represents the curve point `A`. -/
inductive Rep (b : ZMod p) : Pt → (E p b).Point → Prop
  | zero : Rep b (0, 0) 0
  | some (x y : ℕ) (hx : x < p) (hy : y < p) (h : (E p b).Nonsingular (x : ZMod p) (y : ZMod p)) :
      Rep b (x, y) (.some (x : ZMod p) (y : ZMod p) h)

theorem not_origin (hb : b ≠ 0) {x y : ℕ} (h : (E p b).Nonsingular (x : ZMod p) (y : ZMod p)) :
    (x, y) ≠ (0, 0) := by
  intro he
  obtain ⟨rfl, rfl⟩ := Prod.mk.inj he
  have := (E_equation (b := b) _ _).mp h.1
  apply hb
  simp at this
  exact this.symm

theorem cast_fsub (a c : ℕ) : ((fsub p a c : ℕ) : ZMod p) = a - c := by
  have hp : 0 < p := (Fact.out : p.Prime).pos
  unfold fsub
  rw [ZMod.natCast_mod, Nat.cast_add, Nat.cast_sub (Nat.mod_lt _ hp).le, ZMod.natCast_self,
    ZMod.natCast_mod]
  ring

theorem fsub_lt (a c : ℕ) : fsub p a c < p := Nat.mod_lt _ (Fact.out : p.Prime).pos

theorem cast_finv (hp2 : 2 < p) (a : ℕ) : ((finv p a : ℕ) : ZMod p) = (a : ZMod p)⁻¹ := by
  unfold finv
  rw [powMod_eq, ZMod.natCast_mod, Nat.cast_pow]
  by_cases h : (a : ZMod p) = 0
  · rw [h, inv_zero, zero_pow (by omega)]
  · apply eq_inv_of_mul_eq_one_left
    rw [← pow_succ, show p - 2 + 1 = p - 1 by omega, ZMod.pow_card_sub_one_eq_one h]

theorem cast_inj_of_lt {x y : ℕ} (hx : x < p) (hy : y < p) :
    (x : ZMod p) = (y : ZMod p) ↔ x = y := by
  rw [ZMod.natCast_eq_natCast_iff', Nat.mod_eq_of_lt hx, Nat.mod_eq_of_lt hy]

/-- The Jacobian triple `q` represents the curve point `A`. -/
def RepJ (b : ZMod p) (q : Jac) (A : (E p b).Point) : Prop :=
  q.z < p ∧ ((q.z = 0 ∧ A = 0) ∨
    (q.z : ZMod p) ≠ 0 ∧ ∃ (X Y : ZMod p) (h : (E p b).Nonsingular X Y), A = .some X Y h ∧
      (q.x : ZMod p) = X * (q.z : ZMod p) ^ 2 ∧ (q.y : ZMod p) = Y * (q.z : ZMod p) ^ 3)

theorem cast_eq_zero_of_lt {x : ℕ} (hx : x < p) : (x : ZMod p) = 0 ↔ x = 0 := by
  rw [ZMod.natCast_eq_zero_iff]
  exact ⟨fun h => Nat.eq_zero_of_dvd_of_lt h hx, fun h => h ▸ dvd_zero p⟩

theorem repJ_toJac (hb : b ≠ 0) {q : Pt} {A : (E p b).Point} (h : Rep b q A) : RepJ b (toJac q) A := by
  have hp1 : 1 < p := (Fact.out : p.Prime).one_lt
  cases h with
  | zero => exact ⟨by simp [toJac]; omega, .inl ⟨by simp [toJac], rfl⟩⟩
  | some x y hx hy h =>
    have hne : x ≠ 0 ∨ y ≠ 0 := by
      by_contra hc
      simp only [not_or, not_not] at hc
      exact not_origin hb h (by rw [hc.1, hc.2])
    refine ⟨by simp [toJac, hne]; omega, .inr ⟨by simp [toJac, hne], x, y, h, rfl, ?_, ?_⟩⟩ <;> simp [toJac, hne]

theorem rep_toAffine (hp2 : 2 < p) {q : Jac} {A : (E p b).Point} (h : RepJ b q A) : Rep b (toAffine p q) A := by
  obtain ⟨hz, ⟨h0, rfl⟩ | ⟨hne, X, Y, hn, rfl, hx, hy⟩⟩ := h
  · rw [toAffine, if_pos h0]; exact Rep.zero
  · have h0 : q.z ≠ 0 := fun h => hne (by rw [h]; simp)
    have hp : 0 < p := by omega
    rw [toAffine, if_neg h0]
    have e1 : ((q.x * (finv p q.z * finv p q.z) % p : ℕ) : ZMod p) = X := by
      rw [ZMod.natCast_mod, Nat.cast_mul, Nat.cast_mul, cast_finv hp2, hx]
      field_simp
    have e2 : ((q.y * (finv p q.z * finv p q.z * finv p q.z) % p : ℕ) : ZMod p) = Y := by
      rw [ZMod.natCast_mod, Nat.cast_mul, Nat.cast_mul, Nat.cast_mul, cast_finv hp2, hy]
      field_simp
    dsimp only
    subst e1 e2
    exact Rep.some _ _ (Nat.mod_lt _ hp) (Nat.mod_lt _ hp) hn

theorem two_ne (hp2 : 2 < p) : (2 : ZMod p) ≠ 0 := by
  intro h
  have : ((2 : ℕ) : ZMod p) = 0 := by exact_mod_cast h
  rw [cast_eq_zero_of_lt hp2] at this
  omega

theorem cast_jDouble (q : Jac) :
    ((jDouble p q).x : ZMod p) = (3 * (q.x - (q.z : ZMod p) ^ 2) * (q.x + (q.z : ZMod p) ^ 2)) ^ 2 - 8 * (q.x * (q.y : ZMod p) ^ 2) ∧
    ((jDouble p q).y : ZMod p) = 3 * (q.x - (q.z : ZMod p) ^ 2) * (q.x + (q.z : ZMod p) ^ 2) *
      (4 * (q.x * (q.y : ZMod p) ^ 2) - ((jDouble p q).x : ZMod p)) - 8 * (q.y : ZMod p) ^ 4 ∧
    ((jDouble p q).z : ZMod p) = 2 * q.y * q.z := by
  refine ⟨?_, ?_, ?_⟩
  · simp only [jDouble, cast_fsub, Nat.cast_mul, Nat.cast_add, ZMod.natCast_mod, Nat.cast_ofNat]
    ring
  · have : (jDouble p q).y = fsub p (3 * (fsub p q.x (q.z * q.z % p) * (q.x + q.z * q.z % p)) *
        fsub p (4 * (q.x * (q.y * q.y % p))) (jDouble p q).x) (8 * (q.y * q.y % p * (q.y * q.y % p)) % p) := rfl
    rw [this]
    simp only [cast_fsub, Nat.cast_mul, Nat.cast_add, ZMod.natCast_mod, Nat.cast_ofNat]
    ring
  · simp only [jDouble, cast_fsub, Nat.cast_mul, Nat.cast_add, ZMod.natCast_mod]
    ring

theorem repJ_double (hp2 : 2 < p) {q : Jac} {A : (E p b).Point} (h : RepJ b q A) : RepJ b (jDouble p q) (A + A) := by
  obtain ⟨c1, c2, c3⟩ := cast_jDouble (p := p) q
  have hlt : (jDouble p q).z < p := fsub_lt _ _
  generalize jDouble p q = t at *
  refine ⟨hlt, ?_⟩
  obtain ⟨hz, ⟨h0, rfl⟩ | ⟨hne, X, Y, hn, rfl, hx, hy⟩⟩ := h
  · left
    refine ⟨?_, by simp⟩
    rw [← cast_eq_zero_of_lt hlt, c3, h0]; simp
  · by_cases hY : Y = 0
    · left
      refine ⟨?_, Affine.Point.add_of_Y_eq rfl (by rw [E_negY, hY, neg_zero])⟩
      rw [← cast_eq_zero_of_lt hlt, c3, hy, hY]; simp
    · right
      have hYn : Y ≠ (E p b).negY X Y := by
        rw [E_negY]
        intro h
        have h' : 2 * Y = 0 := by linear_combination h
        rcases mul_eq_zero.mp h' with h | h
        · exact two_ne hp2 h
        · exact hY h
      have h2 := two_ne hp2
      have hs : (E p b).slope X X Y Y = (3 * X ^ 2 - 3) / (2 * Y) := by
        rw [Affine.slope_of_Y_ne rfl hYn, E_negY]
        simp only [E]
        congr 1 <;> ring
      refine ⟨?_, _, _, _, Affine.Point.add_of_Y_ne hYn, ?_, ?_⟩
      · rw [c3, hy]; exact mul_ne_zero (mul_ne_zero h2 (mul_ne_zero hY (pow_ne_zero _ hne))) hne
      · rw [hs, c1, c3, hx, hy]
        simp only [Affine.addX, E]
        field_simp
        ring
      · rw [hs, c2, c1, c3, hx, hy]
        simp only [Affine.addY, Affine.negAddY, Affine.negY, Affine.addX, E]
        field_simp
        ring

/-- The values of `jAdd` in the general case. -/
theorem cast_jAdd {q r : Jac} (hq : q.z ≠ 0) (hr : r.z ≠ 0) :
    let h : ZMod p := r.x * (q.z : ZMod p) ^ 2 - q.x * (r.z : ZMod p) ^ 2
    let w : ZMod p := r.y * (q.z : ZMod p) ^ 3 - q.y * (r.z : ZMod p) ^ 3
    (h = 0 ∧ w = 0 → jAdd p q r = jDouble p q) ∧
    (¬ (h = 0 ∧ w = 0) →
      (jAdd p q r).z < p ∧
      ((jAdd p q r).x : ZMod p) = 4 * w ^ 2 - 4 * h ^ 3 - 8 * (q.x * (r.z : ZMod p) ^ 2) * h ^ 2 ∧
      ((jAdd p q r).y : ZMod p) = 2 * w * (4 * (q.x * (r.z : ZMod p) ^ 2) * h ^ 2 - ((jAdd p q r).x : ZMod p)) -
        8 * (q.y * (r.z : ZMod p) ^ 3) * h ^ 3 ∧
      ((jAdd p q r).z : ZMod p) = 2 * q.z * r.z * h) := by
  have hp : 0 < p := (Fact.out : p.Prime).pos
  intro h w
  have e1 : ((fsub p (r.x * (q.z * q.z % p) % p) (q.x * (r.z * r.z % p) % p) : ℕ) : ZMod p) = h := by
    simp only [cast_fsub, Nat.cast_mul, ZMod.natCast_mod, h]; ring
  have e2 : ((fsub p (r.y * q.z * (q.z * q.z % p) % p) (q.y * r.z * (r.z * r.z % p) % p) : ℕ) : ZMod p) = w := by
    simp only [cast_fsub, Nat.cast_mul, ZMod.natCast_mod, w]; ring
  have hz : (h = 0 ∧ w = 0) ↔ (fsub p (r.x * (q.z * q.z % p) % p) (q.x * (r.z * r.z % p) % p) = 0 ∧
      fsub p (r.y * q.z * (q.z * q.z % p) % p) (q.y * r.z * (r.z * r.z % p) % p) = 0) := by
    rw [← e1, ← e2, cast_eq_zero_of_lt (fsub_lt _ _), cast_eq_zero_of_lt (fsub_lt _ _)]
  refine ⟨fun hc => ?_, fun hc => ?_⟩
  · rw [jAdd, if_neg hq, if_neg hr]
    exact if_pos (hz.mp hc)
  · have hj : jAdd p q r = jAdd p q r := rfl
    conv_rhs at hj =>
      rw [jAdd, if_neg hq, if_neg hr]
      dsimp only
      rw [if_neg (fun h => hc (hz.mpr h))]
    have cx : ((jAdd p q r).x : ZMod p) = 4 * w ^ 2 - 4 * h ^ 3 - 8 * (q.x * (r.z : ZMod p) ^ 2) * h ^ 2 := by
      rw [hj]
      simp only [cast_fsub, Nat.cast_mul, ZMod.natCast_mod, Nat.cast_ofNat, h, w]
      ring
    refine ⟨by rw [hj]; exact Nat.mod_lt _ hp, cx, ?_, ?_⟩
    · rw [cx, hj]
      simp only [cast_fsub, Nat.cast_mul, ZMod.natCast_mod, Nat.cast_ofNat, h, w]
      ring
    · rw [hj]
      simp only [cast_fsub, Nat.cast_mul, Nat.cast_add, ZMod.natCast_mod, h]
      ring

theorem repJ_add (hp2 : 2 < p) {q r : Jac} {A C : (E p b).Point} (hq : RepJ b q A) (hr : RepJ b r C) :
    RepJ b (jAdd p q r) (A + C) := by
  have hq' := hq
  obtain ⟨hz1, ⟨h0, rfl⟩ | ⟨hne1, X1, Y1, hn1, rfl, hx1, hy1⟩⟩ := hq
  · rw [jAdd, if_pos h0, zero_add]; exact hr
  obtain ⟨hz2, ⟨h0, rfl⟩ | ⟨hne2, X2, Y2, hn2, rfl, hx2, hy2⟩⟩ := hr
  · rw [jAdd, if_pos h0, add_zero]
    rw [if_neg (fun h => hne1 (by rw [h]; simp))]
    exact hq'
  obtain ⟨k1, k2⟩ := cast_jAdd (p := p) (q := q) (r := r) (fun h => hne1 (by rw [h]; simp)) (fun h => hne2 (by rw [h]; simp))
  have eh : (r.x * (q.z : ZMod p) ^ 2 - q.x * (r.z : ZMod p) ^ 2 : ZMod p) = (X2 - X1) * ((q.z : ZMod p) ^ 2 * (r.z : ZMod p) ^ 2) := by
    rw [hx1, hx2]; ring
  have ew : (r.y * (q.z : ZMod p) ^ 3 - q.y * (r.z : ZMod p) ^ 3 : ZMod p) = (Y2 - Y1) * ((q.z : ZMod p) ^ 3 * (r.z : ZMod p) ^ 3) := by
    rw [hy1, hy2]; ring
  have nz : ((q.z : ZMod p) ^ 2 * (r.z : ZMod p) ^ 2) ≠ 0 := mul_ne_zero (pow_ne_zero _ hne1) (pow_ne_zero _ hne2)
  have nz3 : ((q.z : ZMod p) ^ 3 * (r.z : ZMod p) ^ 3) ≠ 0 := mul_ne_zero (pow_ne_zero _ hne1) (pow_ne_zero _ hne2)
  rw [eh, ew] at k1 k2
  simp only [mul_eq_zero, nz, nz3, or_false, sub_eq_zero] at k1 k2
  by_cases hX : X2 = X1
  · by_cases hY : Y2 = Y1
    · subst hX hY
      rw [k1 ⟨rfl, rfl⟩]
      exact repJ_double hp2 hq'
    · obtain ⟨g1, -, -, g4⟩ := k2 (fun h => hY h.2)
      refine ⟨g1, .inl ⟨?_, ?_⟩⟩
      · rw [← cast_eq_zero_of_lt g1, g4, hX]; simp
      · subst hX
        refine Affine.Point.add_of_Y_eq rfl ?_
        rcases Affine.Y_eq_of_X_eq hn1.1 hn2.1 rfl with h | h
        · exact absurd h.symm hY
        · exact h
  · obtain ⟨g1, g2, g3, g4⟩ := k2 (fun h => hX h.1)
    have hxn : X1 ≠ X2 := fun h => hX h.symm
    have hd : X2 - X1 ≠ 0 := sub_ne_zero.mpr hX
    have hs : (E p b).slope X1 X2 Y1 Y2 = (Y2 - Y1) / (X2 - X1) := by
      rw [Affine.slope_of_X_ne hxn, ← neg_sub Y2, ← neg_sub X2, neg_div_neg_eq]
    have h2 := two_ne hp2
    generalize jAdd p q r = t at *
    refine ⟨g1, .inr ⟨?_, _, _, _, Affine.Point.add_of_X_ne hxn, ?_, ?_⟩⟩
    · rw [g4]; exact mul_ne_zero (mul_ne_zero (mul_ne_zero h2 hne1) hne2) (mul_ne_zero hd nz)
    · rw [hs, g2, g4, hx1]
      simp only [Affine.addX, E]
      field_simp
      ring
    · rw [hs, g3, g2, g4, hx1, hy1]
      simp only [Affine.addY, Affine.negAddY, Affine.negY, Affine.addX, E]
      field_simp
      ring

/-- `CurveParams.Add` is the group law. -/
theorem rep_add (hp2 : 2 < p) (hb : b ≠ 0) {q r : Pt} {A C : (E p b).Point}
    (hq : Rep b q A) (hr : Rep b r C) : Rep b (add p q r) (A + C) :=
  rep_toAffine hp2 (repJ_add hp2 (repJ_toJac hb hq) (repJ_toJac hb hr))

/-- Value of a bit string, most significant bit first. -/
def bitVal (l : List Bool) : ℕ := l.foldl (fun a c => 2 * a + c.toNat) 0

theorem bitVal_foldl (l : List Bool) (a : ℕ) :
    l.foldl (fun a c => 2 * a + c.toNat) a = a * 2 ^ l.length + bitVal l := by
  unfold bitVal
  induction l generalizing a with
  | nil => simp
  | cons c l ih =>
    rw [List.foldl_cons, List.foldl_cons, ih, ih (2 * 0 + c.toNat), List.length_cons, pow_succ]
    ring

theorem bitVal_byte (c : UInt8) :
    bitVal ((List.range 8).map fun i => c.toNat.testBit (7 - i)) = c.toNat := by
  have key : ∀ n, n < 256 → bitVal ((List.range 8).map fun i => n.testBit (7 - i)) = n := by
    decide +kernel
  exact key _ c.toNat_lt

theorem bitVal_bitsOf (k : Bytes) : bitVal (bitsOf k) = ofBytes k := by
  induction k with
  | nil => rfl
  | cons c k ih =>
    have hl : (bitsOf k).length = 8 * k.length := by
      clear ih
      induction k with
      | nil => rfl
      | cons d k ih => simp [bitsOf] at ih ⊢; omega
    rw [bitsOf, List.flatMap_cons, bitVal, List.foldl_append, bitVal_foldl, ← bitsOf, ih, ← bitVal,
      bitVal_byte, ofBytes_cons, hl, pow_mul, show (2 ^ 8 : ℕ) = 256 from rfl]

theorem rep_scalarMult (hp2 : 2 < p) (hb : b ≠ 0) {q : Pt} {A : (E p b).Point} (hq : Rep b q A)
    (k : Bytes) : Rep b (scalarMult p q k) (ofBytes k • A) := by
  rw [← bitVal_bitsOf]
  unfold scalarMult
  generalize bitsOf k = l
  have key : ∀ (acc : Jac) (m : ℕ), RepJ b acc (m • A) →
      RepJ b (l.foldl (fun acc c => if c then jAdd p (toJac q) (jDouble p acc) else jDouble p acc) acc)
        ((l.foldl (fun a c => 2 * a + c.toNat) m) • A) := by
    induction l with
    | nil => intro acc m h; exact h
    | cons c l ih =>
      intro acc m h
      rw [List.foldl_cons, List.foldl_cons]
      apply ih
      have hd := repJ_double hp2 h
      cases c with
      | false => simpa [two_mul, add_smul] using hd
      | true =>
        have := repJ_add hp2 (repJ_toJac hb hq) hd
        simp only [if_true, Bool.toNat_true]
        have e : A + (m • A + m • A) = (2 * m + 1) • A := by rw [add_smul, two_mul, add_smul, one_smul, add_comm]
        rwa [e] at this
  have := key ⟨0, 0, 0⟩ 0 ⟨(Fact.out : p.Prime).pos, .inl ⟨rfl, by rw [zero_nsmul]⟩⟩
  exact rep_toAffine hp2 this

theorem Rep.eq_of_eq (hb : b ≠ 0) {q : Pt} {A C : (E p b).Point} (h1 : Rep b q A) (h2 : Rep b q C) : A = C := by
  cases h1 with
  | zero =>
    generalize hq : ((0, 0) : Pt) = q at h2
    cases h2 with
    | zero => rfl
    | some x y hx hy h => exact absurd hq.symm (not_origin hb h)
  | some x y hx hy h =>
    generalize hq : ((x, y) : Pt) = q at h2
    cases h2 with
    | zero => exact absurd hq (not_origin hb h)
    | some x' y' hx' hy' h' =>
      obtain ⟨rfl, rfl⟩ := Prod.mk.inj hq
      rfl

theorem Rep.pt_eq {q r : Pt} {A : (E p b).Point} (h1 : Rep b q A) (h2 : Rep b r A) : q = r := by
  cases h1 with
  | zero =>
    generalize hq : (0 : (E p b).Point) = C at h2
    cases h2 with
    | zero => rfl
    | some x y hx hy h => exact absurd hq.symm (Affine.Point.some_ne_zero h)
  | some x y hx hy h =>
    generalize hq : Affine.Point.some (x : ZMod p) (y : ZMod p) h = C at h2
    cases h2 with
    | zero => exact absurd hq (Affine.Point.some_ne_zero h)
    | some x' y' hx' hy' h' =>
      obtain ⟨e1, e2⟩ := (Affine.Point.some.injEq _ _ _ _ _ _).mp hq
      rw [(cast_inj_of_lt hx hx').mp e1, (cast_inj_of_lt hy hy').mp e2]

theorem Rep.zero_iff (hb : b ≠ 0) {q : Pt} {A : (E p b).Point} (h : Rep b q A) : q = (0, 0) ↔ A = 0 := by
  constructor
  · intro e; subst e; exact Rep.eq_of_eq hb h Rep.zero
  · intro e; subst e; exact Rep.pt_eq h Rep.zero

theorem Rep.lt {q : Pt} {A : (E p b).Point} (h : Rep b q A) : q.1 < p ∧ q.2 < p := by
  have hp : 0 < p := (Fact.out : p.Prime).pos
  cases h with
  | zero => exact ⟨hp, hp⟩
  | some x y hx hy h => exact ⟨hx, hy⟩

end

end MCrypto.Curve
