import Verif.Props.Sm2Mall
import Verif.Props.Sm2Enc
import Mathlib.Data.Set.Card
import Mathlib.Data.Set.Finite.List
import Mathlib.Data.Int.CardIntervalMod
import Mathlib.Tactic.ByContra
import Mathlib.Algebra.Polynomial.Roots
import Mathlib.Tactic.ComputeDegree
/-
C142: how often. The random reader is a string of octets; a property of the result is counted over all
strings of one length, so `count n Q / 256^n` is its probability over uniformly random octets
(sm2.go:94-107, 228-241, 268-310, 385-417; model Verif/Sm2/Model.lean).
-/
namespace MCrypto.Props
open MCrypto MCrypto.Sm2 MCrypto.Sm2Spec MCrypto.Curve

/-- The number of strings of `n` octets with the property `Q`. -/
noncomputable def count (n : Nat) (Q : Bytes → Prop) : Nat := {b : Bytes | b.length = n ∧ Q b}.ncard

theorem strings_finite (n : Nat) (Q : Bytes → Prop) : {b : Bytes | b.length = n ∧ Q b}.Finite := by
  have : Finite UInt8 := Finite.of_injective UInt8.toFin (fun a b h => UInt8.toFin_inj.mp h)
  exact (List.finite_length_eq UInt8 n).subset (fun b h => h.1)

/-- Strings as numbers. -/
theorem count_numbers (n : Nat) (p : Nat → Prop) [DecidablePred p] :
    count n (fun b => p (ofBytes b)) = Nat.count p (256 ^ n) := by
  unfold count
  rw [Nat.count_eq_card_filter_range, ← Set.ncard_coe_finset]
  refine Set.ncard_congr (fun b _ => ofBytes b) ?_ ?_ ?_
  · rintro b ⟨h1, h2⟩
    have := ofBytes_lt b
    rw [h1] at this
    simp only [Finset.coe_filter, Finset.mem_range, Set.mem_setOf_eq]
    exact ⟨this, h2⟩
  · rintro a b ⟨h1, -⟩ ⟨h2, -⟩ h
    exact ofBytes_inj (h1.trans h2.symm) h
  · intro x hx
    simp only [Finset.coe_filter, Finset.mem_range, Set.mem_setOf_eq] at hx
    have e := ofBytes_beBytes_of_lt hx.1
    refine ⟨beBytes n x, ⟨beBytes_length n x, ?_⟩, e⟩
    dsimp only
    rw [e]; exact hx.2

theorem count_all (n : Nat) : count n (fun _ => True) = 256 ^ n := by
  classical
  have := count_numbers n (fun _ => True)
  rw [this]
  simp

theorem count_mono {n : Nat} {Q R : Bytes → Prop} (h : ∀ b : Bytes, b.length = n → Q b → R b) : count n Q ≤ count n R :=
  Set.ncard_le_ncard (fun b hb => ⟨hb.1, h b hb.1 hb.2⟩) (strings_finite n R)

theorem count_congr {n : Nat} {Q R : Bytes → Prop} (h : ∀ b : Bytes, b.length = n → (Q b ↔ R b)) : count n Q = count n R :=
  le_antisymm (count_mono fun b hb => (h b hb).mp) (count_mono fun b hb => (h b hb).mpr)

theorem count_or {n : Nat} (Q R : Bytes → Prop) : count n (fun b => Q b ∨ R b) ≤ count n Q + count n R := by
  unfold count
  have : {b : Bytes | b.length = n ∧ (Q b ∨ R b)} = {b : Bytes | b.length = n ∧ Q b} ∪ {b : Bytes | b.length = n ∧ R b} := by
    ext b; simp only [Set.mem_setOf_eq, Set.mem_union]; tauto
  rw [this]
  exact Set.ncard_union_le _ _

theorem count_or_disjoint {n : Nat} (Q R : Bytes → Prop) (h : ∀ b : Bytes, b.length = n → Q b → ¬ R b) :
    count n (fun b => Q b ∨ R b) = count n Q + count n R := by
  unfold count
  have : {b : Bytes | b.length = n ∧ (Q b ∨ R b)} = {b : Bytes | b.length = n ∧ Q b} ∪ {b : Bytes | b.length = n ∧ R b} := by
    ext b; simp only [Set.mem_setOf_eq, Set.mem_union]; tauto
  rw [this]
  refine Set.ncard_union_eq ?_ (strings_finite n Q) (strings_finite n R)
  rw [Set.disjoint_left]
  intro b h1 h2
  exact h b h1.1 h1.2 h2.2

theorem count_not {n : Nat} (Q : Bytes → Prop) : count n Q + count n (fun b => ¬ Q b) = 256 ^ n := by
  rw [← count_or_disjoint Q _ (fun b _ h h' => h' h), ← count_all n]
  exact count_congr fun b _ => ⟨fun _ => trivial, fun _ => em _⟩

/-- Two independent parts. -/
theorem count_prod (a m : Nat) (Q R : Bytes → Prop) :
    count (a + m) (fun b => Q (b.take a) ∧ R (b.drop a)) = count a Q * count m R := by
  unfold count
  rw [← Set.ncard_prod]
  refine Set.ncard_congr (fun b _ => (b.take a, b.drop a)) ?_ ?_ ?_
  · rintro b ⟨h1, h2, h3⟩
    refine ⟨⟨?_, h2⟩, ⟨?_, h3⟩⟩
    · rw [List.length_take]; omega
    · rw [List.length_drop]; omega
  · intro b c _ _ h
    simp only [Prod.mk.injEq] at h
    rw [← List.take_append_drop a b, h.1, h.2, List.take_append_drop]
  · rintro ⟨u, v⟩ ⟨⟨h1, h2⟩, ⟨h3, h4⟩⟩
    have e1 : (u ++ v).take a = u := by rw [← h1]; exact List.take_left
    have e2 : (u ++ v).drop a = v := by rw [← h1]; exact List.drop_left
    refine ⟨u ++ v, ⟨?_, ?_, ?_⟩, ?_⟩
    · rw [List.length_append]; dsimp only at h1 h3; omega
    · rw [e1]; exact h2
    · rw [e2]; exact h4
    · rw [e1, e2]

/-- A property of one chunk. -/
theorem count_chunk (c a m : Nat) (h : a + c ≤ m) (Q : Bytes → Prop) :
    count m (fun b => Q ((b.drop a).take c)) = count c Q * 256 ^ (m - c) := by
  obtain ⟨t, rfl⟩ := Nat.exists_eq_add_of_le h
  have e1 := count_prod a (c + t) (fun _ => True) (fun b => Q (b.take c) ∧ True)
  have e2 := count_prod c t Q (fun _ => True)
  have e3 : a + c + t = a + (c + t) := by omega
  rw [e3]
  refine Eq.trans (count_congr fun b _ => ?_) (e1.trans ?_)
  · simp only [true_and, and_true]
  · rw [e2, count_all, count_all]
    have : a + (c + t) - c = a + t := by omega
    rw [this, pow_add]
    ring

/-! ### the nonce -/

theorem count_nextk (k : Nat) (h1 : 1 ≤ k) (h2 : k ≤ N - 1) :
    count 40 (fun b => ofBytes b % (N - 1) + 1 = k) = 256 ^ 40 / (N - 1) + if k - 1 < 256 ^ 40 % (N - 1) then 1 else 0 := by
  have hN := one_lt_N
  have hk : (k - 1) % (N - 1) = k - 1 := Nat.mod_eq_of_lt (by omega)
  have e := count_numbers 40 (fun x => x ≡ k - 1 [MOD N - 1])
  rw [Nat.count_modEq_card _ (by omega), hk] at e
  rw [← e]
  refine count_congr fun b _ => ?_
  unfold Nat.ModEq
  rw [hk]
  omega

/-- The largest number of 40-octet strings with one nonce. -/
def perNonce : Nat := 256 ^ 40 / (N - 1) + 1

theorem count_nonce_set (S : Finset Nat) (hS : ∀ k ∈ S, 1 ≤ k ∧ k ≤ N - 1) :
    S.card * (256 ^ 40 / (N - 1)) ≤ count 40 (fun b => ofBytes b % (N - 1) + 1 ∈ S) ∧
    count 40 (fun b => ofBytes b % (N - 1) + 1 ∈ S) ≤ S.card * perNonce := by
  classical
  induction S using Finset.induction_on with
  | empty =>
    have : count 40 (fun b => ofBytes b % (N - 1) + 1 ∈ (∅ : Finset Nat)) = 0 := by
      unfold count
      simp
    rw [this]
    simp
  | insert k S hk ih =>
    obtain ⟨i1, i2⟩ := ih fun x hx => hS x (Finset.mem_insert_of_mem hx)
    have hr := hS k (Finset.mem_insert_self k S)
    have e : count 40 (fun b => ofBytes b % (N - 1) + 1 ∈ insert k S) =
        count 40 (fun b => ofBytes b % (N - 1) + 1 = k) + count 40 (fun b => ofBytes b % (N - 1) + 1 ∈ S) := by
      rw [← count_or_disjoint]
      · exact count_congr fun b _ => by rw [Finset.mem_insert]
      · rintro b - h1 h2
        rw [h1] at h2
        exact hk h2
    rw [e, count_nextk k hr.1 hr.2, Finset.card_insert_of_notMem hk, Nat.add_mul, Nat.add_mul, Nat.one_mul, Nat.one_mul]
    unfold perNonce at *
    constructor
    · split <;> omega
    · split <;> omega

theorem count_nonce_le (A : Nat → Prop) (m : Nat) (hA : {k : Nat | (1 ≤ k ∧ k ≤ N - 1) ∧ A k}.ncard ≤ m) :
    count 40 (fun b => A (ofBytes b % (N - 1) + 1)) ≤ m * perNonce := by
  classical
  have hN := one_lt_N
  have hf : {k : Nat | (1 ≤ k ∧ k ≤ N - 1) ∧ A k}.Finite := (Set.finite_Icc 1 (N - 1)).subset fun k h => h.1
  have h := (count_nonce_set hf.toFinset fun k hk => ((Set.Finite.mem_toFinset hf).mp hk).1).2
  rw [← Set.ncard_eq_toFinset_card _ hf] at h
  refine le_trans (count_mono fun b _ hb => ?_) (h.trans (Nat.mul_le_mul_right _ hA))
  rw [Set.Finite.mem_toFinset]
  refine ⟨⟨by omega, ?_⟩, hb⟩
  have := Nat.mod_lt (ofBytes b) (show 0 < N - 1 by omega)
  omega

/-- Some attempt of `n`. -/
theorem count_attempts (n : Nat) (A : Nat → Prop) (m : Nat) (hA : {k : Nat | (1 ≤ k ∧ k ≤ N - 1) ∧ A k}.ncard ≤ m) :
    count (40 * n) (fun b => ∃ j, j < n ∧ A (nonce b j)) ≤ n * (m * perNonce) * 256 ^ (40 * n - 40) := by
  have key : ∀ t, t ≤ n → count (40 * n) (fun b => ∃ j, j < t ∧ A (nonce b j)) ≤ t * (m * perNonce) * 256 ^ (40 * n - 40) := by
    intro t
    induction t with
    | zero =>
      intro _
      have : count (40 * n) (fun b => ∃ j, j < 0 ∧ A (nonce b j)) = 0 := by
        unfold count
        simp
      rw [this]; exact Nat.zero_le _
    | succ t ih =>
      intro ht
      have h1 := ih (by omega)
      have h2 : count (40 * n) (fun b => A (nonce b t)) ≤ m * perNonce * 256 ^ (40 * n - 40) := by
        have := count_chunk 40 (40 * t) (40 * n) (by omega) (fun b => A (ofBytes b % (N - 1) + 1))
        exact this.le.trans (Nat.mul_le_mul_right _ (count_nonce_le A m hA))
      have h3 : count (40 * n) (fun b => ∃ j, j < t + 1 ∧ A (nonce b j)) ≤ _ :=
        le_trans (count_mono fun b _ hb => ?_) (count_or (fun b => ∃ j, j < t ∧ A (nonce b j)) (fun b => A (nonce b t)))
      · refine h3.trans ?_
        rw [Nat.add_mul, Nat.add_mul, Nat.one_mul]
        exact Nat.add_le_add h1 h2
      · obtain ⟨j, h4, h5⟩ := hb
        rcases Nat.lt_succ_iff_lt_or_eq.mp h4 with h6 | rfl
        · exact Or.inl ⟨j, h6, h5⟩
        · exact Or.inr h5
  exact key n le_rfl

/-! ### nonces and points -/

theorem EP_finite : Finite EP := Nat.finite_of_card_ne_zero (by rw [card_EP]; have := N_pos; omega)

theorem nonces_le_points (A : Nat → Prop) (B : EP → Prop) (h : ∀ k, 1 ≤ k → k ≤ N - 1 → A k → B (k • Gp)) :
    {k : Nat | (1 ≤ k ∧ k ≤ N - 1) ∧ A k}.ncard ≤ {R : EP | B R}.ncard := by
  have := EP_finite
  refine Set.ncard_le_ncard_of_injOn (fun k => k • Gp) ?_ ?_ (Set.toFinite _)
  · rintro k ⟨⟨h1, h2⟩, h3⟩
    exact h k h1 h2 h3
  · rintro a ⟨⟨a1, a2⟩, -⟩ b ⟨⟨b1, b2⟩, -⟩ hab
    have e := smul_eq_cast.mp hab
    have hN := one_lt_N
    rw [ZMod.natCast_eq_natCast_iff', Nat.mod_eq_of_lt (by omega), Nat.mod_eq_of_lt (by omega)] at e
    exact e

theorem points_x (x : Nat) : {R : EP | ∃ y, coords R = some (x, y)}.ncard ≤ 2 := by
  by_cases hx : ∃ R y, coords R = some (x, y)
  · obtain ⟨R, y, hR⟩ := hx
    refine le_trans (Set.ncard_le_ncard (t := {R, -R}) ?_ (Set.toFinite _)) (le_trans (Set.ncard_insert_le _ _) (by rw [Set.ncard_singleton]))
    rintro S ⟨y', hS⟩
    exact coords_same hS hR
  · have : {R : EP | ∃ y, coords R = some (x, y)} = ∅ := by
      ext R; simp only [Set.mem_setOf_eq, Set.mem_empty_iff_false, iff_false]; exact fun ⟨y, h⟩ => hx ⟨R, y, h⟩
    rw [this]; simp

open Polynomial in
theorem points_y (y : Nat) : {R : EP | ∃ x, coords R = some (x, y)}.ncard ≤ 3 := by
  classical
  let c : ZMod P := bF - (y : ZMod P) * y
  let q : (ZMod P)[X] := X ^ 3 + (C (-3) * X + C c)
  have hd : q.natDegree = 3 := by
    have : q = C 1 * X ^ 3 + (C 0 * X ^ 2 + (C (-3) * X + C c)) := by simp [q]
    rw [this]
    compute_degree!
  have hq0 : q ≠ 0 := by
    intro h; rw [h] at hd; simp at hd
  have hroots : (q.roots.toFinset : Set (ZMod P)).ncard ≤ 3 := by
    rw [Set.ncard_coe_finset]
    exact (Multiset.toFinset_card_le _).trans (hd ▸ Polynomial.card_roots' q)
  let f : EP → ZMod P := fun R => match R with
    | .zero => 0
    | .some x _ _ => x
  refine le_trans (Set.ncard_le_ncard_of_injOn f ?_ ?_ (Finset.finite_toSet _)) hroots
  · rintro R ⟨x, h⟩
    cases R with
    | zero => cases h
    | some a b hab =>
      simp only [coords, Option.some.injEq, Prod.mk.injEq] at h
      have hb : (y : ZMod P) = b := by rw [← h.2, ZMod.natCast_zmod_val]
      have e := (E_equation (b := bF) _ _).mp hab.1
      have : a ∈ q.roots.toFinset := by
        rw [Multiset.mem_toFinset, mem_roots hq0, IsRoot.def]
        simp only [q, c, eval_add, eval_pow, eval_X, eval_mul, eval_C, hb]
        linear_combination -e
      exact this
  · rintro R ⟨x, h⟩ S ⟨x', h'⟩ hRS
    cases R with
    | zero => cases h
    | some a b hab =>
      cases S with
      | zero => cases h'
      | some a' b' hab' =>
        simp only [coords, Option.some.injEq, Prod.mk.injEq] at h h'
        have e1 : a = a' := hRS
        have e2 : b = b' := ZMod.val_injective _ (h.2.trans h'.2.symm)
        subst e1; subst e2; rfl

theorem ncard_family {α : Type} [Finite α] (F : Nat → Set α) (c : Nat) (h : ∀ i, (F i).ncard ≤ c) (n : Nat) :
    {a | ∃ i, i < n ∧ a ∈ F i}.ncard ≤ c * n := by
  induction n with
  | zero => simp
  | succ n ih =>
    have e : {a | ∃ i, i < n + 1 ∧ a ∈ F i} = {a | ∃ i, i < n ∧ a ∈ F i} ∪ F n := by
      ext a
      simp only [Set.mem_setOf_eq, Set.mem_union]
      constructor
      · rintro ⟨i, h1, h2⟩
        rcases Nat.lt_succ_iff_lt_or_eq.mp h1 with h3 | rfl
        · exact Or.inl ⟨i, h3, h2⟩
        · exact Or.inr h2
      · rintro (⟨i, h1, h2⟩ | h)
        · exact ⟨i, by omega, h2⟩
        · exact ⟨n, by omega, h⟩
    rw [e, Nat.mul_succ]
    exact (Set.ncard_union_le _ _).trans (Nat.add_le_add ih (h n))

end MCrypto.Props
