import Verif.Asn1.To
import Mathlib.Tactic.Ring
/-
Object identifiers: the decoder accepts exactly what the encoder writes.
-/
namespace MCrypto.Asn1
open MCrypto

theorem enc128_succ (k n : Nat) (hk : 1 ≤ k) :
    enc128 (k + 1) n = UInt8.ofNat (128 + n / 128 ^ k % 128) :: enc128 k n := by
  match k, hk with
  | k + 1, _ => rfl

theorem parse128_sound (s : Bytes) : ∀ (sh acc n : Nat) (r : Bytes), parse128 sh acc s = some (n, r) →
    ∃ k, 1 ≤ k ∧ s = enc128 k n ++ r ∧ n / 128 ^ k = acc ∧ n ≤ 2147483647 ∧
      (sh = 0 → 1 < k → n / 128 ^ (k - 1) % 128 ≠ 0) := by
  induction s with
  | nil => intro sh acc n r h; simp [parse128] at h
  | cons b t ih =>
    intro sh acc n r h
    rw [parse128] at h
    split at h
    · cases h
    split at h
    · cases h
    rename_i h5 h80
    simp only [] at h
    have hb := b.toNat_lt
    split at h
    · rename_i hlt
      split at h
      · cases h
      rename_i hle
      simp only [Option.some.injEq, Prod.mk.injEq] at h
      obtain ⟨h1, rfl⟩ := h
      have hm : b.toNat % 128 = b.toNat := Nat.mod_eq_of_lt hlt
      rw [hm] at h1 hle
      refine ⟨1, Nat.le_refl _, ?_, ?_, by omega, by omega⟩
      · subst h1
        simp only [enc128, List.cons_append, List.nil_append]
        congr 1
        rw [← UInt8.toNat_inj]
        simp only [UInt8.toNat_ofNat']
        omega
      · subst h1; simp; omega
    · rename_i hge
      obtain ⟨k, hk, rfl, hdiv, hle, _⟩ := ih _ _ _ _ h
      have hdig : n / 128 ^ k % 128 = b.toNat % 128 := by rw [hdiv]; omega
      refine ⟨k + 1, by omega, ?_, ?_, hle, ?_⟩
      · rw [enc128_succ k n hk, List.cons_append]
        congr 1
        rw [hdig, ← UInt8.toNat_inj]
        simp only [UInt8.toNat_ofNat']
        omega
      · rw [Nat.pow_succ, ← Nat.div_div_eq_div_mul, hdiv]; omega
      · intro hs _
        rw [Nat.add_sub_cancel, hdig]
        intro h0
        exact h80 ⟨hs, by omega⟩

theorem len128_unique {n k : Nat} (hk : 1 ≤ k) (h1 : n < 128 ^ k) (h2 : 1 < k → 128 ^ (k - 1) ≤ n) : len128 n = k := by
  unfold len128
  by_cases h0 : n = 0
  · subst h0
    rw [if_pos rfl]
    by_contra hc
    have := h2 (by omega)
    have : 0 < 128 ^ (k - 1) := Nat.pow_pos (by decide)
    omega
  · rw [if_neg h0]
    have e : ∀ j, 128 ^ j = 2 ^ (7 * j) := fun j => by rw [Nat.pow_mul]
    have hl : n.log2 < 7 * k := (Nat.log2_lt h0).mpr (by rw [← e]; exact h1)
    by_cases hk1 : 1 < k
    · have hg : 7 * (k - 1) ≤ n.log2 := (Nat.le_log2 h0).mpr (by rw [← e]; exact h2 hk1)
      omega
    · omega

theorem parse128_iff (s : Bytes) (n : Nat) (r : Bytes) :
    parse128 0 0 s = some (n, r) ↔ s = base128 n ++ r ∧ n ≤ 2147483647 := by
  constructor
  · intro h
    obtain ⟨k, hk, rfl, hd, hle, hlead⟩ := parse128_sound s 0 0 n r h
    have hlt : n < 128 ^ k := by
      rcases Nat.div_eq_zero_iff.mp hd with h | h
      · have : 0 < 128 ^ k := Nat.pow_pos (by decide)
        omega
      · exact h
    have : len128 n = k := by
      refine len128_unique hk hlt fun hk1 => ?_
      have := hlead rfl hk1
      by_contra hc
      have : n / 128 ^ (k - 1) = 0 := Nat.div_eq_of_lt (by omega)
      omega
    exact ⟨by unfold base128; rw [this], hle⟩
  · rintro ⟨rfl, h⟩
    exact parse128_base128 n h r

theorem parseArcs_sound (k : Nat) : ∀ (s : Bytes) (l : List Nat), parseArcs k s = some l →
    s = l.flatMap base128 ∧ ∀ n ∈ l, n ≤ 2147483647 := by
  induction k with
  | zero =>
    intro s l h
    match s with
    | [] => simp [parseArcs] at h; subst h; exact ⟨rfl, by simp⟩
    | _ :: _ => simp [parseArcs] at h
  | succ k ih =>
    intro s l h
    match s with
    | [] => simp [parseArcs] at h; subst h; exact ⟨rfl, by simp⟩
    | b :: r =>
      rw [parseArcs] at h
      match hp : parse128 0 0 (b :: r) with
      | none => rw [hp] at h; cases h
      | some (v, r') =>
        rw [hp] at h
        simp only [] at h
        match ha : parseArcs k r' with
        | none => rw [ha] at h; cases h
        | some l' =>
          rw [ha] at h
          simp only [Option.some.injEq] at h
          subst h
          obtain ⟨h1, h2⟩ := (parse128_iff _ _ _).mp hp
          obtain ⟨h3, h4⟩ := ih _ _ ha
          refine ⟨by rw [h1, h3]; rfl, ?_⟩
          intro n hn
          rcases List.mem_cons.mp hn with rfl | hn
          · exact h2
          · exact h4 n hn

/-- Object identifiers have one encoding, and the decoder accepts nothing else. -/
theorem decOid_iff (b : Bytes) (o : Oid) : decOid b = some o ↔ OidOk o ∧ encOid o = some b := by
  constructor
  · intro h
    unfold decOid at h
    match hp : parse128 0 0 b with
    | none => rw [hp] at h; cases h
    | some (v, r) =>
      rw [hp] at h
      simp only [] at h
      obtain ⟨h1, h2⟩ := (parse128_iff _ _ _).mp hp
      match ha : parseArcs r.length r with
      | none => rw [ha] at h; cases h
      | some l =>
        rw [ha] at h
        simp only [] at h
        obtain ⟨h3, h4⟩ := parseArcs_sound _ _ _ ha
        split at h
        · injection h with h
          subst h
          refine ⟨⟨_, _, _, rfl, by omega, h4⟩, ?_⟩
          rw [encOid, if_neg (by omega), h1, h3]
          congr 3
          omega
        · injection h with h
          subst h
          refine ⟨⟨_, _, _, rfl, by omega, h4⟩, ?_⟩
          rw [encOid, if_neg (by omega), h1, h3]
          congr 3
          omega
  · rintro ⟨ho, he⟩
    exact oid_law ho b [] he

end MCrypto.Asn1
