import Verif.X509.TimeLemmas
import Mathlib.Order.Monotone.Basic
/-
Two valid times in UTC that denote the same instant are equal, and `Time.utc` finds the one there is.
-/
namespace MCrypto.X509
open MCrypto MCrypto.X509Spec

theorem dayOfMonth_nonneg (y m : Nat) : 0 ≤ dayOfMonth y m := by unfold dayOfMonth; exact Int.natCast_nonneg _

theorem dayOfYear0_succ (y : Nat) : dayOfYear0 y + 365 ≤ dayOfYear0 (y + 1) := by unfold dayOfYear0; push_cast; omega

theorem dayOfYear0_mono {y z : Nat} (h : y ≤ z) : dayOfYear0 y ≤ dayOfYear0 z :=
  monotone_nat_of_le_succ (f := dayOfYear0) (fun n => by have := dayOfYear0_succ n; omega) h

theorem dayOfMonth_mono (y : Nat) {m n : Nat} (h1 : 1 ≤ m) (h : m ≤ n) : dayOfMonth y m ≤ dayOfMonth y n := by
  induction n, h using Nat.le_induction with
  | base => exact Int.le_refl _
  | succ n hn ih => rw [dayOfMonth_succ _ _ (by omega)]; omega

theorem dayOfMonth_13 (y : Nat) : dayOfYear0 (y + 1) = dayOfYear0 y + dayOfMonth y 13 := by
  rw [year_length, dayOfMonth_succ y 12 (by decide), monthLength_12]; push_cast; omega

theorem day_bounds {t : Time} (h : ValidTime t) : dayOfYear0 t.year ≤ t.dayNo ∧ t.dayNo < dayOfYear0 (t.year + 1) := by
  have h1 := h.month
  have h2 := h.day
  have a := dayOfMonth_nonneg t.year t.month
  have b := dayOfMonth_mono t.year (m := t.month + 1) (n := 13) (by omega) (by omega)
  have c := dayOfMonth_13 t.year
  rw [dayOfMonth_succ _ _ h1.1] at b
  unfold Time.dayNo
  omega

theorem dayNo_inj {t u : Time} (ht : ValidTime t) (hu : ValidTime u) (h : t.dayNo = u.dayNo) :
    t.year = u.year ∧ t.month = u.month ∧ t.day = u.day := by
  have hy : t.year = u.year := by
    have a := day_bounds ht
    have b := day_bounds hu
    by_contra hne
    rcases Nat.lt_or_gt_of_ne hne with h' | h'
    · have := dayOfYear0_mono (show t.year + 1 ≤ u.year by omega); omega
    · have := dayOfYear0_mono (show u.year + 1 ≤ t.year by omega); omega
  have a1 := ht.month; have a2 := ht.day; have b1 := hu.month; have b2 := hu.day
  have hm : t.month = u.month := by
    by_contra hne
    unfold Time.dayNo at h
    rw [hy] at h a2
    rcases Nat.lt_or_gt_of_ne hne with h' | h'
    · have := dayOfMonth_mono u.year (m := t.month + 1) (n := u.month) (by omega) (by omega)
      rw [dayOfMonth_succ _ _ a1.1] at this; omega
    · have := dayOfMonth_mono u.year (m := u.month + 1) (n := t.month) (by omega) (by omega)
      rw [dayOfMonth_succ _ _ b1.1] at this; omega
  refine ⟨hy, hm, ?_⟩
  unfold Time.dayNo at h
  rw [hy, hm] at h
  omega

/-- Times in UTC with the same instant are the same. -/
theorem utc_unique {t u : Time} (ht : ValidTime t) (hu : ValidTime u) (h0 : t.offset = 0) (h0' : u.offset = 0)
    (h : SameInstant t u) : t = u := by
  unfold SameInstant at h
  rw [instant_dayNo, instant_dayNo, h0, h0'] at h
  have a3 := ht.hour; have a4 := ht.minute; have a5 := ht.second
  have b3 := hu.hour; have b4 := hu.minute; have b5 := hu.second
  obtain ⟨h1, h2, h3⟩ := dayNo_inj ht hu (by omega)
  obtain ⟨y, m, d, hh, mm, ss, off⟩ := t
  obtain ⟨y', m', d', hh', mm', ss', off'⟩ := u
  simp only [Time.mk.injEq] at *
  refine ⟨h1, h2, h3, ?_, ?_, ?_, by omega⟩ <;> omega

theorem prevDay_none {t : Time} (h : ValidTime t) (hp : t.prevDay = none) : t.dayNo = 0 := by
  have h1 := h.month; have h2 := h.day
  unfold Time.prevDay at hp
  split_ifs at hp with a b c
  have e1 : t.month = 1 := by omega
  have e2 : t.day = 1 := by omega
  have e3 : t.year = 0 := by omega
  unfold Time.dayNo
  rw [e1, e2, e3]; rfl

theorem subDays_none (k : Nat) : ∀ {t : Time}, ValidTime t → t.subDays k = none → t.dayNo < k := by
  induction k with
  | zero => intro t _ h; cases h
  | succ k ih =>
    intro t ht h
    unfold Time.subDays at h
    cases hp : t.prevDay with
    | none => rw [prevDay_none ht hp]; omega
    | some u =>
      rw [hp] at h
      obtain ⟨a1, a2, -⟩ := prevDay_ok ht hp
      have := ih a1 h
      omega

theorem utc_isSome {t u : Time} (ht : ValidTime t) (hu : ValidTime u) (h0 : u.offset = 0) (h : SameInstant t u) :
    t.utc = some u := by
  have hn : t.utc ≠ none := by
    intro hne
    unfold Time.utc at hne
    simp only [] at hne
    generalize hm : (((t.hour * 60 + t.minute : Nat) : Int) - t.offset) = m at hne
    have hv : ValidTime (t.atMinute (m % 1440).toNat) := by
      obtain ⟨h1, h2, h3, h4, h5⟩ := ht
      exact ⟨h1, h2, by simp only [Time.atMinute]; omega, by simp only [Time.atMinute]; omega, h5⟩
    split_ifs at hne with hc
    have hd : (t.atMinute (m % 1440).toNat).dayNo = t.dayNo := rfl
    have := subDays_none _ hv hne
    rw [hd] at this
    have hb := (day_bounds hu).1
    have hb0 := dayOfYear0_mono (Nat.zero_le u.year)
    have e0 : dayOfYear0 0 = 0 := by decide
    unfold SameInstant at h
    rw [instant_dayNo, instant_dayNo, h0] at h
    have h5 := ht.second
    push_cast at hm
    omega
  obtain ⟨v, hv⟩ := Option.ne_none_iff_exists'.mp hn
  obtain ⟨a1, a2, a3⟩ := utc_ok ht hv
  rw [hv, utc_unique a1 hu a2 h0 (show instant v = instant u from a3.trans h)]

end MCrypto.X509
