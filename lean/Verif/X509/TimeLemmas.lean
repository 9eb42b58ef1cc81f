import Verif.X509.TimeSpec
import Verif.X509.Pkix
import Verif.Asn1.To
import Mathlib.Tactic.IntervalCases
/-
`Time.UTC`, and times through the encoder and the parsers.
-/
namespace MCrypto.X509
open MCrypto MCrypto.Asn1 MCrypto.X509Spec

theorem isLeap_iff (y : Nat) : isLeap y = true ↔ LeapYear y := by
  unfold isLeap LeapYear
  simp only [Bool.and_eq_true, Bool.or_eq_true, decide_eq_true_eq]
  omega

theorem daysIn_eq (m y : Nat) : daysIn m y = monthLength y m := by
  unfold daysIn monthLength
  by_cases h : LeapYear y
  · simp [(isLeap_iff y).mpr h, h, or_assoc]
  · have : isLeap y = false := by
      cases hl : isLeap y
      · rfl
      · exact absurd ((isLeap_iff y).mp hl) h
    simp [this, h]

theorem daysBeforeYear_eq (y : Nat) : (daysBeforeYear y : Int) = dayOfYear0 y := by
  induction y with
  | zero => rfl
  | succ y ih =>
    unfold daysBeforeYear
    push_cast
    rw [ih]
    unfold dayOfYear0
    by_cases h : isLeap y = true
    · rw [if_pos h]
      have := (isLeap_iff y).mp h
      unfold LeapYear at this
      push_cast
      omega
    · rw [if_neg h]
      have := (isLeap_iff y).not.mp h
      unfold LeapYear at this
      push_cast
      omega

theorem daysBeforeMonth_eq (y m : Nat) : (daysBeforeMonth y m : Int) = dayOfMonth y m := by
  induction m with
  | zero => rfl
  | succ m ih =>
    cases m with
    | zero => rfl
    | succ m =>
      unfold daysBeforeMonth
      unfold dayOfMonth at ih ⊢
      simp only [Nat.add_sub_cancel] at ih ⊢
      rw [List.range_succ, List.map_append, List.sum_append]
      push_cast
      rw [ih, daysIn_eq]
      simp

/-- The model's instants differ from the specification's by one day. -/
theorem instant_eq (t : Time) : t.instant = X509Spec.instant t + 86400 := by
  unfold Time.instant X509Spec.instant
  rw [← daysBeforeYear_eq, ← daysBeforeMonth_eq]
  push_cast
  omega

theorem before_iff (t u : Time) : t.before u = true ↔ X509Spec.instant t < X509Spec.instant u := by
  unfold Time.before
  rw [decide_eq_true_eq, instant_eq, instant_eq]
  omega

theorem monthLength_bounds (y m : Nat) : 28 ≤ monthLength y m ∧ monthLength y m ≤ 31 := by
  unfold monthLength; split <;> split <;> omega

/-- Day number. -/
def Time.dayNo (t : Time) : Int := dayOfYear0 t.year + dayOfMonth t.year t.month + ((t.day : Int) - 1)

theorem instant_dayNo (t : Time) :
    X509Spec.instant t = ((t.dayNo * 24 + t.hour) * 60 + t.minute - t.offset) * 60 + t.second := rfl

theorem dayOfMonth_succ (y m : Nat) (h : 1 ≤ m) : dayOfMonth y (m + 1) = dayOfMonth y m + monthLength y m := by
  rw [← daysBeforeMonth_eq, ← daysBeforeMonth_eq]
  obtain ⟨k, rfl⟩ : ∃ k, m = k + 1 := ⟨m - 1, by omega⟩
  rw [show k + 1 + 1 = k + 2 by rfl, daysBeforeMonth, daysIn_eq]
  push_cast; rfl

theorem year_length (y : Nat) : dayOfYear0 (y + 1) = dayOfYear0 y + dayOfMonth y 12 + 31 := by
  rw [← daysBeforeYear_eq, ← daysBeforeYear_eq, daysBeforeYear, ← daysBeforeMonth_eq]
  cases h : isLeap y
  · simp [daysBeforeMonth, daysIn, h]; omega
  · simp [daysBeforeMonth, daysIn, h]; omega

theorem monthLength_12 (y : Nat) : monthLength y 12 = 31 := by unfold monthLength; simp

theorem nextDay_ok {t : Time} (h : ValidTime t) : ValidTime t.nextDay ∧ t.nextDay.dayNo = t.dayNo + 1 ∧
    t.nextDay.hour = t.hour ∧ t.nextDay.minute = t.minute ∧ t.nextDay.second = t.second ∧ t.nextDay.offset = t.offset := by
  obtain ⟨h1, h2, h3, h4, h5⟩ := h
  unfold Time.nextDay
  rw [daysIn_eq]
  split
  · refine ⟨⟨h1, by simp only []; omega, h3, h4, h5⟩, ?_, rfl, rfl, rfl, rfl⟩
    simp only [Time.dayNo]; push_cast; omega
  · rename_i hd
    split
    · rename_i hm
      refine ⟨⟨by simp only []; omega, ?_, h3, h4, h5⟩, ?_, rfl, rfl, rfl, rfl⟩
      · have := (monthLength_bounds t.year (t.month + 1)).1; simp only []; omega
      · simp only [Time.dayNo]; rw [dayOfMonth_succ _ _ h1.1]; push_cast; omega
    · rename_i hm
      have hm' : t.month = 12 := by omega
      refine ⟨⟨by simp only []; omega, ?_, h3, h4, h5⟩, ?_, rfl, rfl, rfl, rfl⟩
      · have := (monthLength_bounds (t.year + 1) 1).1; simp only []; omega
      · simp only [Time.dayNo]
        rw [hm'] at h2 hd ⊢
        rw [monthLength_12] at h2 hd
        rw [year_length, show dayOfMonth (t.year + 1) 1 = 0 from rfl]
        push_cast; omega

theorem prevDay_ok {t u : Time} (h : ValidTime t) (hp : t.prevDay = some u) : ValidTime u ∧ u.dayNo = t.dayNo - 1 ∧
    u.hour = t.hour ∧ u.minute = t.minute ∧ u.second = t.second ∧ u.offset = t.offset := by
  obtain ⟨h1, h2, h3, h4, h5⟩ := h
  unfold Time.prevDay at hp
  rw [daysIn_eq] at hp
  split at hp
  · injection hp with hp; subst hp
    refine ⟨⟨h1, by simp only []; omega, h3, h4, h5⟩, ?_, rfl, rfl, rfl, rfl⟩
    simp only [Time.dayNo]; omega
  · split at hp
    · injection hp with hp; subst hp
      have hb := (monthLength_bounds t.year (t.month - 1)).1
      refine ⟨⟨by simp only []; omega, by simp only []; omega, h3, h4, h5⟩, ?_, rfl, rfl, rfl, rfl⟩
      simp only [Time.dayNo]
      obtain ⟨m, hm⟩ : ∃ m, t.month = m + 1 := ⟨t.month - 1, by omega⟩
      rw [hm, Nat.add_sub_cancel, dayOfMonth_succ _ m (by omega)]
      omega
    · split at hp
      · injection hp with hp; subst hp
        have hm : t.month = 1 := by omega
        refine ⟨⟨by simp only []; omega, by simp only [monthLength_12]; omega, h3, h4, h5⟩, ?_, rfl, rfl, rfl, rfl⟩
        simp only [Time.dayNo]
        obtain ⟨y, hy⟩ : ∃ y, t.year = y + 1 := ⟨t.year - 1, by omega⟩
        rw [hy, hm, Nat.add_sub_cancel, year_length, show dayOfMonth (y + 1) 1 = 0 from rfl]
        omega
      · cases hp

theorem addDays_ok (k : Nat) : ∀ {t : Time}, ValidTime t → ValidTime (t.addDays k) ∧ (t.addDays k).dayNo = t.dayNo + k ∧
    (t.addDays k).hour = t.hour ∧ (t.addDays k).minute = t.minute ∧ (t.addDays k).second = t.second ∧
    (t.addDays k).offset = t.offset := by
  induction k with
  | zero => intro t h; exact ⟨h, by simp [Time.addDays], rfl, rfl, rfl, rfl⟩
  | succ k ih =>
    intro t h
    obtain ⟨a1, a2, a3, a4, a5, a6⟩ := nextDay_ok h
    obtain ⟨b1, b2, b3, b4, b5, b6⟩ := ih a1
    unfold Time.addDays
    exact ⟨b1, by rw [b2, a2]; push_cast; omega, b3.trans a3, b4.trans a4, b5.trans a5, b6.trans a6⟩

theorem subDays_ok (k : Nat) : ∀ {t u : Time}, ValidTime t → t.subDays k = some u → ValidTime u ∧
    u.dayNo = t.dayNo - k ∧ u.hour = t.hour ∧ u.minute = t.minute ∧ u.second = t.second ∧ u.offset = t.offset := by
  induction k with
  | zero => intro t u h hu; simp only [Time.subDays, Option.some.injEq] at hu; subst hu; exact ⟨h, by simp, rfl, rfl, rfl, rfl⟩
  | succ k ih =>
    intro t u h hu
    simp only [Time.subDays, Option.bind_eq_bind, Option.bind_eq_some_iff] at hu
    obtain ⟨v, hv, hu⟩ := hu
    obtain ⟨a1, a2, a3, a4, a5, a6⟩ := prevDay_ok h hv
    obtain ⟨b1, b2, b3, b4, b5, b6⟩ := ih a1 hu
    exact ⟨b1, by rw [b2, a2]; push_cast; omega, b3.trans a3, b4.trans a4, b5.trans a5, b6.trans a6⟩

/-- Converting to UTC keeps the instant and gives a valid time with offset zero. -/
theorem utc_ok {t u : Time} (h : ValidTime t) (hu : t.utc = some u) : ValidTime u ∧ u.offset = 0 ∧ SameInstant u t := by
  unfold Time.utc at hu
  simp only [] at hu
  generalize hm : (((t.hour * 60 + t.minute : Nat) : Int) - t.offset) = m at hu
  have hm1 : 0 ≤ m % 1440 := Int.emod_nonneg _ (by decide)
  have hm2 : m % 1440 < 1440 := Int.emod_lt_of_pos _ (by decide)
  have hv : ValidTime (t.atMinute (m % 1440).toNat) := by
    obtain ⟨h1, h2, h3, h4, h5⟩ := h
    exact ⟨h1, h2, by simp only [Time.atMinute]; omega, by simp only [Time.atMinute]; omega, h5⟩
  have hmm : m = m / 1440 * 1440 + m % 1440 := by omega
  have hd : (t.atMinute (m % 1440).toNat).dayNo = t.dayNo := rfl
  have hs : (t.atMinute (m % 1440).toNat).second = t.second := rfl
  have ho : (t.atMinute (m % 1440).toNat).offset = 0 := rfl
  have hh : ((t.atMinute (m % 1440).toNat).hour : Int) * 60 + (t.atMinute (m % 1440).toNat).minute = m % 1440 := by
    simp only [Time.atMinute]; omega
  split at hu
  · rename_i h0
    injection hu with hu
    obtain ⟨a1, a2, a3, a4, a5, a6⟩ := addDays_ok (m / 1440).toNat hv
    rw [hu] at a1 a2 a3 a4 a5 a6
    refine ⟨a1, a6.trans ho, ?_⟩
    unfold SameInstant
    rw [instant_dayNo, instant_dayNo, a2, a5, a6, hd, hs, ho, a3, a4]
    push_cast at hm
    omega
  · rename_i h0
    obtain ⟨a1, a2, a3, a4, a5, a6⟩ := subDays_ok (-(m / 1440)).toNat hv hu
    refine ⟨a1, a6.trans ho, ?_⟩
    unfold SameInstant
    rw [instant_dayNo, instant_dayNo, a2, a5, a6, hd, hs, ho, a3, a4]
    push_cast at hm
    omega

/-! ## Encoding -/

theorem num2_twoDigits {n : Nat} (h : n < 100) (r : Bytes) : num2 (twoDigits n ++ r) = some (n, r) := by
  have key : ∀ n < 100, num2 (twoDigits n) = some (n, []) := by decide +kernel
  have := key n h
  unfold twoDigits at this ⊢
  simp only [num2, List.cons_append, List.nil_append, Option.pure_def, Option.bind_eq_bind, Option.bind_eq_some_iff,
    Option.some.injEq, Prod.mk.injEq, and_true] at this ⊢
  exact this

theorem parseMDHM_enc {t : Time} {y : Nat} (h : ValidTime t) (hy : monthLength y t.month = monthLength t.year t.month) (r : Bytes) :
    parseMDHM y (twoDigits t.month ++ (twoDigits t.day ++ (twoDigits t.hour ++ (twoDigits t.minute ++ r)))) =
      some (t.month, t.day, t.hour, t.minute, r) := by
  obtain ⟨h1, h2, h3, h4, h5⟩ := h
  have := (monthLength_bounds t.year t.month).2
  unfold parseMDHM
  rw [num2_twoDigits (by omega)]
  simp only [Option.bind_eq_bind, Option.bind_some]
  rw [num2_twoDigits (by omega)]
  simp only [Option.bind_some]
  rw [num2_twoDigits (by omega)]
  simp only [Option.bind_some]
  rw [num2_twoDigits (by omega)]
  simp only [Option.bind_some]
  rw [daysIn_eq, hy, if_pos ⟨h1.1, h1.2, h2.1, h2.2, h3, h4⟩]
  rfl

theorem timeCommon_utc {t : Time} (h0 : t.offset = 0) : timeCommon t =
    twoDigits t.month ++ (twoDigits t.day ++ (twoDigits t.hour ++ (twoDigits t.minute ++ (twoDigits t.second ++ [90])))) := by
  unfold timeCommon zoneBytes
  rw [if_pos h0]
  simp only [List.append_assoc]

theorem parseSec_enc {n : Nat} (h : n < 60) (r : Bytes) : parseSec (twoDigits n ++ r) = some (n, r) := by
  unfold parseSec
  rw [num2_twoDigits (by omega)]
  simp only [Option.bind_eq_bind, Option.bind_some]
  rw [if_pos h]; rfl

theorem parseZone_sec {n : Nat} (h : n < 60) : parseZone (twoDigits n ++ [90]) = none := by
  have key : ∀ n < 60, parseZone (twoDigits n ++ [90]) = none := by decide +kernel
  exact key n h

theorem utcTime_enc {t : Time} (h : ValidTime t) (h0 : t.offset = 0) (hy : 1950 ≤ t.year ∧ t.year < 2050) :
    parseUTCTime (twoDigits (t.year % 100) ++ timeCommon t) = some t := by
  unfold parseUTCTime
  rw [timeCommon_utc h0, num2_twoDigits (by omega)]
  simp only [Option.bind_eq_bind, Option.bind_some]
  rw [parseMDHM_enc h ?_]
  · simp only [Option.bind_some, parseZone_sec h.second, parseSec_enc h.second]
    have : parseZone [90] = some 0 := rfl
    rw [this]
    simp only [Option.bind_some, Option.pure_def, Option.some.injEq]
    cases t
    simp only [Time.mk.injEq, and_true, true_and] at h0 hy ⊢
    subst h0
    refine ⟨?_, rfl⟩
    split <;> split <;> omega
  · unfold monthLength LeapYear
    have : ∀ y, 1950 ≤ y → y < 2050 → ∀ z, z = (if y % 100 ≥ 69 then 1900 + y % 100 else 2000 + y % 100) →
        (((4 ∣ z ∧ ¬ 100 ∣ z) ∨ 400 ∣ z) ↔ ((4 ∣ y ∧ ¬ 100 ∣ y) ∨ 400 ∣ y)) := by
      intro y h1 h2 z hz
      split at hz <;> omega
    have := this t.year hy.1 hy.2 _ rfl
    simp only [this]

theorem genTime_enc {t : Time} (h : ValidTime t) (h0 : t.offset = 0) (hy : t.year ≤ 9999) :
    parseGeneralizedTime (twoDigits (t.year / 100) ++ (twoDigits (t.year % 100) ++ timeCommon t)) = some t := by
  unfold parseGeneralizedTime
  rw [timeCommon_utc h0, num2_twoDigits (by omega)]
  simp only [Option.bind_eq_bind, Option.bind_some]
  rw [num2_twoDigits (by omega)]
  simp only [Option.bind_some]
  rw [show 100 * (t.year / 100) + t.year % 100 = t.year by omega, parseMDHM_enc h rfl]
  simp only [Option.bind_some, parseSec_enc h.second]
  have : parseZone [90] = some 0 := rfl
  rw [this]
  simp only [Option.bind_some, Option.pure_def, Option.some.injEq]
  cases t
  simp only [Time.mk.injEq, true_and] at h0 ⊢
  exact h0.symm

theorem twoDigits_length (n : Nat) : (twoDigits n).length = 2 := rfl

theorem timeCommon_length {t : Time} (h0 : t.offset = 0) : (timeCommon t).length = 11 := by
  rw [timeCommon_utc h0]; simp [twoDigits_length]

/-- What the encoder writes for a time in UTC. -/
theorem marshalTime_cases {t : Time} {e : Bytes} (h : marshalTime t = some e) (hv : ValidTime t) (h0 : t.offset = 0) :
    (∃ b, e = encTLV 0 false 23 b ∧ b.length = 13 ∧ parseUTCTime b = some t) ∨
    (∃ b, e = encTLV 0 false 24 b ∧ b.length = 15 ∧ parseGeneralizedTime b = some t) := by
  unfold marshalTime at h
  split at h
  · rename_i ho
    split at h
    · cases h
    · injection h with h
      right
      refine ⟨_, h.symm, ?_, ?_⟩
      · simp [twoDigits_length, timeCommon_length h0]
      · rw [List.append_assoc]; exact genTime_enc hv h0 (by omega)
  · rename_i ho
    injection h with h
    left
    refine ⟨_, h.symm, ?_, ?_⟩
    · simp [twoDigits_length, timeCommon_length h0]
    · apply utcTime_enc hv h0
      simp only [outsideUTCRange, Bool.or_eq_true, decide_eq_true_eq] at ho
      omega

theorem marshalTime_length {t : Time} {e : Bytes} (h : marshalTime t = some e) (hv : ValidTime t) (h0 : t.offset = 0) :
    e.length = 15 ∨ e.length = 17 := by
  rcases marshalTime_cases h hv h0 with ⟨b, rfl, hb, _⟩ | ⟨b, rfl, hb, _⟩
  · left; rw [encTLV, List.length_append, hb]; rfl
  · right; rw [encTLV, List.length_append, hb]; rfl

/-- encoding/asn1 reads back a time in UTC. -/
theorem parseTimeField_enc {t : Time} {e : Bytes} (h : marshalTime t = some e) (hv : ValidTime t) (h0 : t.offset = 0)
    (o : Bool) (r : Bytes) : parseTimeField o (e ++ r) = some (t, r) := by
  rcases marshalTime_cases h hv h0 with ⟨b, rfl, hb, hp⟩ | ⟨b, rfl, hb, hp⟩
  · unfold parseTimeField
    simp only []
    rw [if_neg (by simp [encTLV_ne_nil]), parseHdr_encTLV _ _ _ _ _ (by decide) (by decide) (by omega)]
    simp only [Nat.reduceEqDiff, true_or, or_true, and_self, if_true]
    rw [if_neg (by simp), List.take_left' rfl, hp]
    simp
  · unfold parseTimeField
    simp only []
    rw [if_neg (by simp [encTLV_ne_nil]), parseHdr_encTLV _ _ _ _ _ (by decide) (by decide) (by omega)]
    simp only [Nat.reduceEqDiff, true_or, or_true, and_self, if_true, if_false]
    rw [if_neg (by simp), List.take_left' rfl, hp]
    simp

/-- The certificate parser reads back a time in UTC. -/
theorem readTime_enc {t : Time} {e : Bytes} (h : marshalTime t = some e) (hv : ValidTime t) (h0 : t.offset = 0)
    (r : Bytes) : readTime (e ++ r) = some (t, r) := by
  rcases marshalTime_cases h hv h0 with ⟨b, rfl, hb, hp⟩ | ⟨b, rfl, hb, hp⟩
  · have hr := Der.readASN1_tlv 0x17 b r (by decide) (by omega)
    rw [show Der.tlv 0x17 b = encTLV 0 false 23 b from rfl] at hr
    unfold readTime
    rw [if_pos (by rfl), hr]
    simp only [Option.bind_eq_bind, Option.bind_some, hp]; rfl
  · have hr := Der.readASN1_tlv 0x18 b r (by decide) (by omega)
    rw [show Der.tlv 0x18 b = encTLV 0 false 24 b from rfl] at hr
    unfold readTime
    rw [if_neg (by rw [show peek 0x17 (encTLV 0 false 24 b ++ r) = false from rfl]; decide), if_pos (by rfl), hr]
    simp only [Option.bind_eq_bind, Option.bind_some, hp]; rfl

end MCrypto.X509
