import Verif.X509.Cert
/-
Specification of calendar times: which field values are a date and a time of day in the Gregorian calendar, and
which instant they denote. Written with the closed formula for the day number, independent of the model's
day-by-day arithmetic.
-/
namespace MCrypto.X509Spec
open MCrypto.X509 (Time)

/-- A leap year of the Gregorian calendar. -/
def LeapYear (y : Nat) : Prop := (4 ∣ y ∧ ¬ 100 ∣ y) ∨ 400 ∣ y

instance (y : Nat) : Decidable (LeapYear y) := by unfold LeapYear; infer_instance

/-- Lengths of the months. -/
def monthLength (y m : Nat) : Nat :=
  if m = 2 then if LeapYear y then 29 else 28
  else if m ∈ [4, 6, 9, 11] then 30 else 31

/-- The fields are a date and a time of day. -/
structure ValidTime (t : Time) : Prop where
  month : 1 ≤ t.month ∧ t.month ≤ 12
  day : 1 ≤ t.day ∧ t.day ≤ monthLength t.year t.month
  hour : t.hour < 24
  minute : t.minute < 60
  second : t.second < 60

/-- Days before 1 January of year `y`, from 1 January of year 0: 365 a year and one for each leap year. -/
def dayOfYear0 (y : Nat) : Int := 365 * y + (y + 3) / 4 - (y + 99) / 100 + (y + 399) / 400

/-- Days of the year before the first of month `m`. -/
def dayOfMonth (y m : Nat) : Int := (((List.range (m - 1)).map fun k => monthLength y (k + 1)).sum : Nat)

/-- Seconds from 1 January of year 0, 00:00:00 UTC. -/
def instant (t : Time) : Int :=
  (((dayOfYear0 t.year + dayOfMonth t.year t.month + ((t.day : Int) - 1)) * 24 + t.hour) * 60 + t.minute - t.offset) * 60 +
    t.second

/-- The same instant, possibly in different zones. -/
def SameInstant (t u : Time) : Prop := instant t = instant u

end MCrypto.X509Spec
