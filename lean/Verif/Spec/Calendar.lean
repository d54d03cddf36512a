import Verif.Go.Bytes

/-!
The calendar and the clock, as a list of rules a child learns, without any arithmetic on day numbers; and what a written
time of RFC 3339 says.  Nothing here is taken from the model.
-/

namespace Verif
namespace Spec

/-- A date and a time of day. -/
structure Clock where
  /-- the year, 1970 for instance -/
  year : Int
  /-- the month, 1 to 12 -/
  month : Nat
  /-- the day of the month, from 1 -/
  day : Nat
  /-- the hour, 0 to 23 -/
  hour : Nat
  /-- the minute, 0 to 59 -/
  minute : Nat
  /-- the second, 0 to 59 -/
  second : Nat
deriving DecidableEq

/-- Every fourth year is a leap year, except for the full centuries that 400 does not divide. -/
def Leap (y : Int) : Prop := 4 ∣ y ∧ (100 ∣ y → 400 ∣ y)

instance (y : Int) : Decidable (Leap y) := by unfold Leap; infer_instance

/-- How many days a month has. -/
def monthLength (y : Int) : Nat → Nat
  | 2 => if Leap y then 29 else 28
  | 4 => 30
  | 6 => 30
  | 9 => 30
  | 11 => 30
  | _ => 31

/-- The next day, at midnight. -/
def Clock.tomorrow (c : Clock) : Clock :=
  if c.day < monthLength c.year c.month then ⟨c.year, c.month, c.day + 1, 0, 0, 0⟩
  else if c.month < 12 then ⟨c.year, c.month + 1, 1, 0, 0, 0⟩
  else ⟨c.year + 1, 1, 1, 0, 0, 0⟩

/-- One second later. -/
def Clock.tick (c : Clock) : Clock :=
  if c.second < 59 then { c with second := c.second + 1 }
  else if c.minute < 59 then { c with minute := c.minute + 1, second := 0 }
  else if c.hour < 23 then { c with hour := c.hour + 1, minute := 0, second := 0 }
  else c.tomorrow

/-- A date and time that exist. -/
structure Clock.Real (c : Clock) : Prop where
  /-- the months are 1 to 12 -/
  month : 1 ≤ c.month ∧ c.month ≤ 12
  /-- the days are 1 to the length of the month -/
  day : 1 ≤ c.day ∧ c.day ≤ monthLength c.year c.month
  /-- there are 24 hours -/
  hour : c.hour ≤ 23
  /-- of 60 minutes -/
  minute : c.minute ≤ 59
  /-- of 60 seconds -/
  second : c.second ≤ 59

/-- A clock that runs: it showed 1970-01-01 00:00:00 at second 0, and it goes on by one second every second. -/
structure Runs (c : Int → Clock) : Prop where
  /-- it always shows a date and time that exist -/
  real : ∀ n, (c n).Real
  /-- the start -/
  start : c 0 = ⟨1970, 1, 1, 0, 0, 0⟩
  /-- one second later -/
  step : ∀ n, c (n + 1) = (c n).tick

/-- A decimal digit. -/
def dig (n : Nat) : UInt8 := UInt8.ofNat (48 + n)

/-- Two digits. -/
def two (n : Nat) : Str := [dig (n / 10), dig (n % 10)]

/-- Four digits. -/
def four (n : Nat) : Str := [dig (n / 1000), dig (n / 100 % 10), dig (n / 10 % 10), dig (n % 10)]

/-- `2006-01-02T15:04:05`. -/
def Clock.text (c : Clock) : Str :=
  four c.year.toNat ++ b! "-" ++ two c.month ++ b! "-" ++ two c.day ++ b! "T" ++ two c.hour ++ b! ":" ++ two c.minute ++
    b! ":" ++ two c.second

/-- The fraction of a second: nothing if it is zero, and otherwise a point and the digits of the nanoseconds, of which
only zeros at the end are left out. -/
def Fraction (ns : Nat) (s : Str) : Prop :=
  if ns = 0 then s = []
  else ∃ (ds : List Nat) (k : Nat), s = b! "." ++ ds.map dig ∧ (∀ d ∈ ds, d < 10) ∧ ds.getLast? ≠ some 0 ∧
    ds.length + k = 9 ∧ ds.foldl (fun n d => 10 * n + d) 0 * 10 ^ k = ns

/-- The distance from UTC: `Z`, or a sign, hours and minutes (seconds are left out). -/
def offsetText (off : Int) : Str :=
  if off = 0 then b! "Z"
  else (if off < 0 then b! "-" else b! "+") ++ two (off.natAbs / 3600) ++ b! ":" ++ two (off.natAbs % 3600 / 60)

/-- The text says that a clock `off` seconds ahead of UTC showed this `t` nanoseconds after 1970 began. -/
def Says (c : Int → Clock) (t off : Int) (s : Str) : Prop :=
  ∃ f, Fraction (t % 1000000000).toNat f ∧ s = (c (t / 1000000000 + off)).text ++ f ++ offsetText off

end Spec
end Verif
