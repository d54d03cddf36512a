import Verif.Go.Decimal

/-!
`time.Time.Format(time.RFC3339Nano)` and `time.Parse(time.RFC3339, …)` (Go 1.13 standard library), as used by
pkging/mod_time.go:8-24.

An instant is a number of nanoseconds since 1970-01-01 00:00 UTC; the location of a `time.Time` is represented by its
offset from UTC in seconds at that instant.

Simplifications: when reading, hours must have two digits and fractions at most nine (Go accepts one digit for the
hour).
-/

namespace Verif
namespace Time

/-! ### Calendar -/

/-- `isLeap`. -/
def leap (y : Int) : Bool := y % 4 = 0 && (y % 100 ≠ 0 || y % 400 = 0)

/-- The table `daysBefore`: the days before each month in a year that is not a leap year. -/
def daysBefore (m : Nat) : Nat := [0, 31, 59, 90, 120, 151, 181, 212, 243, 273, 304, 334, 365].getD m 365

/-- The year and the day of the year, counted from 0, of a day counted from 0001-01-01 (`absDate`, first part). -/
def yearDay (d : Int) : Int × Nat :=
  let n4 := d / 146097
  let d1 := d - 146097 * n4
  let n1 := d1 / 36524 - d1 / 36524 / 4
  let d2 := d1 - 36524 * n1
  let n0 := d2 / 1461
  let d3 := d2 - 1461 * n0
  let n := d3 / 365 - d3 / 365 / 4
  (400 * n4 + 100 * n1 + 4 * n0 + n + 1, (d3 - 365 * n).toNat)

/-- The month and the day of the month from the day of the year (`absDate`, second part). -/
def monthDay (lp : Bool) (yday : Nat) : Nat × Nat :=
  if lp = true ∧ yday = 59 then (2, 29)
  else
    let day := if lp = true ∧ yday > 59 then yday - 1 else yday
    let m := day / 31
    let e := daysBefore (m + 1)
    if day ≥ e then (m + 2, day - e + 1) else (m + 1, day - daysBefore m + 1)

/-- The days before a year, counted from 0001-01-01 (`daysSinceEpoch`). -/
def yearStart (y : Int) : Int :=
  let y0 := y - 1
  let n4 := y0 / 400
  let y1 := y0 - 400 * n4
  let n1 := y1 / 100
  let y2 := y1 - 100 * n1
  let n0 := y2 / 4
  146097 * n4 + 36524 * n1 + 1461 * n0 + 365 * (y2 - 4 * n0)

/-- The day of the year, counted from 0, of a month and day. -/
def dayOfYear (lp : Bool) (m d : Nat) : Nat := daysBefore (m - 1) + (if lp = true ∧ m ≥ 3 then 1 else 0) + (d - 1)

/-- `daysIn`. -/
def daysIn (lp : Bool) (m : Nat) : Nat := if m = 2 ∧ lp = true then 29 else daysBefore m - daysBefore (m - 1)

/-- The day number of 1970-01-01. -/
def epochDay : Int := 719162

/-! ### Writing -/

/-- The last `k` decimal digits of `n`. -/
def pad : Nat → Nat → Str
  | 0, _ => []
  | k + 1, n => pad k (n / 10) ++ [Decimal.digit (n % 10)]

/-- `appendInt(b, year, 4)`. -/
def year (y : Int) : Str :=
  if 0 ≤ y ∧ y < 10000 then pad 4 y.toNat
  else if y < 0 then 45 :: (if y.natAbs < 10000 then pad 4 y.natAbs else Decimal.ofNat y.natAbs)
  else Decimal.ofNat y.toNat

/-- Drop zeros at the end. -/
def stripZeros (s : Str) : Str := (s.reverse.dropWhile (· == 48)).reverse

/-- The fraction `.999999999`: no trailing zeros, nothing at all if it is zero. -/
def fraction (ns : Nat) : Str := if ns = 0 then [] else 46 :: stripZeros (pad 9 ns)

/-- The offset `Z07:00`; seconds are dropped. -/
def zone (off : Int) : Str :=
  if off = 0 then [90]
  else (if off < 0 then 45 else 43) :: (pad 2 (off.natAbs / 3600) ++ 58 :: pad 2 (off.natAbs / 60 % 60))

/-- `t.Format(time.RFC3339Nano)`. -/
def format (t off : Int) : Str :=
  let l := t / 1000000000 + off
  let yd := yearDay (l / 86400 + epochDay)
  let md := monthDay (leap yd.1) yd.2
  let s := (l % 86400).toNat
  year yd.1 ++ 45 :: (pad 2 md.1 ++ 45 :: (pad 2 md.2 ++ 84 :: (pad 2 (s / 3600) ++ 58 :: (pad 2 (s / 60 % 60) ++
    58 :: (pad 2 (s % 60) ++ (fraction (t % 1000000000).toNat ++ zone off))))))

/-! ### Reading -/

/-- A number with exactly `k` digits. -/
def take (k : Nat) (s : Str) : Option (Nat × Str) :=
  if s.length < k then none
  else
    match Decimal.natFrom 0 (s.take k) with
    | some n => some (n, s.drop k)
    | none => none

/-- One expected byte. -/
def expect (c : UInt8) : Str → Option Str
  | d :: s => if d = c then some s else none
  | [] => none

/-- The fraction, in nanoseconds. -/
def takeFraction : Str → Option (Nat × Str)
  | 46 :: s =>
    let ds := s.takeWhile Json.isDigit
    if ds = [] ∨ 9 < ds.length then none
    else
      match Decimal.natFrom 0 ds with
      | some n => some (n * 10 ^ (9 - ds.length), s.drop ds.length)
      | none => none
  | s => some (0, s)

/-- The offset in seconds, up to the end of the text. -/
def takeZone : Str → Option Int
  | [90] => some 0
  | c :: s =>
    if c = 43 ∨ c = 45 then
      match take 2 s with
      | none => none
      | some (h, s) =>
        match expect 58 s with
        | none => none
        | some s =>
          match take 2 s with
          | some (m, []) => some ((if c = 45 then -1 else 1) * ((h * 60 + m) * 60 : Nat))
          | _ => none
    else none
  | [] => none

/-- `time.Parse(time.RFC3339, s)`. -/
def parse (s : Str) : Option Int :=
  (take 4 s).bind fun (y, s) => (expect 45 s).bind fun s =>
  (take 2 s).bind fun (mo, s) => (expect 45 s).bind fun s =>
  (take 2 s).bind fun (d, s) => (expect 84 s).bind fun s =>
  (take 2 s).bind fun (h, s) => (expect 58 s).bind fun s =>
  (take 2 s).bind fun (mi, s) => (expect 58 s).bind fun s =>
  (take 2 s).bind fun (sec, s) =>
  (takeFraction s).bind fun (ns, s) =>
  (takeZone s).bind fun off =>
  if 1 ≤ mo ∧ mo ≤ 12 ∧ 1 ≤ d ∧ d ≤ daysIn (leap y) mo ∧ h < 24 ∧ mi < 60 ∧ sec < 60 then
    some (((yearStart y + (dayOfYear (leap y) mo d : Nat) - epochDay) * 86400 + ((h * 60 + mi) * 60 + sec : Nat) - off)
      * 1000000000 + (ns : Nat))
  else none

/-! ### Reading a written instant -/

theorem yearDay_parts (d : Int) : ∃ n4 n1 n0 n r : Int, 0 ≤ n1 ∧ n1 ≤ 3 ∧ 0 ≤ n0 ∧ n0 ≤ 24 ∧ 0 ≤ n ∧ n ≤ 3 ∧ 0 ≤ r ∧
    r ≤ 365 ∧ (r = 365 → n = 3 ∧ (n0 < 24 ∨ n1 = 3)) ∧ d = 146097 * n4 + 36524 * n1 + 1461 * n0 + 365 * n + r ∧
    (yearDay d).1 = 400 * n4 + 100 * n1 + 4 * n0 + n + 1 ∧ ((yearDay d).2 : Int) = r := by
  simp only [yearDay]
  generalize h4 : d / 146097 = n4
  generalize hd1 : d - 146097 * n4 = d1
  generalize hq1 : d1 / 36524 = q1
  generalize hn1 : q1 - q1 / 4 = n1
  generalize hd2 : d1 - 36524 * n1 = d2
  generalize h0 : d2 / 1461 = n0
  generalize hd3 : d2 - 1461 * n0 = d3
  generalize hq : d3 / 365 = q
  generalize hn : q - q / 4 = n
  have b1 : 0 ≤ d1 ∧ d1 < 146097 := by omega
  have b2 : 0 ≤ n1 ∧ n1 ≤ 3 := by omega
  have b3 : 0 ≤ d2 ∧ d2 ≤ 36524 ∧ (n1 < 3 → d2 < 36524) := by omega
  have b4 : 0 ≤ n0 ∧ n0 ≤ 24 := by omega
  have b5 : 0 ≤ d3 ∧ d3 < 1461 := by omega
  have b6 : 0 ≤ n ∧ n ≤ 3 := by omega
  have b7 : 0 ≤ d3 - 365 * n ∧ d3 - 365 * n ≤ 365 ∧ (n < 3 → d3 - 365 * n < 365) := by omega
  exact ⟨n4, n1, n0, n, d3 - 365 * n, b2.1, b2.2, b4.1, b4.2, b6.1, b6.2, b7.1, b7.2.1, by omega, by omega, rfl,
    by omega⟩

theorem leap_iff (y : Int) : leap y = true ↔ y % 4 = 0 ∧ (y % 100 ≠ 0 ∨ y % 400 = 0) := by
  simp [leap]

theorem yearDay_spec (d : Int) :
    yearStart (yearDay d).1 + (yearDay d).2 = d ∧
    (yearDay d).2 < (if leap (yearDay d).1 = true then 366 else 365) := by
  obtain ⟨n4, n1, n0, n, r, h1, h2, h3, h4, h5, h6, h7, h8, h9, h10, h11, h12⟩ := yearDay_parts d
  constructor
  · rw [h11, h12]
    simp only [yearStart]
    have e1 : (400 * n4 + 100 * n1 + 4 * n0 + n + 1 - 1) / 400 = n4 := by omega
    rw [e1]
    have e2 : (400 * n4 + 100 * n1 + 4 * n0 + n + 1 - 1 - 400 * n4) / 100 = n1 := by omega
    rw [e2]
    have e3 : (400 * n4 + 100 * n1 + 4 * n0 + n + 1 - 1 - 400 * n4 - 100 * n1) / 4 = n0 := by omega
    rw [e3]
    omega
  · split
    · omega
    · rename_i hl
      rw [leap_iff, h11] at hl
      by_cases hr : r = 365
      · exfalso
        apply hl
        have := h9 hr
        omega
      · omega

theorem monthDay_spec (lp : Bool) (yday : Nat) (h : yday < (if lp = true then 366 else 365)) :
    dayOfYear lp (monthDay lp yday).1 (monthDay lp yday).2 = yday ∧ 1 ≤ (monthDay lp yday).1 ∧
    (monthDay lp yday).1 ≤ 12 ∧ 1 ≤ (monthDay lp yday).2 ∧
    (monthDay lp yday).2 ≤ daysIn lp (monthDay lp yday).1 ∧ (monthDay lp yday).2 < 100 := by
  have key : ∀ lp : Bool, ∀ y : Fin 366, y.val < (if lp = true then 366 else 365) →
    dayOfYear lp (monthDay lp y).1 (monthDay lp y).2 = y.val ∧ 1 ≤ (monthDay lp y).1 ∧
    (monthDay lp y).1 ≤ 12 ∧ 1 ≤ (monthDay lp y).2 ∧
    (monthDay lp y).2 ≤ daysIn lp (monthDay lp y).1 ∧ (monthDay lp y).2 < 100 := by decide +kernel
  exact key lp ⟨yday, by split at h <;> omega⟩ h

theorem pad_length : ∀ k n, (pad k n).length = k
  | 0, _ => rfl
  | k + 1, n => by simp [pad, pad_length k]

theorem natFrom_pad : ∀ (k n acc : Nat), n < 10 ^ k → Decimal.natFrom acc (pad k n) = some (acc * 10 ^ k + n)
  | 0, n, acc, h => by simp at h; subst h; simp [pad, Decimal.natFrom]
  | k + 1, n, acc, h => by
    have hd := Decimal.digit_isDigit (n := n % 10) (by omega)
    rw [pad, Decimal.natFrom_append, natFrom_pad k (n / 10) acc (by rw [Nat.pow_succ] at h; omega)]
    simp only [Decimal.natFrom, hd, if_true, Nat.pow_succ]
    congr 1
    have : (acc * 10 ^ k + n / 10) * 10 = acc * (10 ^ k * 10) + n / 10 * 10 := by
      rw [Nat.add_mul, Nat.mul_assoc]
    omega

theorem pad_digits : ∀ k n, ∀ c ∈ pad k n, Json.isDigit c = true
  | 0, _, c, h => by simp [pad] at h
  | k + 1, n, c, h => by
    simp only [pad, List.mem_append, List.mem_singleton] at h
    rcases h with h | rfl
    · exact pad_digits k _ c h
    · exact (Decimal.digit_isDigit (by omega)).1

theorem take_pad {k n : Nat} (h : n < 10 ^ k) (r : Str) : take k (pad k n ++ r) = some (n, r) := by
  have hl := pad_length k n
  unfold take
  rw [if_neg (by simp [hl])]
  have h1 : (pad k n ++ r).take k = pad k n := by
    have := List.take_left (l₁ := pad k n) (l₂ := r)
    rw [hl] at this
    exact this
  have h2 : (pad k n ++ r).drop k = r := by
    have := List.drop_left (l₁ := pad k n) (l₂ := r)
    rw [hl] at this
    exact this
  rw [h1, h2, natFrom_pad k n 0 h]
  simp

theorem natFrom_zeros (m acc : Nat) : Decimal.natFrom acc (List.replicate m 48) = some (acc * 10 ^ m) := by
  induction m generalizing acc with
  | zero => simp [Decimal.natFrom]
  | succ m ih =>
    have : Json.isDigit 48 = true := by decide
    simp only [List.replicate_succ, Decimal.natFrom, this, if_true]
    rw [ih, Nat.pow_succ]
    congr 1
    have : (48 : UInt8).toNat - 48 = 0 := by decide
    rw [this]
    simp [Nat.mul_assoc, Nat.mul_comm]

theorem stripZeros_spec (s : Str) : ∃ m, s = stripZeros s ++ List.replicate m 48 := by
  unfold stripZeros
  have key : ∀ l : Str, ∃ m, l = List.replicate m 48 ++ l.dropWhile (· == 48) := by
    intro l
    induction l with
    | nil => exact ⟨0, rfl⟩
    | cons c l ih =>
      by_cases h : c = 48
      · obtain ⟨m, hm⟩ := ih
        refine ⟨m + 1, ?_⟩
        subst h
        rw [List.dropWhile_cons_of_pos (by simp), List.replicate_succ, List.cons_append, ← hm]
      · refine ⟨0, ?_⟩
        rw [List.dropWhile_cons_of_neg (by simpa using h)]
        simp
  obtain ⟨m, hm⟩ := key s.reverse
  refine ⟨m, ?_⟩
  have := congrArg List.reverse hm
  simpa using this

/-- What follows the seconds when reading: not a digit. -/
theorem takeFraction_fraction {ns : Nat} (h : ns < 1000000000) {r : Str} (hr : ∀ c s, r = c :: s → Json.isDigit c = false ∧ c ≠ 46) :
    takeFraction (fraction ns ++ r) = some (ns, r) := by
  unfold fraction
  by_cases h0 : ns = 0
  · rw [if_pos h0, List.nil_append]
    unfold takeFraction
    split
    · rename_i s
      exact absurd rfl (hr 46 s rfl).2
    · rw [h0]
  · rw [if_neg h0]
    obtain ⟨m, hm⟩ := stripZeros_spec (pad 9 ns)
    have hlen := congrArg List.length hm
    simp only [pad_length, List.length_append, List.length_replicate] at hlen
    have hdig : ∀ c ∈ stripZeros (pad 9 ns), Json.isDigit c = true := by
      intro c hc
      refine pad_digits 9 ns c ?_
      rw [hm]
      exact List.mem_append_left _ hc
    have htw : (stripZeros (pad 9 ns) ++ r).takeWhile Json.isDigit = stripZeros (pad 9 ns) := by
      rw [List.takeWhile_append_of_pos hdig]
      cases r with
      | nil => simp
      | cons c s => simp [(hr c s rfl).1]
    have hval := natFrom_pad 9 ns 0 (by simpa using h)
    simp only [Nat.zero_mul, Nat.zero_add] at hval
    rw [hm, Decimal.natFrom_append] at hval
    simp only [List.cons_append, takeFraction, htw, List.drop_left]
    cases hv : Decimal.natFrom 0 (stripZeros (pad 9 ns)) with
    | none => rw [hv] at hval; cases hval
    | some v =>
      rw [hv] at hval
      simp only [natFrom_zeros, Option.some.injEq] at hval
      have hne : stripZeros (pad 9 ns) ≠ [] := by
        intro he
        rw [he] at hv
        simp only [Decimal.natFrom, Option.some.injEq] at hv
        rw [← hv] at hval
        omega
      rw [if_neg (by simp only [hne, false_or]; omega)]
      simp only
      have : 9 - (stripZeros (pad 9 ns)).length = m := by omega
      rw [this, hval]

/-- The offset without its seconds. -/
def whole (off : Int) : Int := if off < 0 then -(-off / 60 * 60) else off / 60 * 60

theorem whole_eq_iff (off : Int) : whole off = off ↔ off % 60 = 0 := by
  unfold whole
  split <;> omega

theorem takeZone_zone {off : Int} (hb : off.natAbs < 360000) : takeZone (zone off) = some (whole off) := by
  unfold whole
  unfold zone
  by_cases h0 : off = 0
  · rw [if_pos h0, h0]; rfl
  · rw [if_neg h0]
    have h1 : take 2 (pad 2 (off.natAbs / 3600) ++ 58 :: pad 2 (off.natAbs / 60 % 60)) =
        some (off.natAbs / 3600, 58 :: pad 2 (off.natAbs / 60 % 60)) := take_pad (by omega) _
    have h2 : take 2 (pad 2 (off.natAbs / 60 % 60)) = some (off.natAbs / 60 % 60, []) := by
      have := take_pad (k := 2) (n := off.natAbs / 60 % 60) (by omega) []
      simpa using this
    by_cases hn : off < 0
    · rw [if_pos hn]
      unfold takeZone
      split
      · rename_i heq; injection heq with heq; exact absurd heq (by decide)
      · rename_i c s _ heq
        injection heq with heq1 heq2
        subst heq1
        subst heq2
        simp only [or_true, if_true, h1, expect, h2]
        congr 1
        omega
      · rename_i heq; cases heq
    · rw [if_neg hn]
      unfold takeZone
      split
      · rename_i heq; injection heq with heq; exact absurd heq (by decide)
      · rename_i c s _ heq
        injection heq with heq1 heq2
        subst heq1
        subst heq2
        have : ¬ ((43 : UInt8) = 45) := by decide
        simp only [true_or, if_true, h1, expect, h2, this, if_false]
        congr 1
        omega
      · rename_i heq; cases heq

theorem zone_head (off : Int) : ∀ c s, zone off = c :: s → Json.isDigit c = false ∧ c ≠ 46 := by
  intro c s h
  unfold zone at h
  split at h
  · injection h with h; subst h; decide
  · injection h with h
    split at h <;> (subst h; decide)

theorem expect_cons (c : UInt8) (s : Str) : expect c (c :: s) = some s := by simp [expect]

/-- The year of the written text. -/
def yearOf (t off : Int) : Int := (yearDay ((t / 1000000000 + off) / 86400 + epochDay)).1

/-- Reading a written instant in a year from 0 to 9999: what is lost are the seconds of the offset. -/
theorem parse_format_seconds {t off : Int} (hb : off.natAbs < 360000)
    (hy : 0 ≤ yearOf t off ∧ yearOf t off < 10000) :
    parse (format t off) = some (t + (off - whole off) * 1000000000) := by
  unfold yearOf at hy
  have hyd := yearDay_spec ((t / 1000000000 + off) / 86400 + epochDay)
  generalize hg : yearDay ((t / 1000000000 + off) / 86400 + epochDay) = yd at hy hyd
  obtain ⟨y, yday⟩ := yd
  simp only at hy hyd
  have hmd := monthDay_spec (leap y) yday hyd.2
  generalize hgm : monthDay (leap y) yday = md at hmd
  obtain ⟨m, d⟩ := md
  simp only at hmd
  have hns : (t % 1000000000).toNat < 1000000000 := by omega
  have hs : ((t / 1000000000 + off) % 86400).toNat < 86400 := by omega
  unfold format
  simp only [hg, hgm]
  generalize hsg : ((t / 1000000000 + off) % 86400).toNat = s at hs
  generalize hnsg : (t % 1000000000).toNat = ns at hns
  have hyear : year y = pad 4 y.toNat := by unfold year; rw [if_pos hy]
  have hyn : ((y.toNat : Nat) : Int) = y := by omega
  unfold parse
  rw [hyear, take_pad (by omega)]
  simp only [Option.bind_some, expect_cons]
  rw [take_pad (by omega)]
  simp only [Option.bind_some, expect_cons]
  rw [take_pad (by omega)]
  simp only [Option.bind_some, expect_cons]
  rw [take_pad (by omega)]
  simp only [Option.bind_some, expect_cons]
  rw [take_pad (by omega)]
  simp only [Option.bind_some, expect_cons]
  rw [take_pad (by omega)]
  simp only [Option.bind_some]
  rw [takeFraction_fraction hns (zone_head off)]
  simp only [Option.bind_some, takeZone_zone hb]
  rw [hyn, if_pos ⟨hmd.2.1, hmd.2.2.1, hmd.2.2.2.1, hmd.2.2.2.2.1, by omega, by omega, by omega⟩]
  congr 1
  rw [hmd.1]
  omega

/-- **Round trip**: an instant written with an offset of whole minutes, in a year from 0 to 9999, is read back to the
nanosecond. -/
theorem parse_format {t off : Int} (h60 : off % 60 = 0) (hb : off.natAbs < 360000)
    (hy : 0 ≤ yearOf t off ∧ yearOf t off < 10000) : parse (format t off) = some t := by
  rw [parse_format_seconds hb hy, (whole_eq_iff off).mpr h60]
  simp

theorem ofNat_digits {n : Nat} (h : 10000 ≤ n) : ∃ a b c d e s, Decimal.ofNat n = a :: b :: c :: d :: e :: s ∧
    Json.isDigit e = true := by
  have hlen : ∀ k n, 10 ^ k ≤ n → k < (Decimal.ofNat n).length := by
    intro k
    induction k with
    | zero => intro n _; exact List.length_pos_iff.mpr (Decimal.ofNat_text n).1.1
    | succ k ih =>
      intro n hn
      have : ¬ n < 10 := by
        have : 1 ≤ 10 ^ k := Nat.one_le_pow _ _ (by omega)
        rw [Nat.pow_succ] at hn
        omega
      rw [Decimal.ofNat_big this, List.length_append]
      have := ih (n / 10) (by rw [Nat.pow_succ] at hn; omega)
      simp only [List.length_singleton]
      omega
  have h5 := hlen 4 n (by simpa using h)
  have hd := (Decimal.ofNat_text n).1.2.1
  generalize Decimal.ofNat n = l at h5 hd
  match l, h5 with
  | a :: b :: c :: d :: e :: s, _ => exact ⟨a, b, c, d, e, s, rfl, hd e (by simp)⟩

/-- An instant in a year before 0 or after 9999 is written in a way that cannot be read. -/
theorem parse_format_year {t off : Int} (hy : yearOf t off < 0 ∨ 10000 ≤ yearOf t off) :
    parse (format t off) = none := by
  unfold yearOf at hy
  unfold format
  simp only
  generalize yearDay ((t / 1000000000 + off) / 86400 + epochDay) = yd at hy ⊢
  obtain ⟨y, yday⟩ := yd
  simp only at hy ⊢
  generalize (pad 2 _ ++ 45 :: _ : Str) = rest
  unfold parse year
  rw [if_neg (by omega)]
  rcases hy with hy | hy
  · rw [if_pos hy, List.cons_append]
    have : ∀ s : Str, take 4 (45 :: s) = none := by
      intro s
      unfold take
      split
      · rfl
      · have : Json.isDigit 45 = false := by decide
        simp [Decimal.natFrom, this]
    rw [this]
    rfl
  · rw [if_neg (by omega)]
    obtain ⟨a, b, c, d, e, s, h1, h2⟩ := ofNat_digits (n := y.toNat) (by omega)
    rw [h1]
    have he : ¬ e = 45 := by rintro rfl; exact absurd h2 (by decide)
    have : ∀ n r, take 4 (a :: b :: c :: d :: e :: s ++ 45 :: rest) = some (n, r) → expect 45 r = none := by
      intro n r h
      unfold take at h
      rw [if_neg (by simp)] at h
      split at h
      · simp only [List.cons_append, List.drop_succ_cons, List.drop_zero, Option.some.injEq, Prod.mk.injEq] at h
        rw [← h.2]
        simp [expect, he]
      · cases h
    cases ht : take 4 (a :: b :: c :: d :: e :: s ++ 45 :: rest) with
    | none => rfl
    | some p =>
      obtain ⟨n, r⟩ := p
      simp only [Option.bind_some, this n r ht, Option.bind_none]

/-- Exactly which instants survive. -/
theorem parse_format_iff {t off : Int} (hb : off.natAbs < 360000) :
    parse (format t off) = some t ↔ off % 60 = 0 ∧ 0 ≤ yearOf t off ∧ yearOf t off < 10000 := by
  by_cases hy : 0 ≤ yearOf t off ∧ yearOf t off < 10000
  · rw [parse_format_seconds hb hy, Option.some.injEq, ← whole_eq_iff]
    constructor
    · intro h; exact ⟨by omega, hy⟩
    · intro h; rw [h.1]; simp
  · rw [parse_format_year (by omega)]
    simp only [reduceCtorEq, false_iff]
    exact fun h => hy h.2

end Time
end Verif
