import Verif.Spec.Calendar
import Verif.Go.Time

/-! The calendar of Go/Time.lean is the calendar of Spec/Calendar.lean. -/

namespace Verif
namespace Time
open Spec

/-- The days of a year. -/
def yearLength (y : Int) : Nat := if leap y = true then 366 else 365

theorem yearStart_succ (y : Int) : yearStart (y + 1) = yearStart y + yearLength y := by
  unfold yearLength
  have hl := leap_iff y
  have e1 : y + 1 - 1 = y := by omega
  simp only [yearStart, e1]
  split
  · rename_i h
    rw [hl] at h
    omega
  · rename_i h
    rw [hl] at h
    omega

theorem yearStart_mono {y z : Int} (h : y < z) : yearStart y + yearLength y ≤ yearStart z := by
  have key : ∀ k : Nat, yearStart y + yearLength y ≤ yearStart (y + 1 + k) := by
    intro k
    induction k with
    | zero => simp [yearStart_succ]
    | succ k ih =>
      have e : y + 1 + ((k + 1 : Nat) : Int) = (y + 1 + k) + 1 := by omega
      rw [e, yearStart_succ]
      omega
  have := key (z - y - 1).toNat
  have e : y + 1 + ((z - y - 1).toNat : Int) = z := by omega
  rwa [e] at this

/-- A year and a day in it are found from the number of the day. -/
theorem yearDay_unique {d y : Int} {k : Nat} (h : yearStart y + k = d) (hk : k < yearLength y) : yearDay d = (y, k) := by
  obtain ⟨h1, h2⟩ := yearDay_spec d
  generalize yearDay d = p at h1 h2
  obtain ⟨y', k'⟩ := p
  simp only at h1 h2
  have h2 : k' < yearLength y' := h2
  have hy : y' = y := by
    rcases Int.lt_trichotomy y' y with hlt | heq | hlt
    · have := yearStart_mono hlt; omega
    · exact heq
    · have := yearStart_mono hlt; omega
  subst hy
  have : k' = k := by omega
  rw [this]

theorem yearDay_next (d : Int) :
    yearDay (d + 1) = if (yearDay d).2 + 1 < yearLength (yearDay d).1 then ((yearDay d).1, (yearDay d).2 + 1)
      else ((yearDay d).1 + 1, 0) := by
  obtain ⟨h1, h2⟩ := yearDay_spec d
  generalize yearDay d = p at h1 h2 ⊢
  obtain ⟨y, k⟩ := p
  simp only at h1 h2 ⊢
  have h2 : k < yearLength y := h2
  split
  · rename_i h
    exact yearDay_unique (by omega) h
  · refine yearDay_unique ?_ ?_
    · rw [yearStart_succ]; omega
    · unfold yearLength; split <;> omega

theorem leap_spec (y : Int) : leap y = true ↔ Leap y := by
  rw [leap_iff]
  unfold Leap
  omega

/-- The length of a month, from the table and from the rules. -/
theorem monthLength_eq (y : Int) : ∀ m, 1 ≤ m → m ≤ 12 → monthLength y m = daysIn (leap y) m := by
  intro m h1 h2
  have : m = 1 ∨ m = 2 ∨ m = 3 ∨ m = 4 ∨ m = 5 ∨ m = 6 ∨ m = 7 ∨ m = 8 ∨ m = 9 ∨ m = 10 ∨ m = 11 ∨ m = 12 := by omega
  by_cases hl : Leap y
  · rw [(leap_spec y).mpr hl]
    rcases this with rfl | rfl | rfl | rfl | rfl | rfl | rfl | rfl | rfl | rfl | rfl | rfl <;>
      first
        | (simp only [monthLength, hl, if_true]; decide)
        | (simp only [monthLength]; decide)
  · have hf : leap y = false := by
      cases h : leap y
      · rfl
      · exact absurd ((leap_spec y).mp h) hl
    rw [hf]
    rcases this with rfl | rfl | rfl | rfl | rfl | rfl | rfl | rfl | rfl | rfl | rfl | rfl <;>
      first
        | (simp only [monthLength, hl, if_false]; decide)
        | (simp only [monthLength]; decide)

theorem monthDay_next (lp : Bool) (k : Nat) (h : k + 1 < (if lp = true then 366 else 365)) :
    monthDay lp (k + 1) =
      if (monthDay lp k).2 < daysIn lp (monthDay lp k).1 then ((monthDay lp k).1, (monthDay lp k).2 + 1)
      else ((monthDay lp k).1 + 1, 1) := by
  have key : ∀ lp : Bool, ∀ k : Fin 366, k.val + 1 < (if lp = true then 366 else 365) →
      monthDay lp (k.val + 1) =
        if (monthDay lp k.val).2 < daysIn lp (monthDay lp k.val).1 then ((monthDay lp k.val).1, (monthDay lp k.val).2 + 1)
        else ((monthDay lp k.val).1 + 1, 1) := by decide +kernel
  exact key lp ⟨k, by split at h <;> omega⟩ h

theorem monthDay_more (lp : Bool) (k : Nat) (h : k + 1 < (if lp = true then 366 else 365)) :
    (monthDay lp k).2 < daysIn lp (monthDay lp k).1 ∨ (monthDay lp k).1 < 12 := by
  have key : ∀ lp : Bool, ∀ k : Fin 366, k.val + 1 < (if lp = true then 366 else 365) →
      (monthDay lp k.val).2 < daysIn lp (monthDay lp k.val).1 ∨ (monthDay lp k.val).1 < 12 := by decide +kernel
  exact key lp ⟨k, by split at h <;> omega⟩ h

theorem monthDay_last (lp : Bool) : monthDay lp ((if lp = true then 366 else 365) - 1) = (12, 31) := by
  cases lp <;> decide

/-- What the model's clock shows `n` seconds after 1970 began. -/
def clock (n : Int) : Clock :=
  let yd := yearDay (n / 86400 + epochDay)
  let md := monthDay (leap yd.1) yd.2
  ⟨yd.1, md.1, md.2, (n % 86400).toNat / 3600, (n % 86400).toNat / 60 % 60, (n % 86400).toNat % 60⟩

theorem clock_real (n : Int) : (clock n).Real := by
  have hyd := yearDay_spec (n / 86400 + epochDay)
  have hmd := monthDay_spec _ _ hyd.2
  refine ⟨⟨hmd.2.1, hmd.2.2.1⟩, ⟨hmd.2.2.2.1, ?_⟩, ?_, ?_, ?_⟩
  · exact Nat.le_trans hmd.2.2.2.2.1 (Nat.le_of_eq (monthLength_eq _ _ hmd.2.1 hmd.2.2.1).symm)
  · show (n % 86400).toNat / 3600 ≤ 23
    omega
  · show (n % 86400).toNat / 60 % 60 ≤ 59
    omega
  · show (n % 86400).toNat % 60 ≤ 59
    omega

theorem clock_tomorrow (n : Int) (h : (n + 1) % 86400 = 0) : clock (n + 1) = (clock n).tomorrow := by
  have hd : (n + 1) / 86400 + epochDay = n / 86400 + epochDay + 1 := by omega
  have hyd := yearDay_spec (n / 86400 + epochDay)
  have hnext := yearDay_next (n / 86400 + epochDay)
  unfold clock
  simp only [hd, hnext, h]
  generalize yearDay (n / 86400 + epochDay) = p at hyd ⊢
  obtain ⟨y, k⟩ := p
  have hk : k < yearLength y := hyd.2
  have hmd := monthDay_spec (leap y) k hk
  simp only [Clock.tomorrow]
  rw [monthLength_eq _ _ hmd.2.1 hmd.2.2.1]
  by_cases hlast : k + 1 < yearLength y
  · rw [if_pos hlast, monthDay_next _ _ hlast]
    have hmore := monthDay_more _ _ hlast
    split
    · rfl
    · rename_i hno
      rw [if_pos (by rcases hmore with h | h
                     · exact absurd h hno
                     · exact h)]
      rfl
  · rw [if_neg hlast]
    have hk' : k = yearLength y - 1 := by omega
    have hm : monthDay (leap y) k = (12, 31) := by
      rw [hk']
      exact monthDay_last (leap y)
    have h31 : ¬ 31 < daysIn (leap y) 12 := by cases leap y <;> decide
    simp only [hm]
    rw [if_neg h31, if_neg (by decide)]
    have h0 : monthDay (leap (y + 1)) 0 = (1, 1) := by cases leap (y + 1) <;> decide
    rw [h0]
    rfl

theorem clock_tick (n : Int) : clock (n + 1) = (clock n).tick := by
  by_cases h : (n + 1) % 86400 = 0
  · rw [clock_tomorrow n h]
    unfold Clock.tick
    rw [if_neg, if_neg, if_neg]
    · show ¬ (n % 86400).toNat / 3600 < 23
      omega
    · show ¬ (n % 86400).toNat / 60 % 60 < 59
      omega
    · show ¬ (n % 86400).toNat % 60 < 59
      omega
  · have hd : (n + 1) / 86400 = n / 86400 := by omega
    have hs : ((n + 1) % 86400).toNat = (n % 86400).toNat + 1 := by omega
    unfold clock Clock.tick
    simp only [hd, hs]
    generalize hg : (n % 86400).toNat = s
    have : s + 1 < 86400 := by omega
    split
    · congr 1 <;> omega
    · split
      · congr 1 <;> omega
      · rw [if_pos (by omega)]
        congr 1 <;> omega

theorem clock_runs : Runs clock := ⟨clock_real, by decide +kernel, clock_tick⟩

theorem tomorrow_injective {a b : Clock} (ha : a.Real) (hb : b.Real) (h : a.tomorrow = b.tomorrow) :
    a.year = b.year ∧ a.month = b.month ∧ a.day = b.day := by
  obtain ⟨⟨a1, a2⟩, ⟨a3, a4⟩, _, _, _⟩ := ha
  obtain ⟨⟨b1, b2⟩, ⟨b3, b4⟩, _, _, _⟩ := hb
  unfold Clock.tomorrow at h
  split at h
  · split at h
    · injection h with h1 h2 h3; omega
    · split at h
      · injection h with h1 h2 h3; omega
      · injection h with h1 h2 h3; omega
  · rename_i ha5
    split at h
    · split at h
      · injection h with h1 h2 h3; omega
      · rename_i hb5
        split at h
        · injection h with h1 h2 h3
          have hm : a.month = b.month := by omega
          rw [h1, hm] at ha5 a4
          omega
        · injection h with h1 h2 h3; omega
    · split at h
      · injection h with h1 h2 h3; omega
      · rename_i hb5
        split at h
        · injection h with h1 h2 h3; omega
        · injection h with h1 h2 h3
          have hy : a.year = b.year := by omega
          have hm : a.month = b.month := by omega
          rw [hy, hm] at ha5 a4
          omega

theorem tick_injective {a b : Clock} (ha : a.Real) (hb : b.Real) (h : a.tick = b.tick) : a = b := by
  have key : a.year = b.year ∧ a.month = b.month ∧ a.day = b.day ∧ a.hour = b.hour ∧ a.minute = b.minute ∧
      a.second = b.second := by
    have hinj := tomorrow_injective ha hb
    have ra := ha
    have rb := hb
    obtain ⟨_, ⟨a1, _⟩, a2, a3, a4⟩ := ha
    obtain ⟨_, ⟨b1, _⟩, b2, b3, b4⟩ := hb
    have ta : a.tomorrow.hour = 0 ∧ a.tomorrow.minute = 0 ∧ a.tomorrow.second = 0 := by
      unfold Clock.tomorrow
      split
      · exact ⟨rfl, rfl, rfl⟩
      · split <;> exact ⟨rfl, rfl, rfl⟩
    have tb : b.tomorrow.hour = 0 ∧ b.tomorrow.minute = 0 ∧ b.tomorrow.second = 0 := by
      unfold Clock.tomorrow
      split
      · exact ⟨rfl, rfl, rfl⟩
      · split <;> exact ⟨rfl, rfl, rfl⟩
    have e := h
    have e1 := congrArg Clock.year h
    have e2 := congrArg Clock.month h
    have e3 := congrArg Clock.day h
    have e4 := congrArg Clock.hour h
    have e5 := congrArg Clock.minute h
    have e6 := congrArg Clock.second h
    unfold Clock.tick at e e1 e2 e3 e4 e5 e6
    by_cases a5 : a.second < 59
    · simp only [a5, if_true] at e e1 e2 e3 e4 e5 e6
      by_cases b5 : b.second < 59
      · simp only [b5, if_true] at e e1 e2 e3 e4 e5 e6
        omega
      · by_cases b6 : b.minute < 59
        · simp only [b5, b6, if_true, if_false] at e e1 e2 e3 e4 e5 e6
          omega
        · by_cases b7 : b.hour < 23
          · simp only [b5, b6, b7, if_true, if_false] at e e1 e2 e3 e4 e5 e6
            omega
          · simp only [b5, b6, b7, if_false] at e e1 e2 e3 e4 e5 e6
            omega
    · by_cases a6 : a.minute < 59
      · simp only [a5, a6, if_true, if_false] at e e1 e2 e3 e4 e5 e6
        by_cases b5 : b.second < 59
        · simp only [b5, if_true] at e e1 e2 e3 e4 e5 e6
          omega
        · by_cases b6 : b.minute < 59
          · simp only [b5, b6, if_true, if_false] at e e1 e2 e3 e4 e5 e6
            omega
          · by_cases b7 : b.hour < 23
            · simp only [b5, b6, b7, if_true, if_false] at e e1 e2 e3 e4 e5 e6
              omega
            · simp only [b5, b6, b7, if_false] at e e1 e2 e3 e4 e5 e6
              omega
      · by_cases a7 : a.hour < 23
        · simp only [a5, a6, a7, if_true, if_false] at e e1 e2 e3 e4 e5 e6
          by_cases b5 : b.second < 59
          · simp only [b5, if_true] at e e1 e2 e3 e4 e5 e6
            omega
          · by_cases b6 : b.minute < 59
            · simp only [b5, b6, if_true, if_false] at e e1 e2 e3 e4 e5 e6
              omega
            · by_cases b7 : b.hour < 23
              · simp only [b5, b6, b7, if_true, if_false] at e e1 e2 e3 e4 e5 e6
                omega
              · simp only [b5, b6, b7, if_false] at e e1 e2 e3 e4 e5 e6
                omega
        · simp only [a5, a6, a7, if_false] at e e1 e2 e3 e4 e5 e6
          by_cases b5 : b.second < 59
          · simp only [b5, if_true] at e e1 e2 e3 e4 e5 e6
            omega
          · by_cases b6 : b.minute < 59
            · simp only [b5, b6, if_true, if_false] at e e1 e2 e3 e4 e5 e6
              omega
            · by_cases b7 : b.hour < 23
              · simp only [b5, b6, b7, if_true, if_false] at e e1 e2 e3 e4 e5 e6
                omega
              · simp only [b5, b6, b7, if_false] at e
                have := hinj e
                omega
  obtain ⟨ay, am, ad, ah, ami, as⟩ := a
  obtain ⟨by_, bm, bd, bh, bmi, bs⟩ := b
  simp only at key
  obtain ⟨rfl, rfl, rfl, rfl, rfl, rfl⟩ := key
  rfl

/-- There is only one clock. -/
theorem runs_unique {c : Int → Clock} (h : Runs c) (n : Int) : c n = clock n := by
  have up : ∀ k : Nat, c k = clock k := by
    intro k
    induction k with
    | zero => rw [show ((0 : Nat) : Int) = 0 from rfl, h.start, clock_runs.start]
    | succ k ih =>
      rw [show ((k + 1 : Nat) : Int) = (k : Int) + 1 by omega, h.step, clock_runs.step, ih]
  have down : ∀ k : Nat, c (-(k : Int)) = clock (-(k : Int)) := by
    intro k
    induction k with
    | zero => exact up 0
    | succ k ih =>
      refine tick_injective (h.real _) (clock_real _) ?_
      rw [← h.step, ← clock_runs.step, show -((k + 1 : Nat) : Int) + 1 = -(k : Int) by omega]
      exact ih
  by_cases hn : 0 ≤ n
  · have := up n.toNat
    rwa [show (n.toNat : Int) = n by omega] at this
  · have := down (-n).toNat
    rwa [show -((-n).toNat : Int) = n by omega] at this

end Time
end Verif
