import Verif.Lemmas.Calendar
import Verif.Lemmas.Unicode
import Verif.Props.Serial

/-! C101 and C102: the times and names written into the embedded data, measured against the calendar and against
Unicode. -/

namespace Verif
namespace Props
open Spec Serial Mem

/-! ### C101 -/

theorem pad_two {n : Nat} (h : n < 100) : Time.pad 2 n = two n := by
  have e : n / 10 % 10 = n / 10 := by omega
  simp only [Time.pad, two, List.nil_append, List.cons_append, e]
  rfl

theorem pad_four {n : Nat} (h : n < 10000) : Time.pad 4 n = four n := by
  have e1 : n / 10 / 10 / 10 % 10 = n / 1000 := by omega
  have e2 : n / 10 / 10 % 10 = n / 100 % 10 := by omega
  simp only [Time.pad, four, List.nil_append, List.cons_append, e1, e2]
  rfl

/-- The decimal digits of a number, `k` of them. -/
def digitsOf : Nat → Nat → List Nat
  | 0, _ => []
  | k + 1, n => digitsOf k (n / 10) ++ [n % 10]

theorem pad_digitsOf (k n : Nat) : Time.pad k n = (digitsOf k n).map dig := by
  induction k generalizing n with
  | zero => rfl
  | succ k ih => simp only [Time.pad, digitsOf, List.map_append, ih]; rfl

theorem digitsOf_small (k n : Nat) : ∀ d ∈ digitsOf k n, d < 10 := by
  induction k generalizing n with
  | zero => simp [digitsOf]
  | succ k ih =>
    intro d hd
    rcases List.mem_append.mp hd with hd | hd
    · exact ih _ d hd
    · simp only [List.mem_singleton] at hd
      omega

theorem digitsOf_length (k n : Nat) : (digitsOf k n).length = k := by
  induction k generalizing n with
  | zero => rfl
  | succ k ih => simp [digitsOf, ih]

theorem digitsOf_value (k n : Nat) (h : n < 10 ^ k) : (digitsOf k n).foldl (fun n d => 10 * n + d) 0 = n := by
  induction k generalizing n with
  | zero => simp at h; simp [digitsOf, h]
  | succ k ih =>
    rw [Nat.pow_succ] at h
    simp only [digitsOf, List.foldl_append, ih (n / 10) (by omega), List.foldl_cons, List.foldl_nil]
    omega

theorem foldl_zeros (m acc : Nat) :
    (List.replicate m 0).foldl (fun n d => 10 * n + d) acc = acc * 10 ^ m := by
  induction m generalizing acc with
  | zero => simp
  | succ m ih => rw [List.replicate_succ, List.foldl_cons, ih, Nat.pow_succ, Nat.add_zero, Nat.mul_comm 10, Nat.mul_assoc, Nat.mul_comm 10]

/-- A list without the zeros at its end. -/
theorem strip_split (ds : List Nat) : ∃ xs m, ds = xs ++ List.replicate m 0 ∧ xs.getLast? ≠ some 0 := by
  have key : ∀ l : List Nat, ∃ xs m, l.reverse = xs ++ List.replicate m 0 ∧ xs.getLast? ≠ some 0 := by
    intro l
    induction l with
    | nil => exact ⟨[], 0, rfl, by simp⟩
    | cons d l ih =>
      rw [List.reverse_cons]
      by_cases h : d = 0
      · obtain ⟨xs, m, h1, h2⟩ := ih
        refine ⟨xs, m + 1, ?_, h2⟩
        rw [h1, h, List.append_assoc]
        congr 1
        rw [← List.replicate_succ']
      · exact ⟨l.reverse ++ [d], 0, by simp, by simpa using h⟩
  simpa using key ds.reverse

theorem dig_zero {d : Nat} (h : d < 10) : dig d = 48 ↔ d = 0 := by
  have key : ∀ d : Fin 10, dig d = 48 ↔ d.val = 0 := by decide
  exact key ⟨d, h⟩

theorem stripZeros_map {xs : List Nat} {m : Nat} (hs : ∀ d ∈ xs, d < 10) (hl : xs.getLast? ≠ some 0) :
    Time.stripZeros ((xs ++ List.replicate m 0).map dig) = xs.map dig := by
  unfold Time.stripZeros
  have e : ((xs ++ List.replicate m 0).map dig).reverse = List.replicate m 48 ++ (xs.map dig).reverse := by
    rw [List.map_append, List.reverse_append, List.map_replicate, List.reverse_replicate]
    rfl
  rw [e, List.dropWhile_append_of_pos (by intro b hb; rw [(List.mem_replicate.mp hb).2]; rfl)]
  have e2 : (xs.map dig).reverse.dropWhile (· == 48) = (xs.map dig).reverse := by
    cases hx : xs.reverse with
    | nil => rw [List.reverse_eq_nil_iff.mp hx]; rfl
    | cons d l =>
      have hxs : xs = l.reverse ++ [d] := by
        have := congrArg List.reverse hx
        simpa using this
      have hd : d ≠ 0 := by
        rintro rfl
        exact hl (by simp [hxs])
      have hd' : ¬ dig d = 48 := mt (dig_zero (hs d (by simp [hxs]))).mp hd
      rw [← List.map_reverse, hx, List.map_cons, List.dropWhile_cons_of_neg (by simpa using hd')]
  rw [e2, List.reverse_reverse]

theorem fraction_says {ns : Nat} (h : ns < 1000000000) : Fraction ns (Time.fraction ns) := by
  unfold Fraction Time.fraction
  split
  · rfl
  · obtain ⟨xs, m, h1, h2⟩ := strip_split (digitsOf 9 ns)
    have hs : ∀ d ∈ xs, d < 10 := fun d hd => digitsOf_small 9 ns d (by rw [h1]; exact List.mem_append_left _ hd)
    refine ⟨xs, m, ?_, hs, h2, ?_, ?_⟩
    · rw [pad_digitsOf, h1, stripZeros_map hs h2]
      rfl
    · have := digitsOf_length 9 ns
      rw [h1] at this
      simpa using this
    · have := digitsOf_value 9 ns (by simpa using h)
      rw [h1, List.foldl_append, foldl_zeros] at this
      exact this

theorem zone_says {off : Int} (h : off.natAbs < 360000) : Time.zone off = offsetText off := by
  unfold Time.zone offsetText
  have e : off.natAbs / 60 % 60 = off.natAbs % 3600 / 60 := by omega
  split
  · rfl
  · rw [pad_two (by omega), pad_two (by omega), e]
    split <;> rfl

/-- **C101**: a modification time, in a year from 0 to 9999, is written as the date and time a running clock shows, with
all its nanoseconds; and there is such a clock. -/
theorem C101_written {c : Int → Clock} (hc : Runs c) {Z : Int → Int} {d : Details} {l : List (Str × Json)} {s : Str}
    (hl : encDetails Z d = .obj l) (hs : (b! "mod_time", Json.str s) ∈ l)
    (hb : (Z d.modTime).natAbs < 360000)
    (hy : 0 ≤ (c (d.modTime / 1000000000 + Z d.modTime)).year ∧ (c (d.modTime / 1000000000 + Z d.modTime)).year < 10000) :
    Says c d.modTime (Z d.modTime) s := by
  have hs : s = Time.format d.modTime (Z d.modTime) := by
    unfold encDetails at hl
    injection hl with hl
    rw [← hl] at hs
    simp only [List.mem_cons, Prod.mk.injEq, Json.str.injEq, reduceCtorEq, and_false, List.not_mem_nil, or_false] at hs
    rcases hs with ⟨h, _⟩ | h
    · exact absurd h (by decide)
    · simpa using h
  generalize Z d.modTime = off at *
  rw [hs]
  rw [Time.runs_unique hc] at hy
  refine ⟨Time.fraction (d.modTime % 1000000000).toNat, fraction_says (by omega), ?_⟩
  rw [Time.runs_unique hc]
  have hr := Time.clock_real (d.modTime / 1000000000 + off)
  unfold Time.clock at hy hr ⊢
  unfold Time.format
  simp only at hy hr ⊢
  obtain ⟨⟨m1, m2⟩, ⟨_, d2⟩, h1, _, _⟩ := hr
  simp only at m1 m2 d2 h1
  have hml : ∀ y m, monthLength y m ≤ 31 := by
    intro y m
    unfold monthLength
    repeat' split
    all_goals omega
  have hd : _ ≤ 31 := Nat.le_trans d2 (hml _ _)
  generalize Time.yearDay ((d.modTime / 1000000000 + off) / 86400 + Time.epochDay) = yd at *
  obtain ⟨y, k⟩ := yd
  simp only at *
  generalize Time.monthDay (Time.leap y) k = md at *
  obtain ⟨mo, da⟩ := md
  simp only at *
  generalize ((d.modTime / 1000000000 + off) % 86400).toNat = sec at *
  have hyr : Time.year y = four y.toNat := by
    unfold Time.year
    rw [if_pos hy, pad_four (by omega)]
  rw [hyr, pad_two (by omega), pad_two (by omega), pad_two (by omega), pad_two (by omega), pad_two (by omega),
    zone_says hb]
  simp only [Clock.text, List.append_assoc]
  rfl

/-- There is exactly one running clock, so that **C101** says something. -/
theorem C101_clock : Runs Time.clock ∧ ∀ c, Runs c → c = Time.clock :=
  ⟨Time.clock_runs, fun _ h => funext (Time.runs_unique h)⟩

example : Says Time.clock 1584266400123000000 (-18000) (b! "2020-03-15T05:00:00.123-05:00") := by
  have := C101_written Time.clock_runs (Z := fun _ => -18000) (d := ⟨b! "a.txt", 3, 420, 1584266400123000000, false⟩)
    (s := b! "2020-03-15T05:00:00.123-05:00") rfl
    (by have : Time.format 1584266400123000000 (-18000) = b! "2020-03-15T05:00:00.123-05:00" := by decide +kernel
        show _ ∈ [_, _, _, (b! "mod_time", Json.str (Time.format 1584266400123000000 (-18000))), _, _]; rw [this]
        simp) (by decide) (by decide +kernel)
  exact this

/-! ### C102 -/

/-- **C102**: a string written to JSON and read back is the same string exactly if it is Unicode text. -/
theorem C102_strings (s : Str) : Json.parse (Json.str s).print = some (.str s) ↔ IsText s := by
  rw [Json.parse_print (j := .str s) trivial]
  simp only [Json.sane, Option.some.injEq, Json.str.injEq]
  rw [Utf8.sane_iff, Utf8.valid_iff_text]

/-- What is read back is always text. -/
theorem C102_always_text (s : Str) : ∃ t, Json.parse (Json.str s).print = some (.str t) ∧ IsText t ∧
    (IsText s → t = s) := by
  refine ⟨Utf8.sane s, ?_, ?_, ?_⟩
  · rw [Json.parse_print (j := .str s) trivial, Json.sane]
  · rw [← Utf8.valid_iff_text]
    unfold Utf8.sane
    have key : ∀ l : List Utf8.Chunk, (∀ k ∈ l, k.Real) → Utf8.Valid (l.flatMap Utf8.Chunk.out) := by
      intro l hl
      induction l with
      | nil => simp [Utf8.Valid, Utf8.chunks_nil]
      | cons k l ih =>
        rw [List.flatMap_cons]
        refine Utf8.valid_append ?_ (ih fun k hk => hl k (by simp [hk]))
        have hk := hl k (by simp)
        cases k with
        | plain b =>
          refine Utf8.valid_ascii (s := [b]) ?_
          intro b' hb'
          rw [List.mem_singleton.mp hb']
          exact hk
        | multi bs =>
          obtain ⟨c, tl, rfl, hc, hs⟩ := hk
          have := hs []
          rw [List.append_nil] at this
          refine Utf8.valid_seq ?_ this
          rw [Utf8.toNat_lt] at hc
          have e : (0x80 : UInt8).toNat = 128 := rfl
          omega
        | bad => decide +kernel
    exact key _ (Utf8.chunks_real s)
  · intro h
    exact Utf8.sane_of_valid s ((Utf8.valid_iff_text s).mpr h)

example : Json.parse (Json.str (b! "größe/目录")).print = some (.str (b! "größe/目录")) :=
  (C102_strings _).mpr ⟨"größe/目录".toList, by decide +kernel⟩

/-- A surrogate is not text, and does not survive. -/
example : Json.parse (Json.str [0xED, 0xA0, 0x80]).print ≠ some (.str [0xED, 0xA0, 0x80]) := by
  rw [Ne, C102_strings, ← Utf8.valid_iff_text]
  decide +kernel

/-- **C59** (missing: the cases this theorem shows to fail), in terms of Unicode and of the calendar: typed details are
read back unchanged exactly if the name is text, the offset is whole minutes, and the clock shows a year of four
digits. -/
theorem C59_text_partial {c : Int → Clock} (hc : Runs c) {Z : Int → Int} {d : Details} (ht : Typed d)
    (hb : (Z d.modTime).natAbs < 360000) :
    reread Z d = some (some d) ↔
      IsText d.name ∧ Z d.modTime % 60 = 0 ∧ 0 ≤ (c (d.modTime / 1000000000 + Z d.modTime)).year ∧
        (c (d.modTime / 1000000000 + Z d.modTime)).year < 10000 := by
  rw [C59_iff_partial ht hb, Utf8.sane_iff, Utf8.valid_iff_text, Time.runs_unique hc]
  exact Iff.rfl

example : reread utc ⟨b! "größe", 3, 420, 1584266400123000000, false⟩ =
    some (some ⟨b! "größe", 3, 420, 1584266400123000000, false⟩) :=
  (C59_text_partial Time.clock_runs (by decide) (by decide)).mpr
    ⟨⟨"größe".toList, by decide +kernel⟩, by decide +kernel⟩

end Props
end Verif
