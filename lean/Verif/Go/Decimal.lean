import Verif.Lemmas.Json

/-! `strconv.FormatInt`, `strconv.ParseInt` and `strconv.ParseUint` (Go standard library), base ten. -/

namespace Verif
namespace Decimal

/-- The digit with the given value. -/
def digit (n : Nat) : UInt8 := UInt8.ofNat (48 + n)

/-- The decimal digits of a number. -/
def ofNat (n : Nat) : Str :=
  if n < 10 then [digit n] else ofNat (n / 10) ++ [digit (n % 10)]
termination_by n
decreasing_by omega

/-- `strconv.FormatInt(n, 10)`. -/
def ofInt (n : Int) : Str := if n < 0 then 45 :: ofNat n.natAbs else ofNat n.natAbs

/-- Digits read from left to right, with the number read so far. -/
def natFrom : Nat → Str → Option Nat
  | acc, [] => some acc
  | acc, c :: s => if Json.isDigit c then natFrom (acc * 10 + (c.toNat - 48)) s else none

/-- `strconv.ParseUint` without its limit. -/
def toNat (s : Str) : Option Nat := if s = [] then none else natFrom 0 s

/-- `strconv.ParseInt` without its limits, on text starting with a digit or `-` as JSON numbers do. -/
def toInt : Str → Option Int
  | 45 :: s =>
    match toNat s with
    | some n => some (-(n : Int))
    | none => none
  | s =>
    match toNat s with
    | some n => some (n : Int)
    | none => none

theorem digit_isDigit {n : Nat} (h : n < 10) : Json.isDigit (digit n) = true ∧ (digit n).toNat = 48 + n := by
  have : (digit n).toNat = 48 + n := by
    unfold digit
    rw [UInt8.toNat_ofNat']
    omega
  rw [Json.isDigit_iff]
  omega

theorem natFrom_append (acc : Nat) (a b : Str) :
    natFrom acc (a ++ b) = match natFrom acc a with
      | some n => natFrom n b
      | none => none := by
  induction a generalizing acc with
  | nil => rfl
  | cons c a ih =>
    simp only [List.cons_append, natFrom]
    split
    · exact ih _
    · rfl

theorem ofNat_small {n : Nat} (h : n < 10) : ofNat n = [digit n] := by rw [ofNat, if_pos h]

theorem ofNat_big {n : Nat} (h : ¬ n < 10) : ofNat n = ofNat (n / 10) ++ [digit (n % 10)] := by
  rw [ofNat, if_neg h]

theorem natFrom_ofNat (n : Nat) : natFrom 0 (ofNat n) = some n := by
  induction n using Nat.strongRecOn with
  | _ n ih =>
    by_cases h : n < 10
    · have := digit_isDigit h
      simp [ofNat_small h, natFrom, this]
    · have := digit_isDigit (n := n % 10) (by omega)
      rw [ofNat_big h, natFrom_append, ih (n / 10) (by omega)]
      simp only [natFrom, this, if_true]
      congr 1
      omega

theorem ofNat_text (n : Nat) : Json.NatText (ofNat n) ∧ (0 < n → (ofNat n).head? ≠ some 48) := by
  induction n using Nat.strongRecOn with
  | _ n ih =>
    by_cases h : n < 10
    · have := digit_isDigit h
      rw [ofNat_small h]
      refine ⟨⟨by simp, by simp [this], ?_⟩, ?_⟩
      · by_cases h0 : n = 0
        · left; subst h0; rfl
        · right
          simp only [List.head?_cons, ne_eq, Option.some.injEq]
          intro e
          have := this.2
          rw [e] at this
          simp at this
          omega
      · intro h0
        simp only [List.head?_cons, ne_eq, Option.some.injEq]
        intro e
        have := this.2
        rw [e] at this
        simp at this
        omega
    · have := digit_isDigit (n := n % 10) (by omega)
      rw [ofNat_big h]
      obtain ⟨⟨h1, h2, _⟩, h4⟩ := ih (n / 10) (by omega)
      have h5 := h4 (by omega)
      have hh : (ofNat (n / 10) ++ [digit (n % 10)]).head? ≠ some 48 := by
        rw [List.head?_append]
        cases hd : (ofNat (n / 10)).head? with
        | none => rw [List.head?_eq_none_iff] at hd; exact absurd hd h1
        | some c => rw [hd] at h5; simpa using h5
      refine ⟨⟨by simp, ?_, Or.inr hh⟩, fun _ => hh⟩
      intro c hc
      rcases List.mem_append.mp hc with hc | hc
      · exact h2 c hc
      · simp only [List.mem_singleton] at hc; subst hc; exact this.1

theorem toNat_ofNat (n : Nat) : toNat (ofNat n) = some n := by
  unfold toNat
  rw [if_neg (ofNat_text n).1.1, natFrom_ofNat]

theorem ofInt_text (n : Int) : Json.IntText (ofInt n) := by
  unfold ofInt
  split
  · exact Or.inr ⟨_, rfl, (ofNat_text _).1⟩
  · exact Or.inl (ofNat_text _).1

theorem toInt_ofInt (n : Int) : toInt (ofInt n) = some n := by
  unfold ofInt
  split
  · simp only [toInt, toNat_ofNat]
    congr 1
    omega
  · obtain ⟨c, s, h1, h2⟩ := (ofNat_text n.natAbs).1.head
    unfold toInt
    split
    · rename_i heq
      rw [h1] at heq
      injection heq with heq
      rw [heq] at h2
      exact absurd h2 (by decide)
    · rw [toNat_ofNat]
      simp only
      congr 1
      omega

end Decimal
end Verif
