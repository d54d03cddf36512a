/-!
Go strings and byte slices.

A Go `string` is a byte sequence; `Str` is `List UInt8`.  Nothing here assumes UTF-8.
-/

namespace Verif

/-- A Go `string` or `[]byte` content: a finite byte sequence. -/
abbrev Str := List UInt8

/-- `b! "text"` is the UTF-8 byte list of a string literal, expanded at elaboration time so that the
kernel only ever sees a plain list of numerals. -/
syntax (name := bstr) "b!" str : term

macro_rules
  | `(b! $s:str) => do
    let bytes := s.getString.toUTF8.toList
    let mut acc ← `(([] : List UInt8))
    for b in bytes.reverse do
      acc ← `(List.cons ($(Lean.quote b.toNat) : UInt8) $acc)
    return acc

namespace Str

/-- `/` -/
abbrev slash : UInt8 := 47
/-- `:` -/
abbrev colon : UInt8 := 58
/-- `.` -/
abbrev dot : UInt8 := 46
/-- `\` -/
abbrev backslash : UInt8 := 92
/-- newline -/
abbrev newline : UInt8 := 10

@[simp] theorem slash_ne_colon : (slash = colon) = False := by decide
@[simp] theorem colon_ne_slash : (colon = slash) = False := by decide
@[simp] theorem slash_ne_dot : (slash = 46) = False := by decide
@[simp] theorem colon_ne_dot : (colon = 46) = False := by decide

/-- Go's `a <= b` on strings: bytewise lexicographic order, a proper prefix being smaller. -/
def le : Str → Str → Bool
  | [], _ => true
  | _ :: _, [] => false
  | a :: as, b :: bs => if a < b then true else if b < a then false else le as bs

/-- Go's `a < b` on strings. -/
def lt (a b : Str) : Bool := !(le b a)

/-- `strings.HasPrefix(s, p)`. -/
def hasPrefix (s p : Str) : Bool := p.isPrefixOf s

/-- `strings.HasSuffix(s, x)`. -/
def hasSuffix (s x : Str) : Bool := x.isSuffixOf s

/-- `strings.TrimPrefix(s, p)`. -/
def trimPrefix (s p : Str) : Str := if hasPrefix s p then s.drop p.length else s

/-- `strings.ReplaceAll(s, old, new)` for one-byte `old` and `new`. -/
def replaceByte (s : Str) (old new : UInt8) : Str := s.map fun b => if b = old then new else b

@[simp] theorem le_refl : ∀ a : Str, le a a = true
  | [] => rfl
  | a :: as => by
    have h : ¬ a < a := UInt8.lt_irrefl a
    simp [le, h, le_refl as]

theorem le_total : ∀ a b : Str, le a b = true ∨ le b a = true
  | [], _ => by simp [le]
  | _ :: _, [] => by simp [le]
  | a :: as, b :: bs => by
    by_cases h : a < b
    · simp [le, h]
    · by_cases h' : b < a
      · simp [le, h']
      · simpa [le, h, h'] using le_total as bs

theorem le_antisymm : ∀ {a b : Str}, le a b = true → le b a = true → a = b
  | [], [], _, _ => rfl
  | [], _ :: _, _, h => by simp [le] at h
  | _ :: _, [], h, _ => by simp [le] at h
  | a :: as, b :: bs, h1, h2 => by
    by_cases h : a < b
    · have h' : ¬ b < a := UInt8.lt_asymm h
      simp [le, h, h'] at h2
    · by_cases h' : b < a
      · simp [le, h, h'] at h1
      · have hab : a = b :=
          UInt8.le_antisymm (UInt8.not_lt.mp h') (UInt8.not_lt.mp h)
        simp only [le, h, h', if_false] at h1 h2
        rw [hab, le_antisymm h1 h2]

theorem le_trans : ∀ {a b c : Str}, le a b = true → le b c = true → le a c = true
  | [], _, _, _, _ => by simp [le]
  | _ :: _, [], _, h, _ => by simp [le] at h
  | _ :: _, _ :: _, [], _, h => by simp [le] at h
  | a :: as, b :: bs, c :: cs, h1, h2 => by
    by_cases hab : a < b
    · by_cases hbc : b < c
      · have : a < c := UInt8.lt_trans hab hbc
        simp [le, this]
      · by_cases hcb : c < b
        · simp [le, hbc, hcb] at h2
        · have : b = c := UInt8.le_antisymm (UInt8.not_lt.mp hcb) (UInt8.not_lt.mp hbc)
          subst this; simp [le, hab]
    · by_cases hba : b < a
      · simp [le, hab, hba] at h1
      · have : a = b := UInt8.le_antisymm (UInt8.not_lt.mp hba) (UInt8.not_lt.mp hab)
        subst this
        simp only [le, hab, if_false] at h1
        by_cases hac : a < c
        · simp [le, hac]
        · by_cases hca : c < a
          · simp [le, hac, hca] at h2
          · simp only [le, hac, hca, if_false] at h2 ⊢
            exact le_trans h1 h2

/-- Strict order: `a < b` means `a ≤ b` and `a ≠ b`. -/
theorem lt_iff (a b : Str) : lt a b = true ↔ le a b = true ∧ a ≠ b := by
  unfold lt
  constructor
  · intro h
    have h' : le b a = false := by simpa using h
    refine ⟨?_, ?_⟩
    · rcases le_total a b with h1 | h1
      · exact h1
      · rw [h1] at h'; cases h'
    · intro hab; subst hab; simp at h'
  · rintro ⟨h1, h2⟩
    cases h : le b a with
    | false => rfl
    | true => exact absurd (le_antisymm h1 h) h2

/-- A prefix is never larger. -/
theorem prefix_le : ∀ {p s : Str}, p <+: s → le p s = true
  | [], _, _ => by simp [le]
  | a :: as, [], h => by simp at h
  | a :: as, b :: bs, h => by
    rw [List.cons_prefix_cons] at h
    obtain ⟨rfl, h⟩ := h
    have hirr : ¬ a < a := UInt8.lt_irrefl a
    simp [le, hirr, prefix_le h]

/-- Prefixing both sides does not change the order. -/
theorem le_append_left (p a b : Str) : le (p ++ a) (p ++ b) = le a b := by
  induction p with
  | nil => rfl
  | cons x xs ih =>
    have hirr : ¬ x < x := UInt8.lt_irrefl x
    simp [le, hirr, ih]

/-- Strings with a common prefix are contiguous in the order: anything between `p ++ x` and a string
with prefix `p` has prefix `p`. -/
theorem prefix_of_between : ∀ {p a b : Str}, le p a = true → le a b = true → p <+: b → p <+: a
  | [], a, _, _, _, _ => List.nil_prefix
  | x :: xs, [], _, h, _, _ => by simp [le] at h
  | x :: xs, a :: as, [], _, _, h => by simp at h
  | x :: xs, a :: as, b :: bs, h1, h2, h3 => by
    rw [List.cons_prefix_cons] at h3
    obtain ⟨rfl, h3⟩ := h3
    by_cases hxa : x < a
    · have hax : ¬ a < x := UInt8.lt_asymm hxa
      simp [le, hxa, hax] at h2
    · by_cases hax : a < x
      · simp [le, hxa, hax] at h1
      · have : x = a := UInt8.le_antisymm (UInt8.not_lt.mp hax) (UInt8.not_lt.mp hxa)
        subst this
        simp only [le, hxa, if_false] at h1 h2
        rw [List.cons_prefix_cons]
        exact ⟨rfl, prefix_of_between h1 h2 h3⟩

@[simp] theorem hasPrefix_iff (s p : Str) : hasPrefix s p = true ↔ p <+: s := by
  simp [hasPrefix]

@[simp] theorem hasPrefix_false_iff (s p : Str) : hasPrefix s p = false ↔ ¬ p <+: s := by
  rw [← hasPrefix_iff, Bool.not_eq_true]

@[simp] theorem hasSuffix_iff (s x : Str) : hasSuffix s x = true ↔ x <:+ s := by
  simp [hasSuffix]

theorem trimPrefix_of_not_prefix {s p : Str} (h : ¬ p <+: s) : trimPrefix s p = s := by
  unfold trimPrefix
  rw [if_neg]; simpa using h

@[simp] theorem trimPrefix_append (p s : Str) : trimPrefix (p ++ s) p = s := by
  unfold trimPrefix
  have : hasPrefix (p ++ s) p = true := by simp
  rw [if_pos this]; simp

@[simp] theorem trimPrefix_nil (s : Str) : trimPrefix s [] = s := by
  simp [trimPrefix]

theorem replaceByte_of_notMem {s : Str} {o n : UInt8} (h : o ∉ s) : replaceByte s o n = s := by
  unfold replaceByte
  induction s with
  | nil => rfl
  | cons a as ih =>
    simp only [List.mem_cons, not_or] at h
    simp only [List.map_cons]
    rw [if_neg (fun e => h.1 e.symm), ih h.2]

end Str
end Verif
