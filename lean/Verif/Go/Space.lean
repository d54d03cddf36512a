import Verif.Go.Path

/-! `strings.TrimSpace`. -/

namespace Verif
namespace Str

/-- The UTF-8 encodings of the code points `unicode.IsSpace` accepts. -/
def spaceSeqs : List Str :=
  [[9], [10], [11], [12], [13], [32], [0xC2, 0x85], [0xC2, 0xA0], [0xE1, 0x9A, 0x80],
   [0xE2, 0x80, 0x80], [0xE2, 0x80, 0x81], [0xE2, 0x80, 0x82], [0xE2, 0x80, 0x83],
   [0xE2, 0x80, 0x84], [0xE2, 0x80, 0x85], [0xE2, 0x80, 0x86], [0xE2, 0x80, 0x87],
   [0xE2, 0x80, 0x88], [0xE2, 0x80, 0x89], [0xE2, 0x80, 0x8A], [0xE2, 0x80, 0xA8],
   [0xE2, 0x80, 0xA9], [0xE2, 0x80, 0xAF], [0xE2, 0x81, 0x9F], [0xE3, 0x80, 0x80]]

/-- Drop members of `seqs` from the front as long as possible; `fuel` bounds the number of steps and
the length of the string is always enough. -/
def trimWith (seqs : List Str) : Nat → Str → Str
  | 0, s => s
  | fuel + 1, s =>
    match seqs.find? (fun q => q.isPrefixOf s) with
    | some q => trimWith seqs fuel (s.drop q.length)
    | none => s

/-- `strings.TrimLeftFunc(s, unicode.IsSpace)`. -/
def trimLeft (s : Str) : Str := trimWith spaceSeqs s.length s

/-- `strings.TrimRightFunc(s, unicode.IsSpace)`. -/
def trimRight (s : Str) : Str :=
  (trimWith (spaceSeqs.map List.reverse) s.length s.reverse).reverse

/-- `strings.TrimSpace(s)`. -/
def trimSpace (s : Str) : Str := trimRight (trimLeft s)

/-- The string starts with white space. -/
def StartsInSpace (s : Str) : Prop := ∃ q ∈ spaceSeqs, q <+: s

/-- The string ends with white space. -/
def EndsInSpace (s : Str) : Prop := ∃ q ∈ spaceSeqs, q <:+ s

instance (s : Str) : Decidable (StartsInSpace s) := by unfold StartsInSpace; infer_instance
instance (s : Str) : Decidable (EndsInSpace s) := by unfold EndsInSpace; infer_instance

theorem trimWith_id {seqs : List Str} {s : Str} (h : ∀ q ∈ seqs, ¬ q <+: s) (fuel : Nat) :
    trimWith seqs fuel s = s := by
  cases fuel with
  | zero => rfl
  | succ n =>
    have : seqs.find? (fun q => q.isPrefixOf s) = none := by
      rw [List.find?_eq_none]
      intro q hq
      simpa using h q hq
    simp [trimWith, this]

theorem trimLeft_id {s : Str} (h : ¬ StartsInSpace s) : trimLeft s = s :=
  trimWith_id (fun q hq hp => h ⟨q, hq, hp⟩) _

theorem trimRight_id {s : Str} (h : ¬ EndsInSpace s) : trimRight s = s := by
  unfold trimRight
  rw [trimWith_id, List.reverse_reverse]
  intro q hq hp
  rw [List.mem_map] at hq
  obtain ⟨r, hr, rfl⟩ := hq
  exact h ⟨r, hr, List.reverse_prefix.mp hp⟩

theorem trimSpace_id {s : Str} (h1 : ¬ StartsInSpace s) (h2 : ¬ EndsInSpace s) :
    trimSpace s = s := by
  unfold trimSpace
  rw [trimLeft_id h1, trimRight_id h2]

/-- None of the white space encodings contains a slash or a colon. -/
theorem spaceSeqs_no_sep : ∀ q ∈ spaceSeqs, slash ∉ q ∧ colon ∉ q ∧ q ≠ [] := by decide

theorem not_startsInSpace_slash (s : Str) : ¬ StartsInSpace (slash :: s) := by
  rintro ⟨q, hq, hp⟩
  have := spaceSeqs_no_sep q hq
  cases q with
  | nil => exact this.2.2 rfl
  | cons a as =>
    rw [List.cons_prefix_cons] at hp
    apply this.1
    rw [hp.1]; simp

theorem suffix_after_sep {q a c : Str} {x : UInt8} (hq : x ∉ q) (h : q <:+ a ++ x :: c) :
    q <:+ c := by
  have hc : c <:+ a ++ x :: c := ⟨a ++ [x], by simp⟩
  have hxc : (x :: c) <:+ a ++ x :: c := ⟨a, rfl⟩
  by_cases hl : q.length ≤ c.length
  · exact List.suffix_of_suffix_length_le h hc hl
  · exfalso
    have : (x :: c) <:+ q := List.suffix_of_suffix_length_le hxc h (by simp; omega)
    exact hq (this.subset (by simp))

theorem endsInSpace_after_slash {a c : Str} (h : EndsInSpace (a ++ slash :: c)) : EndsInSpace c := by
  obtain ⟨q, hq, hs⟩ := h
  exact ⟨q, hq, suffix_after_sep (spaceSeqs_no_sep q hq).1 hs⟩

theorem endsInSpace_after_colon {a c : Str} (h : EndsInSpace (a ++ colon :: c)) : EndsInSpace c := by
  obtain ⟨q, hq, hs⟩ := h
  exact ⟨q, hq, suffix_after_sep (spaceSeqs_no_sep q hq).2.1 hs⟩

theorem not_endsInSpace_nil : ¬ EndsInSpace [] := by decide

end Str
end Verif
