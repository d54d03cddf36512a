import Verif.Spec.Unicode
import Verif.Go.Utf8

/-! The UTF-8 of Go/Utf8.lean accepts exactly the encodings of Unicode characters. -/

namespace Verif
namespace Utf8
open Spec

theorem toNat_le {a b : UInt8} : (a ≤ b) = (a.toNat ≤ b.toNat) := propext UInt8.le_iff_toNat_le
theorem toNat_lt {a b : UInt8} : (a < b) = (a.toNat < b.toNat) := propext UInt8.lt_iff_toNat_lt

theorem toNat_eq {a b : UInt8} : (a = b) = (a.toNat = b.toNat) := propext UInt8.toNat_inj.symm

theorem ofNat_val {n : Nat} (h : n < 256) : (UInt8.ofNat n).toNat = n := by
  rw [UInt8.toNat_ofNat']; exact Nat.mod_eq_of_lt h

theorem cont_iff (b : UInt8) : cont b = true ↔ 0x80 ≤ b.toNat ∧ b.toNat < 0xC0 := by
  unfold cont
  simp only [toNat_le, toNat_lt, Bool.and_eq_true, decide_eq_true_eq]
  exact Iff.rfl

theorem second_iff (c b : UInt8) : second c b = true ↔
    0x80 ≤ b.toNat ∧ b.toNat < 0xC0 ∧ (c.toNat = 0xE0 → 0xA0 ≤ b.toNat) ∧ (c.toNat = 0xED → b.toNat < 0xA0) ∧
      (c.toNat = 0xF0 → 0x90 ≤ b.toNat) ∧ (c.toNat = 0xF4 → b.toNat < 0x90) := by
  have e1 : (0xE0 : UInt8).toNat = 0xE0 := rfl
  have e2 : (0xED : UInt8).toNat = 0xED := rfl
  have e3 : (0xF0 : UInt8).toNat = 0xF0 := rfl
  have e4 : (0xF4 : UInt8).toNat = 0xF4 := rfl
  have e5 : (0xA0 : UInt8).toNat = 0xA0 := rfl
  have e6 : (0xC0 : UInt8).toNat = 0xC0 := rfl
  have e7 : (0x80 : UInt8).toNat = 0x80 := rfl
  have e8 : (0x90 : UInt8).toNat = 0x90 := rfl
  unfold second
  repeat' split
  all_goals
    rename_i h
    simp only [cont_iff, toNat_le, toNat_lt, toNat_eq, e1, e2, e3, e4, e5, e6, e7, e8, Bool.and_eq_true,
      decide_eq_true_eq] at *
    omega

theorem need_iff (c : UInt8) :
    (need c = 1 ↔ 0xC2 ≤ c.toNat ∧ c.toNat < 0xE0) ∧ (need c = 2 ↔ 0xE0 ≤ c.toNat ∧ c.toNat < 0xF0) ∧
      (need c = 3 ↔ 0xF0 ≤ c.toNat ∧ c.toNat < 0xF5) := by
  have e1 : (0xC2 : UInt8).toNat = 0xC2 := rfl
  have e2 : (0xE0 : UInt8).toNat = 0xE0 := rfl
  have e3 : (0xF0 : UInt8).toNat = 0xF0 := rfl
  have e4 : (0xF5 : UInt8).toNat = 0xF5 := rfl
  unfold need
  simp only [toNat_le, toNat_lt, e1, e2, e3, e4]
  repeat' split
  all_goals omega

/-- The bytes of a multi-byte character, as numbers. -/
theorem seq_iff (c : UInt8) (s bs rest : Str) : seq c s = some (bs, rest) ↔
    (∃ b, s = b :: rest ∧ bs = [c, b] ∧ need c = 1 ∧ second c b = true) ∨
    (∃ b d, s = b :: d :: rest ∧ bs = [c, b, d] ∧ need c = 2 ∧ second c b = true ∧ cont d = true) ∨
    (∃ b d e, s = b :: d :: e :: rest ∧ bs = [c, b, d, e] ∧ need c = 3 ∧ second c b = true ∧ cont d = true ∧
      cont e = true) := by
  constructor
  · intro h
    unfold seq at h
    split at h
    · rename_i hn
      split at h
      · split at h
        · rename_i b s' hc
          cases h
          exact Or.inl ⟨b, rfl, rfl, hn, hc⟩
        · cases h
      · cases h
    · rename_i hn
      split at h
      · split at h
        · rename_i b d s' hc
          cases h
          rw [Bool.and_eq_true] at hc
          exact Or.inr (Or.inl ⟨b, d, rfl, rfl, hn, hc.1, hc.2⟩)
        · cases h
      · cases h
    · rename_i hn
      split at h
      · split at h
        · rename_i b d e s' hc
          cases h
          rw [Bool.and_eq_true, Bool.and_eq_true] at hc
          exact Or.inr (Or.inr ⟨b, d, e, rfl, rfl, hn, hc.1.1, hc.1.2, hc.2⟩)
        · cases h
      · cases h
    · cases h
  · rintro (⟨b, rfl, rfl, h1, h2⟩ | ⟨b, d, rfl, rfl, h1, h2, h3⟩ | ⟨b, d, e, rfl, rfl, h1, h2, h3, h4⟩)
    · simp [seq, h1, h2]
    · simp [seq, h1, h2, h3]
    · simp [seq, h1, h2, h3, h4]

theorem valid_seq {c : UInt8} {tl : Str} (hc : 0x80 ≤ c.toNat) (h : seq c tl = some (c :: tl, [])) : Valid (c :: tl) := by
  unfold Valid
  rw [chunks_cons]
  have : ¬ c < 0x80 := by
    rw [toNat_lt]
    show ¬ c.toNat < 128
    omega
  simp [next, this, h, chunks_nil]

/-- A character is valid. -/
theorem valid_char (c : Char) : Valid (String.utf8EncodeChar c) := by
  have hv : c.val.toNat < 0xD800 ∨ (0xDFFF < c.val.toNat ∧ c.val.toNat < 0x110000) := c.valid
  unfold String.utf8EncodeChar
  simp only
  generalize c.val.toNat = v at hv
  split
  · rename_i h
    unfold Valid
    rw [chunks_cons]
    have : (UInt8.ofNat v) < 0x80 := by
      rw [toNat_lt, ofNat_val (by omega)]
      show v < 128
      omega
    simp [next, this, chunks_nil]
  · split
    · refine valid_seq ?_ ?_
      · rw [ofNat_val (by omega)]; omega
      · rw [seq_iff]
        refine Or.inl ⟨_, rfl, rfl, (need_iff _).1.mpr ?_, (second_iff _ _).mpr ?_⟩
        · rw [ofNat_val (by omega)]; omega
        · rw [ofNat_val (by omega), ofNat_val (by omega)]; omega
    · split
      · refine valid_seq ?_ ?_
        · rw [ofNat_val (by omega)]; omega
        · rw [seq_iff]
          refine Or.inr (Or.inl ⟨_, _, rfl, rfl, (need_iff _).2.1.mpr ?_, (second_iff _ _).mpr ?_, (cont_iff _).mpr ?_⟩)
          · rw [ofNat_val (by omega)]; omega
          · rw [ofNat_val (by omega), ofNat_val (by omega)]; omega
          · rw [ofNat_val (by omega)]; omega
      · refine valid_seq ?_ ?_
        · rw [ofNat_val (by omega)]; omega
        · rw [seq_iff]
          refine Or.inr (Or.inr ⟨_, _, _, rfl, rfl, (need_iff _).2.2.mpr ?_, (second_iff _ _).mpr ?_,
            (cont_iff _).mpr ?_, (cont_iff _).mpr ?_⟩)
          · rw [ofNat_val (by omega)]; omega
          · rw [ofNat_val (by omega), ofNat_val (by omega)]; omega
          · rw [ofNat_val (by omega)]; omega
          · rw [ofNat_val (by omega)]; omega

/-- The character with a number that is a scalar value. -/
theorem char_exists {v : Nat} (h : v < 0xD800 ∨ (0xDFFF < v ∧ v < 0x110000)) : ∃ c : Char, c.val.toNat = v := by
  have hv : (UInt32.ofNat v).toNat = v := by
    rw [UInt32.toNat_ofNat']
    exact Nat.mod_eq_of_lt (by omega)
  refine ⟨⟨UInt32.ofNat v, ?_⟩, hv⟩
  show (UInt32.ofNat v).toNat.isValidChar
  rw [hv]
  exact h

theorem eq_ofNat {a : UInt8} {n : Nat} (h : a.toNat = n) : a = UInt8.ofNat n := by
  rw [← h, UInt8.ofNat_toNat]

/-- A byte below 0x80 is a character. -/
theorem char_plain {c : UInt8} (h : c.toNat < 0x80) : ∃ x : Char, String.utf8EncodeChar x = [c] := by
  obtain ⟨x, hx⟩ := char_exists (v := c.toNat) (by omega)
  refine ⟨x, ?_⟩
  unfold String.utf8EncodeChar
  simp only [hx]
  rw [if_pos (by omega), UInt8.ofNat_toNat]

/-- The bytes of a multi-byte character are a character. -/
theorem char_multi {c : UInt8} {s bs rest : Str} (h : seq c s = some (bs, rest)) :
    ∃ x : Char, String.utf8EncodeChar x = bs := by
  have hn := need_iff c
  rcases (seq_iff c s bs rest).mp h with ⟨b, _, rfl, h1, h2⟩ | ⟨b, d, _, rfl, h1, h2, h3⟩ | ⟨b, d, e, _, rfl, h1, h2, h3, h4⟩
  · rw [second_iff] at h2
    have h1 := hn.1.mp h1
    obtain ⟨x, hx⟩ := char_exists (v := (c.toNat - 0xC0) * 64 + (b.toNat - 0x80)) (by omega)
    refine ⟨x, ?_⟩
    unfold String.utf8EncodeChar
    simp only [hx]
    rw [if_neg (by omega), if_pos (by omega)]
    simp only [List.cons.injEq, and_true]
    exact ⟨(eq_ofNat (by omega)).symm, (eq_ofNat (by omega)).symm⟩
  · rw [second_iff] at h2
    rw [cont_iff] at h3
    have h1 := hn.2.1.mp h1
    obtain ⟨x, hx⟩ := char_exists (v := (c.toNat - 0xE0) * 4096 + (b.toNat - 0x80) * 64 + (d.toNat - 0x80)) (by omega)
    refine ⟨x, ?_⟩
    unfold String.utf8EncodeChar
    simp only [hx]
    rw [if_neg (by omega), if_neg (by omega), if_pos (by omega)]
    simp only [List.cons.injEq, and_true]
    exact ⟨(eq_ofNat (by omega)).symm, (eq_ofNat (by omega)).symm, (eq_ofNat (by omega)).symm⟩
  · rw [second_iff] at h2
    rw [cont_iff] at h3 h4
    have h1 := hn.2.2.mp h1
    obtain ⟨x, hx⟩ := char_exists (v := (c.toNat - 0xF0) * 262144 + (b.toNat - 0x80) * 4096 + (d.toNat - 0x80) * 64 +
      (e.toNat - 0x80)) (by omega)
    refine ⟨x, ?_⟩
    unfold String.utf8EncodeChar
    simp only [hx]
    rw [if_neg (by omega), if_neg (by omega), if_neg (by omega)]
    simp only [List.cons.injEq, and_true]
    exact ⟨(eq_ofNat (by omega)).symm, (eq_ofNat (by omega)).symm, (eq_ofNat (by omega)).symm, (eq_ofNat (by omega)).symm⟩

/-- **Go's UTF-8 is Unicode's**: a string is valid exactly if it is the encoding of a list of characters. -/
theorem valid_iff_text (s : Str) : Valid s ↔ IsText s := by
  constructor
  · intro h
    generalize hn : s.length = n
    induction n using Nat.strongRecOn generalizing s with
    | _ n ih =>
      cases s with
      | nil => exact ⟨[], rfl⟩
      | cons c s =>
        unfold Valid at h
        rw [chunks_cons] at h
        simp only [List.mem_cons, not_or] at h
        have hlen := next_shorter c s
        obtain ⟨cs, hcs⟩ := ih _ (by simp only [List.length_cons] at hn; omega) (next c s).2 h.2 rfl
        by_cases hc : c < 0x80
        · obtain ⟨x, hx⟩ := char_plain (c := c) (by rw [toNat_lt] at hc; exact hc)
          refine ⟨x :: cs, ?_⟩
          simp only [next, hc, if_true] at hcs
          rw [List.flatMap_cons, hx, ← hcs]
          rfl
        · cases hs : seq c s with
          | none =>
            exfalso
            apply h.1
            simp [next, hc, hs]
          | some p =>
            obtain ⟨bs, rest⟩ := p
            obtain ⟨x, hx⟩ := char_multi hs
            refine ⟨x :: cs, ?_⟩
            simp only [next, hc, if_false, hs] at hcs
            rw [List.flatMap_cons, hx, ← hcs]
            exact (seq_append hs).1.symm
  · rintro ⟨cs, rfl⟩
    induction cs with
    | nil => simp [Valid, chunks_nil]
    | cons c cs ih =>
      rw [List.flatMap_cons]
      exact valid_append (valid_char c) ih

/-- The characters of a string give at least as many bytes, and more if one is invalid. -/
theorem sane_length (s : Str) : s.length ≤ (sane s).length ∧ (¬ Valid s → s.length < (sane s).length) := by
  generalize hn : s.length = n
  induction n using Nat.strongRecOn generalizing s with
  | _ n ih =>
    cases s with
    | nil =>
      simp only [List.length_nil] at hn
      refine ⟨by omega, fun h => absurd ?_ h⟩
      simp [Valid, chunks_nil]
    | cons c s =>
      have hlen := next_shorter c s
      have ih' := ih _ (by simp only [List.length_cons] at hn; omega) (next c s).2 rfl
      simp only [List.length_cons] at hn
      unfold sane Valid at ih' ⊢
      rw [chunks_cons, List.flatMap_cons, List.length_append]
      by_cases hc : c < 0x80
      · simp only [next, hc, if_true, Chunk.out, List.length_singleton, List.mem_cons, reduceCtorEq, false_or] at ih' ⊢
        exact ⟨by omega, fun h => by have := ih'.2 h; omega⟩
      · cases hs : seq c s with
        | none =>
          simp only [next, hc, if_false, hs, Chunk.out, replacement, List.length_cons, List.length_nil] at ih' ⊢
          omega
        | some p =>
          obtain ⟨bs, rest⟩ := p
          have := congrArg List.length (seq_append hs).1
          simp only [List.length_append, List.length_cons] at this
          simp only [next, hc, if_false, hs, Chunk.out, List.mem_cons, reduceCtorEq, false_or] at ih' ⊢
          exact ⟨by omega, fun h => by have := ih'.2 h; omega⟩

theorem sane_iff (s : Str) : sane s = s ↔ Valid s := by
  constructor
  · intro h
    by_cases hv : Valid s
    · exact hv
    · have := (sane_length s).2 hv
      rw [h] at this
      omega
  · exact sane_of_valid s

end Utf8
end Verif
