import Verif.Go.Unquote
import Verif.Spec.Lit

/-! `strconv.Unquote` computes the value of Go string literals. -/

namespace Verif
namespace Unquote

open Spec

theorem fromChar_iff (c : UInt8) (d : Nat) : Hex.fromChar c = some d ↔ HexDigit c d := by
  unfold Hex.fromChar
  constructor
  · intro h
    split at h
    · rename_i hc; cases h; exact .digit c hc.1 hc.2
    · split at h
      · rename_i hc; cases h; exact .lower c hc.1 hc.2
      · split at h
        · rename_i hc; cases h; exact .upper c hc.1 hc.2
        · cases h
  · intro h
    cases h with
    | digit h1 h2 => rw [if_pos ⟨h1, h2⟩]
    | lower h1 h2 =>
      rw [if_neg, if_pos ⟨h1, h2⟩]
      rintro ⟨_, h3⟩
      exact absurd (UInt8.le_trans h1 h3) (by decide)
    | upper h1 h2 =>
      rw [if_neg, if_neg, if_pos ⟨h1, h2⟩]
      · rintro ⟨h3, _⟩
        exact absurd (UInt8.le_trans h3 h2) (by decide)
      · rintro ⟨_, h3⟩
        exact absurd (UInt8.le_trans h1 h3) (by decide)

theorem hexNumber_snoc (c : UInt8) : ∀ (s : Str) (acc : Nat), hexNumber acc (s ++ [c]) =
    match hexNumber acc s with
    | none => none
    | some n =>
      match Hex.fromChar c with
      | some d => some (n * 16 + d)
      | none => none
  | [], acc => by simp only [List.nil_append, hexNumber]; cases Hex.fromChar c <;> rfl
  | x :: s, acc => by
    simp only [List.cons_append, hexNumber]
    cases Hex.fromChar x with
    | none => rfl
    | some d => simp only; exact hexNumber_snoc c s _

theorem hexNumber_of {s : Str} {n : Nat} (h : HexNumber s n) : hexNumber 0 s = some n := by
  induction h with
  | nil => rfl
  | snoc _ hd ih =>
    rw [hexNumber_snoc, ih, (fromChar_iff _ _).mpr hd]
    simp [Nat.mul_comm]

theorem of_hexNumber : ∀ (k : Nat) (s : Str) (n : Nat), s.length = k → hexNumber 0 s = some n → HexNumber s n
  | 0, s, n, hk, h => by
    have : s = [] := List.length_eq_zero_iff.mp hk
    subst this
    cases h
    exact .nil
  | k + 1, s, n, hk, h => by
    have hne : s ≠ [] := by intro h0; subst h0; simp at hk
    rw [← List.dropLast_concat_getLast hne] at h ⊢
    rw [hexNumber_snoc] at h
    split at h
    · cases h
    · rename_i m hm
      split at h
      · rename_i d hd
        cases h
        rw [Nat.mul_comm]
        exact .snoc (of_hexNumber k _ m (by simp [hk]) hm) ((fromChar_iff _ _).mp hd)
      · cases h

theorem hexDigit_not_newline {c : UInt8} {d : Nat} (h : HexDigit c d) : c ≠ 10 := by
  cases h with
  | digit h1 _ => rintro rfl; exact absurd h1 (by decide)
  | lower h1 _ => rintro rfl; exact absurd h1 (by decide)
  | upper h1 _ => rintro rfl; exact absurd h1 (by decide)

theorem hexNumber_not_newline {s : Str} {n : Nat} (h : HexNumber s n) : (10 : UInt8) ∉ s := by
  induction h with
  | nil => simp
  | snoc _ hd ih =>
    intro h
    rcases List.mem_append.mp h with h | h
    · exact ih h
    · exact hexDigit_not_newline hd (List.mem_singleton.mp h).symm

theorem octDigit_ofNat : ∀ x : Fin 8, octDigit (UInt8.ofNat (48 + x)) = some x.val ∧
    simpleEscape (UInt8.ofNat (48 + x)) = none ∧ UInt8.ofNat (48 + x.val) ≠ 120 ∧ UInt8.ofNat (48 + x.val) ≠ 117 ∧
    UInt8.ofNat (48 + x.val) ≠ 85 ∧ UInt8.ofNat (48 + x.val) ≠ 39 ∧ UInt8.ofNat (48 + x.val) ≠ 34 ∧
    UInt8.ofNat (48 + x.val) ≠ 10 := by decide +kernel

theorem octDigit_some {c : UInt8} {x : Nat} (h : octDigit c = some x) : x < 8 ∧ c = UInt8.ofNat (48 + x) := by
  have key : ∀ n : Fin 256, ∀ x, octDigit (UInt8.ofNat n) = some x → x < 8 ∧ UInt8.ofNat n.val = UInt8.ofNat (48 + x) := by
    intro n x h
    have h2 : ∀ n : Fin 256, (match octDigit (UInt8.ofNat n) with
      | some x => decide (x < 8 ∧ UInt8.ofNat n.val = UInt8.ofNat (48 + x))
      | none => true) = true := by decide +kernel
    have := h2 n
    rw [h] at this
    simpa using this
  have := key ⟨c.toNat, UInt8.toNat_lt c⟩ x
  simp only [UInt8.ofNat_toNat] at this
  exact this h

theorem simpleEscape_iff : ∀ (e b : UInt8), simpleEscape e = some b ↔ (e, b) ∈ letterEscapes ∧ e ≠ 34 := by
  intro e b
  have h2 : ∀ n : Fin 256, (simpleEscape (UInt8.ofNat n) = none → ∀ p ∈ letterEscapes, p.1 = UInt8.ofNat n → p.1 = 34) ∧
      (∀ p ∈ letterEscapes, p.1 = UInt8.ofNat n → p.1 ≠ 34 → simpleEscape (UInt8.ofNat n) = some p.2) ∧
      (match simpleEscape (UInt8.ofNat n) with
        | some b => decide ((UInt8.ofNat n.val, b) ∈ letterEscapes ∧ UInt8.ofNat n.val ≠ 34)
        | none => true) = true := by decide +kernel
  have h := h2 ⟨e.toNat, UInt8.toNat_lt e⟩
  simp only [UInt8.ofNat_toNat] at h
  constructor
  · intro hs
    have := h.2.2
    rw [hs] at this
    simpa using this
  · rintro ⟨hm, hne⟩
    exact h.2.1 (e, b) hm rfl hne

theorem letter_props : ∀ p ∈ letterEscapes, p.1 ≠ 120 ∧ p.1 ≠ 117 ∧ p.1 ≠ 85 ∧ p.1 ≠ 39 ∧ p.1 ≠ 10 := by decide

theorem encodeRune_valid {n : Nat} (h : n.isValidChar) : encodeRune n = String.utf8EncodeChar (Char.ofNat n) := by
  have hv : (Char.ofNat n).val.toNat = n := by
    simp only [Char.ofNat, h, dif_pos]
    rfl
  unfold String.utf8EncodeChar encodeRune
  simp only [hv]
  have hlt : n < 0x110000 := by
    rcases h with h | h <;> omega
  by_cases h1 : n < 0x80
  · rw [if_pos h1, if_pos (by omega)]
  · rw [if_neg h1, if_neg (by omega : ¬ n ≤ 127)]
    by_cases h2 : n < 0x800
    · rw [if_pos h2, if_pos (by omega)]
      rw [show n / 64 % 32 + 192 = 0xC0 + n / 0x40 by omega, show n % 64 + 128 = 0x80 + n % 0x40 by omega]
    · rw [if_neg h2, if_neg (by omega : ¬ n ≤ 2047), if_neg (by
        rcases h with h | h <;> omega)]
      by_cases h3 : n < 0x10000
      · rw [if_pos h3, if_pos (by omega)]
        rw [show n / 4096 % 16 + 224 = 0xE0 + n / 0x1000 by omega, show n / 64 % 64 + 128 = 0x80 + n / 0x40 % 0x40 by omega,
          show n % 64 + 128 = 0x80 + n % 0x40 by omega]
      · rw [if_neg h3, if_neg (by omega : ¬ n ≤ 65535)]
        rw [show n / 262144 % 8 + 240 = 0xF0 + n / 0x40000 by omega,
          show n / 4096 % 64 + 128 = 0x80 + n / 0x1000 % 0x40 by omega,
          show n / 64 % 64 + 128 = 0x80 + n / 0x40 % 0x40 by omega,
          show n % 64 + 128 = 0x80 + n % 0x40 by omega]

theorem encodeRune_surrogate {n : Nat} (h1 : 0xD800 ≤ n) (h2 : n < 0xE000) : encodeRune n = [0xEF, 0xBF, 0xBD] := by
  unfold encodeRune
  rw [if_neg (by omega), if_neg (by omega), if_pos (Or.inl ⟨h1, h2⟩)]

theorem isValidChar_iff (n : Nat) : n.isValidChar ↔ n < 0x110000 ∧ ¬ (0xD800 ≤ n ∧ n < 0xE000) := by
  unfold Nat.isValidChar
  omega

theorem hexEscape_append {n : Nat} {enc : Nat → Option Str} {ds rest out : Str} {v : Nat} (hl : ds.length = n)
    (hv : hexNumber 0 ds = some v) (he : enc v = some out) : hexEscape n enc (ds ++ rest) = .ok (out, rest) := by
  unfold hexEscape
  rw [if_neg (by simp [hl]), List.take_left' hl, hv]
  simp only [he, List.drop_left' hl]

theorem of_hexEscape {n : Nat} {enc : Nat → Option Str} {s rest out : Str} (h : hexEscape n enc s = .ok (out, rest)) :
    ∃ ds v, s = ds ++ rest ∧ ds.length = n ∧ HexNumber ds v ∧ enc v = some out := by
  unfold hexEscape at h
  split at h
  · cases h
  · split at h
    · cases h
    · rename_i hlen v hv
      split at h
      · cases h
      · rename_i out' ho
        cases h
        refine ⟨s.take n, v, (List.take_append_drop n s).symm, by simp; omega, ?_, ho⟩
        exact of_hexNumber _ _ _ rfl hv

/-- Reading one item. -/
theorem char_item {a out : Str} (h : Item a out) (rest : Str) : char dquote (a ++ rest) = .ok (out, rest) := by
  cases h with
  | plain c h1 h2 h3 => simp [char, h1, h2]
  | @letter e b he =>
    have hp := letter_props _ he
    simp only at hp
    by_cases h34 : e = 34
    · subst h34
      have : b = 34 := by
        simp only [letterEscapes, List.mem_cons, Prod.mk.injEq, List.not_mem_nil, or_false] at he
        rcases he with ⟨h, _⟩ | ⟨h, _⟩ | ⟨h, _⟩ | ⟨h, _⟩ | ⟨h, _⟩ | ⟨h, _⟩ | ⟨h, _⟩ | ⟨h, _⟩ | ⟨_, h⟩ <;>
          first | exact h | exact absurd h (by decide)
      subst this
      simp only [List.cons_append, List.nil_append, char]
      rw [if_neg (by decide), if_neg (by decide), if_neg (by decide), if_neg (by decide), if_neg (by decide), if_pos (Or.inr trivial), if_pos trivial]
    · have := (simpleEscape_iff e b).mpr ⟨he, h34⟩
      simp only [List.cons_append, List.nil_append, char]
      rw [if_neg (by decide), if_neg (by decide), if_neg hp.1, if_neg hp.2.1, if_neg hp.2.2.1, if_neg (by
        rintro (h | h)
        · exact hp.2.2.2.1 h
        · exact h34 h), this]
  | @octal x y z hx hy hz hlt =>
    have ox := octDigit_ofNat ⟨x, hx⟩
    have oy := octDigit_ofNat ⟨y, hy⟩
    have oz := octDigit_ofNat ⟨z, hz⟩
    simp only at ox oy oz
    obtain ⟨o1, o2, o3, o4, o5, o6, o7, _⟩ := ox
    have hlt' : x * 64 + y * 8 + z < 256 := by omega
    have hsum : x * 64 + y * 8 + z = 64 * x + 8 * y + z := by omega
    unfold char
    simp only [List.cons_append, List.nil_append]
    rw [if_neg (by decide), if_neg (by decide), if_neg o3, if_neg o4, if_neg o5, if_neg (by
      rintro (h | h)
      · exact o6 h
      · exact o7 h)]
    simp only [o1, o2, oy.1, oz.1]
    rw [if_pos hlt', hsum]
  | @hex ds n hl hn =>
    simp only [List.cons_append, char]
    rw [if_neg (by decide), if_neg (by decide), if_pos trivial]
    exact hexEscape_append hl (hexNumber_of hn) rfl
  | @rune ds n hn hv u hu =>
    have hr : runeOut n = some (String.utf8EncodeChar (Char.ofNat n)) := by
      unfold runeOut
      rw [if_pos ((isValidChar_iff n).mp hv).1, encodeRune_valid hv]
    rcases hu with ⟨rfl, hl⟩ | ⟨rfl, hl⟩
    · simp only [List.cons_append, char]
      rw [if_neg (by decide), if_neg (by decide), if_neg (by decide), if_pos trivial]
      exact hexEscape_append hl (hexNumber_of hn) hr
    · simp only [List.cons_append, char]
      rw [if_neg (by decide), if_neg (by decide), if_neg (by decide), if_neg (by decide), if_pos trivial]
      exact hexEscape_append hl (hexNumber_of hn) hr
  | @surrogate ds n hn h1 h2 u hu =>
    have hr : runeOut n = some [0xEF, 0xBF, 0xBD] := by
      unfold runeOut
      rw [if_pos (by omega), encodeRune_surrogate h1 h2]
    rcases hu with ⟨rfl, hl⟩ | ⟨rfl, hl⟩
    · simp only [List.cons_append, char]
      rw [if_neg (by decide), if_neg (by decide), if_neg (by decide), if_pos trivial]
      exact hexEscape_append hl (hexNumber_of hn) hr
    · simp only [List.cons_append, char]
      rw [if_neg (by decide), if_neg (by decide), if_neg (by decide), if_neg (by decide), if_pos trivial]
      exact hexEscape_append hl (hexNumber_of hn) hr

theorem rune_item {ds out : Str} {n : Nat} (hn : HexNumber ds n) (ho : runeOut n = some out) (u : UInt8)
    (hu : u = 117 ∧ ds.length = 4 ∨ u = 85 ∧ ds.length = 8) : Item (92 :: u :: ds) out := by
  unfold runeOut at ho
  split at ho
  · rename_i hlt
    cases ho
    by_cases hs : 0xD800 ≤ n ∧ n < 0xE000
    · rw [encodeRune_surrogate hs.1 hs.2]
      exact .surrogate hn hs.1 hs.2 u hu
    · have hv := (isValidChar_iff n).mpr ⟨hlt, hs⟩
      rw [encodeRune_valid hv]
      exact .rune hn hv u hu
  · cases ho

/-- Whatever is read is an item. -/
theorem item_of_char {s out rest : Str} (hnl : (10 : UInt8) ∉ s) (h : char dquote s = .ok (out, rest)) :
    ∃ a, s = a ++ rest ∧ Item a out := by
  unfold char at h
  split at h
  · cases h
  · rename_i c s
    split at h
    · cases h
    · rename_i hq
      split at h
      · rename_i hb
        cases h
        exact ⟨[c], rfl, .plain c hq hb (by rintro rfl; exact hnl (by simp))⟩
      · rename_i hb
        have hb : c = 92 := by simpa using hb
        subst hb
        split at h
        · cases h
        · rename_i e s
          split at h
          · rename_i he
            subst he
            obtain ⟨ds, v, rfl, hl, hn, ho⟩ := of_hexEscape h
            cases ho
            exact ⟨92 :: 120 :: ds, rfl, .hex hl hn⟩
          · split at h
            · rename_i he
              subst he
              obtain ⟨ds, v, rfl, hl, hn, ho⟩ := of_hexEscape h
              exact ⟨92 :: 117 :: ds, rfl, rune_item hn ho _ (Or.inl ⟨rfl, hl⟩)⟩
            · split at h
              · rename_i he
                subst he
                obtain ⟨ds, v, rfl, hl, hn, ho⟩ := of_hexEscape h
                exact ⟨92 :: 85 :: ds, rfl, rune_item hn ho _ (Or.inr ⟨rfl, hl⟩)⟩
              · split at h
                · split at h
                  · rename_i he
                    subst he
                    cases h
                    exact ⟨[92, 34], rfl, .letter (by decide)⟩
                  · cases h
                · split at h
                  · rename_i b hs
                    cases h
                    exact ⟨[92, e], rfl, .letter ((simpleEscape_iff e _).mp hs).1⟩
                  · cases h
                  · rename_i x _ hx
                    split at h
                    · rename_i y z s
                      split at h
                      · rename_i y' z' hy hz
                        split at h
                        · rename_i hlt
                          cases h
                          obtain ⟨hx1, rfl⟩ := octDigit_some hx
                          obtain ⟨hy1, rfl⟩ := octDigit_some hy
                          obtain ⟨hz1, rfl⟩ := octDigit_some hz
                          refine ⟨[92, UInt8.ofNat (48 + x), UInt8.ofNat (48 + y'), UInt8.ofNat (48 + z')], rfl, ?_⟩
                          rw [show x * 64 + y' * 8 + z' = 64 * x + 8 * y' + z' by omega] at hlt ⊢
                          exact .octal hx1 hy1 hz1 hlt
                        · cases h
                      · cases h
                    · cases h

theorem item_not_newline {a out : Str} (h : Item a out) : (10 : UInt8) ∉ a := by
  cases h with
  | plain c h1 h2 h3 => intro h; exact h3 (List.mem_singleton.mp h).symm
  | letter he =>
    have := (letter_props _ he).2.2.2.2
    intro h
    simp only [List.mem_cons, List.not_mem_nil, or_false] at h
    rcases h with h | h
    · exact absurd h (by decide)
    · exact this h.symm
  | @octal x y z hx hy hz _ =>
    have ox := octDigit_ofNat ⟨x, hx⟩
    have oy := octDigit_ofNat ⟨y, hy⟩
    have oz := octDigit_ofNat ⟨z, hz⟩
    intro h
    simp only [List.mem_cons, List.not_mem_nil, or_false] at h
    rcases h with h | h | h | h
    · exact absurd h (by decide)
    · exact ox.2.2.2.2.2.2.2 h.symm
    · exact oy.2.2.2.2.2.2.2 h.symm
    · exact oz.2.2.2.2.2.2.2 h.symm
  | hex _ hn =>
    intro h
    simp only [List.mem_cons] at h
    rcases h with h | h | h
    · exact absurd h (by decide)
    · exact absurd h (by decide)
    · exact hexNumber_not_newline hn h
  | rune hn _ u hu =>
    intro h
    simp only [List.mem_cons] at h
    rcases h with h | h | h
    · exact absurd h (by decide)
    · subst h; rcases hu with ⟨h, _⟩ | ⟨h, _⟩ <;> exact absurd h (by decide)
    · exact hexNumber_not_newline hn h
  | surrogate hn _ _ u hu =>
    intro h
    simp only [List.mem_cons] at h
    rcases h with h | h | h
    · exact absurd h (by decide)
    · subst h; rcases hu with ⟨h, _⟩ | ⟨h, _⟩ <;> exact absurd h (by decide)
    · exact hexNumber_not_newline hn h

theorem item_ne_nil {a out : Str} (h : Item a out) : a ≠ [] := by
  cases h <;> simp

theorem items_not_newline {s v : Str} (h : Items s v) : (10 : UInt8) ∉ s := by
  induction h with
  | nil => simp
  | cons hi _ ih =>
    intro h
    rcases List.mem_append.mp h with h | h
    · exact item_not_newline hi h
    · exact ih h

theorem body_items {s v : Str} (h : Items s v) : body dquote s = .ok v := by
  induction h with
  | nil => unfold body; rfl
  | @cons a b s t hi _ ih =>
    have hne : a ++ s ≠ [] := by
      have := item_ne_nil hi
      simp [this]
    unfold body
    rw [if_neg hne]
    split
    · rename_i e he
      rw [char_item hi] at he
      cases he
    · rename_i out rest he
      rw [char_item hi] at he
      cases he
      rw [ih]

theorem items_of_body : ∀ (k : Nat) (s v : Str), s.length ≤ k → (10 : UInt8) ∉ s → body dquote s = .ok v → Items s v
  | k, s, v, hk, hnl, h => by
    unfold body at h
    split at h
    · rename_i h0
      cases h
      subst h0
      exact .nil
    · rename_i hne
      split at h
      · cases h
      · rename_i out rest he
        have hsh := char_shorter he
        obtain ⟨a, rfl, hi⟩ := item_of_char hnl he
        split at h
        · cases h
        · rename_i t ht
          cases h
          cases k with
          | zero => simp at hk; exact absurd (by simp [hk]) hne
          | succ k =>
            exact .cons hi (items_of_body k rest t (by omega) (fun hm => hnl (List.mem_append_right _ hm)) ht)

theorem inner_iff (q : UInt8) (text s : Str) : inner text = some (q, s) ↔ text = q :: s ++ [q] := by
  constructor
  · intro h
    unfold inner at h
    split at h
    · cases h
    · rename_i q' t
      split at h
      · rename_i hl
        cases h
        have hne : t ≠ [] := by intro h0; subst h0; simp at hl
        have := List.dropLast_concat_getLast hne
        rw [List.getLast?_eq_some_getLast hne] at hl
        simp only [Option.some.injEq] at hl
        rw [hl] at this
        rw [List.cons_append, this]
      · cases h
  · rintro rfl
    simp [inner]

/-- `strconv.Unquote` gives the value of every Go string literal, and fails on everything else that is not a rune
literal. -/
theorem unquote_iff {text v : Str} (hr : text.head? ≠ some squote) : unquote text = .ok v ↔ GoString text v := by
  constructor
  · intro h
    unfold unquote at h
    split at h
    · cases h
    · rename_i q t hi
      have ht := (inner_iff q text t).mp hi
      subst ht
      split at h
      · rename_i hq
        subst hq
        split at h
        · cases h
        · rename_i hb
          cases h
          exact .raw hb
      · split at h
        · rename_i hq
          subst hq
          split at h
          · cases h
          · rename_i hnl
            exact .interpreted (items_of_body _ t v (Nat.le_refl _) hnl h)
        · split at h
          · rename_i hq
            subst hq
            exact absurd rfl hr
          · cases h
  · intro h
    cases h with
    | @raw s hs =>
      unfold unquote
      rw [(inner_iff _ _ s).mpr rfl]
      simp only [if_true]
      rw [if_neg hs]
    | @interpreted s v hi =>
      unfold unquote
      rw [(inner_iff _ _ s).mpr rfl]
      simp only
      rw [if_neg (by decide), if_pos trivial, if_neg (items_not_newline hi)]
      exact body_items hi

end Unquote
end Verif
