import Verif.Lemmas.Json

/-! Bytes after a complete JSON value do not change how it is read; so a text cut off before the end of its value is
not accepted. -/

namespace Verif
namespace Json

open Utf8 (Chunk)

/-! ### Strings -/

theorem strBody_nil : strBody [] = none := by rw [strBody]

theorem strBody_one {b : UInt8} (h : strBody [b] ≠ none) : b = 34 := by
  by_cases h1 : b = 34
  · exact h1
  · exfalso
    apply h
    by_cases h2 : b < 0x20
    · rw [strBody]; simp only [h1, h2, if_false, if_true]
    · by_cases h3 : b = 92
      · subst h3
        rw [strBody, if_neg (by decide), if_neg (by decide), if_pos rfl]
        split
        · rfl
        · rename_i h'; cases h'
      · rw [strBody_next h1 h2 h3]
        have : (Utf8.next b []).2 = [] := by
          have := Utf8.next_shorter b []
          simpa using this
        rw [this, strBody_nil]
        rfl

theorem seq_one (b d : UInt8) (hs : (Utf8.next b [d]).2 ≠ []) : (Utf8.next b [d]).2 = [d] := by
  unfold Utf8.next Utf8.seq at *
  split
  · rfl
  · split
    · rename_i bs rest h
      split at h
      · simp only at h
        split at h
        · cases h
          rename_i hb _ _ _ _
          simp_all
        · cases h
      · cases h
      · cases h
      · cases h
    · rfl

theorem strBody_two {b d : UInt8} (h : strBody [b, d] ≠ none) : b = 34 ∨ d = 34 := by
  by_cases h1 : b = 34
  · exact .inl h1
  · refine .inr ?_
    by_cases h2 : b < 0x20
    · exfalso; apply h; rw [strBody]; simp only [h1, h2, if_false, if_true]
    · by_cases h3 : b = 92
      · subst h3
        exfalso
        apply h
        cases he : escape [d] with
        | none =>
          rw [strBody, if_neg (by decide), if_neg (by decide), if_pos rfl]
          split
          · rfl
          · rename_i h'; rw [he] at h'; cases h'
        | some x =>
          obtain ⟨o, r⟩ := x
          rw [strBody_escape he]
          have := escape_shorter he
          have : r = [] := by
            cases r with
            | nil => rfl
            | cons a t => simp at this
          rw [this, strBody_nil]
          rfl
      · rw [strBody_next h1 h2 h3] at h
        by_cases hn : (Utf8.next b [d]).2 = []
        · rw [hn, strBody_nil] at h; exact absurd rfl h
        · rw [seq_one b d hn] at h
          apply strBody_one
          intro h'
          rw [h'] at h
          exact h rfl

theorem second_quote (c : UInt8) : Utf8.second c 34 = false := by
  unfold Utf8.second
  repeat' split
  all_goals decide

theorem cont_quote : Utf8.cont 34 = false := by decide

/-- More bytes do not change the next character of a string that is closed. -/
theorem next_ext {c : UInt8} {s : Str} (u : Str) (h : strBody (Utf8.next c s).2 ≠ none) :
    Utf8.next c (s ++ u) = ((Utf8.next c s).1, (Utf8.next c s).2 ++ u) := by
  by_cases hc : c < 0x80
  · simp [Utf8.next, hc]
  · have hn (t : Str) : Utf8.next c t = match Utf8.seq c t with
        | some (bs, rest) => (.multi bs, rest)
        | none => (.bad, t) := by
      simp only [Utf8.next, hc, if_false]
      cases Utf8.seq c t <;> rfl
    cases hs : Utf8.seq c s with
    | some x =>
      obtain ⟨bs, rest⟩ := x
      have : Utf8.seq c (s ++ u) = some (bs, rest ++ u) := by
        unfold Utf8.seq at hs ⊢
        split at hs
        · split at hs
          · split at hs
            · rename_i h1
              cases hs; simp [h1]
            · cases hs
          · cases hs
        · split at hs
          · split at hs
            · rename_i h1
              cases hs
              simp only [List.cons_append, h1, if_true]
            · cases hs
          · cases hs
        · split at hs
          · split at hs
            · rename_i h1
              cases hs
              simp only [List.cons_append, h1, if_true]
            · cases hs
          · cases hs
        · cases hs
      rw [hn, hn, this, hs]
    | none =>
      rw [hn s, hs] at h
      simp only at h
      have : Utf8.seq c (s ++ u) = none := by
        cases s with
        | nil => exact absurd strBody_nil h
        | cons b s =>
          cases s with
          | nil =>
            have hb := strBody_one h
            subst hb
            unfold Utf8.seq
            simp only [List.cons_append, List.nil_append, second_quote]
            split
            · simp
            · split <;> first | rfl | (rename_i heq; injection heq with h1 h2; subst h1; simp [second_quote])
            · split <;> first | rfl | (rename_i heq; injection heq with h1 h2; subst h1; simp [second_quote])
            · rfl
          | cons d s =>
            cases s with
            | nil =>
              have hb := strBody_two h
              unfold Utf8.seq at hs ⊢
              simp only [List.cons_append, List.nil_append] at hs ⊢
              split at hs
              · exact (by simpa using hs)
              · exact (by simpa using hs)
              · split <;> try rfl
                rename_i heq
                injection heq with h1 heq
                injection heq with h2 heq
                subst h1; subst h2
                rcases hb with hb | hb <;> subst hb <;> simp [second_quote, cont_quote]
              · rfl
            | cons e s =>
              unfold Utf8.seq at hs ⊢
              simp only [List.cons_append] at hs ⊢
              split at hs
              · exact (by simpa using hs)
              · exact (by simpa using hs)
              · exact (by simpa using hs)
              · rfl
      rw [hn, hn, this, hs]

theorem takeHex4_ext {s s' : Str} {n : Nat} (u : Str) (h : takeHex4 s = some (n, s')) :
    takeHex4 (s ++ u) = some (n, s' ++ u) := by
  unfold takeHex4 at h
  split at h
  · split at h
    · rename_i h1
      cases h
      simp only [List.cons_append, takeHex4, h1]
    · cases h
  · cases h

/-- An escape that is not one makes the string unreadable. -/
theorem strBody_bad_escape {s : Str} (h : escape s = none) : strBody (92 :: s) = none := by
  rw [strBody, if_neg (by decide), if_neg (by decide), if_pos rfl]
  split
  · rfl
  · rename_i h'; rw [h] at h'; cases h'

theorem escape_u {s : Str} (h : takeHex4 s = none) : escape (117 :: s) = none := by
  simp [escape, h]

theorem unicode_ext {n : Nat} {s : Str} (u : Str) (h : strBody (unicode n s).2 ≠ none) :
    unicode n (s ++ u) = ((unicode n s).1, (unicode n s).2 ++ u) := by
  by_cases hr : 0xD800 ≤ n ∧ n < 0xE000
  · match s with
    | [] =>
      exfalso; apply h; simp only [unicode, hr]; exact strBody_nil
    | [c] =>
      by_cases hc : c = 92
      · subst hc
        exfalso; apply h; simp only [unicode, hr]; exact strBody_bad_escape rfl
      · simp only [unicode, hr, List.cons_append, List.nil_append, and_self, if_true]
        split
        · rename_i heq; injection heq with h1 h2; exact absurd h1 hc
        · rfl
    | c :: d :: s =>
      by_cases hc : c = 92 ∧ d = 117
      · obtain ⟨rfl, rfl⟩ := hc
        cases ht : takeHex4 s with
        | none =>
          exfalso; apply h
          simp only [unicode, hr, ht]
          exact strBody_bad_escape (escape_u ht)
        | some x =>
          obtain ⟨m, s''⟩ := x
          simp only [unicode, hr, List.cons_append, takeHex4_ext u ht, ht, and_self, if_true]
          by_cases hp : n < 0xDC00 ∧ 0xDC00 ≤ m ∧ m < 0xE000
          · rw [if_pos hp, if_pos hp]
          · rw [if_neg hp, if_neg hp]
            rfl
      · simp only [unicode, hr, List.cons_append, and_self, if_true]
        split
        · rename_i heq; injection heq with h1 heq; injection heq with h2 heq; exact absurd ⟨h1, h2⟩ hc
        · split
          · rename_i heq; injection heq with h1 heq; injection heq with h2 heq; exact absurd ⟨h1, h2⟩ hc
          · rfl
  · simp [unicode, hr]

theorem escape_ext {s out rest : Str} (u : Str) (h : escape s = some (out, rest)) (hb : strBody rest ≠ none) :
    escape (s ++ u) = some (out, rest ++ u) := by
  cases s with
  | nil => cases h
  | cons e s =>
    simp only [escape, List.cons_append] at h ⊢
    repeat' split at h
    all_goals first
      | (cases h; done)
      | (rename_i n s' ht
         injection h with h
         rw [takeHex4_ext u ht]
         have := unicode_ext (n := n) (s := s') u (by rw [h]; exact hb)
         rw [h] at this
         simp_all)
      | (cases h; simp_all)

/-- Bytes after the closing quote do not change a string. -/
theorem strBody_ext : ∀ (k : Nat) (s : Str), s.length ≤ k → ∀ {v r : Str} (u : Str), strBody s = some (v, r) →
    strBody (s ++ u) = some (v, r ++ u)
  | k, [], _, v, r, u, h => by rw [strBody_nil] at h; cases h
  | 0, c :: s, hk, _, _, _, _ => absurd hk (by simp)
  | k + 1, c :: s, hk, v, r, u, h => by
    simp only [List.length_cons] at hk
    by_cases h1 : c = 34
    · subst h1
      rw [strBody] at h
      simp only [if_true] at h
      cases h
      rw [List.cons_append, strBody]; simp
    · by_cases h2 : c < 0x20
      · rw [strBody] at h; simp only [h1, h2, if_false, if_true] at h; cases h
      · by_cases h3 : c = 92
        · subst h3
          cases he : escape s with
          | none => rw [strBody_bad_escape he] at h; cases h
          | some x =>
            obtain ⟨out, rest⟩ := x
            rw [strBody_escape he] at h
            cases hb : strBody rest with
            | none => rw [hb] at h; cases h
            | some y =>
              obtain ⟨v', r'⟩ := y
              rw [hb] at h
              cases h
              have hlt := escape_shorter he
              rw [List.cons_append, strBody_escape (escape_ext u he (by rw [hb]; simp)),
                strBody_ext k rest (by omega) u hb]
              rfl
        · rw [strBody_next h1 h2 h3] at h
          cases hb : strBody (Utf8.next c s).2 with
          | none => rw [hb] at h; cases h
          | some y =>
            obtain ⟨v', r'⟩ := y
            rw [hb] at h
            cases h
            have hlt := Utf8.next_shorter c s
            rw [List.cons_append, strBody_next h1 h2 h3, next_ext u (by rw [hb]; simp)]
            simp only
            rw [strBody_ext k _ (by omega) u hb]
            rfl

/-! ### Numbers -/

theorem digits_ext {s d r : Str} (u : Str) (h : digits s = some (d, r)) (hr : r ≠ []) :
    digits (s ++ u) = some (d, r ++ u) := by
  simp only [digits] at h ⊢
  split at h
  · cases h
  · rename_i hd
    cases h
    have hlen : (s.takeWhile isDigit).length ≠ s.length := by
      intro h
      apply hr
      rw [h]; simp
    have hle : (s.takeWhile isDigit).length ≤ s.length := (List.takeWhile_prefix _).length_le
    rw [List.takeWhile_append, if_neg hlen, if_neg hd, List.drop_append_of_le_length hle]

theorem intPart_ext {s d r : Str} (u : Str) (h : intPart s = some (d, r)) (hr : r ≠ []) :
    intPart (s ++ u) = some (d, r ++ u) := by
  cases s with
  | nil => simp [intPart, digits] at h
  | cons c s =>
    by_cases hc : c = 48
    · subst hc
      simp only [intPart] at h
      cases h
      rfl
    · have hi (t : Str) : intPart (c :: t) = digits (c :: t) := by
        unfold intPart
        split
        · rename_i heq; injection heq with h1 h2; exact absurd h1 hc
        · rfl
      rw [hi] at h
      rw [List.cons_append, hi, ← List.cons_append]
      exact digits_ext u h hr

theorem fracPart_ext {s d r : Str} (u : Str) (h : fracPart s = some (d, r)) (hr : r ≠ []) :
    fracPart (s ++ u) = some (d, r ++ u) := by
  cases s with
  | nil => simp only [fracPart] at h; cases h; exact absurd rfl hr
  | cons c s =>
    by_cases hc : c = 46
    · subst hc
      simp only [fracPart, List.cons_append] at h ⊢
      cases hd : digits s with
      | none => rw [hd] at h; cases h
      | some x =>
        obtain ⟨d', r'⟩ := x
        rw [hd] at h
        cases h
        rw [digits_ext u hd hr]
        rfl
    · have hi (t : Str) : fracPart (c :: t) = some ([], c :: t) := by
        unfold fracPart
        split
        · rename_i heq; injection heq with h1 h2; exact absurd h1 hc
        · rfl
      rw [hi] at h
      cases h
      rw [List.cons_append, hi]

theorem expPart_ext {s d r : Str} (u : Str) (h : expPart s = some (d, r)) (hr : r ≠ []) :
    expPart (s ++ u) = some (d, r ++ u) := by
  cases s with
  | nil => simp only [expPart] at h; cases h; exact absurd rfl hr
  | cons c s =>
    simp only [expPart, List.cons_append] at h ⊢
    split at h
    · rename_i hc
      rw [if_pos hc]
      cases s with
      | nil => cases h
      | cons g s =>
        simp only [List.cons_append] at h ⊢
        split at h
        · rename_i hg
          rw [if_pos hg]
          cases hd : digits s with
          | none => rw [hd] at h; cases h
          | some x =>
            obtain ⟨d', r'⟩ := x
            rw [hd] at h
            cases h
            rw [digits_ext u hd hr]
            rfl
        · rename_i hg
          rw [if_neg hg]
          cases hd : digits (g :: s) with
          | none => rw [hd] at h; cases h
          | some x =>
            obtain ⟨d', r'⟩ := x
            rw [hd] at h
            cases h
            rw [← List.cons_append, digits_ext u hd hr]
            rfl
    · rename_i hc
      rw [if_neg hc]
      cases h
      rfl

theorem fracPart_nil {d r : Str} (h : fracPart [] = some (d, r)) : r = [] := by
  simp only [fracPart] at h; cases h; rfl

theorem expPart_nil {d r : Str} (h : expPart [] = some (d, r)) : r = [] := by
  simp only [expPart] at h; cases h; rfl

theorem unsigned_ext {s d r : Str} (u : Str) (h : unsigned s = some (d, r)) (hr : r ≠ []) :
    unsigned (s ++ u) = some (d, r ++ u) := by
  unfold unsigned at h
  split at h
  · cases h
  · rename_i i s1 hi
    split at h
    · cases h
    · rename_i f s2 hf
      split at h
      · cases h
      · rename_i e s3 he
        cases h
        have h2 : s2 ≠ [] := by rintro rfl; exact hr (expPart_nil he)
        have h1 : s1 ≠ [] := by rintro rfl; exact h2 (fracPart_nil hf)
        simp only [unsigned, intPart_ext u hi h1, fracPart_ext u hf h2, expPart_ext u he hr]

theorem number_ext {s d r : Str} (u : Str) (h : number s = some (d, r)) (hr : r ≠ []) :
    number (s ++ u) = some (d, r ++ u) := by
  cases s with
  | nil => simp [number, unsigned, intPart, digits] at h
  | cons c s =>
    by_cases hc : c = 45
    · subst hc
      simp only [number, List.cons_append] at h ⊢
      cases hd : unsigned s with
      | none => rw [hd] at h; cases h
      | some x =>
        obtain ⟨d', r'⟩ := x
        rw [hd] at h
        cases h
        rw [unsigned_ext u hd hr]
        rfl
    · have hi (t : Str) : number (c :: t) = unsigned (c :: t) := by
        unfold number
        split
        · rename_i heq; injection heq with h1 h2; exact absurd h1 hc
        · rfl
      rw [hi] at h
      rw [List.cons_append, hi, ← List.cons_append]
      exact unsigned_ext u h hr

/-- A number starts with a digit or a minus sign. -/
theorem number_head {c : UInt8} {s : Str} {x : Str × Str} (h : number (c :: s) = some x) : c = 45 ∨ isDigit c = true := by
  by_cases hc : c = 45
  · exact .inl hc
  · right
    have hi : number (c :: s) = unsigned (c :: s) := by
      unfold number
      split
      · rename_i heq; injection heq with h1 h2; exact absurd h1 hc
      · rfl
    rw [hi] at h
    by_cases h48 : c = 48
    · subst h48; decide
    · have hp : intPart (c :: s) = digits (c :: s) := by
        unfold intPart
        split
        · rename_i heq; injection heq with h1 h2; exact absurd h1 h48
        · rfl
      unfold unsigned at h
      rw [hp] at h
      cases hd : isDigit c with
      | true => rfl
      | false => simp [digits, hd] at h

/-- Whether a value is a number. -/
def IsNum : Json → Prop
  | .num _ => True
  | _ => False

theorem isPrefixOf_ext {p s : Str} (u : Str) (h : p.isPrefixOf s = true) : p.isPrefixOf (s ++ u) = true := by
  rw [List.isPrefixOf_iff_prefix] at h ⊢
  exact h.trans (List.prefix_append _ _)

theorem drop_ext {p s : Str} (u : Str) (h : p.isPrefixOf s = true) :
    (s ++ u).drop p.length = s.drop p.length ++ u := by
  rw [List.isPrefixOf_iff_prefix] at h
  exact List.drop_append_of_le_length h.length_le

theorem scalar_ext {s r : Str} {j : Json} (u : Str) (h : scalar s = some (j, r)) (hr : r ≠ [] ∨ ¬ IsNum j) :
    scalar (s ++ u) = some (j, r ++ u) := by
  unfold scalar at h ⊢
  by_cases h1 : (b! "null").isPrefixOf s = true
  · rw [if_pos h1] at h
    cases h
    rw [if_pos (isPrefixOf_ext u h1)]
    exact congrArg (fun x => some (Json.null, x)) (drop_ext u h1)
  · rw [if_neg h1] at h
    by_cases h2 : (b! "true").isPrefixOf s = true
    · rw [if_pos h2] at h
      cases h
      have hn : ¬ (b! "null").isPrefixOf (s ++ u) = true := by
        cases s with
        | nil => cases h2
        | cons c s =>
          simp only [List.isPrefixOf, Bool.and_eq_true, beq_iff_eq] at h2
          rw [← h2.1]
          simp [List.isPrefixOf]
      rw [if_neg hn, if_pos (isPrefixOf_ext u h2)]
      exact congrArg (fun x => some (Json.bool true, x)) (drop_ext u h2)
    · rw [if_neg h2] at h
      by_cases h3 : (b! "false").isPrefixOf s = true
      · rw [if_pos h3] at h
        cases h
        have hn : ¬ (b! "null").isPrefixOf (s ++ u) = true ∧ ¬ (b! "true").isPrefixOf (s ++ u) = true := by
          cases s with
          | nil => cases h3
          | cons c s =>
            simp only [List.isPrefixOf, Bool.and_eq_true, beq_iff_eq] at h3
            rw [← h3.1]
            simp [List.isPrefixOf]
        rw [if_neg hn.1, if_neg hn.2, if_pos (isPrefixOf_ext u h3)]
        exact congrArg (fun x => some (Json.bool false, x)) (drop_ext u h3)
      · rw [if_neg h3] at h
        cases hn : number s with
        | none => rw [hn] at h; cases h
        | some x =>
          obtain ⟨t, r'⟩ := x
          rw [hn] at h
          injection h with h
          injection h with h1 h2
          subst h1; subst h2
          have hr' : r' ≠ [] := by
            rcases hr with hr | hr
            · exact hr
            · exact absurd trivial hr
          cases s with
          | nil => simp [number, unsigned, intPart, digits] at hn
          | cons c s =>
            have hw (a : UInt8) (w : Str) (ha : a ≠ 45 ∧ isDigit a = false) : ¬ (a :: w).isPrefixOf (c :: s ++ u) = true := by
              intro hp
              simp only [List.cons_append, List.isPrefixOf, Bool.and_eq_true, beq_iff_eq] at hp
              rcases number_head hn with h | h
              · exact ha.1 (hp.1.trans h)
              · rw [← hp.1, ha.2] at h; cases h
            rw [if_neg (hw _ _ (by decide)), if_neg (hw _ _ (by decide)), if_neg (hw _ _ (by decide)),
              number_ext u hn hr']
            rfl

/-! ### Values -/

theorem skip_ext {s t : Str} {c : UInt8} (u : Str) (h : skip s = c :: t) : skip (s ++ u) = c :: (t ++ u) := by
  unfold skip at *
  induction s with
  | nil => cases h
  | cons a s ih =>
    rw [List.cons_append, List.dropWhile_cons] at *
    split at h
    · rename_i ha
      rw [if_pos ha]
      exact ih h
    · rename_i ha
      rw [if_neg ha]
      injection h with h1 h2
      rw [h1, h2]

theorem skip_some {s t : Str} {c : UInt8} (h : skip s = c :: t) : s ≠ [] := by
  rintro rfl; cases h

mutual
/-- Bytes after a value do not change it; a number must have ended. -/
theorem value_ext : ∀ (n m : Nat) (s : Str), n ≤ m → ∀ {j : Json} {r : Str} (u : Str), value n s = some (j, r) →
    (r ≠ [] ∨ ¬ IsNum j) → value m (s ++ u) = some (j, r ++ u)
  | 0, _, _, _, _, _, _, h, _ => by rw [value] at h; cases h
  | n + 1, 0, _, hm, _, _, _, _, _ => absurd hm (by omega)
  | n + 1, m + 1, s, hm, j, r, u, h, hr => by
    rw [value] at h ⊢
    cases hs : skip s with
    | nil =>
      rw [hs] at h
      simp only at h
      simp [scalar, number, unsigned, intPart, digits, List.isPrefixOf] at h
    | cons c t =>
      rw [hs] at h
      rw [skip_ext u hs]
      by_cases h34 : c = 34
      · subst h34
        simp only at h ⊢
        cases hb : strBody t with
        | none => rw [hb] at h; cases h
        | some x =>
          obtain ⟨v, r'⟩ := x
          rw [hb] at h
          cases h
          rw [strBody_ext _ t (Nat.le_refl _) u hb]
          rfl
      · by_cases h91 : c = 91
        · subst h91
          simp only at h ⊢
          cases hs' : skip t with
          | nil =>
            rw [hs'] at h
            simp only at h
            cases he : elems n [] with
            | none => rw [he] at h; cases h
            | some x => exact absurd he (by rw [elems_nil]; simp)
          | cons c' t' =>
            rw [hs'] at h
            rw [skip_ext u hs']
            by_cases h93 : c' = 93
            · subst h93
              simp only at h ⊢
              cases h
              rfl
            · have hv (k : Nat) (x : Str) : (match c' :: x with
                  | 93 :: s => some (Json.arr [], s)
                  | s => Option.map (fun x => (Json.arr x.fst, x.snd)) (elems k s)) = Option.map (fun x => (Json.arr x.fst, x.snd)) (elems k (c' :: x)) := by
                split
                · rename_i heq; injection heq with h1 h2; exact absurd h1 h93
                · rfl
              have h : Option.map (fun x => (Json.arr x.fst, x.snd)) (elems n (c' :: t')) = some (j, r) := (hv n t').symm.trans h
              refine (hv m (t' ++ u)).trans ?_
              cases he : elems n (c' :: t') with
              | none => rw [he] at h; cases h
              | some x =>
                obtain ⟨l, r'⟩ := x
                rw [he] at h
                cases h
                rw [← List.cons_append, elems_ext n m (c' :: t') (by omega) u he]
                rfl
        · by_cases h123 : c = 123
          · subst h123
            simp only at h ⊢
            cases hs' : skip t with
            | nil =>
              rw [hs'] at h
              simp only at h
              cases he : members n [] with
              | none => rw [he] at h; cases h
              | some x => exact absurd he (by rw [members_nil]; simp)
            | cons c' t' =>
              rw [hs'] at h
              rw [skip_ext u hs']
              by_cases h125 : c' = 125
              · subst h125
                simp only at h ⊢
                cases h
                rfl
              · have hv (k : Nat) (x : Str) : (match c' :: x with
                    | 125 :: s => some (Json.obj [], s)
                    | s => Option.map (fun x => (Json.obj x.fst, x.snd)) (members k s)) = Option.map (fun x => (Json.obj x.fst, x.snd)) (members k (c' :: x)) := by
                  split
                  · rename_i heq; injection heq with h1 h2; exact absurd h1 h125
                  · rfl
                have h : Option.map (fun x => (Json.obj x.fst, x.snd)) (members n (c' :: t')) = some (j, r) := (hv n t').symm.trans h
                refine (hv m (t' ++ u)).trans ?_
                cases he : members n (c' :: t') with
                | none => rw [he] at h; cases h
                | some x =>
                  obtain ⟨l, r'⟩ := x
                  rw [he] at h
                  cases h
                  rw [← List.cons_append, members_ext n m (c' :: t') (by omega) u he]
                  rfl
          · split at h
            · rename_i heq; injection heq with h1 h2; exact absurd h1 h34
            · rename_i heq; injection heq with h1 h2; exact absurd h1 h91
            · rename_i heq; injection heq with h1 h2; exact absurd h1 h123
            · split
              · rename_i heq; injection heq with h1 h2; exact absurd h1 h34
              · rename_i heq; injection heq with h1 h2; exact absurd h1 h91
              · rename_i heq; injection heq with h1 h2; exact absurd h1 h123
              · rw [← List.cons_append]
                exact scalar_ext u h hr

theorem value_nil : ∀ n, value n [] = none
  | 0 => by rw [value]
  | n + 1 => by
    rw [value]
    simp [skip, scalar, number, unsigned, intPart, digits, List.isPrefixOf]

theorem elems_nil : ∀ n, elems n [] = none
  | 0 => by rw [elems]
  | n + 1 => by rw [elems, value_nil n]

theorem members_nil : ∀ n, members n [] = none
  | 0 => by rw [members]
  | n + 1 => by rw [members]; simp [skip]

theorem elems_ext : ∀ (n m : Nat) (s : Str), n ≤ m → ∀ {l : List Json} {r : Str} (u : Str), elems n s = some (l, r) →
    elems m (s ++ u) = some (l, r ++ u)
  | 0, _, _, _, _, _, _, h => by rw [elems] at h; cases h
  | n + 1, 0, _, hm, _, _, _, _ => absurd hm (by omega)
  | n + 1, m + 1, s, hm, l, r, u, h => by
    rw [elems] at h ⊢
    cases hv : value n s with
    | none => rw [hv] at h; cases h
    | some x =>
      obtain ⟨j, s1⟩ := x
      rw [hv] at h
      simp only at h
      cases hs : skip s1 with
      | nil => rw [hs] at h; cases h
      | cons c t =>
        rw [value_ext n m s (by omega) u hv (.inl (skip_some hs))]
        simp only
        rw [hs] at h
        rw [skip_ext u hs]
        by_cases h44 : c = 44
        · subst h44
          simp only at h ⊢
          cases he : elems n t with
          | none => rw [he] at h; cases h
          | some x =>
            obtain ⟨l', r'⟩ := x
            rw [he] at h
            cases h
            rw [elems_ext n m t (by omega) u he]
            rfl
        · by_cases h93 : c = 93
          · subst h93
            simp only at h ⊢
            cases h
            rfl
          · split at h
            · rename_i heq; injection heq with h1 h2; exact absurd h1 h44
            · rename_i heq; injection heq with h1 h2; exact absurd h1 h93
            · cases h

theorem members_ext : ∀ (n m : Nat) (s : Str), n ≤ m → ∀ {l : List (Str × Json)} {r : Str} (u : Str),
    members n s = some (l, r) → members m (s ++ u) = some (l, r ++ u)
  | 0, _, _, _, _, _, _, h => by rw [members] at h; cases h
  | n + 1, 0, _, hm, _, _, _, _ => absurd hm (by omega)
  | n + 1, m + 1, s, hm, l, r, u, h => by
    rw [members] at h ⊢
    split at h
    · rename_i t hs
      rw [skip_ext u hs]
      simp only
      split at h
      · cases h
      · rename_i k s1 hb
        rw [strBody_ext _ t (Nat.le_refl _) u hb]
        simp only
        split at h
        · rename_i t1 hs1
          rw [skip_ext u hs1]
          simp only
          split at h
          · cases h
          · rename_i j s2 hv
            split at h
            · rename_i t2 hs2
              rw [value_ext n m t1 (by omega) u hv (.inl (skip_some hs2))]
              simp only
              rw [skip_ext u hs2]
              simp only
              cases he : members n t2 with
              | none => rw [he] at h; cases h
              | some x =>
                obtain ⟨l', r'⟩ := x
                rw [he] at h
                cases h
                rw [members_ext n m t2 (by omega) u he]
                rfl
            · rename_i t2 hs2
              rw [value_ext n m t1 (by omega) u hv (.inl (skip_some hs2))]
              simp only
              rw [skip_ext u hs2]
              cases h
              rfl
            · cases h
        · cases h
    · cases h
end

/-- If a text is accepted, what it may be followed by in an accepted text is white space only — unless its value is a
number. -/
theorem parse_ext {s u : Str} {j k : Json} (hs : parse s = some j) (hj : ¬ IsNum j) (hu : parse (s ++ u) = some k) :
    skip u = [] ∧ k = j := by
  unfold parse at hs hu
  cases hv : value (s.length + 1) s with
  | none => rw [hv] at hs; cases hs
  | some x =>
    obtain ⟨j', r⟩ := x
    rw [hv] at hs
    simp only at hs
    split at hs
    · rename_i hr
      cases hs
      rw [value_ext _ ((s ++ u).length + 1) s (by simp) u hv (.inr hj)] at hu
      simp only at hu
      split at hu
      · rename_i hru
        cases hu
        refine ⟨?_, rfl⟩
        clear hv
        induction r with
        | nil => exact hru
        | cons c r ih =>
          unfold skip at hr hru ih ⊢
          rw [List.cons_append, List.dropWhile_cons] at hru
          rw [List.dropWhile_cons] at hr
          split at hr
          · rename_i hc
            rw [if_pos hc] at hru
            exact ih hr hru
          · cases hr
      · cases hu
    · cases hs

theorem skip_append_nil {r u : Str} (hr : skip r = []) (hu : skip u = []) : skip (r ++ u) = [] := by
  induction r with
  | nil => exact hu
  | cons c r ih =>
    unfold skip at hr ih ⊢
    rw [List.cons_append, List.dropWhile_cons]
    rw [List.dropWhile_cons] at hr
    split at hr
    · rename_i hc
      rw [if_pos hc]
      exact ih hr
    · cases hr

/-- White space after an accepted text does not matter. -/
theorem parse_blank {s u : Str} {j : Json} (hs : parse s = some j) (hj : ¬ IsNum j) (hu : skip u = []) :
    parse (s ++ u) = some j := by
  unfold parse at hs ⊢
  cases hv : value (s.length + 1) s with
  | none => rw [hv] at hs; cases hs
  | some x =>
    obtain ⟨j', r⟩ := x
    rw [hv] at hs
    simp only at hs
    split at hs
    · rename_i hr
      cases hs
      rw [value_ext _ ((s ++ u).length + 1) s (by simp) u hv (.inr hj)]
      simp only
      rw [if_pos (skip_append_nil hr hu)]
    · cases hs

theorem skip_nil_iff (u : Str) : skip u = [] ↔ ∀ c ∈ u, isSpace c = true := by
  induction u with
  | nil => simp [skip]
  | cons c u ih =>
    unfold skip at ih ⊢
    rw [List.dropWhile_cons]
    by_cases hc : isSpace c = true
    · rw [if_pos hc, ih]; simp [hc]
    · rw [if_neg hc]; simp [hc]

end Json
end Verif
