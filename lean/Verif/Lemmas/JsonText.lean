import Verif.Lemmas.JsonPrefix
import Verif.Spec.JsonText

/-! The reader of `Go/Json.lean` accepts exactly the texts of the grammar in `Spec/JsonText.lean`. -/

namespace Verif
namespace Json

open JsonText

/-! ### White space -/

theorem isSpace_iff (c : UInt8) : isSpace c = true ↔ c = 32 ∨ c = 9 ∨ c = 10 ∨ c = 13 := by
  simp only [isSpace, Bool.or_eq_true, decide_eq_true_eq, or_assoc]

theorem skip_ws {u : Str} (hu : Ws u) (s : Str) : skip (u ++ s) = skip s := by
  unfold skip
  induction u with
  | nil => rfl
  | cons c u ih =>
    rw [List.cons_append, List.dropWhile_cons_of_pos ((isSpace_iff c).mpr (hu c (by simp)))]
    exact ih fun d hd => hu d (List.mem_cons_of_mem _ hd)

theorem skip_split (s : Str) : ∃ u, Ws u ∧ s = u ++ skip s := by
  induction s with
  | nil => exact ⟨[], by simp [Ws], rfl⟩
  | cons c s ih =>
    cases hc : isSpace c with
    | false => exact ⟨[], by simp [Ws], by rw [skip_cons hc]; rfl⟩
    | true =>
      obtain ⟨u, h1, h2⟩ := ih
      have h3 : skip (c :: s) = skip s := by simp [skip, List.dropWhile_cons, hc]
      refine ⟨c :: u, ?_, by rw [h3, List.cons_append, ← h2]⟩
      intro d hd
      rcases List.mem_cons.mp hd with rfl | hd
      · exact (isSpace_iff _).mp hc
      · exact h1 d hd

/-! ### Strings -/

theorem seq_high {c : UInt8} {s bs rest : Str} (h : Utf8.seq c s = some (bs, rest)) :
    ∃ x, s = x ++ rest ∧ ∀ b ∈ x, 0x80 ≤ b := by
  have hsec : ∀ b, Utf8.second c b = true → 0x80 ≤ b := by
    intro b hb
    unfold Utf8.second Utf8.cont at hb
    simp only [UInt8.le_iff_toNat_le, UInt8.lt_iff_toNat_lt] at *
    repeat' split at hb
    all_goals simp [UInt8.le_iff_toNat_le, UInt8.lt_iff_toNat_lt] at hb ⊢; omega
  have hcont : ∀ b, Utf8.cont b = true → 0x80 ≤ b := by
    intro b hb
    unfold Utf8.cont at hb
    simp at hb
    exact hb.1
  unfold Utf8.seq at h
  split at h
  · split at h
    · rename_i b s
      split at h
      · rename_i h1
        cases h
        exact ⟨[b], rfl, by simpa using hsec b h1⟩
      · cases h
    · cases h
  · split at h
    · rename_i b d s
      split at h
      · rename_i h1
        cases h
        simp only [Bool.and_eq_true] at h1
        exact ⟨[b, d], rfl, by simpa using ⟨hsec b h1.1, hcont d h1.2⟩⟩
      · cases h
    · cases h
  · split at h
    · rename_i b d e s
      split at h
      · rename_i h1
        cases h
        simp only [Bool.and_eq_true] at h1
        exact ⟨[b, d, e], rfl, by simpa using ⟨hsec b h1.1.1, hcont d h1.1.2, hcont e h1.2⟩⟩
      · cases h
    · cases h
  · cases h

theorem next_high (c : UInt8) (s : Str) : ∃ x, s = x ++ (Utf8.next c s).2 ∧ ∀ b ∈ x, 0x80 ≤ b := by
  unfold Utf8.next
  split
  · exact ⟨[], rfl, by simp⟩
  · split
    · rename_i h
      exact seq_high h
    · exact ⟨[], rfl, by simp⟩

theorem high_plain {b : UInt8} (h : 0x80 ≤ b) : 0x20 ≤ b ∧ b ≠ 34 ∧ b ≠ 92 := by
  rw [UInt8.le_iff_toNat_le] at h
  have h' : 128 ≤ b.toNat := h
  refine ⟨?_, ?_, ?_⟩
  · rw [UInt8.le_iff_toNat_le]
    show 32 ≤ b.toNat
    omega
  · rintro rfl; exact absurd h' (by decide)
  · rintro rfl; exact absurd h' (by decide)

theorem chars_high {x s r : Str} (hx : ∀ b ∈ x, 0x80 ≤ b) : Chars (x ++ s) r ↔ Chars s r := by
  induction x with
  | nil => rfl
  | cons b x ih =>
    have hb := high_plain (hx b (by simp))
    have ih := ih fun d hd => hx d (List.mem_cons_of_mem _ hd)
    rw [List.cons_append]
    generalize hy : x ++ s = y at ih ⊢
    constructor
    · intro h
      cases h with
      | close => exact absurd rfl hb.2.1
      | plain _ _ _ h => exact ih.mp h
      | escape _ _ => exact absurd rfl hb.2.2
      | unicode _ _ _ _ _ => exact absurd rfl hb.2.2
    · intro h
      exact .plain hb.1 hb.2.1 hb.2.2 (ih.mpr h)

theorem hexDigit_iff (c : UInt8) : HexDigit c ↔ ∃ n, Hex.fromChar c = some n := by
  unfold HexDigit Hex.fromChar
  constructor
  · intro h
    split
    · exact ⟨_, rfl⟩
    · split
      · exact ⟨_, rfl⟩
      · split
        · exact ⟨_, rfl⟩
        · exfalso; rcases h with h | h | h <;> contradiction
  · rintro ⟨n, h⟩
    split at h
    · left; assumption
    · split at h
      · right; left; assumption
      · split at h
        · right; right; assumption
        · cases h

theorem hexNumber_iff {acc : Nat} {s : Str} : (∃ n, Unquote.hexNumber acc s = some n) ↔ ∀ c ∈ s, HexDigit c := by
  induction s generalizing acc with
  | nil => simp [Unquote.hexNumber]
  | cons c s ih =>
    rw [Unquote.hexNumber]
    cases hc : Hex.fromChar c with
    | none =>
      simp only
      constructor
      · rintro ⟨n, h⟩; cases h
      · intro h
        obtain ⟨n, hn⟩ := (hexDigit_iff c).mp (h c (by simp))
        rw [hc] at hn; cases hn
    | some d =>
      simp only
      rw [ih]
      simp [(hexDigit_iff c).mpr ⟨d, hc⟩]

theorem takeHex4_iff {s t : Str} : (∃ n, takeHex4 s = some (n, t)) ↔
    ∃ a b c d, s = a :: b :: c :: d :: t ∧ HexDigit a ∧ HexDigit b ∧ HexDigit c ∧ HexDigit d := by
  constructor
  · rintro ⟨n, h⟩
    unfold takeHex4 at h
    split at h
    · rename_i a b c d s
      split at h
      · rename_i m hm
        cases h
        have := hexNumber_iff.mp ⟨_, hm⟩
        exact ⟨a, b, c, d, rfl, this a (by simp), this b (by simp), this c (by simp), this d (by simp)⟩
      · cases h
    · cases h
  · rintro ⟨a, b, c, d, rfl, ha, hb, hc, hd⟩
    obtain ⟨n, hn⟩ := (hexNumber_iff (acc := 0) (s := [a, b, c, d])).mpr (by
      intro x hx
      simp only [List.mem_cons, List.not_mem_nil, or_false] at hx
      rcases hx with rfl | rfl | rfl | rfl <;> assumption)
    exact ⟨n, by simp [takeHex4, hn]⟩

/-- After an escape `\uXXXX` comes what was there, perhaps without another escape. -/
theorem unicode_chars (n : Nat) {s r : Str} : Chars (unicode n s).2 r ↔ Chars s r := by
  unfold unicode
  split
  · split
    · rename_i s'
      cases h : takeHex4 s' with
      | none => exact Iff.rfl
      | some x =>
        obtain ⟨m, s''⟩ := x
        simp only
        obtain ⟨a, b, c, d, rfl, ha, hb, hc, hd⟩ := takeHex4_iff.mp ⟨m, h⟩
        split
        · constructor
          · exact .unicode ha hb hc hd
          · intro h
            cases h with
            | plain _ _ h3 _ => exact absurd rfl h3
            | escape he _ => exact absurd he (by decide)
            | unicode _ _ _ _ h => exact h
        · exact Iff.rfl
    · exact Iff.rfl
  · exact Iff.rfl

theorem strBody_quote_only (r : Str) : strBody (34 :: r) = some ([], r) := by
  rw [strBody, if_pos rfl]

theorem strBody_control {c : UInt8} {s : Str} (h1 : c ≠ 34) (h2 : c < 0x20) : strBody (c :: s) = none := by
  rw [strBody, if_neg h1, if_pos h2]

/-- The simple escapes. -/
theorem escape_simple {e : UInt8} {s : Str} (h : e ∈ b! "\"\\/bfnrt") : ∃ out, escape (e :: s) = some (out, s) := by
  have h : e = 34 ∨ e = 92 ∨ e = 47 ∨ e = 98 ∨ e = 102 ∨ e = 110 ∨ e = 114 ∨ e = 116 := by
    simpa using (show e ∈ ([34, 92, 47, 98, 102, 110, 114, 116] : Str) from h)
  rcases h with rfl | rfl | rfl | rfl | rfl | rfl | rfl | rfl <;> exact ⟨_, rfl⟩

theorem escape_inv {s out rest : Str} (h : escape s = some (out, rest)) :
    (∃ e, e ∈ b! "\"\\/bfnrt" ∧ s = e :: rest) ∨
    ∃ a b c d t n, s = 117 :: a :: b :: c :: d :: t ∧ HexDigit a ∧ HexDigit b ∧ HexDigit c ∧ HexDigit d ∧
      rest = (unicode n t).2 := by
  unfold escape at h
  split at h
  · cases h
  · rename_i e s
    split at h
    · rename_i he
      cases h
      exact .inl ⟨e, by rcases he with rfl | rfl | rfl <;> decide, rfl⟩
    · split at h
      · rename_i he; cases h; subst he; exact .inl ⟨_, by decide, rfl⟩
      · split at h
        · rename_i he; cases h; subst he; exact .inl ⟨_, by decide, rfl⟩
        · split at h
          · rename_i he; cases h; subst he; exact .inl ⟨_, by decide, rfl⟩
          · split at h
            · rename_i he; cases h; subst he; exact .inl ⟨_, by decide, rfl⟩
            · split at h
              · rename_i he; cases h; subst he; exact .inl ⟨_, by decide, rfl⟩
              · split at h
                · rename_i he
                  subst he
                  split at h
                  · rename_i n s' hs
                    obtain ⟨a, b, c, d, rfl, ha, hb, hc, hd⟩ := takeHex4_iff.mp ⟨n, hs⟩
                    injection h with h
                    exact .inr ⟨a, b, c, d, s', n, rfl, ha, hb, hc, hd, by rw [h]⟩
                  · cases h
                · cases h

theorem not_lt_of_le {c : UInt8} (h : 0x20 ≤ c) : ¬ c < 0x20 := by
  rw [UInt8.le_iff_toNat_le] at h
  rw [UInt8.lt_iff_toNat_lt]
  omega

theorem le_of_not_lt {c : UInt8} (h : ¬ c < 0x20) : 0x20 ≤ c := by
  rw [UInt8.lt_iff_toNat_lt] at h
  rw [UInt8.le_iff_toNat_le]
  omega

/-- Strings are read exactly as the grammar has them. -/
theorem strBody_iff : ∀ (k : Nat) (s : Str), s.length ≤ k → ∀ r, (∃ v, strBody s = some (v, r)) ↔ Chars s r := by
  intro k
  induction k with
  | zero =>
    intro s hs r
    have : s = [] := List.length_eq_zero_iff.mp (by omega)
    subst this
    rw [strBody_nil]
    constructor
    · rintro ⟨v, h⟩; cases h
    · intro h; cases h
  | succ k ih =>
    intro s hs r
    cases s with
    | nil =>
      rw [strBody_nil]
      constructor
      · rintro ⟨v, h⟩; cases h
      · intro h; cases h
    | cons c s =>
      simp only [List.length_cons] at hs
      by_cases h1 : c = 34
      · subst h1
        rw [strBody_quote_only]
        constructor
        · rintro ⟨v, h⟩; cases h; exact .close _
        · intro h
          cases h with
          | close => exact ⟨_, rfl⟩
          | plain _ h2 _ _ => exact absurd rfl h2
      · by_cases h2 : c < 0x20
        · rw [strBody_control h1 h2]
          constructor
          · rintro ⟨v, h⟩; cases h
          · intro h
            cases h with
            | close => exact absurd rfl h1
            | plain h3 _ _ _ => exact absurd h2 (not_lt_of_le h3)
            | escape _ _ => exact absurd h2 (by decide)
            | unicode _ _ _ _ _ => exact absurd h2 (by decide)
        · by_cases h3 : c = 92
          · subst h3
            cases he : escape s with
            | none =>
              rw [strBody_bad_escape he]
              constructor
              · rintro ⟨v, h⟩; cases h
              · intro h
                cases h with
                | plain _ _ h3 _ => exact absurd rfl h3
                | @escape e t _ h _ =>
                  obtain ⟨out, ho⟩ := escape_simple (s := t) h
                  rw [ho] at he; cases he
                | @unicode a b c d t _ ha hb hc hd _ =>
                  obtain ⟨n, hn⟩ := (takeHex4_iff (t := t)).mpr ⟨a, b, c, d, rfl, ha, hb, hc, hd⟩
                  simp [escape, hn] at he
            | some x =>
              obtain ⟨out, rest⟩ := x
              have hlen := escape_shorter he
              have ih := ih rest (by omega) r
              rw [strBody_escape he]
              have h4 : (∃ v, (match strBody rest with | none => none | some (v, r') => some (out ++ v, r')) =
                  some (v, r)) ↔ ∃ v, strBody rest = some (v, r) := by
                cases strBody rest with
                | none => simp
                | some y =>
                  obtain ⟨v, r'⟩ := y
                  simp
              have h5 : Chars (92 :: s) r ↔ Chars rest r := by
                rcases escape_inv he with ⟨e, hmem, rfl⟩ | ⟨a, b, c, d, t, n, rfl, ha, hb, hc, hd, rfl⟩
                · constructor
                  · intro h
                    cases h with
                    | plain _ _ h3 _ => exact absurd rfl h3
                    | escape _ h => exact h
                    | unicode _ _ _ _ _ => exact absurd hmem (by decide)
                  · exact .escape hmem
                · rw [unicode_chars]
                  constructor
                  · intro h
                    cases h with
                    | plain _ _ h3 _ => exact absurd rfl h3
                    | escape he _ => exact absurd he (by decide)
                    | unicode _ _ _ _ h => exact h
                  · exact .unicode ha hb hc hd
              rw [h5, ← ih, ← h4]
              cases strBody rest <;> rfl
          · rw [strBody_next h1 h2 h3]
            have hlen := Utf8.next_shorter c s
            have ih := ih (Utf8.next c s).2 (by omega) r
            obtain ⟨x, hx1, hx2⟩ := next_high c s
            have h5 : Chars (c :: s) r ↔ Chars (Utf8.next c s).2 r := by
              rw [← chars_high (s := (Utf8.next c s).2) hx2, ← hx1]
              constructor
              · intro h
                cases h with
                | close => exact absurd rfl h1
                | plain _ _ _ h => exact h
                | escape _ _ => exact absurd rfl h3
                | unicode _ _ _ _ _ => exact absurd rfl h3
              · exact .plain (le_of_not_lt h2) h1 h3
            rw [h5, ← ih]
            cases strBody (Utf8.next c s).2 with
            | none => simp [prep]
            | some y => obtain ⟨v, r'⟩ := y; simp [prep]

/-! ### Numbers -/

theorem isDigit_le (c : UInt8) : isDigit c = true ↔ 48 ≤ c ∧ c ≤ 57 := by simp [isDigit]

/-- The next byte is not a digit. -/
def NoDigit (r : Str) : Prop := ∀ c s, r = c :: s → isDigit c = false

theorem digits_then {d r : Str} (hd : Digits d) (hr : NoDigit r) : digits (d ++ r) = some (d, r) := by
  have htw : (d ++ r).takeWhile isDigit = d := by
    rw [List.takeWhile_append_of_pos fun c hc => (isDigit_le c).mpr (hd.2 c hc)]
    cases r with
    | nil => simp
    | cons c s =>
      have := hr c s rfl
      simp [this]
  simp only [digits, htw, hd.1, if_false, List.drop_left]

theorem takeWhile_all : ∀ (s : Str), ∀ c ∈ s.takeWhile isDigit, isDigit c = true
  | [], c, hc => by simp at hc
  | d :: s, c, hc => by
    rw [List.takeWhile_cons] at hc
    split at hc
    · rcases List.mem_cons.mp hc with rfl | hc
      · assumption
      · exact takeWhile_all s c hc
    · simp at hc

theorem takeWhile_drop : ∀ (s : Str), s = s.takeWhile isDigit ++ s.drop (s.takeWhile isDigit).length
  | [] => rfl
  | d :: s => by
    rw [List.takeWhile_cons]
    split
    · simp only [List.cons_append, List.length_cons, List.drop_succ_cons]
      rw [← takeWhile_drop s]
    · rfl

theorem digits_inv {s d r : Str} (h : digits s = some (d, r)) : s = d ++ r ∧ Digits d := by
  unfold digits at h
  simp only at h
  split at h
  · cases h
  · rename_i hne
    injection h with h
    injection h with h1 h2
    subst h1
    refine ⟨?_, hne, ?_⟩
    · rw [← h2]
      exact takeWhile_drop s
    · intro c hc
      exact (isDigit_le c).mp (takeWhile_all s c hc)

theorem intPart_inv {s i r : Str} (h : intPart s = some (i, r)) : s = i ++ r ∧ IntPart i := by
  unfold intPart at h
  split at h
  · cases h; exact ⟨rfl, .inl rfl⟩
  · rename_i hs
    obtain ⟨h1, h2⟩ := digits_inv h
    refine ⟨h1, .inr ⟨h2, ?_⟩⟩
    intro h48
    cases i with
    | nil => cases h48
    | cons c i =>
      simp only [List.head?_cons, Option.some.injEq] at h48
      subst h48
      exact hs (i ++ r) h1

theorem intPart_then {i r : Str} (hi : IntPart i) (hr : NoDigit r) : intPart (i ++ r) = some (i, r) := by
  rcases hi with rfl | ⟨hd, hz⟩
  · rfl
  · unfold intPart
    split
    · rename_i s heq
      exfalso
      cases i with
      | nil => exact hd.1 rfl
      | cons c t' =>
        simp only [List.cons_append, List.cons.injEq] at heq
        exact hz (by simp [heq.1])
    · exact digits_then hd hr

theorem fracPart_inv {s f r : Str} (h : fracPart s = some (f, r)) : s = f ++ r ∧ Frac f := by
  unfold fracPart at h
  split at h
  · rename_i s
    cases hd : digits s with
    | none => rw [hd] at h; cases h
    | some x =>
      obtain ⟨d, r'⟩ := x
      rw [hd] at h
      cases h
      obtain ⟨h1, h2⟩ := digits_inv hd
      exact ⟨by rw [h1]; rfl, .inr ⟨d, h2, rfl⟩⟩
  · cases h; exact ⟨rfl, .inl rfl⟩

theorem fracPart_then {f r : Str} (hf : Frac f) (hr : NoDigit r) (hd : ∀ s, r ≠ 46 :: s) :
    fracPart (f ++ r) = some (f, r) := by
  rcases hf with rfl | ⟨d, h1, rfl⟩
  · unfold fracPart
    split
    · rename_i s heq; exact absurd heq (hd s)
    · rfl
  · simp only [List.cons_append, fracPart, digits_then h1 hr, Option.map_some]

theorem expPart_inv {s e r : Str} (h : expPart s = some (e, r)) : s = e ++ r ∧ Exp e := by
  unfold expPart at h
  split at h
  · rename_i c s
    split at h
    · rename_i hc
      split at h
      · rename_i g s'
        split at h
        · rename_i hg
          cases hd : digits s' with
          | none => rw [hd] at h; cases h
          | some x =>
            obtain ⟨d, r'⟩ := x
            rw [hd] at h
            cases h
            obtain ⟨h1, h2⟩ := digits_inv hd
            refine ⟨by rw [h1]; rfl, .inr ⟨c, d, hc, h2, .inr ?_⟩⟩
            rcases hg with rfl | rfl
            · exact .inl rfl
            · exact .inr rfl
        · cases hd : digits (g :: s') with
          | none => rw [hd] at h; cases h
          | some x =>
            obtain ⟨d, r'⟩ := x
            rw [hd] at h
            cases h
            obtain ⟨h1, h2⟩ := digits_inv hd
            exact ⟨by rw [h1]; rfl, .inr ⟨c, d, hc, h2, .inl rfl⟩⟩
      · cases h
    · cases h; exact ⟨rfl, .inl rfl⟩
  · cases h; exact ⟨rfl, .inl rfl⟩

theorem Stops.noDigit {r : Str} (h : Stops r) : NoDigit r := fun c s e => (h c s e).1

theorem expPart_then {e r : Str} (he : Exp e) (hr : Stops r) : expPart (e ++ r) = some (e, r) := by
  rcases he with rfl | ⟨c, d, hc, hd, rfl | rfl | rfl⟩
  · exact expPart_stops hr
  · have h1 := digits_then hd hr.noDigit
    obtain ⟨hne, hdig⟩ := hd
    cases d with
    | nil => exact absurd rfl hne
    | cons g d =>
      have hg := hdig g (by simp)
      have : ¬ (g = 43 ∨ g = 45) := by
        rintro (rfl | rfl)
        · exact absurd hg.1 (by decide)
        · exact absurd hg.1 (by decide)
      simp only [List.cons_append] at h1
      simp only [List.cons_append, expPart, if_pos hc, if_neg this, h1, Option.map_some]
  · simp [expPart, if_pos hc, digits_then hd hr.noDigit]
  · simp [expPart, if_pos hc, digits_then hd hr.noDigit]

theorem unsigned_inv {s t r : Str} (h : unsigned s = some (t, r)) :
    ∃ i f e, t = i ++ (f ++ e) ∧ s = t ++ r ∧ IntPart i ∧ Frac f ∧ Exp e := by
  unfold unsigned at h
  cases hi : intPart s with
  | none => rw [hi] at h; cases h
  | some x =>
    obtain ⟨i, s1⟩ := x
    rw [hi] at h
    simp only at h
    cases hf : fracPart s1 with
    | none => rw [hf] at h; cases h
    | some y =>
      obtain ⟨f, s2⟩ := y
      rw [hf] at h
      simp only at h
      cases he : expPart s2 with
      | none => rw [he] at h; cases h
      | some z =>
        obtain ⟨e, s3⟩ := z
        rw [he] at h
        cases h
        obtain ⟨a1, a2⟩ := intPart_inv hi
        obtain ⟨b1, b2⟩ := fracPart_inv hf
        obtain ⟨c1, c2⟩ := expPart_inv he
        exact ⟨i, f, e, by simp, by rw [a1, b1, c1]; simp, a2, b2, c2⟩

theorem unsigned_then {i f e r : Str} (hi : IntPart i) (hf : Frac f) (he : Exp e) (hr : Stops r) :
    unsigned (i ++ (f ++ e) ++ r) = some (i ++ (f ++ e), r) := by
  have hexp : NoDigit (e ++ r) ∧ ∀ s, e ++ r ≠ 46 :: s := by
    rcases he with rfl | ⟨c, d, hc, hd, he⟩
    · refine ⟨hr.noDigit, ?_⟩
      intro s h
      exact (hr 46 s h).2.1 rfl
    · have : ∃ t, e ++ r = c :: t := by rcases he with rfl | rfl | rfl <;> exact ⟨_, rfl⟩
      obtain ⟨t, ht⟩ := this
      rw [ht]
      refine ⟨?_, ?_⟩
      · intro c' s h
        injection h with h _
        subst h
        rcases hc with rfl | rfl <;> decide
      · intro s h
        injection h with h _
        subst h
        rcases hc with h | h <;> exact absurd h (by decide)
  have hfrac : NoDigit (f ++ (e ++ r)) := by
    rcases hf with rfl | ⟨d, _, rfl⟩
    · exact hexp.1
    · intro c s h
      injection h with h _
      subst h
      decide
  have h1 := intPart_then hi hfrac
  have h2 := fracPart_then hf hexp.1 hexp.2
  have h3 := expPart_then he hr
  unfold unsigned
  rw [show i ++ (f ++ e) ++ r = i ++ (f ++ (e ++ r)) by simp, h1]
  simp only [h2, h3]
  simp

theorem number_inv {s t r : Str} (h : number s = some (t, r)) : s = t ++ r ∧ Number t := by
  unfold number at h
  split at h
  · rename_i s
    cases hu : unsigned s with
    | none => rw [hu] at h; cases h
    | some x =>
      obtain ⟨t', r'⟩ := x
      rw [hu] at h
      cases h
      obtain ⟨i, f, e, h1, h2, h3⟩ := unsigned_inv hu
      exact ⟨by rw [h2]; rfl, [45], i, f, e, by rw [h1]; rfl, .inr rfl, h3⟩
  · obtain ⟨i, f, e, h1, h2, h3⟩ := unsigned_inv h
    exact ⟨h2, [], i, f, e, h1, .inl rfl, h3⟩

theorem intPart_head {i : Str} (h : IntPart i) : ∃ c s, i = c :: s ∧ isDigit c = true := by
  rcases h with rfl | ⟨h, _⟩
  · exact ⟨48, [], rfl, by decide⟩
  · obtain ⟨hne, hd⟩ := h
    cases i with
    | nil => exact absurd rfl hne
    | cons c s => exact ⟨c, s, rfl, (isDigit_le c).mpr (hd c (by simp))⟩

theorem number_first {t : Str} (h : Number t) : ∃ c s, t = c :: s ∧ (c = 45 ∨ isDigit c = true) := by
  obtain ⟨g, i, f, e, rfl, hg, hi, _, _⟩ := h
  rcases hg with rfl | rfl
  · obtain ⟨c, s, rfl, hc⟩ := intPart_head hi
    exact ⟨c, _, rfl, .inr hc⟩
  · exact ⟨45, _, rfl, .inl rfl⟩

theorem number_then {t r : Str} (h : Number t) (hr : Stops r) : number (t ++ r) = some (t, r) := by
  obtain ⟨g, i, f, e, rfl, hg, hi, hf, he⟩ := h
  have hu := unsigned_then hi hf he hr
  rcases hg with rfl | rfl
  · obtain ⟨c, s, rfl, hc⟩ := intPart_head hi
    unfold number
    split
    · rename_i heq
      simp only [List.nil_append, List.cons_append, List.cons.injEq] at heq
      rw [heq.1] at hc
      exact absurd hc (by decide)
    · exact hu
  · show number (45 :: (i ++ (f ++ e) ++ r)) = _
    simp only [number, hu, Option.map_some]
    rfl

/-! ### Values -/

theorem skip_skip (s : Str) : skip (skip s) = skip s := by
  cases h : skip s with
  | nil => rfl
  | cons c t =>
    cases hc : isSpace c with
    | false => exact skip_cons hc t
    | true =>
      exfalso
      have := List.head?_dropWhile_not isSpace s
      unfold skip at h
      rw [h] at this
      simp [hc] at this

theorem value_skip (n : Nat) (s : Str) : value n (skip s) = value n s := by
  cases n with
  | zero => rw [value, value]
  | succ n => rw [value, value, skip_skip]

theorem elems_skip (n : Nat) (s : Str) : elems n (skip s) = elems n s := by
  cases n with
  | zero => rw [elems, elems]
  | succ n => rw [elems, elems, value_skip]

theorem members_skip (n : Nat) (s : Str) : members n (skip s) = members n s := by
  cases n with
  | zero => rw [members, members]
  | succ n => rw [members, members, skip_skip]

theorem strBody_chars {s v r : Str} (h : strBody s = some (v, r)) : Chars s r :=
  (strBody_iff _ s (Nat.le_refl _) r).mp ⟨v, h⟩

theorem chars_strBody {s r : Str} (h : Chars s r) : ∃ v, strBody s = some (v, r) :=
  (strBody_iff _ s (Nat.le_refl _) r).mpr h

theorem scalar_begins {s r : Str} {j : Json} (h : scalar s = some (j, r)) : Begins .value s r := by
  have hp : ∀ p : Str, p.isPrefixOf s = true → s = p ++ s.drop p.length := by
    intro p hp
    rw [List.isPrefixOf_iff_prefix] at hp
    obtain ⟨t, rfl⟩ := hp
    simp
  unfold scalar at h
  split at h
  · rename_i h1
    cases h
    have := hp _ h1
    conv => lhs; rw [this]
    exact .null _
  · split at h
    · rename_i h1
      cases h
      have := hp _ h1
      conv => lhs; rw [this]
      exact .true _
    · split at h
      · rename_i h1
        cases h
        have := hp _ h1
        conv => lhs; rw [this]
        exact .false _
      · cases hn : number s with
        | none => rw [hn] at h; cases h
        | some x =>
          obtain ⟨t, r'⟩ := x
          rw [hn] at h
          cases h
          obtain ⟨h1, h2⟩ := number_inv hn
          rw [h1]
          exact .number _ h2

/-- What is read is in the grammar. -/
theorem reads_begins : ∀ n,
    (∀ s j r, value n s = some (j, r) → Begins .value (skip s) r) ∧
    (∀ s l r, elems n s = some (l, r) → Begins .elems s r) ∧
    (∀ s l r, members n s = some (l, r) → Begins .members s r) := by
  intro n
  induction n with
  | zero =>
    refine ⟨?_, ?_, ?_⟩ <;> intro s j r h
    · rw [value] at h; cases h
    · rw [elems] at h; cases h
    · rw [members] at h; cases h
  | succ n ih =>
    obtain ⟨ihv, ihe, ihm⟩ := ih
    refine ⟨?_, ?_, ?_⟩
    · intro s j r h
      rw [value] at h
      split at h
      · rename_i s' hs
        rw [hs]
        cases hb : strBody s' with
        | none => rw [hb] at h; cases h
        | some x =>
          obtain ⟨v, r'⟩ := x
          rw [hb] at h
          cases h
          exact .string (strBody_chars hb)
      · rename_i s' hs
        rw [hs]
        split at h
        · rename_i s'' hs'
          cases h
          obtain ⟨u, hu, he⟩ := skip_split s'
          rw [he, hs']
          exact .emptyArray _ hu
        · rename_i hs'
          rw [elems_skip] at h
          cases hb : elems n s' with
          | none => rw [hb] at h; cases h
          | some x =>
            obtain ⟨l, r'⟩ := x
            rw [hb] at h
            cases h
            exact .array (ihe _ _ _ hb)
      · rename_i s' hs
        rw [hs]
        split at h
        · rename_i s'' hs'
          cases h
          obtain ⟨u, hu, he⟩ := skip_split s'
          rw [he, hs']
          exact .emptyObject _ hu
        · rename_i hs'
          rw [members_skip] at h
          cases hb : members n s' with
          | none => rw [hb] at h; cases h
          | some x =>
            obtain ⟨l, r'⟩ := x
            rw [hb] at h
            cases h
            exact .object (ihm _ _ _ hb)
      · exact scalar_begins h
    · intro s l r h
      rw [elems] at h
      cases hv : value n s with
      | none => rw [hv] at h; cases h
      | some x =>
        obtain ⟨j, s1⟩ := x
        rw [hv] at h
        simp only at h
        have hb := ihv _ _ _ hv
        obtain ⟨u, hu, he⟩ := skip_split s
        obtain ⟨v, hv', he'⟩ := skip_split s1
        rw [he]
        split at h
        · rename_i s2 hs2
          rw [hs2] at he'
          rw [he'] at hb
          cases hl : elems n s2 with
          | none => rw [hl] at h; cases h
          | some y =>
            obtain ⟨l', r'⟩ := y
            rw [hl] at h
            cases h
            exact .comma hu hv' hb (ihe _ _ _ hl)
        · rename_i s2 hs2
          rw [hs2] at he'
          rw [he'] at hb
          cases h
          exact .last hu hv' hb
        · cases h
    · intro s l r h
      rw [members] at h
      obtain ⟨u, hu, he⟩ := skip_split s
      split at h
      · rename_i k hk
        rw [he, hk]
        cases hs : strBody k with
        | none => rw [hs] at h; cases h
        | some x =>
          obtain ⟨key, s1⟩ := x
          rw [hs] at h
          simp only at h
          have hc := strBody_chars hs
          obtain ⟨v, hv, he1⟩ := skip_split s1
          split at h
          · rename_i s2 hs2
            rw [hs2] at he1
            rw [he1] at hc
            cases hval : value n s2 with
            | none => rw [hval] at h; cases h
            | some y =>
              obtain ⟨j, s3⟩ := y
              rw [hval] at h
              simp only at h
              have hb := ihv _ _ _ hval
              obtain ⟨x, hx, he2⟩ := skip_split s2
              obtain ⟨y, hy, he3⟩ := skip_split s3
              rw [he2] at hc
              split at h
              · rename_i s4 hs4
                rw [hs4] at he3
                rw [he3] at hb
                cases hl : members n s4 with
                | none => rw [hl] at h; cases h
                | some z =>
                  obtain ⟨l', r'⟩ := z
                  rw [hl] at h
                  cases h
                  exact .commaMember hu hc hv hx hy hb (ihm _ _ _ hl)
              · rename_i s4 hs4
                rw [hs4] at he3
                rw [he3] at hb
                cases h
                exact .lastMember hu hc hv hx hy hb
              · cases h
          · cases h
      · cases h

theorem chars_shorter {s r : Str} (h : Chars s r) : r.length < s.length := by
  induction h with
  | close r => simp
  | plain _ _ _ _ ih => simp; omega
  | escape _ _ ih => simp; omega
  | unicode _ _ _ _ _ ih => simp; omega

theorem begins_shorter {k : Kind} {s r : Str} (h : Begins k s r) : r.length < s.length := by
  induction h with
  | null r => simp; omega
  | true r => simp; omega
  | false r => simp; omega
  | number r h =>
    obtain ⟨c, s, rfl, _⟩ := number_first h
    simp; omega
  | string h => have := chars_shorter h; simp; omega
  | emptyArray r h => simp; omega
  | array _ ih => simp; omega
  | emptyObject r h => simp; omega
  | object _ ih => simp; omega
  | last _ _ _ ih => simp at ih ⊢; omega
  | comma _ _ _ _ ih1 ih2 => simp at ih1 ⊢; omega
  | lastMember _ hk _ _ _ _ ih => have := chars_shorter hk; simp at ih this ⊢; omega
  | commaMember _ hk _ _ _ _ _ ih1 ih2 => have := chars_shorter hk; simp at ih1 this ⊢; omega

theorem begins_first {k : Kind} {s r : Str} (h : Begins k s r) (hk : k = .value) :
    ∃ c t, s = c :: t ∧ isSpace c = false ∧ c ≠ 93 := by
  cases h with
  | null r => exact ⟨110, _, rfl, by decide, by decide⟩
  | true r => exact ⟨116, _, rfl, by decide, by decide⟩
  | false r => exact ⟨102, _, rfl, by decide, by decide⟩
  | number r h =>
    obtain ⟨c, s, rfl, hc⟩ := number_first h
    refine ⟨c, _, rfl, ?_, ?_⟩
    · rcases hc with rfl | hc
      · decide
      · cases hs : isSpace c with
        | false => rfl
        | true => rcases (isSpace_iff c).mp hs with rfl | rfl | rfl | rfl <;> exact absurd hc (by decide)
    · rintro rfl
      rcases hc with h | h <;> exact absurd h (by decide)
  | string h => exact ⟨34, _, rfl, by decide, by decide⟩
  | emptyArray r h => exact ⟨91, _, rfl, by decide, by decide⟩
  | array _ => exact ⟨91, _, rfl, by decide, by decide⟩
  | emptyObject r h => exact ⟨123, _, rfl, by decide, by decide⟩
  | object _ => exact ⟨123, _, rfl, by decide, by decide⟩
  | last => cases hk
  | comma => cases hk
  | lastMember => cases hk
  | commaMember => cases hk

theorem skip_begins {u s r : Str} (hu : Ws u) (h : Begins .value s r) : skip (u ++ s) = s := by
  obtain ⟨c, t, rfl, hc, _⟩ := begins_first h rfl
  rw [skip_ws hu, skip_cons hc]

/-- White space and then something that cannot continue a number. -/
theorem stops_ws {v : Str} {c : UInt8} {t : Str} (hv : Ws v) (hc : c = 44 ∨ c = 93 ∨ c = 125) : Stops (v ++ c :: t) := by
  intro d s h
  have hd : d = c ∨ d = 32 ∨ d = 9 ∨ d = 10 ∨ d = 13 := by
    cases v with
    | nil => injection h with h _; exact .inl h.symm
    | cons x v =>
      injection h with h _
      subst h
      exact .inr (hv x (by simp))
  rcases hd with rfl | rfl | rfl | rfl | rfl
  · rcases hc with rfl | rfl | rfl <;> decide
  all_goals decide

theorem stops_all_ws {v : Str} (hv : Ws v) : Stops v := by
  intro d s h
  subst h
  rcases hv d (by simp) with rfl | rfl | rfl | rfl <;> decide

theorem skip_to {v : Str} {c : UInt8} {t : Str} (hv : Ws v) (hc : isSpace c = false) : skip (v ++ c :: t) = c :: t := by
  rw [skip_ws hv, skip_cons hc]

theorem scalar_number {t r : Str} (ht : Number t) (hr : Stops r) : scalar (t ++ r) = some (.num t, r) := by
  obtain ⟨c, s, h1, h2⟩ := number_first ht
  have hle : c.toNat ≤ 57 := by
    rcases h2 with rfl | h2
    · decide
    · exact ((isDigit_iff c).mp h2).2
  have hn : ∀ (x : UInt8) (p : Str), 57 < x.toNat → (x :: p).isPrefixOf (t ++ r) = false := by
    intro x p hx
    rw [h1]
    simp only [List.cons_append, List.isPrefixOf, Bool.and_eq_false_imp, beq_iff_eq]
    rintro rfl
    omega
  unfold scalar
  rw [hn _ _ (by decide), hn _ _ (by decide), hn _ _ (by decide), number_then ht hr]
  simp

/-- What each kind means for the reader. -/
def Read (k : Kind) (s r : Str) : Prop :=
  match k with
  | .value => Stops r → ∀ n, s.length ≤ n + r.length → ∃ j, value n s = some (j, r)
  | .elems => ∀ n, s.length ≤ n + r.length → ∃ l, elems n s = some (l, r)
  | .members => ∀ n, s.length ≤ n + r.length → ∃ l, members n s = some (l, r)

theorem value_ws {n : Nat} {u s r : Str} (hu : Ws u) (h : Begins .value s r) : value n (u ++ s) = value n s := by
  rw [← value_skip n (u ++ s), skip_begins hu h]

/-- What is in the grammar is read. -/
theorem begins_reads {k : Kind} {s r : Str} (h : Begins k s r) : Read k s r := by
  induction h with
  | null r =>
    intro _ n hn
    obtain ⟨m, rfl⟩ : ∃ m, n = m + 1 := ⟨n - 1, by simp at hn; omega⟩
    exact ⟨.null, by
      show value (m + 1) (110 :: 117 :: 108 :: 108 :: r) = _
      rw [value_scalar (by decide) (by decide) (by decide) (by decide)]; rfl⟩
  | true r =>
    intro _ n hn
    obtain ⟨m, rfl⟩ : ∃ m, n = m + 1 := ⟨n - 1, by simp at hn; omega⟩
    exact ⟨.bool true, by
      show value (m + 1) (116 :: 114 :: 117 :: 101 :: r) = _
      rw [value_scalar (by decide) (by decide) (by decide) (by decide)]; rfl⟩
  | false r =>
    intro _ n hn
    obtain ⟨m, rfl⟩ : ∃ m, n = m + 1 := ⟨n - 1, by simp at hn; omega⟩
    exact ⟨.bool false, by
      show value (m + 1) (102 :: 97 :: 108 :: 115 :: 101 :: r) = _
      rw [value_scalar (by decide) (by decide) (by decide) (by decide)]; rfl⟩
  | @number t r h =>
    intro hr n hn
    have hsc := scalar_number h hr
    obtain ⟨c, s, rfl, hc⟩ := number_first h
    obtain ⟨m, rfl⟩ : ∃ m, n = m + 1 := ⟨n - 1, by simp at hn; omega⟩
    have hb := begins_first (Begins.number r h) rfl
    obtain ⟨c', t', he, hsp, _⟩ := hb
    simp only [List.cons_append] at he hsc ⊢
    injection he with he1 he2
    subst he1
    refine ⟨_, (value_scalar hsp ?_ ?_ ?_).trans hsc⟩ <;> (rintro rfl; rcases hc with h | h <;> exact absurd h (by decide))
  | @string s r h =>
    intro _ n hn
    obtain ⟨m, rfl⟩ : ∃ m, n = m + 1 := ⟨n - 1, by have := chars_shorter h; simp at hn; omega⟩
    obtain ⟨v, hv⟩ := chars_strBody h
    exact ⟨.str v, by rw [value, skip_cons (by decide)]; simp only [hv, Option.map_some]⟩
  | @emptyArray u r h =>
    intro _ n hn
    obtain ⟨m, rfl⟩ : ∃ m, n = m + 1 := ⟨n - 1, by simp at hn; omega⟩
    exact ⟨.arr [], by rw [value, skip_cons (by decide)]; simp only [skip_to h (show isSpace 93 = false by decide)]⟩
  | @array s r hb ih =>
    intro _ n hn
    have hlt := begins_shorter hb
    obtain ⟨m, rfl⟩ : ∃ m, n = m + 1 := ⟨n - 1, by simp at hn; omega⟩
    obtain ⟨l, hl⟩ := ih m (by simp at hn; omega)
    refine ⟨.arr l, ?_⟩
    rw [value, skip_cons (by decide)]
    have hne : ∀ t, skip s ≠ 93 :: t := by
      intro t ht
      cases hb with
      | last hu _ h =>
        rw [skip_begins hu h] at ht
        obtain ⟨c, t', rfl, _, hc⟩ := begins_first h rfl
        injection ht with ht _
        exact hc ht
      | comma hu _ h _ =>
        rw [skip_begins hu h] at ht
        obtain ⟨c, t', rfl, _, hc⟩ := begins_first h rfl
        injection ht with ht _
        exact hc ht
    simp only
    rw [elems_skip, hl]; rfl
  | @emptyObject u r h =>
    intro _ n hn
    obtain ⟨m, rfl⟩ : ∃ m, n = m + 1 := ⟨n - 1, by simp at hn; omega⟩
    exact ⟨.obj [], by rw [value, skip_cons (by decide)]; simp only [skip_to h (show isSpace 125 = false by decide)]⟩
  | @object s r hb ih =>
    intro _ n hn
    have hlt := begins_shorter hb
    obtain ⟨m, rfl⟩ : ∃ m, n = m + 1 := ⟨n - 1, by simp at hn; omega⟩
    obtain ⟨l, hl⟩ := ih m (by simp at hn; omega)
    refine ⟨.obj l, ?_⟩
    rw [value, skip_cons (by decide)]
    have hne : ∀ t, skip s ≠ 125 :: t := by
      intro t ht
      cases hb with
      | lastMember hu _ _ _ _ _ =>
        rw [skip_to hu (by decide)] at ht
        injection ht with ht _
        exact absurd ht (by decide)
      | commaMember hu _ _ _ _ _ _ =>
        rw [skip_to hu (by decide)] at ht
        injection ht with ht _
        exact absurd ht (by decide)
    simp only
    rw [members_skip, hl]; rfl
  | @last u s v r hu hv hb ih =>
    intro n hn
    have hlt := begins_shorter hb
    simp only [List.length_append, List.length_cons] at hn hlt
    obtain ⟨m, rfl⟩ : ∃ m, n = m + 1 := ⟨n - 1, by omega⟩
    obtain ⟨j, hj⟩ := ih (stops_ws hv (by simp)) m (by simp; omega)
    refine ⟨[j], ?_⟩
    rw [elems, value_ws hu hb, hj]
    simp only [skip_to hv (show isSpace 93 = false by decide)]
  | @comma u s v t r hu hv hb hrest ih1 ih2 =>
    intro n hn
    have hlt := begins_shorter hb
    have hlt2 := begins_shorter hrest
    simp only [List.length_append, List.length_cons] at hn hlt
    obtain ⟨m, rfl⟩ : ∃ m, n = m + 1 := ⟨n - 1, by omega⟩
    obtain ⟨j, hj⟩ := ih1 (stops_ws hv (by simp)) m (by simp; omega)
    obtain ⟨l, hl⟩ := ih2 m (by omega)
    refine ⟨j :: l, ?_⟩
    rw [elems, value_ws hu hb, hj]
    simp only [skip_to hv (show isSpace 44 = false by decide), hl, Option.map_some]
  | @lastMember u k v x s y r hu hk hv hx hy hb ih =>
    intro n hn
    have hlt := begins_shorter hb
    have hlk := chars_shorter hk
    simp only [List.length_append, List.length_cons] at hn hlt hlk
    obtain ⟨m, rfl⟩ : ∃ m, n = m + 1 := ⟨n - 1, by omega⟩
    obtain ⟨j, hj⟩ := ih (stops_ws hy (by simp)) m (by simp; omega)
    obtain ⟨key, hkey⟩ := chars_strBody hk
    refine ⟨[(key, j)], ?_⟩
    rw [members, skip_to hu (by decide)]
    simp only [hkey, skip_to hv (show isSpace 58 = false by decide), value_ws hx hb, hj,
      skip_to hy (show isSpace 125 = false by decide)]
  | @commaMember u k v x s y t r hu hk hv hx hy hb hrest ih1 ih2 =>
    intro n hn
    have hlt := begins_shorter hb
    have hlt2 := begins_shorter hrest
    have hlk := chars_shorter hk
    simp only [List.length_append, List.length_cons] at hn hlt hlk
    obtain ⟨m, rfl⟩ : ∃ m, n = m + 1 := ⟨n - 1, by omega⟩
    obtain ⟨j, hj⟩ := ih1 (stops_ws hy (by simp)) m (by simp; omega)
    obtain ⟨l, hl⟩ := ih2 m (by omega)
    obtain ⟨key, hkey⟩ := chars_strBody hk
    refine ⟨(key, j) :: l, ?_⟩
    rw [members, skip_to hu (by decide)]
    simp only [hkey, skip_to hv (show isSpace 58 = false by decide), value_ws hx hb, hj,
      skip_to hy (show isSpace 44 = false by decide), hl, Option.map_some]

/-- The reader accepts exactly the texts of the grammar. -/
theorem parse_iff (b : Str) : (∃ j, parse b = some j) ↔ Document b := by
  unfold parse
  constructor
  · rintro ⟨j, h⟩
    cases hv : value (b.length + 1) b with
    | none => rw [hv] at h; cases h
    | some x =>
      obtain ⟨j', r⟩ := x
      rw [hv] at h
      simp only at h
      split at h
      · rename_i hr
        obtain ⟨u, hu, he⟩ := skip_split b
        refine ⟨u, skip b, r, he, hu, ?_, (reads_begins _).1 _ _ _ hv⟩
        intro c hc
        exact (isSpace_iff c).mp ((skip_nil_iff r).mp hr c hc)
      · cases h
  · rintro ⟨u, s, v, rfl, hu, hv, hb⟩
    obtain ⟨j, hj⟩ := begins_reads hb (stops_all_ws hv) ((u ++ s).length + 1) (by simp; omega)
    refine ⟨j, ?_⟩
    rw [value_ws hu hb, hj]
    simp only
    rw [if_pos ((skip_nil_iff v).mpr fun c hc => (isSpace_iff c).mpr (hv c hc))]

end Json
end Verif
