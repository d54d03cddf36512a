import Verif.Go.Json

/-! Reading a written JSON text gives the value back, with invalid bytes in strings replaced. -/

namespace Verif
namespace Json

open Utf8 (Chunk)

/-! ### Strings -/

theorem hexNumber_hex4 {n : Nat} (h : n < 65536) : Unquote.hexNumber 0 (hex4 n) = some n := by
  have f (m : Nat) : Hex.fromChar (Hex.digit (m % 16)) = some (m % 16) :=
    Hex.fromChar_digit ⟨m % 16, by omega⟩
  simp only [hex4, Unquote.hexNumber, f]
  congr 1
  omega

theorem takeHex4_hex4 {n : Nat} (h : n < 65536) (t : Str) : takeHex4 (hex4 n ++ t) = some (n, t) := by
  have := hexNumber_hex4 h
  simp only [hex4] at this
  simp only [hex4, List.cons_append, List.nil_append, takeHex4, this]

theorem escape_escU {n : Nat} (h : n < 0xD800 ∨ 0xE000 ≤ n ∧ n < 65536) (t : Str) :
    escape (117 :: (hex4 n ++ t)) = some (Unquote.encodeRune n, t) := by
  have h1 : takeHex4 (hex4 n ++ t) = some (n, t) := takeHex4_hex4 (by omega) t
  have h2 : unicode n t = (Unquote.encodeRune n, t) := by
    unfold unicode
    rw [if_neg (by omega)]
  simp [escape, h1, h2]

/-- Put bytes in front of the value of a string. -/
def prep (a : Str) : Option (Str × Str) → Option (Str × Str)
  | none => none
  | some (v, r) => some (a ++ v, r)

theorem strBody_escape {s out rest : Str} (h : escape s = some (out, rest)) :
    strBody (92 :: s) = prep out (strBody rest) := by
  rw [strBody]
  rw [if_neg (by decide), if_neg (by decide), if_pos rfl]
  split
  · rename_i h'; rw [h] at h'; cases h'
  · rename_i o r h'
    rw [h] at h'
    cases h'
    cases strBody rest with
    | none => rfl
    | some x => rfl

theorem strBody_next {c : UInt8} {s : Str} (h1 : c ≠ 34) (h2 : ¬ c < 0x20) (h3 : c ≠ 92) :
    strBody (c :: s) = prep (Utf8.next c s).1.out (strBody (Utf8.next c s).2) := by
  rw [strBody]
  simp only [h1, h2, h3, if_false]
  cases strBody (Utf8.next c s).2 with
  | none => rfl
  | some x => rfl

theorem encodeRune_ascii {b : UInt8} (h : b < 0x80) : Unquote.encodeRune b.toNat = [b] := by
  have hb : b.toNat < 128 := by simpa [UInt8.lt_iff_toNat_lt] using h
  simp [Unquote.encodeRune, hb]

theorem strBody_chunk (k : Chunk) (hk : k.Real) (t : Str) :
    strBody (quoteChunk k ++ t) = prep k.out (strBody t) := by
  cases k with
  | plain b =>
    have hb : b < 0x80 := hk
    have hn : b.toNat < 128 := by simpa [UInt8.lt_iff_toNat_lt] using hb
    simp only [quoteChunk, Chunk.out]
    split
    · rename_i h
      refine strBody_escape (s := b :: t) ?_
      rcases h with rfl | rfl <;> simp [escape]
    · rename_i hq
      split
      · rename_i h; subst h; exact strBody_escape (s := 110 :: t) (by simp [escape])
      · split
        · rename_i h; subst h; exact strBody_escape (s := 114 :: t) (by simp [escape])
        · split
          · rename_i h; subst h; exact strBody_escape (s := 116 :: t) (by simp [escape])
          · split
            · rw [← encodeRune_ascii hb]
              exact strBody_escape (s := 117 :: (hex4 b.toNat ++ t)) (escape_escU (by omega) t)
            · rename_i hc
              simp only [not_or] at hq hc
              have hx : Utf8.next b t = (.plain b, t) := by simp [Utf8.next, hb]
              have := strBody_next (s := t) hq.1 hc.1 hq.2
              rw [hx] at this
              exact this
  | multi bs =>
    obtain ⟨c, tl, h1, h2, h3⟩ := hk
    simp only [quoteChunk, Chunk.out]
    split
    · rename_i h
      have : bs = Unquote.encodeRune 0x2028 := by rw [h]; decide
      rw [this]
      exact strBody_escape (s := 117 :: (hex4 0x2028 ++ t)) (escape_escU (by omega) t)
    · split
      · rename_i h
        have : bs = Unquote.encodeRune 0x2029 := by rw [h]; decide
        rw [this]
        exact strBody_escape (s := 117 :: (hex4 0x2029 ++ t)) (escape_escU (by omega) t)
      · have hx : Utf8.next c (tl ++ t) = (.multi bs, t) := by
          simp [Utf8.next, h2, h3 t]
        have hc : 128 ≤ c.toNat := by
          have := h2
          rw [UInt8.lt_iff_toNat_lt] at this
          simpa using this
        have := strBody_next (c := c) (s := tl ++ t) (by rintro rfl; simp at hc)
          (by rw [UInt8.lt_iff_toNat_lt]; simp; omega) (by rintro rfl; simp at hc)
        rw [hx] at this
        rw [h1] at this ⊢
        exact this
  | bad =>
    simp only [quoteChunk, Chunk.out]
    have : Utf8.replacement = Unquote.encodeRune 0xFFFD := by decide
    rw [this]
    exact strBody_escape (s := 117 :: (hex4 0xFFFD ++ t)) (escape_escU (by omega) t)

theorem strBody_chunks : ∀ (ks : List Chunk), (∀ k ∈ ks, k.Real) → ∀ r : Str,
    strBody (ks.flatMap quoteChunk ++ 34 :: r) = some (ks.flatMap Chunk.out, r)
  | [], _, r => by rw [List.flatMap_nil, List.nil_append, strBody]; simp
  | k :: ks, h, r => by
    rw [List.flatMap_cons, List.append_assoc, strBody_chunk k (h k (by simp)),
      strBody_chunks ks (fun x hx => h x (by simp [hx])) r]
    simp [prep]

/-- Reading a written string gives the string with invalid bytes replaced. -/
theorem strBody_quote (s r : Str) :
    ∃ t, quote s ++ r = 34 :: t ∧ strBody t = some (Utf8.sane s, r) := by
  refine ⟨_, by rw [quote]; rfl, ?_⟩
  have := strBody_chunks (Utf8.chunks s) (Utf8.chunks_real s) r
  simpa [Utf8.sane] using this

/-! ### Numbers -/

/-- The decimal digits of a number: not empty, and no superfluous leading zero. -/
def NatText (t : Str) : Prop := t ≠ [] ∧ (∀ c ∈ t, isDigit c = true) ∧ (t = [48] ∨ t.head? ≠ some 48)

/-- An integer. -/
def IntText (t : Str) : Prop := NatText t ∨ ∃ ds, t = 45 :: ds ∧ NatText ds

/-- What may follow a value: something that cannot continue a number. -/
def Stops (r : Str) : Prop := ∀ c s, r = c :: s → isDigit c = false ∧ c ≠ 46 ∧ c ≠ 101 ∧ c ≠ 69

theorem digits_append {d r : Str} (hne : d ≠ []) (hd : ∀ c ∈ d, isDigit c = true) (hr : Stops r) :
    digits (d ++ r) = some (d, r) := by
  have htw : (d ++ r).takeWhile isDigit = d := by
    rw [List.takeWhile_append_of_pos hd]
    cases r with
    | nil => simp
    | cons c s =>
      have := (hr c s rfl).1
      simp [this]
  simp only [digits, htw, hne, if_false, List.drop_left]

theorem intPart_append {t r : Str} (ht : NatText t) (hr : Stops r) : intPart (t ++ r) = some (t, r) := by
  obtain ⟨hne, hd, hz⟩ := ht
  rcases hz with rfl | hz
  · rfl
  · unfold intPart
    split
    · rename_i s heq
      exfalso
      cases t with
      | nil => exact hne rfl
      | cons c t' =>
        simp only [List.cons_append, List.cons.injEq] at heq
        exact hz (by simp [heq.1])
    · exact digits_append hne hd hr

theorem fracPart_stops {r : Str} (hr : Stops r) : fracPart r = some ([], r) := by
  unfold fracPart
  split
  · rename_i s
    exact absurd rfl (hr 46 s rfl).2.1
  · rfl

theorem expPart_stops {r : Str} (hr : Stops r) : expPart r = some ([], r) := by
  unfold expPart
  split
  · rename_i e s
    have := hr e s rfl
    rw [if_neg (by simp [this.2.2])]
  · rfl

theorem unsigned_append {t r : Str} (ht : NatText t) (hr : Stops r) : unsigned (t ++ r) = some (t, r) := by
  simp [unsigned, intPart_append ht hr, fracPart_stops hr, expPart_stops hr]

theorem NatText.head {t : Str} (h : NatText t) : ∃ c s, t = c :: s ∧ isDigit c = true := by
  cases t with
  | nil => exact absurd rfl h.1
  | cons c s => exact ⟨c, s, rfl, h.2.1 c (by simp)⟩

theorem isDigit_iff (c : UInt8) : isDigit c = true ↔ 48 ≤ c.toNat ∧ c.toNat ≤ 57 := by
  simp [isDigit, UInt8.le_iff_toNat_le]

theorem IntText.head {t : Str} (h : IntText t) : ∃ c s, t = c :: s ∧ 45 ≤ c.toNat ∧ c.toNat ≤ 57 := by
  rcases h with h | ⟨ds, rfl, h⟩
  · obtain ⟨c, s, h1, h2⟩ := h.head
    rw [isDigit_iff] at h2
    exact ⟨c, s, h1, by omega, by omega⟩
  · exact ⟨45, ds, rfl, by decide, by decide⟩

theorem number_append {t r : Str} (ht : IntText t) (hr : Stops r) : number (t ++ r) = some (t, r) := by
  rcases ht with ht | ⟨ds, rfl, ht⟩
  · obtain ⟨c, s, h1, h2⟩ := ht.head
    unfold number
    split
    · rename_i heq
      rw [h1] at heq
      simp only [List.cons_append, List.cons.injEq] at heq
      rw [heq.1] at h2
      exact absurd h2 (by decide)
    · exact unsigned_append ht hr
  · simp only [List.cons_append, number, unsigned_append ht hr, Option.map_some]

theorem scalar_num {t r : Str} (ht : IntText t) (hr : Stops r) : scalar (t ++ r) = some (.num t, r) := by
  obtain ⟨c, s, h1, h2, h3⟩ := ht.head
  have hn : ∀ (x : UInt8) (p : Str), 57 < x.toNat → (x :: p).isPrefixOf (t ++ r) = false := by
    intro x p hx
    rw [h1]
    simp only [List.cons_append, List.isPrefixOf, Bool.and_eq_false_imp, beq_iff_eq]
    rintro rfl
    omega
  unfold scalar
  rw [hn _ _ (by decide), hn _ _ (by decide), hn _ _ (by decide), number_append ht hr]
  simp

/-! ### Values -/

mutual
/-- The value with invalid bytes in its strings replaced. -/
def sane : Json → Json
  | .null => .null
  | .bool b => .bool b
  | .num t => .num t
  | .str s => .str (Utf8.sane s)
  | .arr l => .arr (saneElems l)
  | .obj l => .obj (saneMembers l)

def saneElems : List Json → List Json
  | [] => []
  | j :: l => sane j :: saneElems l

def saneMembers : List (Str × Json) → List (Str × Json)
  | [] => []
  | (k, j) :: l => (Utf8.sane k, sane j) :: saneMembers l
end

mutual
/-- All numbers are integers. -/
def Ints : Json → Prop
  | .null => True
  | .bool _ => True
  | .num t => IntText t
  | .str _ => True
  | .arr l => IntsElems l
  | .obj l => IntsMembers l

def IntsElems : List Json → Prop
  | [] => True
  | j :: l => Ints j ∧ IntsElems l

def IntsMembers : List (Str × Json) → Prop
  | [] => True
  | (_, j) :: l => Ints j ∧ IntsMembers l
end

/-- The first byte of a written value: not white space, not a closing bracket. -/
theorem print_head : ∀ (j : Json), Ints j → ∃ c s, print j = c :: s ∧ isSpace c = false ∧ c ≠ 93 ∧ c ≠ 125
  | .null, _ => ⟨_, _, rfl, by decide, by decide, by decide⟩
  | .bool true, _ => ⟨_, _, rfl, by decide, by decide, by decide⟩
  | .bool false, _ => ⟨_, _, rfl, by decide, by decide, by decide⟩
  | .num t, h => by
    obtain ⟨c, s, h1, h2, h3⟩ := IntText.head h
    refine ⟨c, s, by rw [print, h1], ?_, ?_, ?_⟩
    · simp only [isSpace, Bool.or_eq_false_iff, decide_eq_false_iff_not]
      refine ⟨⟨⟨?_, ?_⟩, ?_⟩, ?_⟩ <;> (rintro rfl; revert h2; decide)
    · rintro rfl; revert h3; decide
    · rintro rfl; revert h3; decide
  | .str s, _ => ⟨34, _, by rw [print, quote], by decide, by decide, by decide⟩
  | .arr [], _ => ⟨_, _, rfl, by decide, by decide, by decide⟩
  | .arr (j :: l), _ => ⟨91, _, by rw [print], by decide, by decide, by decide⟩
  | .obj [], _ => ⟨_, _, rfl, by decide, by decide, by decide⟩
  | .obj ((k, j) :: l), _ => ⟨123, _, by rw [print], by decide, by decide, by decide⟩

theorem skip_cons {c : UInt8} (h : isSpace c = false) (s : Str) : skip (c :: s) = c :: s := by
  simp [skip, List.dropWhile_cons, h]

theorem skip_print {j : Json} (h : Ints j) (r : Str) : skip (print j ++ r) = print j ++ r := by
  obtain ⟨c, s, h1, h2, _⟩ := print_head j h
  rw [h1, List.cons_append, skip_cons h2]

theorem value_scalar {n : Nat} {c : UInt8} {s : Str} (h1 : isSpace c = false) (h2 : c ≠ 34) (h3 : c ≠ 91)
    (h4 : c ≠ 123) : value (n + 1) (c :: s) = scalar (c :: s) := by
  rw [value, skip_cons h1]
  split
  · rename_i heq; injection heq with heq; exact absurd heq h2
  · rename_i heq; injection heq with heq; exact absurd heq h3
  · rename_i heq; injection heq with heq; exact absurd heq h4
  · rfl

theorem stops_elems (l : List Json) (r : Str) : Stops (printElems l ++ r) := by
  intro c s h
  cases l with
  | nil => rw [printElems] at h; injection h with h; subst h; decide
  | cons j l => rw [printElems] at h; injection h with h; subst h; decide

theorem stops_members (l : List (Str × Json)) (r : Str) : Stops (printMembers l ++ r) := by
  intro c s h
  cases l with
  | nil => rw [printMembers] at h; injection h with h; subst h; decide
  | cons j l => obtain ⟨k, j⟩ := j; rw [printMembers] at h; injection h with h; subst h; decide

theorem printElems_pos (l : List Json) : 1 ≤ (printElems l).length := by
  cases l <;> simp [printElems]

theorem printMembers_pos (l : List (Str × Json)) : 1 ≤ (printMembers l).length := by
  cases l with
  | nil => simp [printMembers]
  | cons j l => obtain ⟨k, j⟩ := j; simp [printMembers]

theorem quote_pos (s : Str) : 2 ≤ (quote s).length := by simp [quote]

mutual
/-- Reading a written value. -/
theorem value_print : ∀ (j : Json) (n : Nat) (r : Str), Ints j → (print j).length < n → Stops r →
    value n (print j ++ r) = some (sane j, r)
  | j, 0, _, _, hn, _ => absurd hn (Nat.not_lt_zero _)
  | .null, n + 1, r, _, _, hr => by
    rw [print, List.cons_append, value_scalar (by decide) (by decide) (by decide) (by decide)]
    rfl
  | .bool true, n + 1, r, _, _, hr => by
    rw [print, List.cons_append, value_scalar (by decide) (by decide) (by decide) (by decide)]
    rfl
  | .bool false, n + 1, r, _, _, hr => by
    rw [print, List.cons_append, value_scalar (by decide) (by decide) (by decide) (by decide)]
    rfl
  | .num t, n + 1, r, h, _, hr => by
    obtain ⟨c, s, h1, h2, h3⟩ := IntText.head h
    have hs : isSpace c = false := by
      simp only [isSpace, Bool.or_eq_false_iff, decide_eq_false_iff_not]
      refine ⟨⟨⟨?_, ?_⟩, ?_⟩, ?_⟩ <;> (rintro rfl; revert h2; decide)
    have := scalar_num h hr
    rw [print, sane, ← this]
    rw [h1, List.cons_append]
    exact value_scalar hs (by rintro rfl; revert h2; decide) (by rintro rfl; revert h3; decide)
      (by rintro rfl; revert h3; decide)
  | .str s, n + 1, r, _, _, hr => by
    obtain ⟨t, h1, h2⟩ := strBody_quote s r
    rw [print, h1, value, skip_cons (by decide)]
    simp only [h2, Option.map_some, sane]
  | .arr [], n + 1, r, _, _, hr => by
    rw [print]
    simp only [List.cons_append, List.nil_append]
    rw [value, skip_cons (by decide)]
    simp only
    rw [skip_cons (by decide)]
    simp only [sane, saneElems]
  | .arr (j :: l), n + 1, r, h, hn, hr => by
    have hp := printElems_pos l
    simp only [print, List.length_cons, List.length_append] at hn
    simp only [Ints, IntsElems] at h
    rw [print]
    simp only [List.cons_append, List.append_assoc]
    rw [value, skip_cons (by decide)]
    simp only
    rw [skip_print h.1]
    obtain ⟨c, s, h1, h2, h3, _⟩ := print_head j h.1
    have he := elems_print j l n r h.1 h.2 (by omega) hr
    rw [h1] at he ⊢
    simp only [List.cons_append] at he ⊢
    split
    · rename_i heq; injection heq with heq; exact absurd heq h3
    · rw [he]
      simp only [Option.map_some, sane, saneElems]
  | .obj [], n + 1, r, _, _, hr => by
    rw [print]
    simp only [List.cons_append, List.nil_append]
    rw [value, skip_cons (by decide)]
    simp only
    rw [skip_cons (by decide)]
    simp only [sane, saneMembers]
  | .obj ((k, j) :: l), n + 1, r, h, hn, hr => by
    simp only [print, List.length_cons, List.length_append] at hn
    simp only [Ints, IntsMembers] at h
    have he := members_print k j l n r h.1 h.2 (by omega) hr
    rw [print]
    simp only [List.cons_append, List.append_assoc]
    rw [value, skip_cons (by decide)]
    simp only
    have hq : quote k ++ 58 :: (print j ++ (printMembers l ++ r)) =
        34 :: (((Utf8.chunks k).flatMap quoteChunk ++ [34]) ++ 58 :: (print j ++ (printMembers l ++ r))) := by
      rw [quote]; rfl
    rw [hq] at he ⊢
    rw [skip_cons (by decide)]
    split
    · rename_i heq; injection heq with heq; exact absurd heq (by decide)
    · rw [he]
      simp only [Option.map_some, sane, saneMembers]

theorem elems_print : ∀ (j : Json) (l : List Json) (n : Nat) (r : Str), Ints j → IntsElems l →
    (print j).length + (printElems l).length < n → Stops r →
    elems n (print j ++ (printElems l ++ r)) = some (sane j :: saneElems l, r)
  | j, l, 0, r, _, _, hn, _ => absurd hn (Nat.not_lt_zero _)
  | j, [], n + 1, r, hj, hl, hn, hr => by
    have hp := printElems_pos []
    rw [elems, value_print j n (printElems [] ++ r) hj (by omega) (stops_elems [] r)]
    simp only [printElems, List.cons_append, List.nil_append]
    rw [skip_cons (by decide)]
    simp only [saneElems]
  | j, j' :: l, n + 1, r, hj, hl, hn, hr => by
    simp only [IntsElems] at hl
    have hp := printElems_pos (j' :: l)
    rw [elems, value_print j n (printElems (j' :: l) ++ r) hj (by omega) (stops_elems (j' :: l) r)]
    simp only [printElems, List.length_cons, List.length_append] at hn
    simp only [printElems, List.cons_append, List.append_assoc]
    rw [skip_cons (by decide)]
    simp only
    rw [elems_print j' l n r hl.1 hl.2 (by omega) hr]
    simp only [Option.map_some, saneElems]

theorem members_print : ∀ (k : Str) (j : Json) (l : List (Str × Json)) (n : Nat) (r : Str), Ints j → IntsMembers l →
    (quote k).length + ((print j).length + (printMembers l).length + 1) < n + 1 → Stops r →
    members n (quote k ++ 58 :: (print j ++ (printMembers l ++ r))) = some ((Utf8.sane k, sane j) :: saneMembers l, r)
  | k, j, l, 0, r, _, _, hn, _ => by have := quote_pos k; omega
  | k, j, [], n + 1, r, hj, hl, hn, hr => by
    have hp := printMembers_pos []
    have hq := quote_pos k
    obtain ⟨t, h1, h2⟩ := strBody_quote k (58 :: (print j ++ (printMembers [] ++ r)))
    rw [members, h1, skip_cons (by decide)]
    simp only [h2]
    rw [skip_cons (by decide)]
    simp only
    rw [value_print j n (printMembers [] ++ r) hj (by omega) (stops_members [] r)]
    simp only [printMembers, List.cons_append, List.nil_append]
    rw [skip_cons (by decide)]
    simp only [saneMembers]
  | k, j, (k', j') :: l, n + 1, r, hj, hl, hn, hr => by
    simp only [IntsMembers] at hl
    have hp := printMembers_pos ((k', j') :: l)
    have hq := quote_pos k
    obtain ⟨t, h1, h2⟩ := strBody_quote k (58 :: (print j ++ (printMembers ((k', j') :: l) ++ r)))
    rw [members, h1, skip_cons (by decide)]
    simp only [h2]
    rw [skip_cons (by decide)]
    simp only
    rw [value_print j n (printMembers ((k', j') :: l) ++ r) hj (by omega) (stops_members ((k', j') :: l) r)]
    simp only [printMembers, List.length_cons, List.length_append] at hn
    simp only [printMembers, List.cons_append, List.append_assoc]
    rw [skip_cons (by decide)]
    simp only
    rw [members_print k' j' l n r hl.1 hl.2 (by omega) hr]
    simp only [Option.map_some, saneMembers]
end

/-- **Round trip**: reading the text written for a value gives the value, with invalid bytes in strings replaced. -/
theorem parse_print {j : Json} (h : Ints j) : parse (print j) = some (sane j) := by
  have := value_print j ((print j).length + 1) [] h (by omega) (by intro c s h; cases h)
  simp only [List.append_nil] at this
  unfold parse
  rw [this]
  simp [skip]

end Json
end Verif
