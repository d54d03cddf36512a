import Verif.Go.JsonIndent
import Verif.Lemmas.Json

/-! Indented JSON reads back like the compact form. -/

namespace Verif
namespace Json

theorem newline_space (u : Str) (hu : ∀ c ∈ u, isSpace c = true) (d : Nat) : ∀ c ∈ newline u d, isSpace c = true := by
  intro c hc
  simp only [newline, List.mem_cons, List.mem_flatten, List.mem_replicate] at hc
  rcases hc with rfl | ⟨l, ⟨_, rfl⟩, hc⟩
  · decide
  · exact hu c hc

theorem skip_spaces {ws : Str} (h : ∀ c ∈ ws, isSpace c = true) (s : Str) : skip (ws ++ s) = skip s := by
  induction ws with
  | nil => rfl
  | cons c ws ih =>
    have h1 : skip (c :: (ws ++ s)) = skip (ws ++ s) := by
      unfold skip
      rw [List.dropWhile_cons_of_pos (h c (by simp))]
    rw [List.cons_append, h1, ih fun x hx => h x (by simp [hx])]

theorem value_spaces {ws : Str} (h : ∀ c ∈ ws, isSpace c = true) (n : Nat) (s : Str) :
    value n (ws ++ s) = value n s := by
  cases n with
  | zero => simp only [value]
  | succ n => simp only [value, skip_spaces h]

theorem elems_spaces {ws : Str} (h : ∀ c ∈ ws, isSpace c = true) (n : Nat) (s : Str) :
    elems n (ws ++ s) = elems n s := by
  cases n with
  | zero => simp only [elems]
  | succ n => simp only [elems, value_spaces h]

theorem members_spaces {ws : Str} (h : ∀ c ∈ ws, isSpace c = true) (n : Nat) (s : Str) :
    members n (ws ++ s) = members n s := by
  cases n with
  | zero => simp only [members]
  | succ n => simp only [members, skip_spaces h]

theorem prettyElems_pos (u : Str) (d : Nat) (l : List Json) : 0 < (prettyElems u d l).length := by
  cases l <;> simp [prettyElems]

theorem prettyMembers_pos (u : Str) (d : Nat) (l : List (Str × Json)) : 0 < (prettyMembers u d l).length := by
  cases l with
  | nil => simp [prettyMembers]
  | cons e l => obtain ⟨k, j⟩ := e; simp [prettyMembers]

theorem stops_newline (u : Str) (d : Nat) (s : Str) : Stops (newline u d ++ s) := by
  intro c t h
  simp only [newline, List.cons_append, List.cons.injEq] at h
  rw [← h.1]
  decide

theorem stops_prettyElems (u : Str) (d : Nat) (l : List Json) (r : Str) : Stops (prettyElems u d l ++ r) := by
  cases l with
  | nil => simp only [prettyElems, List.append_assoc]; exact stops_newline u d _
  | cons j l =>
    intro c t h
    simp only [prettyElems, List.cons_append, List.cons.injEq] at h
    rw [← h.1]
    decide

theorem stops_prettyMembers (u : Str) (d : Nat) (l : List (Str × Json)) (r : Str) :
    Stops (prettyMembers u d l ++ r) := by
  cases l with
  | nil => simp only [prettyMembers, List.append_assoc]; exact stops_newline u d _
  | cons e l =>
    obtain ⟨k, j⟩ := e
    intro c t h
    simp only [prettyMembers, List.cons_append, List.cons.injEq] at h
    rw [← h.1]
    decide

theorem pretty_head (u : Str) (d : Nat) (j : Json) (h : Ints j) : ∃ c s, pretty u d j = c :: s ∧
    isSpace c = false ∧ c ≠ 93 := by
  cases j with
  | null => exact ⟨_, _, by rw [pretty, print], by decide, by decide⟩
  | bool b => cases b <;> exact ⟨_, _, by rw [pretty, print], by decide, by decide⟩
  | num t =>
    obtain ⟨c, s, h1, h2, h3, _⟩ := print_head (.num t) h
    exact ⟨c, s, by rw [pretty]; exact h1, h2, h3⟩
  | str s =>
    obtain ⟨c, t, h1, h2, h3, _⟩ := print_head (.str s) h
    exact ⟨c, t, by rw [pretty]; exact h1, h2, h3⟩
  | arr l =>
    cases l with
    | nil => exact ⟨_, _, by rw [pretty], by decide, by decide⟩
    | cons j l => exact ⟨_, _, by rw [pretty], by decide, by decide⟩
  | obj l =>
    cases l with
    | nil => exact ⟨_, _, by rw [pretty], by decide, by decide⟩
    | cons e l => obtain ⟨k, j⟩ := e; exact ⟨_, _, by rw [pretty], by decide, by decide⟩

mutual
theorem value_pretty (u : Str) (hu : ∀ c ∈ u, isSpace c = true) : ∀ (d : Nat) (j : Json) (n : Nat) (r : Str), Ints j →
    (pretty u d j).length < n → Stops r → value n (pretty u d j ++ r) = some (sane j, r)
  | d, j, 0, r, _, hn, _ => absurd hn (Nat.not_lt_zero _)
  | d, .null, n + 1, r, h, hn, hr => by rw [pretty] at hn ⊢; exact value_print .null (n + 1) r h hn hr
  | d, .bool true, n + 1, r, h, hn, hr => by rw [pretty] at hn ⊢; exact value_print (.bool true) (n + 1) r h hn hr
  | d, .bool false, n + 1, r, h, hn, hr => by rw [pretty] at hn ⊢; exact value_print (.bool false) (n + 1) r h hn hr
  | d, .num t, n + 1, r, h, hn, hr => by rw [pretty] at hn ⊢; exact value_print (.num t) (n + 1) r h hn hr
  | d, .str s, n + 1, r, h, hn, hr => by rw [pretty] at hn ⊢; exact value_print (.str s) (n + 1) r h hn hr
  | d, .arr [], n + 1, r, h, hn, hr => by
    have := value_print (.arr []) (n + 1) r h (by rw [pretty] at hn; rw [print]; exact hn) hr
    rw [print] at this
    rw [pretty]
    exact this
  | d, .arr (j :: l), n + 1, r, h, hn, hr => by
    have hp := prettyElems_pos u d l
    simp only [pretty, List.length_cons, List.length_append] at hn
    simp only [Ints, IntsElems] at h
    rw [pretty]
    simp only [List.cons_append, List.append_assoc]
    rw [value, skip_cons (by decide)]
    simp only
    rw [skip_spaces (newline_space u hu _)]
    obtain ⟨c, s, h1, h2, h3⟩ := pretty_head u (d + 1) j h.1
    have he := elems_pretty u hu d j l n r h.1 h.2 (by omega) hr
    rw [h1] at he ⊢
    simp only [List.cons_append] at he ⊢
    rw [skip_cons h2]
    split
    · rename_i heq; injection heq with heq; exact absurd heq h3
    · rw [he]
      simp only [Option.map_some, sane, saneElems]
  | d, .obj [], n + 1, r, h, hn, hr => by
    have := value_print (.obj []) (n + 1) r h (by rw [pretty] at hn; rw [print]; exact hn) hr
    rw [print] at this
    rw [pretty]
    exact this
  | d, .obj ((k, j) :: l), n + 1, r, h, hn, hr => by
    simp only [pretty, List.length_cons, List.length_append] at hn
    simp only [Ints, IntsMembers] at h
    have he := members_pretty u hu d k j l n r h.1 h.2 (by omega) hr
    rw [pretty]
    simp only [List.cons_append, List.append_assoc]
    rw [value, skip_cons (by decide)]
    simp only
    rw [skip_spaces (newline_space u hu _)]
    have hq : quote k ++ 58 :: 32 :: (pretty u (d + 1) j ++ (prettyMembers u d l ++ r)) =
        34 :: (((Utf8.chunks k).flatMap quoteChunk ++ [34]) ++
          58 :: 32 :: (pretty u (d + 1) j ++ (prettyMembers u d l ++ r))) := by
      rw [quote]; rfl
    rw [hq] at he ⊢
    rw [skip_cons (by decide)]
    split
    · rename_i heq; injection heq with heq; exact absurd heq (by decide)
    · rw [he]
      simp only [Option.map_some, sane, saneMembers]

theorem elems_pretty (u : Str) (hu : ∀ c ∈ u, isSpace c = true) : ∀ (d : Nat) (j : Json) (l : List Json) (n : Nat)
    (r : Str), Ints j → IntsElems l → (pretty u (d + 1) j).length + (prettyElems u d l).length < n → Stops r →
    elems n (pretty u (d + 1) j ++ (prettyElems u d l ++ r)) = some (sane j :: saneElems l, r)
  | d, j, l, 0, r, _, _, hn, _ => absurd hn (Nat.not_lt_zero _)
  | d, j, [], n + 1, r, hj, hl, hn, hr => by
    have hp := prettyElems_pos u d []
    rw [elems, value_pretty u hu (d + 1) j n (prettyElems u d [] ++ r) hj (by omega) (stops_prettyElems u d [] r)]
    simp only [prettyElems, List.append_assoc, List.cons_append, List.nil_append]
    rw [skip_spaces (newline_space u hu _), skip_cons (by decide)]
    simp only [saneElems]
  | d, j, j' :: l, n + 1, r, hj, hl, hn, hr => by
    simp only [IntsElems] at hl
    have hp := prettyElems_pos u d (j' :: l)
    rw [elems, value_pretty u hu (d + 1) j n (prettyElems u d (j' :: l) ++ r) hj (by omega)
      (stops_prettyElems u d (j' :: l) r)]
    simp only [prettyElems, List.length_cons, List.length_append] at hn
    simp only [prettyElems, List.cons_append, List.append_assoc]
    rw [skip_cons (by decide)]
    simp only
    rw [elems_spaces (newline_space u hu _), elems_pretty u hu d j' l n r hl.1 hl.2 (by omega) hr]
    simp only [Option.map_some, saneElems]

theorem members_pretty (u : Str) (hu : ∀ c ∈ u, isSpace c = true) : ∀ (d : Nat) (k : Str) (j : Json)
    (l : List (Str × Json)) (n : Nat) (r : Str), Ints j → IntsMembers l →
    (quote k).length + ((pretty u (d + 1) j).length + (prettyMembers u d l).length + 1) < n + 1 → Stops r →
    members n (quote k ++ 58 :: 32 :: (pretty u (d + 1) j ++ (prettyMembers u d l ++ r))) =
      some ((Utf8.sane k, sane j) :: saneMembers l, r)
  | d, k, j, l, 0, r, _, _, hn, _ => by have := quote_pos k; omega
  | d, k, j, [], n + 1, r, hj, hl, hn, hr => by
    have hp := prettyMembers_pos u d []
    have hq := quote_pos k
    obtain ⟨t, h1, h2⟩ := strBody_quote k (58 :: 32 :: (pretty u (d + 1) j ++ (prettyMembers u d [] ++ r)))
    rw [members, h1, skip_cons (by decide)]
    simp only [h2]
    rw [skip_cons (by decide)]
    simp only
    have hsp := value_spaces (ws := [32]) (by decide) n (pretty u (d + 1) j ++ (prettyMembers u d [] ++ r))
    simp only [List.cons_append, List.nil_append] at hsp
    rw [hsp, value_pretty u hu (d + 1) j n (prettyMembers u d [] ++ r) hj (by omega) (stops_prettyMembers u d [] r)]
    simp only [prettyMembers, List.append_assoc, List.cons_append, List.nil_append]
    rw [skip_spaces (newline_space u hu _), skip_cons (by decide)]
    simp only [saneMembers]
  | d, k, j, (k', j') :: l, n + 1, r, hj, hl, hn, hr => by
    simp only [IntsMembers] at hl
    have hp := prettyMembers_pos u d ((k', j') :: l)
    have hq := quote_pos k
    obtain ⟨t, h1, h2⟩ := strBody_quote k (58 :: 32 :: (pretty u (d + 1) j ++ (prettyMembers u d ((k', j') :: l) ++ r)))
    rw [members, h1, skip_cons (by decide)]
    simp only [h2]
    rw [skip_cons (by decide)]
    simp only
    have hsp := value_spaces (ws := [32]) (by decide) n (pretty u (d + 1) j ++ (prettyMembers u d ((k', j') :: l) ++ r))
    simp only [List.cons_append, List.nil_append] at hsp
    rw [hsp, value_pretty u hu (d + 1) j n (prettyMembers u d ((k', j') :: l) ++ r) hj (by omega)
      (stops_prettyMembers u d ((k', j') :: l) r)]
    simp only [prettyMembers, List.length_cons, List.length_append] at hn
    simp only [prettyMembers, List.cons_append, List.append_assoc]
    rw [skip_cons (by decide)]
    simp only
    rw [members_spaces (newline_space u hu _), members_pretty u hu d k' j' l n r hl.1 hl.2 (by omega) hr]
    simp only [Option.map_some, saneMembers]
end

/-- Reading an indented text, followed by white space, gives the value, with invalid bytes in strings replaced. -/
theorem parse_pretty {u ws : Str} (hu : ∀ c ∈ u, isSpace c = true) (hws : ∀ c ∈ ws, isSpace c = true) {j : Json}
    (h : Ints j) : parse (pretty u 0 j ++ ws) = some (sane j) := by
  have hs : Stops ws := by
    intro c s he
    have : isSpace c = true := hws c (by rw [he]; simp)
    simp only [isSpace, Bool.or_eq_true, decide_eq_true_eq] at this
    rcases this with ((rfl | rfl) | rfl) | rfl <;> decide
  have := value_pretty u hu 0 j ((pretty u 0 j ++ ws).length + 1) ws h (by simp; omega) hs
  unfold parse
  rw [this]
  have hsk : skip ws = [] := by
    have := skip_spaces hws []
    simpa [skip] using this
  simp [hsk]

end Json
end Verif
