import Verif.Go.Bytes

/-! `unicode/utf8` (Go standard library): cutting a byte string into characters. -/

namespace Verif
namespace Utf8

/-- A continuation byte. -/
def cont (b : UInt8) : Bool := 0x80 ≤ b && b < 0xC0

/-- How many bytes follow the first byte of a multi-byte character; 0 if it cannot start one. -/
def need (c : UInt8) : Nat :=
  if 0xC2 ≤ c ∧ c < 0xE0 then 1 else if 0xE0 ≤ c ∧ c < 0xF0 then 2 else if 0xF0 ≤ c ∧ c < 0xF5 then 3 else 0

/-- The bytes allowed second: no overlong forms, no surrogates, nothing above U+10FFFF. -/
def second (c b : UInt8) : Bool :=
  if c = 0xE0 then 0xA0 ≤ b && b < 0xC0
  else if c = 0xED then 0x80 ≤ b && b < 0xA0
  else if c = 0xF0 then 0x90 ≤ b && b < 0xC0
  else if c = 0xF4 then 0x80 ≤ b && b < 0x90
  else cont b

/-- The multi-byte character starting with `c`, and what follows it. -/
def seq (c : UInt8) (s : Str) : Option (Str × Str) :=
  match need c with
  | 1 =>
    match s with
    | b :: s => if second c b then some ([c, b], s) else none
    | _ => none
  | 2 =>
    match s with
    | b :: d :: s => if second c b && cont d then some ([c, b, d], s) else none
    | _ => none
  | 3 =>
    match s with
    | b :: d :: e :: s => if second c b && cont d && cont e then some ([c, b, d, e], s) else none
    | _ => none
  | _ => none

/-- What `utf8.DecodeRune` finds at the start of a string. -/
inductive Chunk where
  /-- a byte below 0x80 -/
  | plain (b : UInt8)
  /-- the bytes of a multi-byte character -/
  | multi (bs : Str)
  /-- a byte that is not part of a valid character -/
  | bad
deriving DecidableEq, Repr

/-- One step of `utf8.DecodeRune` on a non-empty string. -/
def next (c : UInt8) (s : Str) : Chunk × Str :=
  if c < 0x80 then (.plain c, s)
  else
    match seq c s with
    | some (bs, rest) => (.multi bs, rest)
    | none => (.bad, s)

theorem seq_append {c : UInt8} {s bs rest : Str} (h : seq c s = some (bs, rest)) :
    bs ++ rest = c :: s ∧ bs ≠ [] := by
  unfold seq at h
  split at h
  · split at h
    · split at h
      · cases h; simp
      · cases h
    · cases h
  · split at h
    · split at h
      · cases h; simp
      · cases h
    · cases h
  · split at h
    · split at h
      · cases h; simp
      · cases h
    · cases h
  · cases h

theorem next_shorter (c : UInt8) (s : Str) : (next c s).2.length ≤ s.length := by
  unfold next
  split
  · simp
  · split
    · rename_i bs rest h
      have h1 := (seq_append h).1
      have h2 := (seq_append h).2
      have := congrArg List.length h1
      simp only [List.length_append, List.length_cons] at this
      have : 0 < bs.length := List.length_pos_iff.mpr h2
      simp only
      omega
    · simp

/-- The characters of a string. -/
def chunks (s : Str) : List Chunk :=
  match s with
  | [] => []
  | c :: s =>
    have := next_shorter c s
    (next c s).1 :: chunks (next c s).2
termination_by s.length
decreasing_by simp; omega

/-- The replacement character U+FFFD. -/
def replacement : Str := [0xEF, 0xBF, 0xBD]

/-- The bytes of a character; invalid bytes are replaced. -/
def Chunk.out : Chunk → Str
  | .plain b => [b]
  | .multi bs => bs
  | .bad => replacement

/-- The string with every invalid byte replaced by U+FFFD (`strings.ToValidUTF8`, `[]rune` conversion and back). -/
def sane (s : Str) : Str := (chunks s).flatMap Chunk.out

/-- `utf8.ValidString(s)`. -/
def Valid (s : Str) : Prop := Chunk.bad ∉ chunks s

instance (s : Str) : Decidable (Valid s) := by unfold Valid; infer_instance

theorem chunks_cons (c : UInt8) (s : Str) : chunks (c :: s) = (next c s).1 :: chunks (next c s).2 := by
  rw [chunks]

theorem chunks_nil : chunks [] = [] := by rw [chunks]

/-- The characters of a string make up the string, if none is invalid. -/
theorem sane_of_valid (s : Str) (h : Valid s) : sane s = s := by
  unfold sane
  unfold Valid at h
  induction hn : s.length using Nat.strongRecOn generalizing s with
  | _ n ih =>
    cases s with
    | nil => simp [chunks_nil]
    | cons c s =>
      rw [chunks_cons] at h ⊢
      simp only [List.mem_cons, not_or] at h
      have hlen := next_shorter c s
      rw [List.flatMap_cons, ih _ (by simp only [List.length_cons] at hn; omega) (next c s).2 h.2 rfl]
      have h1 := h.1
      unfold next at h1 ⊢
      split
      · simp [Chunk.out]
      · rename_i hc
        split
        · rename_i bs rest hs
          simpa [Chunk.out] using (seq_append hs).1
        · rename_i hs
          simp [hc, hs] at h1

/-- A complete multi-byte character is found again in front of any other text. -/
theorem seq_found {c : UInt8} {s bs rest : Str} (h : seq c s = some (bs, rest)) (t : Str) :
    ∃ tl, bs = c :: tl ∧ seq c (tl ++ t) = some (bs, t) := by
  unfold seq at h ⊢
  split at h
  · rename_i hn
    split at h
    · rename_i b s'
      split at h
      · rename_i hc
        cases h
        exact ⟨[b], rfl, by simp [hc]⟩
      · cases h
    · cases h
  · rename_i hn
    split at h
    · rename_i b d s'
      split at h
      · rename_i hc
        cases h
        refine ⟨[b, d], rfl, ?_⟩
        simp only [List.cons_append, List.nil_append, hc, if_true]
      · cases h
    · cases h
  · rename_i hn
    split at h
    · rename_i b d e s'
      split at h
      · rename_i hc
        cases h
        refine ⟨[b, d, e], rfl, ?_⟩
        simp only [List.cons_append, List.nil_append, hc, if_true]
      · cases h
    · cases h
  · cases h

/-- The characters that can occur in a string. -/
def Chunk.Real : Chunk → Prop
  | .plain b => b < 0x80
  | .multi bs => ∃ c tl, bs = c :: tl ∧ ¬ c < 0x80 ∧ ∀ t, seq c (tl ++ t) = some (bs, t)
  | .bad => True

theorem next_real (c : UInt8) (s : Str) : (next c s).1.Real := by
  unfold next
  split
  · rename_i h; exact h
  · rename_i hc
    split
    · rename_i bs rest h
      obtain ⟨tl, h1, _⟩ := seq_found h []
      refine ⟨c, tl, h1, hc, ?_⟩
      intro t
      obtain ⟨tl', h2, h3⟩ := seq_found h t
      rw [h1] at h2
      injection h2 with _ h2
      rw [h2]
      exact h3
    · trivial

theorem chunks_real (s : Str) : ∀ k ∈ chunks s, k.Real := by
  induction hn : s.length using Nat.strongRecOn generalizing s with
  | _ n ih =>
    cases s with
    | nil => simp [chunks_nil]
    | cons c s =>
      rw [chunks_cons]
      intro k hk
      rcases List.mem_cons.mp hk with rfl | hk
      · exact next_real c s
      · have hlen := next_shorter c s
        exact ih _ (by simp only [List.length_cons] at hn; omega) (next c s).2 rfl k hk

/-- Valid text followed by valid text is valid. -/
theorem valid_append {a b : Str} (ha : Valid a) (hb : Valid b) : Valid (a ++ b) := by
  generalize hn : a.length = n
  induction n using Nat.strongRecOn generalizing a with
  | _ n ih =>
    cases a with
    | nil => exact hb
    | cons c s =>
      unfold Valid at ha
      rw [chunks_cons] at ha
      simp only [List.mem_cons, not_or] at ha
      have hlen := next_shorter c s
      have hrec : Valid ((next c s).2 ++ b) :=
        ih _ (by simp only [List.length_cons] at hn; omega) (a := (next c s).2) ha.2 rfl
      unfold Valid at hrec ⊢
      rw [List.cons_append, chunks_cons]
      simp only [List.mem_cons, not_or]
      have key : (next c (s ++ b)).1 = (next c s).1 ∧ (next c (s ++ b)).2 = (next c s).2 ++ b := by
        by_cases hc : c < 0x80
        · simp [next, hc]
        · cases hs : seq c s with
          | none =>
            exfalso
            apply ha.1
            simp [next, hc, hs]
          | some p =>
            obtain ⟨bs, rest⟩ := p
            obtain ⟨tl, h1, h2⟩ := seq_found hs (rest ++ b)
            have h3 := (seq_append hs).1
            rw [h1, List.cons_append] at h3
            injection h3 with _ h3
            rw [← List.append_assoc, h3] at h2
            simp [next, hc, hs, h2]
      rw [key.1, key.2]
      exact ⟨ha.1, hrec⟩

/-- Plain ASCII is valid. -/
theorem valid_ascii {s : Str} (h : ∀ b ∈ s, b < 0x80) : Valid s := by
  unfold Valid
  induction s with
  | nil => simp [chunks_nil]
  | cons c s ih =>
    have hc := h c (by simp)
    rw [chunks_cons]
    unfold next
    simp only [hc, if_true, List.mem_cons, reduceCtorEq, false_or]
    exact ih fun b hb => h b (by simp [hb])

end Utf8
end Verif
