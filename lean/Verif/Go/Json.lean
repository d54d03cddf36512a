import Verif.Go.Utf8
import Verif.Go.Unquote

/-!
`encoding/json` (Go 1.13 standard library), the text level: writing and reading JSON values.

Simplification: numbers are kept as the text they are written with.
-/

namespace Verif

/-- A JSON value.  Numbers are kept as text; members of an object keep their order and may repeat. -/
inductive Json where
  | null
  | bool (b : Bool)
  | num (text : Str)
  | str (s : Str)
  | arr (l : List Json)
  | obj (l : List (Str × Json))

namespace Json

open Utf8 (Chunk)

/-- Four hexadecimal digits. -/
def hex4 (n : Nat) : Str :=
  [Hex.digit (n / 4096 % 16), Hex.digit (n / 256 % 16), Hex.digit (n / 16 % 16), Hex.digit (n % 16)]

/-- `\uXXXX` -/
def escU (n : Nat) : Str := Str.backslash :: 117 :: hex4 n

/-- One character of a string, as `encodeState.string` writes it with HTML escaping (the default of `json.Marshal`):
quote, backslash, control characters, `<`, `>`, `&`, U+2028, U+2029 and invalid bytes are escaped. -/
def quoteChunk : Chunk → Str
  | .plain b =>
    if b = 34 ∨ b = 92 then [Str.backslash, b]
    else if b = 10 then [Str.backslash, 110]
    else if b = 13 then [Str.backslash, 114]
    else if b = 9 then [Str.backslash, 116]
    else if b < 0x20 ∨ b = 60 ∨ b = 62 ∨ b = 38 then escU b.toNat
    else [b]
  | .multi bs =>
    if bs = [0xE2, 0x80, 0xA8] then escU 0x2028
    else if bs = [0xE2, 0x80, 0xA9] then escU 0x2029
    else bs
  | .bad => escU 0xFFFD

/-- A string between quotes. -/
def quote (s : Str) : Str := 34 :: ((Utf8.chunks s).flatMap quoteChunk ++ [34])

mutual
/-- `json.Marshal` without indentation. -/
def print : Json → Str
  | .null => b! "null"
  | .bool true => b! "true"
  | .bool false => b! "false"
  | .num t => t
  | .str s => quote s
  | .arr [] => b! "[]"
  | .arr (j :: l) => 91 :: (print j ++ printElems l)
  | .obj [] => b! "{}"
  | .obj ((k, j) :: l) => 123 :: (quote k ++ 58 :: (print j ++ printMembers l))

/-- The elements after the first, up to the closing bracket. -/
def printElems : List Json → Str
  | [] => [93]
  | j :: l => 44 :: (print j ++ printElems l)

/-- The members after the first, up to the closing brace. -/
def printMembers : List (Str × Json) → Str
  | [] => [125]
  | (k, j) :: l => 44 :: (quote k ++ 58 :: (print j ++ printMembers l))
end

/-! ### Reading -/

/-- `isSpace` of the scanner. -/
def isSpace (c : UInt8) : Bool := c = 32 || c = 9 || c = 10 || c = 13

/-- Skip white space. -/
def skip (s : Str) : Str := s.dropWhile isSpace

/-- Four hexadecimal digits at the start of a string (`getu4`). -/
def takeHex4 : Str → Option (Nat × Str)
  | a :: b :: c :: d :: s =>
    match Unquote.hexNumber 0 [a, b, c, d] with
    | some n => some (n, s)
    | none => none
  | _ => none

/-- The character an escape after `\u` stands for: a surrogate pair needs a second escape, a lone surrogate is
replaced. -/
def unicode (n : Nat) (s : Str) : Str × Str :=
  if 0xD800 ≤ n ∧ n < 0xE000 then
    match s with
    | 92 :: 117 :: s' =>
      match takeHex4 s' with
      | some (m, s'') =>
        if n < 0xDC00 ∧ 0xDC00 ≤ m ∧ m < 0xE000 then
          (Unquote.encodeRune ((n - 0xD800) * 1024 + (m - 0xDC00) + 0x10000), s'')
        else (Utf8.replacement, s)
      | none => (Utf8.replacement, s)
    | _ => (Utf8.replacement, s)
  else (Unquote.encodeRune n, s)

/-- The escape after a backslash: the bytes it stands for and what follows. -/
def escape : Str → Option (Str × Str)
  | [] => none
  | e :: s =>
    if e = 34 ∨ e = 92 ∨ e = 47 then some ([e], s)
    else if e = 98 then some ([8], s)
    else if e = 102 then some ([12], s)
    else if e = 110 then some ([10], s)
    else if e = 114 then some ([13], s)
    else if e = 116 then some ([9], s)
    else if e = 117 then
      match takeHex4 s with
      | some (n, s') => some (unicode n s')
      | none => none
    else none

theorem takeHex4_shorter {s s' : Str} {n : Nat} (h : takeHex4 s = some (n, s')) : s'.length < s.length := by
  unfold takeHex4 at h
  split at h
  · split at h
    · cases h; simp; omega
    · cases h
  · cases h

theorem unicode_shorter (n : Nat) (s : Str) : (unicode n s).2.length ≤ s.length := by
  unfold unicode
  split
  · split
    · split
      · rename_i h
        have := takeHex4_shorter h
        split
        · simp; omega
        · simp
      · simp
    · simp
  · simp

theorem escape_shorter {s out rest : Str} (h : escape s = some (out, rest)) : rest.length < s.length := by
  unfold escape at h
  split at h
  · cases h
  · rename_i e s
    split at h
    · cases h; simp
    · split at h
      · cases h; simp
      · split at h
        · cases h; simp
        · split at h
          · cases h; simp
          · split at h
            · cases h; simp
            · split at h
              · cases h; simp
              · split at h
                · split at h
                  · rename_i n s' hs
                    have h1 := takeHex4_shorter hs
                    have h2 := unicode_shorter n s'
                    injection h with h
                    rw [h] at h2
                    simp only [List.length_cons]
                    simp only at h2
                    omega
                  · cases h
                · cases h

/-- A string after its opening quote: its value and what follows the closing quote.  Raw control characters are
rejected, invalid bytes are replaced. -/
def strBody (s : Str) : Option (Str × Str) :=
  match s with
  | [] => none
  | c :: s =>
    if c = 34 then some ([], s)
    else if c < 0x20 then none
    else if c = 92 then
      match h : escape s with
      | none => none
      | some (out, rest) =>
        have := escape_shorter h
        match strBody rest with
        | none => none
        | some (v, r) => some (out ++ v, r)
    else
      have := Utf8.next_shorter c s
      match strBody (Utf8.next c s).2 with
      | none => none
      | some (v, r) => some ((Utf8.next c s).1.out ++ v, r)
termination_by s.length
decreasing_by
  · simp; omega
  · simp; omega

/-- A decimal digit. -/
def isDigit (c : UInt8) : Bool := 48 ≤ c && c ≤ 57

/-- One or more digits. -/
def digits (s : Str) : Option (Str × Str) :=
  let d := s.takeWhile isDigit
  if d = [] then none else some (d, s.drop d.length)

/-- The integer part: `0`, or digits not starting with `0`. -/
def intPart : Str → Option (Str × Str)
  | 48 :: s => some ([48], s)
  | s => digits s

/-- The fraction, if there is one. -/
def fracPart : Str → Option (Str × Str)
  | 46 :: s => (digits s).map fun (d, r) => (46 :: d, r)
  | s => some ([], s)

/-- The exponent, if there is one. -/
def expPart : Str → Option (Str × Str)
  | e :: s =>
    if e = 101 ∨ e = 69 then
      match s with
      | g :: s' =>
        if g = 43 ∨ g = 45 then (digits s').map fun (d, r) => (e :: g :: d, r)
        else (digits s).map fun (d, r) => (e :: d, r)
      | [] => none
    else some ([], e :: s)
  | [] => some ([], [])

/-- A number without its sign. -/
def unsigned (s : Str) : Option (Str × Str) :=
  match intPart s with
  | none => none
  | some (i, s1) =>
    match fracPart s1 with
    | none => none
    | some (f, s2) =>
      match expPart s2 with
      | none => none
      | some (e, s3) => some (i ++ f ++ e, s3)

/-- A number. -/
def number : Str → Option (Str × Str)
  | 45 :: s => (unsigned s).map fun (t, r) => (45 :: t, r)
  | s => unsigned s

/-- A value that is neither a string, nor an array, nor an object. -/
def scalar (s : Str) : Option (Json × Str) :=
  if (b! "null").isPrefixOf s then some (.null, s.drop 4)
  else if (b! "true").isPrefixOf s then some (.bool true, s.drop 4)
  else if (b! "false").isPrefixOf s then some (.bool false, s.drop 5)
  else (number s).map fun (t, r) => (.num t, r)

mutual
/-- A value at the start of a text (after white space), and what follows.  Each call uses one unit of fuel; more
units than the text has bytes suffice. -/
def value : Nat → Str → Option (Json × Str)
  | 0, _ => none
  | n + 1, s =>
    match skip s with
    | 34 :: s => (strBody s).map fun (v, r) => (.str v, r)
    | 91 :: s =>
      match skip s with
      | 93 :: s => some (.arr [], s)
      | s => (elems n s).map fun (l, r) => (.arr l, r)
    | 123 :: s =>
      match skip s with
      | 125 :: s => some (.obj [], s)
      | s => (members n s).map fun (l, r) => (.obj l, r)
    | s => scalar s

/-- The elements of an array up to the closing bracket. -/
def elems : Nat → Str → Option (List Json × Str)
  | 0, _ => none
  | n + 1, s =>
    match value n s with
    | none => none
    | some (j, s) =>
      match skip s with
      | 44 :: s => (elems n s).map fun (l, r) => (j :: l, r)
      | 93 :: s => some ([j], s)
      | _ => none

/-- The members of an object up to the closing brace. -/
def members : Nat → Str → Option (List (Str × Json) × Str)
  | 0, _ => none
  | n + 1, s =>
    match skip s with
    | 34 :: s =>
      match strBody s with
      | none => none
      | some (k, s) =>
        match skip s with
        | 58 :: s =>
          match value n s with
          | none => none
          | some (j, s) =>
            match skip s with
            | 44 :: s => (members n s).map fun (l, r) => ((k, j) :: l, r)
            | 125 :: s => some ([(k, j)], s)
            | _ => none
        | _ => none
    | _ => none
end

/-- Reading a complete text: one value, and nothing but white space after it. -/
def parse (s : Str) : Option Json :=
  match value (s.length + 1) s with
  | some (j, r) => if skip r = [] then some j else none
  | none => none

end Json
end Verif
