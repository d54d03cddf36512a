import Verif.Go.Hex

/-!
`strconv.Unquote` (Go standard library), used by parser/source.go:69 to evaluate string literals.

Simplification: bytes from 0x80 up are copied one by one.  The library decodes and re-encodes UTF-8,
which changes nothing in a Go source file (the scanner rejects files that are not UTF-8).
-/

namespace Verif
namespace Unquote

/-- `"` -/
abbrev dquote : UInt8 := 34
/-- `'` -/
abbrev squote : UInt8 := 39
/-- the back quote -/
abbrev bquote : UInt8 := 96
/-- carriage return -/
abbrev cr : UInt8 := 13

/-- `utf8.EncodeRune`: surrogates and numbers above 0x10FFFF become U+FFFD. -/
def encodeRune (v : Nat) : Str :=
  if v < 0x80 then [UInt8.ofNat v]
  else if v < 0x800 then [UInt8.ofNat (0xC0 + v / 0x40), UInt8.ofNat (0x80 + v % 0x40)]
  else if 0xD800 ≤ v ∧ v < 0xE000 ∨ 0x110000 ≤ v then [0xEF, 0xBF, 0xBD]
  else if v < 0x10000 then
    [UInt8.ofNat (0xE0 + v / 0x1000), UInt8.ofNat (0x80 + v / 0x40 % 0x40), UInt8.ofNat (0x80 + v % 0x40)]
  else
    [UInt8.ofNat (0xF0 + v / 0x40000), UInt8.ofNat (0x80 + v / 0x1000 % 0x40),
      UInt8.ofNat (0x80 + v / 0x40 % 0x40), UInt8.ofNat (0x80 + v % 0x40)]

/-- The number written by hex digits, most significant first. -/
def hexNumber : Nat → Str → Option Nat
  | acc, [] => some acc
  | acc, c :: cs =>
    match Hex.fromChar c with
    | some d => hexNumber (acc * 16 + d) cs
    | none => none

/-- The value of an octal digit. -/
def octDigit (c : UInt8) : Option Nat := if 48 ≤ c ∧ c ≤ 55 then some (c.toNat - 48) else none

/-- The byte a one-character escape stands for (quotes excepted). -/
def simpleEscape (c : UInt8) : Option UInt8 :=
  if c = 97 then some 7 else if c = 98 then some 8 else if c = 102 then some 12
  else if c = 110 then some 10 else if c = 114 then some 13 else if c = 116 then some 9
  else if c = 118 then some 11 else if c = 92 then some 92 else none

/-- `\x`, `\u` or `\U` with `n` hex digits. -/
def hexEscape (n : Nat) (enc : Nat → Option Str) (s : Str) : Except Err (Str × Str) :=
  if s.length < n then .error .syntax
  else
    match hexNumber 0 (s.take n) with
    | none => .error .syntax
    | some v =>
      match enc v with
      | none => .error .syntax
      | some out => .ok (out, s.drop n)

/-- A rune escape is limited to 0x10FFFF. -/
def runeOut (v : Nat) : Option Str := if v < 0x110000 then some (encodeRune v) else none

/-- `UnquoteChar(s, quote)` on a non-empty string: the bytes the first character or escape stands for, and the
rest. -/
def char (quote : UInt8) : Str → Except Err (Str × Str)
  | [] => .error .syntax
  | c :: s =>
    if c = quote then .error .syntax
    else if c ≠ Str.backslash then .ok ([c], s)
    else
      match s with
      | [] => .error .syntax
      | e :: s =>
        if e = 120 then hexEscape 2 (fun v => some [UInt8.ofNat v]) s
        else if e = 117 then hexEscape 4 runeOut s
        else if e = 85 then hexEscape 8 runeOut s
        else if e = squote ∨ e = dquote then (if e = quote then .ok ([e], s) else .error .syntax)
        else
          match simpleEscape e, octDigit e with
          | some b, _ => .ok ([b], s)
          | none, none => .error .syntax
          | none, some x =>
            match s with
            | y :: z :: s =>
              match octDigit y, octDigit z with
              | some y, some z =>
                if x * 64 + y * 8 + z < 256 then .ok ([UInt8.ofNat (x * 64 + y * 8 + z)], s) else .error .syntax
              | _, _ => .error .syntax
            | _ => .error .syntax

theorem hexEscape_shorter {n : Nat} {enc : Nat → Option Str} {s out rest : Str}
    (h : hexEscape n enc s = .ok (out, rest)) : rest.length ≤ s.length := by
  unfold hexEscape at h
  split at h
  · cases h
  · split at h
    · cases h
    · split at h
      · cases h
      · cases h; simp

theorem char_shorter {quote : UInt8} {s out rest : Str} (h : char quote s = .ok (out, rest)) :
    rest.length < s.length := by
  unfold char at h
  split at h
  · cases h
  · rename_i c s
    split at h
    · cases h
    · split at h
      · cases h; simp
      · split at h
        · cases h
        · rename_i e s
          simp only [List.length_cons]
          split at h
          · have := hexEscape_shorter h; omega
          · split at h
            · have := hexEscape_shorter h; omega
            · split at h
              · have := hexEscape_shorter h; omega
              · split at h
                · split at h
                  · cases h; omega
                  · cases h
                · split at h
                  · cases h; omega
                  · cases h
                  · split at h
                    · split at h
                      · split at h
                        · cases h; simp; omega
                        · cases h
                      · cases h
                    · cases h

/-- The loop of `Unquote` over a double-quoted body. -/
def body (quote : UInt8) (s : Str) : Except Err Str :=
  if s = [] then .ok []
  else
    match h : char quote s with
    | .error e => .error e
    | .ok (out, rest) =>
      match body quote rest with
      | .error e => .error e
      | .ok t => .ok (out ++ t)
termination_by s.length
decreasing_by exact char_shorter h

/-- A quoted text is at least two bytes long and starts and ends with the same byte; the bytes between. -/
def inner : Str → Option (UInt8 × Str)
  | [] => none
  | q :: s => if s.getLast? = some q then some (q, s.dropLast) else none

/-- `strconv.Unquote(s)`. -/
def unquote (s : Str) : Except Err Str :=
  match inner s with
  | none => .error .syntax
  | some (q, t) =>
    if q = bquote then
      if bquote ∈ t then .error .syntax else .ok (t.filter (· ≠ cr))
    else if q = dquote then
      if Str.newline ∈ t then .error .syntax else body dquote t
    else if q = squote then
      if Str.newline ∈ t then .error .syntax
      else
        match char squote t with
        | .error e => .error e
        | .ok (out, []) => .ok out
        | .ok (c, rest) =>
          -- one multi-byte character is several bytes here
          if rest.all (fun b => 0x80 ≤ b ∧ b < 0xC0) ∧ c.all (fun b => 0xC0 ≤ b) then .ok (c ++ rest) else .error .syntax
    else .error .syntax

end Unquote
end Verif
