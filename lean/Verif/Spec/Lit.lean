import Verif.Go.Bytes

/-! Go string literals (The Go Programming Language Specification, "String literals" and "Rune literals"). -/

namespace Verif
namespace Spec

/-- The value of a hex digit. -/
inductive HexDigit : UInt8 → Nat → Prop where
  | digit (c : UInt8) : 48 ≤ c → c ≤ 57 → HexDigit c (c.toNat - 48)
  | lower (c : UInt8) : 97 ≤ c → c ≤ 102 → HexDigit c (c.toNat - 87)
  | upper (c : UInt8) : 65 ≤ c → c ≤ 70 → HexDigit c (c.toNat - 55)

/-- The number written by a sequence of hex digits, the last being the least significant. -/
inductive HexNumber : Str → Nat → Prop where
  | nil : HexNumber [] 0
  | snoc {s n c d} : HexNumber s n → HexDigit c d → HexNumber (s ++ [c]) (16 * n + d)

/-- One-letter escapes and what they stand for. -/
def letterEscapes : List (UInt8 × UInt8) :=
  [(97, 7), (98, 8), (102, 12), (110, 10), (114, 13), (116, 9), (118, 11), (92, 92), (34, 34)]

/-- One item between double quotes, and the bytes it stands for.  Surrogates are not allowed in Go programs;
`strconv.Unquote` accepts them as U+FFFD. -/
inductive Item : Str → Str → Prop where
  | plain (c : UInt8) : c ≠ 34 → c ≠ 92 → c ≠ 10 → Item [c] [c]
  | letter {e b} : (e, b) ∈ letterEscapes → Item [92, e] [b]
  | octal {x y z : Nat} : x < 8 → y < 8 → z < 8 → 64 * x + 8 * y + z < 256 →
      Item [92, UInt8.ofNat (48 + x), UInt8.ofNat (48 + y), UInt8.ofNat (48 + z)] [UInt8.ofNat (64 * x + 8 * y + z)]
  | hex {ds n} : ds.length = 2 → HexNumber ds n → Item (92 :: 120 :: ds) [UInt8.ofNat n]
  | rune {ds n} : HexNumber ds n → n.isValidChar → (u : UInt8) → (u = 117 ∧ ds.length = 4 ∨ u = 85 ∧ ds.length = 8) →
      Item (92 :: u :: ds) (String.utf8EncodeChar (Char.ofNat n))
  | surrogate {ds n} : HexNumber ds n → 0xD800 ≤ n → n < 0xE000 → (u : UInt8) →
      (u = 117 ∧ ds.length = 4 ∨ u = 85 ∧ ds.length = 8) → Item (92 :: u :: ds) [0xEF, 0xBF, 0xBD]

/-- A sequence of items. -/
inductive Items : Str → Str → Prop where
  | nil : Items [] []
  | cons {a b s t} : Item a b → Items s t → Items (a ++ s) (b ++ t)

/-- `GoString text v`: `text` is a Go string literal with value `v`. -/
inductive GoString : Str → Str → Prop where
  | raw {s} : 96 ∉ s → GoString (96 :: s ++ [96]) (s.filter (· ≠ 13))
  | interpreted {s v} : Items s v → GoString (34 :: s ++ [34]) v

end Spec
end Verif
