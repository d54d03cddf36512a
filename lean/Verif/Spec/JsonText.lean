import Verif.Go.Bytes

/-!
The grammar of JSON (RFC 8259), on bytes, independent of the reader in `Go/Json.lean`.  Bytes from 0x80 on may stand in
strings in any order: Go's reader accepts texts that are not valid UTF-8.
-/

namespace Verif
namespace JsonText

/-- White space. -/
def Ws (u : Str) : Prop := ∀ c ∈ u, c = 32 ∨ c = 9 ∨ c = 10 ∨ c = 13

instance (u : Str) : Decidable (Ws u) := by unfold Ws; infer_instance

/-- One or more decimal digits. -/
def Digits (d : Str) : Prop := d ≠ [] ∧ ∀ c ∈ d, 48 ≤ c ∧ c ≤ 57

/-- `int`: zero, or digits that do not start with zero. -/
def IntPart (i : Str) : Prop := i = [48] ∨ Digits i ∧ i.head? ≠ some 48

/-- `frac`, or nothing. -/
def Frac (f : Str) : Prop := f = [] ∨ ∃ d, Digits d ∧ f = 46 :: d

/-- `exp`, or nothing. -/
def Exp (e : Str) : Prop :=
  e = [] ∨ ∃ c d, (c = 101 ∨ c = 69) ∧ Digits d ∧ (e = c :: d ∨ e = c :: 43 :: d ∨ e = c :: 45 :: d)

/-- `number` -/
def Number (t : Str) : Prop :=
  ∃ g i f e, t = g ++ (i ++ (f ++ e)) ∧ (g = [] ∨ g = [45]) ∧ IntPart i ∧ Frac f ∧ Exp e

/-- A hexadecimal digit. -/
def HexDigit (c : UInt8) : Prop := (48 ≤ c ∧ c ≤ 57) ∨ (97 ≤ c ∧ c ≤ 102) ∨ (65 ≤ c ∧ c ≤ 70)

instance (c : UInt8) : Decidable (HexDigit c) := by unfold HexDigit; infer_instance

/-- The text is the rest of a string (after its opening quote) up to the closing quote, and then `r`. -/
inductive Chars : Str → Str → Prop where
  | close (r : Str) : Chars (34 :: r) r
  | plain {c : UInt8} {s r : Str} (h1 : 0x20 ≤ c) (h2 : c ≠ 34) (h3 : c ≠ 92) : Chars s r → Chars (c :: s) r
  | escape {e : UInt8} {s r : Str} (h : e ∈ b! "\"\\/bfnrt") : Chars s r → Chars (92 :: e :: s) r
  | unicode {a b c d : UInt8} {s r : Str} (ha : HexDigit a) (hb : HexDigit b) (hc : HexDigit c) (hd : HexDigit d) :
    Chars s r → Chars (92 :: 117 :: a :: b :: c :: d :: s) r

/-- What stands at the start of a text: a value, the elements of an array up to the closing bracket, or the members of an
object up to the closing brace. -/
inductive Kind where
  | value | elems | members

/-- The text begins with something of the kind, and `r` follows. -/
inductive Begins : Kind → Str → Str → Prop where
  | null (r : Str) : Begins .value (b! "null" ++ r) r
  | true (r : Str) : Begins .value (b! "true" ++ r) r
  | false (r : Str) : Begins .value (b! "false" ++ r) r
  | number {t : Str} (r : Str) (h : Number t) : Begins .value (t ++ r) r
  | string {s r : Str} (h : Chars s r) : Begins .value (34 :: s) r
  | emptyArray {u : Str} (r : Str) (h : Ws u) : Begins .value (91 :: (u ++ 93 :: r)) r
  | array {s r : Str} : Begins .elems s r → Begins .value (91 :: s) r
  | emptyObject {u : Str} (r : Str) (h : Ws u) : Begins .value (123 :: (u ++ 125 :: r)) r
  | object {s r : Str} : Begins .members s r → Begins .value (123 :: s) r
  | last {u s v r : Str} (hu : Ws u) (hv : Ws v) : Begins .value s (v ++ 93 :: r) → Begins .elems (u ++ s) r
  | comma {u s v t r : Str} (hu : Ws u) (hv : Ws v) : Begins .value s (v ++ 44 :: t) → Begins .elems t r →
    Begins .elems (u ++ s) r
  | lastMember {u k v x s y r : Str} (hu : Ws u) (hk : Chars k (v ++ 58 :: (x ++ s))) (hv : Ws v) (hx : Ws x) (hy : Ws y) :
    Begins .value s (y ++ 125 :: r) → Begins .members (u ++ 34 :: k) r
  | commaMember {u k v x s y t r : Str} (hu : Ws u) (hk : Chars k (v ++ 58 :: (x ++ s))) (hv : Ws v) (hx : Ws x)
    (hy : Ws y) : Begins .value s (y ++ 44 :: t) → Begins .members t r → Begins .members (u ++ 34 :: k) r

/-- `JSON-text`: one value between white space. -/
def Document (b : Str) : Prop := ∃ u s v, b = u ++ s ∧ Ws u ∧ Ws v ∧ Begins .value s v

end JsonText
end Verif
