import Verif.Go.Err

/-!
`encoding/hex`, as used by pkging/embed/embed.go:13 (`hex.Decode`) and :47 (`hex.EncodeToString`).
-/

namespace Verif
namespace Hex

/-- The i-th character of the hex table `0123456789abcdef`. -/
def digit (n : Nat) : UInt8 := if n < 10 then UInt8.ofNat (48 + n) else UInt8.ofNat (87 + n)

/-- `fromHexChar`: the value of a hex character, upper or lower case. -/
def fromChar (c : UInt8) : Option Nat :=
  if 48 ≤ c ∧ c ≤ 57 then some (c.toNat - 48)
  else if 97 ≤ c ∧ c ≤ 102 then some (c.toNat - 87)
  else if 65 ≤ c ∧ c ≤ 70 then some (c.toNat - 55)
  else none

/-- `hex.EncodeToString`: two characters per byte, high nibble first. -/
def encode : Str → Str
  | [] => []
  | b :: bs => digit (b.toNat / 16) :: digit (b.toNat % 16) :: encode bs

/-- `hex.Decode` into a fresh buffer of `hex.DecodedLen(len(src))` bytes.  Odd length and bytes that
are not hex characters are errors; on error the caller at embed.go:14 drops the buffer. -/
def decode : Str → Except Err Str
  | [] => .ok []
  | [_] => .error .hex
  | a :: b :: rest =>
    match fromChar a, fromChar b with
    | some x, some y =>
      match decode rest with
      | .ok t => .ok (UInt8.ofNat (x * 16 + y) :: t)
      | .error e => .error e
    | _, _ => .error .hex

theorem fromChar_digit : ∀ n : Fin 16, fromChar (digit n) = some n.val := by decide

theorem digit_ok : ∀ n : Fin 16, (48 ≤ digit n ∧ digit n ≤ 57) ∨ (97 ≤ digit n ∧ digit n ≤ 102) := by
  decide

theorem decode_encode (b : Str) : decode (encode b) = .ok b := by
  induction b with
  | nil => rfl
  | cons x xs ih =>
    have hx : x.toNat < 256 := UInt8.toNat_lt x
    have h1 := fromChar_digit ⟨x.toNat / 16, by omega⟩
    have h2 := fromChar_digit ⟨x.toNat % 16, by omega⟩
    simp only at h1 h2
    simp only [encode, decode, h1, h2, ih]
    have : x.toNat / 16 * 16 + x.toNat % 16 = x.toNat := by omega
    rw [this, UInt8.ofNat_toNat]

end Hex
end Verif
