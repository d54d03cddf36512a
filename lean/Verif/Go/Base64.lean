import Verif.Go.Bytes

/-! `base64.StdEncoding` (Go standard library), which `encoding/json` uses for byte slices. -/

namespace Verif
namespace Base64

/-- The character for a six-bit value. -/
def chr (n : Nat) : UInt8 :=
  if n < 26 then UInt8.ofNat (65 + n)
  else if n < 52 then UInt8.ofNat (71 + n)
  else if n < 62 then UInt8.ofNat (n - 4)
  else if n = 62 then 43 else 47

/-- The six-bit value of a character. -/
def val (c : UInt8) : Option Nat :=
  if 65 ≤ c ∧ c ≤ 90 then some (c.toNat - 65)
  else if 97 ≤ c ∧ c ≤ 122 then some (c.toNat - 71)
  else if 48 ≤ c ∧ c ≤ 57 then some (c.toNat + 4)
  else if c = 43 then some 62
  else if c = 47 then some 63
  else none

/-- `=` -/
abbrev pad : UInt8 := 61

/-- `StdEncoding.Encode`. -/
def encode : Str → Str
  | [] => []
  | [a] => [chr (a.toNat / 4), chr (a.toNat % 4 * 16), pad, pad]
  | [a, b] => [chr (a.toNat / 4), chr (a.toNat % 4 * 16 + b.toNat / 16), chr (b.toNat % 16 * 4), pad]
  | a :: b :: c :: s =>
    chr (a.toNat / 4) :: chr (a.toNat % 4 * 16 + b.toNat / 16) :: chr (b.toNat % 16 * 4 + c.toNat / 64) ::
      chr (c.toNat % 64) :: encode s

/-- Groups of four characters; only the last may be padded.  The unused bits of a padded group are ignored. -/
def groups : Str → Option Str
  | [] => some []
  | a :: b :: c :: d :: s =>
    match val a, val b with
    | some x, some y =>
      if c = pad ∧ d = pad then
        if s = [] then some [UInt8.ofNat (x * 4 + y / 16)] else none
      else
        match val c with
        | none => none
        | some z =>
          if d = pad then
            if s = [] then some [UInt8.ofNat (x * 4 + y / 16), UInt8.ofNat (y % 16 * 16 + z / 4)] else none
          else
            match val d, groups s with
            | some w, some t =>
              some (UInt8.ofNat (x * 4 + y / 16) :: UInt8.ofNat (y % 16 * 16 + z / 4) ::
                UInt8.ofNat (z % 4 * 64 + w) :: t)
            | _, _ => none
    | _, _ => none
  | _ => none

/-- `StdEncoding.Decode`: line breaks are ignored. -/
def decode (s : Str) : Option Str := groups (s.filter fun c => c ≠ 10 ∧ c ≠ 13)

theorem val_chr : ∀ n : Fin 64, val (chr n) = some n.val := by decide

theorem chr_ok : ∀ n : Fin 64, chr n ≠ pad ∧ chr n ≠ 10 ∧ chr n ≠ 13 ∧ chr n < 0x80 := by decide

theorem val_chr' {n : Nat} (h : n < 64) : val (chr n) = some n := val_chr ⟨n, h⟩

theorem chr_ne_pad {n : Nat} (h : n < 64) : chr n ≠ pad := (chr_ok ⟨n, h⟩).1

theorem ofNat_eq {x : UInt8} {n : Nat} (h : n = x.toNat) : UInt8.ofNat n = x := by rw [h, UInt8.ofNat_toNat]

theorem groups_encode : ∀ b : Str, groups (encode b) = some b
  | [] => rfl
  | [a] => by
    have ha : a.toNat < 256 := UInt8.toNat_lt a
    simp only [encode, groups, val_chr' (n := a.toNat / 4) (by omega), val_chr' (n := a.toNat % 4 * 16) (by omega),
      and_self, if_true]
    rw [ofNat_eq (x := a) (by omega)]
  | [a, b] => by
    have ha : a.toNat < 256 := UInt8.toNat_lt a
    have hb : b.toNat < 256 := UInt8.toNat_lt b
    have hc := chr_ne_pad (n := b.toNat % 16 * 4) (by omega)
    simp only [encode, groups, val_chr' (n := a.toNat / 4) (by omega),
      val_chr' (n := a.toNat % 4 * 16 + b.toNat / 16) (by omega), hc, false_and, if_false,
      val_chr' (n := b.toNat % 16 * 4) (by omega), if_true]
    rw [ofNat_eq (x := a) (by omega), ofNat_eq (x := b) (by omega)]
  | a :: b :: c :: s => by
    have ha : a.toNat < 256 := UInt8.toNat_lt a
    have hb : b.toNat < 256 := UInt8.toNat_lt b
    have hc : c.toNat < 256 := UInt8.toNat_lt c
    have hd := chr_ne_pad (n := c.toNat % 64) (by omega)
    simp only [encode, groups, val_chr' (n := a.toNat / 4) (by omega),
      val_chr' (n := a.toNat % 4 * 16 + b.toNat / 16) (by omega), hd, and_false, if_false,
      val_chr' (n := b.toNat % 16 * 4 + c.toNat / 64) (by omega), val_chr' (n := c.toNat % 64) (by omega),
      groups_encode s]
    rw [ofNat_eq (x := a) (by omega), ofNat_eq (x := b) (by omega), ofNat_eq (x := c) (by omega)]

/-- The characters of an encoded text. -/
theorem encode_chars : ∀ (b : Str), ∀ c ∈ encode b, c ≠ 10 ∧ c ≠ 13 ∧ c < 0x80
  | [], c, h => by simp [encode] at h
  | [a], c, h => by
    have ha : a.toNat < 256 := UInt8.toNat_lt a
    simp only [encode, List.mem_cons, List.not_mem_nil, or_false] at h
    rcases h with rfl | rfl | rfl | rfl
    · exact (chr_ok ⟨a.toNat / 4, by omega⟩).2
    · exact (chr_ok ⟨a.toNat % 4 * 16, by omega⟩).2
    · decide
    · decide
  | [a, b], c, h => by
    have ha : a.toNat < 256 := UInt8.toNat_lt a
    have hb : b.toNat < 256 := UInt8.toNat_lt b
    simp only [encode, List.mem_cons, List.not_mem_nil, or_false] at h
    rcases h with rfl | rfl | rfl | rfl
    · exact (chr_ok ⟨a.toNat / 4, by omega⟩).2
    · exact (chr_ok ⟨a.toNat % 4 * 16 + b.toNat / 16, by omega⟩).2
    · exact (chr_ok ⟨b.toNat % 16 * 4, by omega⟩).2
    · decide
  | a :: b :: d :: s, c, h => by
    have ha : a.toNat < 256 := UInt8.toNat_lt a
    have hb : b.toNat < 256 := UInt8.toNat_lt b
    have hd : d.toNat < 256 := UInt8.toNat_lt d
    simp only [encode, List.mem_cons] at h
    rcases h with rfl | rfl | rfl | rfl | h
    · exact (chr_ok ⟨a.toNat / 4, by omega⟩).2
    · exact (chr_ok ⟨a.toNat % 4 * 16 + b.toNat / 16, by omega⟩).2
    · exact (chr_ok ⟨b.toNat % 16 * 4 + d.toNat / 64, by omega⟩).2
    · exact (chr_ok ⟨d.toNat % 64, by omega⟩).2
    · exact encode_chars s c h

/-- Decoding an encoded byte string gives it back. -/
theorem decode_encode (b : Str) : decode (encode b) = some b := by
  unfold decode
  rw [List.filter_eq_self.mpr]
  · exact groups_encode b
  · intro c hc
    have := encode_chars b c hc
    simp [this]

end Base64
end Verif
