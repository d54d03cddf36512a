import Verif.Model.Embed
import Verif.Spec.Demo

/-! C01, C03 and the alphabet part of C02: the blob codec. -/

namespace Verif
namespace Props

/-- **C01.** `Decode(Encode(b))` is `b`, for every byte string. -/
theorem C01_decode_encode (E : Env) (hz : GzipLaw E) (b : Str) :
    Embed.decode E (Embed.encode E b) = .ok b := by
  unfold Embed.decode Embed.encode
  rw [Hex.decode_encode]
  exact hz b

example : Embed.decode Demo.env (Embed.encode Demo.env (b! "hi\n")) = .ok (b! "hi\n") :=
  C01_decode_encode Demo.env Demo.gzipLaw _

example : Embed.encode Demo.env (b! "hi") = b! "1f6869" := by decide

/-- The sixteen characters the blob is written with. -/
def blobAlphabet : Str := b! "0123456789abcdef"

/-- **C02** (alphabet): the blob uses only `0-9a-f` and has even length. -/
theorem C02_blob_alphabet (E : Env) (b : Str) :
    (∀ c ∈ Embed.encode E b, c ∈ blobAlphabet) ∧ (Embed.encode E b).length % 2 = 0 := by
  unfold Embed.encode
  generalize E.gzip b = z
  induction z with
  | nil => exact ⟨by simp [Hex.encode], rfl⟩
  | cons x xs ih =>
    have hd : ∀ n : Fin 16, Hex.digit n ∈ blobAlphabet := by decide
    have hx : x.toNat < 256 := UInt8.toNat_lt x
    refine ⟨?_, ?_⟩
    · intro c hc
      simp only [Hex.encode, List.mem_cons] at hc
      rcases hc with rfl | rfl | hc
      · exact hd ⟨x.toNat / 16, by omega⟩
      · exact hd ⟨x.toNat % 16, by omega⟩
      · exact ih.1 c hc
    · simp only [Hex.encode, List.length_cons]
      have := ih.2
      omega

/-- **C02** (consequence): no backquote (96) and no carriage return (13), so a Go raw string literal
holding the blob is not ended or altered by it. -/
theorem C02_no_backquote (E : Env) (b : Str) :
    (96 : UInt8) ∉ Embed.encode E b ∧ (13 : UInt8) ∉ Embed.encode E b := by
  have h := (C02_blob_alphabet E b).1
  refine ⟨fun hm => ?_, fun hm => ?_⟩
  · exact absurd (h _ hm) (by decide)
  · exact absurd (h _ hm) (by decide)

/-- The characters hexadecimal text may consist of. -/
def hexChars : Str := b! "0123456789abcdefABCDEF"

theorem fromChar_isSome (c : UInt8) : (Hex.fromChar c).isSome = true ↔ c ∈ hexChars := by
  have h : ∀ n : Fin 256, (Hex.fromChar (UInt8.ofNat n)).isSome = true ↔ UInt8.ofNat n ∈ hexChars := by
    decide +kernel
  have := h ⟨c.toNat, UInt8.toNat_lt c⟩
  simpa [UInt8.ofNat_toNat] using this

theorem hexDecode_ok : ∀ {src dst : Str}, Hex.decode src = .ok dst →
    src.length = 2 * dst.length ∧ ∀ c ∈ src, c ∈ hexChars
  | [], dst, h => by simp only [Hex.decode, Except.ok.injEq] at h; subst h; simp
  | [a], dst, h => by simp [Hex.decode] at h
  | a :: b :: rest, dst, h => by
    unfold Hex.decode at h
    cases ha : Hex.fromChar a with
    | none => simp [ha] at h
    | some x =>
      cases hb : Hex.fromChar b with
      | none => simp [ha, hb] at h
      | some y =>
        simp only [ha, hb] at h
        cases hr : Hex.decode rest with
        | error e => simp [hr] at h
        | ok t =>
          simp only [hr, Except.ok.injEq] at h
          subst h
          have hrec := hexDecode_ok hr
          refine ⟨by simp; omega, ?_⟩
          intro c hc
          simp only [List.mem_cons] at hc
          rcases hc with rfl | rfl | hc
          · exact (fromChar_isSome c).mp (by simp [ha])
          · exact (fromChar_isSome c).mp (by simp [hb])
          · exact hrec.2 c hc

/-- **C03.** A blob of odd length, or with a byte that is not a hexadecimal digit, is rejected: the
result is an error and no data. -/
theorem C03_malformed_rejected (E : Env) (src : Str)
    (hbad : src.length % 2 = 1 ∨ ∃ c ∈ src, c ∉ hexChars) :
    ∃ e, Embed.decode E src = .error e := by
  unfold Embed.decode
  cases h : Hex.decode src with
  | error e => exact ⟨e, rfl⟩
  | ok dst =>
    exfalso
    have := hexDecode_ok h
    rcases hbad with hbad | ⟨c, hc, hn⟩
    · omega
    · exact hn (this.2 c hc)

example : (b! "1f686").length % 2 = 1 ∧ Embed.decode Demo.env (b! "1f686") = .error .hex := by decide
example : (∃ c ∈ b! "1f6z", c ∉ hexChars) ∧ Embed.decode Demo.env (b! "1f6z") = .error .hex := by decide

/-- **C03** (never shortened): a successful decode used every character of the blob: the compressed
stream handed to gzip has exactly half as many bytes. -/
theorem C03_no_partial_decode (E : Env) (src out : Str) (h : Embed.decode E src = .ok out) :
    ∃ stream, Hex.decode src = .ok stream ∧ src.length = 2 * stream.length ∧
      E.gunzip stream = .ok out := by
  unfold Embed.decode at h
  cases hd : Hex.decode src with
  | error e => simp [hd] at h
  | ok dst =>
    rw [hd] at h
    exact ⟨dst, rfl, (hexDecode_ok hd).1, h⟩

example : ∃ out, Embed.decode Demo.env (b! "1F6869") = .ok out := ⟨b! "hi", by decide⟩

end Props
end Verif
