import Verif.Props.Documents
import Verif.Lemmas.JsonPrefix

/-! C113: embedded data that is cut off, or followed by something else, is not accepted. -/

namespace Verif
namespace Props

open Serial Mem

/-- Only blanks, tabs and line ends. -/
def Blank (u : Str) : Prop := ∀ c ∈ u, c = 32 ∨ c = 9 ∨ c = 10 ∨ c = 13

instance (u : Str) : Decidable (Blank u) := by unfold Blank; infer_instance

theorem skip_blank (u : Str) : Json.skip u = [] ↔ Blank u := by
  rw [Json.skip_nil_iff]
  unfold Blank
  constructor
  · intro h c hc
    have := h c hc
    simp only [Json.isSpace, Bool.or_eq_true, decide_eq_true_eq] at this
    rcases this with ((h | h) | h) | h
    · exact .inl h
    · exact .inr (.inl h)
    · exact .inr (.inr (.inl h))
    · exact .inr (.inr (.inr h))
  · intro h c hc
    simp only [Json.isSpace, Bool.or_eq_true, decide_eq_true_eq]
    rcases h c hc with h | h | h | h
    · exact .inl (.inl (.inl h))
    · exact .inl (.inl (.inr h))
    · exact .inl (.inr h)
    · exact .inr h

/-- The document could be read: something other than an error in the text or in the form of the document came out. -/
def Readable (E : Env) (H : HereJson) (ord : AMap Str EFile → List (Str × EFile)) (w : World) (b : Str) : Prop :=
  (unmarshal E H ord w b).2 ≠ .err .codec

/-- A readable document is not a number. -/
theorem readable_parse {E : Env} {H : HereJson} {ord : AMap Str EFile → List (Str × EFile)} {w : World} {b : Str}
    (h : Readable E H ord w b) : ∃ j, Json.parse b = some j ∧ ¬ Json.IsNum j := by
  unfold Readable unmarshal at h
  cases hp : Json.parse b with
  | none => rw [hp] at h; exact absurd rfl h
  | some j =>
    refine ⟨j, rfl, ?_⟩
    rw [hp] at h
    cases j with
    | num t => exact absurd rfl h
    | _ => exact id

theorem unmarshal_none {E : Env} {H : HereJson} {ord : AMap Str EFile → List (Str × EFile)} {w : World} {b : Str}
    (h : Json.parse b = none) : unmarshal E H ord w b = (w, .err .codec) := by
  unfold unmarshal; rw [h]

/-- **C113** (cut off).  If a document can be read, then cutting off any end of it that is not just white space leaves
something that is rejected, and the Pkger is as it was. -/
theorem C113_cut (E : Env) (H : HereJson) (ord : AMap Str EFile → List (Str × EFile)) (w0 w : World) {b p u : Str}
    (hb : Readable E H ord w0 b) (hu : b = p ++ u) (hc : ¬ Blank u) :
    unmarshal E H ord w p = (w, .err .codec) := by
  obtain ⟨j, hj, _⟩ := readable_parse hb
  cases hp : Json.parse p with
  | none => exact unmarshal_none hp
  | some k =>
    by_cases hk : Json.IsNum k
    · cases k with
      | num t => unfold unmarshal; rw [hp]; rfl
      | _ => exact absurd hk id
    · rw [hu] at hj
      exact absurd ((skip_blank u).mp (Json.parse_ext hp hk hj).1) hc

/-- **C113** (followed by something).  If a document can be read, then white space after it does not matter, and
anything else after it has it rejected. -/
theorem C113_followed (E : Env) (H : HereJson) (ord : AMap Str EFile → List (Str × EFile)) (w0 w : World) {b : Str} (u : Str)
    (hb : Readable E H ord w0 b) :
    unmarshal E H ord w (b ++ u) = if Blank u then unmarshal E H ord w b else (w, .err .codec) := by
  obtain ⟨j, hj, hn⟩ := readable_parse hb
  split
  · rename_i hu
    have := Json.parse_blank hj hn ((skip_blank u).mpr hu)
    unfold unmarshal
    rw [this, hj]
  · rename_i hu
    cases hp : Json.parse (b ++ u) with
    | none => exact unmarshal_none hp
    | some k => exact absurd ((skip_blank u).mp (Json.parse_ext hj hn hp).1) hu

/-- The last byte of a written object is its closing brace. -/
theorem print_members_last : ∀ (l : List (Str × Json)), ∃ t, Json.printMembers l = t ++ [125]
  | [] => ⟨[], by rw [Json.printMembers]; rfl⟩
  | (k, j) :: l => by
    obtain ⟨t, ht⟩ := print_members_last l
    exact ⟨44 :: (Json.quote k ++ 58 :: (j.print ++ t)), by rw [Json.printMembers, ht]; simp⟩

theorem marshal_last (H : HereJson) (Z : Int → Int) (w : World) : ∃ t, marshal H Z w = t ++ [125] := by
  unfold marshal encData
  rw [Json.print]
  obtain ⟨t, ht⟩ := print_members_last
    [(b! "files", encMap (encFile H Z) (embedData w).files), (b! "here", H.info (embedData w).here)]
  rw [ht]
  exact ⟨123 :: (Json.quote (b! "infos") ++ 58 :: ((encMap H.info (embedData w).infos).print ++ t)), by simp⟩

/-- **C113** (of what `MarshalJSON` writes).  Whatever a Pkger holds, no proper prefix of the document written for it is
accepted. -/
theorem C113_prefix {H : HereJson} {kept : Info → Info} (hH : HereLaw H kept) (E : Env) (Z : Int → Int)
    (ord : AMap Str EFile → List (Str × EFile)) (w w0 : World) {p u : Str} (hu : marshal H Z w = p ++ u) (hne : u ≠ []) :
    unmarshal E H ord w0 p = (w0, .err .codec) := by
  have hj : Json.parse (marshal H Z w) = some (encData H Z (embedData w)).sane := by
    unfold marshal
    rw [Json.parse_print (ints_data hH Z _)]
  have hc : ¬ Blank u := by
    intro hb
    obtain ⟨t, ht⟩ := marshal_last H Z w
    have hl : u.getLast hne = 125 := by
      have h1 : (p ++ u).getLast (by simp [hne]) = u.getLast hne := List.getLast_append_of_ne_nil _ hne
      rw [← h1]
      have h2 : p ++ u = t ++ [125] := hu ▸ ht
      simp only [h2]
      simp
    have := hb _ (List.getLast_mem hne)
    rw [hl] at this
    exact absurd this (by decide)
  cases hp : Json.parse p with
  | none => exact unmarshal_none hp
  | some k =>
    by_cases hk : Json.IsNum k
    · cases k with
      | num t => unfold unmarshal; rw [hp]; rfl
      | _ => exact absurd hk id
    · rw [hu] at hj
      exact absurd ((skip_blank u).mp (Json.parse_ext hp hk hj).1) hc

/-- A readable document, cut before its last brace; with a line end after it; with a second document after it. -/
example : Readable Demo.env plainHere id (zero 0) plainDoc.print ∧ ¬ Blank [125] ∧ Blank [10] ∧ ¬ Blank (b! "{}") :=
  ⟨by unfold Readable; decide +kernel, by decide, by decide, by decide⟩

example : plainDoc.print = plainDoc.print.dropLast ++ [125] := by decide +kernel

end Props
end Verif
