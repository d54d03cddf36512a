import Verif.Props.Truncated
import Verif.Lemmas.JsonText

/-! C115: only JSON is read, and only JSON is written. -/

namespace Verif
namespace Props

open Serial Mem
open JsonText (Document)

/-- **C115** (read).  What is not a JSON text is rejected, and the Pkger is as it was. -/
theorem C115_only (E : Env) (H : HereJson) (ord : AMap Str EFile → List (Str × EFile)) (w : World) {b : Str}
    (hb : ¬ Document b) : unmarshal E H ord w b = (w, .err .codec) := by
  cases hp : Json.parse b with
  | none => exact unmarshal_none hp
  | some j => exact absurd ((Json.parse_iff b).mp ⟨j, hp⟩) hb

/-- **C115** (embedded).  A blob that holds anything but a JSON text is not loaded. -/
theorem C115_blob (E : Env) (H : HereJson) (ord : AMap Str EFile → List (Str × EFile)) (now : Int) {inp b : Str}
    (hd : Embed.decode E inp = .ok b) (hb : ¬ Document b) : unmarshalEmbed E H ord now inp = .err .codec := by
  unfold unmarshalEmbed
  rw [hd]
  simp only [C115_only E H ord (zero now) hb]

/-- **C115** (all of JSON).  Every JSON text is taken apart: whether it can be loaded depends on the value it denotes only. -/
theorem C115_all (E : Env) (H : HereJson) (ord : AMap Str EFile → List (Str × EFile)) {b : Str} (hb : Document b) :
    ∃ j, Json.parse b = some j ∧ ∀ w b', Json.parse b' = some j → unmarshal E H ord w b' = unmarshal E H ord w b := by
  obtain ⟨j, hj⟩ := (Json.parse_iff b).mpr hb
  refine ⟨j, hj, ?_⟩
  intro w b' hb'
  unfold unmarshal
  rw [hj, hb']

/-- **C115** (written).  What `MarshalJSON` writes is a JSON text, for every Pkger. -/
theorem C115_written {H : HereJson} {kept : Info → Info} (hH : HereLaw H kept) (Z : Int → Int) (w : World) :
    Document (marshal H Z w) := by
  rw [← Json.parse_iff]
  refine ⟨(encData H Z (embedData w)).sane, ?_⟩
  unfold marshal
  rw [Json.parse_print (ints_data hH Z _)]

/-- A line break in a string is not JSON, nor is a comma before a closing bracket, a number with a leading zero, or a text
in single quotes. -/
example : ¬ Document (b! "\"a\nb\"") ∧ ¬ Document (b! "[1,]") ∧ ¬ Document (b! "01") ∧ ¬ Document (b! "'a'") := by
  have h : ∀ b, (Json.parse b).isSome = false → ¬ Document b := by
    intro b h hd
    obtain ⟨j, hj⟩ := (Json.parse_iff b).mpr hd
    rw [hj] at h
    cases h
  exact ⟨h _ (by decide +kernel), h _ (by decide +kernel), h _ (by decide +kernel), h _ (by decide +kernel)⟩

/-- A JSON text, derived with the grammar: an object with a member that holds an array. -/
example : Document (b! " {\"a\" : [1 ,\"\\u00e9\\n\"]}\n") := by
  have hws : JsonText.Ws [32] := by decide
  have hno : JsonText.Ws [] := by decide
  have hstr : JsonText.Begins .value (b! "\"\\u00e9\\n\"]}\n") (b! "]}\n") :=
    .string (.unicode (by decide) (by decide) (by decide) (by decide) (.escape (by decide) (.close _)))
  have hnum : JsonText.Begins .value (b! "1 ,\"\\u00e9\\n\"]}\n") ([32] ++ 44 :: b! "\"\\u00e9\\n\"]}\n") :=
    .number (t := [49]) _ ⟨[], [49], [], [], rfl, .inl rfl, .inr ⟨⟨by decide, by decide⟩, by decide⟩, .inl rfl, .inl rfl⟩
  have harr : JsonText.Begins .value (b! "[1 ,\"\\u00e9\\n\"]}\n") (b! "}\n") :=
    .array (.comma (u := []) hno hws hnum (.last (u := []) (v := []) hno hno hstr))
  refine ⟨[32], b! "{\"a\" : [1 ,\"\\u00e9\\n\"]}\n", [10], rfl, hws, by decide, .object ?_⟩
  exact .lastMember (u := []) (v := [32]) (x := [32]) (y := []) hno (.plain (by decide) (by decide) (by decide) (.close _)) hws hws
    hno harr

end Props
end Verif
