import Verif.Go.Json
import Verif.Model.Parser
import Verif.Model.Serial

/-! Reading what the commands print. -/

namespace Verif
namespace Spec

/-- The text is a JSON object with exactly the given members, in lexical order, each once and each as it should be. -/
def DocOf (t : Str) (ks : List Str) (P : Str → Json → Prop) : Prop :=
  ∃ ms, Json.parse t = some (.obj ms) ∧ (ms.map (·.1)).Pairwise (fun a b => Str.lt a b = true) ∧
    (∀ k, k ∈ ms.map (·.1) ↔ k ∈ ks) ∧ ∀ k j, (k, j) ∈ ms → P k j

/-- The elements of a JSON array; `null` has none. -/
def elements : Json → Option (List Json)
  | .null => some []
  | .arr l => some l
  | _ => none

/-- One after the other, the values are as they should be. -/
def EachTells {β α : Type} (T : β → α → Prop) : List β → List α → Prop
  | [], [] => True
  | j :: js, a :: as => T j a ∧ EachTells T js as
  | _, _ => False

/-- A JSON value is a list of values of which each tells one of the given things, in their order. -/
def ListOf {α : Type} (T : Json → α → Prop) (j : Json) (as : List α) : Prop :=
  ∃ js, elements j = some js ∧ EachTells T js as

/-- Lines of text, each ended by a newline. -/
def unlines (ls : List Str) : Str := (ls.map (· ++ [10])).flatten

/-- The text is documents, one after the other and each followed by a newline, of which each tells one of the given
things, in their order. -/
def Prints {α : Type} (T : Json → α → Prop) (t : Str) (as : List α) : Prop :=
  ∃ ts js, t = unlines ts ∧ ts.map Json.parse = js.map some ∧ EachTells T js as

/-- The members of a JSON object are read without regard to others. -/
def get (k : Str) : Json → Option Json
  | .obj ms => (ms.find? fun m => m.1 == k).map (·.2)
  | _ => none

/-- A JSON value tells a file of the list to embed: its absolute name, its path and the package it was found from, the
last two in whatever form package here gives them. -/
def TellsFile (H : Serial.HereJson) (kept : Info → Info) (j : Json) (f : Parser.File) : Prop :=
  get (b! "Abs") j = some (.str f.abs) ∧
  (∃ p, get (b! "Path") j = some p ∧ H.pathOf Path.zero p = some f.path) ∧
  (∃ i, get (b! "Here") j = some i ∧ H.infoOf Mem.infoZero i = some (kept f.here))

/-- A JSON value tells a declaration: the function called, its argument and the file it stands for. -/
def TellsDecl (H : Serial.HereJson) (kept : Info → Info) (j : Json) (d : Parser.Decl) : Prop :=
  (∃ name, Parser.kindOf name = some d.kind ∧ get (b! "type") j = some (.str (b! "pkger." ++ name))) ∧
  get (b! "value") j = some (.str d.value) ∧
  ∃ f, get (b! "file") j = some f ∧ TellsFile H kept f d.file

/-- All texts of a file of the list are valid UTF-8. -/
def FileText (f : Parser.File) : Prop := Utf8.Valid f.abs ∧ Serial.PathText f.path ∧ Serial.InfoText f.here

instance (f : Parser.File) : Decidable (FileText f) := by unfold FileText; infer_instance

end Spec
end Verif
