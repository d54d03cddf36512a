import Verif.Model.Cmd

/-! How options are written, and which of the host's calls change the disk. -/

namespace Verif
namespace Flag

/-- One or two dashes. -/
def Dashes (d : Str) : Prop := d = [dash] ∨ d = [dash, dash]

/-- A text that can be the name of an option: not empty, not starting with a dash, without `=`. -/
def NameOk (n : Str) : Prop := n ≠ [] ∧ n.head? ≠ some dash ∧ equals ∉ n

/-- The texts that stand for a truth value. -/
def BoolText (v : Str) : Bool → Prop
  | true => v ∈ [b! "1", b! "t", b! "T", b! "true", b! "TRUE", b! "True"]
  | false => v ∈ [b! "0", b! "f", b! "F", b! "false", b! "FALSE", b! "False"]

instance (v : Str) (b : Bool) : Decidable (BoolText v b) := by unfold BoolText; split <;> infer_instance

/-- `Writes defs args sets`: the arguments `args` are options, written in one of the usual forms (`-f`, `-f=v`, `-f v`,
or with two dashes), that give the values `sets`. -/
inductive Writes (defs : Str → Option Kind) : List Str → List (Str × Val) → Prop where
  | nil : Writes defs [] []
  | boolOn {d n rest l} : Dashes d → NameOk n → defs n = some .bool → Writes defs rest l →
      Writes defs ((d ++ n) :: rest) ((n, .bool true) :: l)
  | boolVal {d n v b rest l} : Dashes d → NameOk n → defs n = some .bool → BoolText v b → Writes defs rest l →
      Writes defs ((d ++ n ++ equals :: v) :: rest) ((n, .bool b) :: l)
  | textVal {d n v rest l} : Dashes d → NameOk n → defs n = some .text → Writes defs rest l →
      Writes defs ((d ++ n ++ equals :: v) :: rest) ((n, .text v) :: l)
  | textNext {d n v rest l} : Dashes d → NameOk n → defs n = some .text → Writes defs rest l →
      Writes defs ((d ++ n) :: v :: rest) ((n, .text v) :: l)

/-- The arguments do not go on with an option: there are none, or the first one is a single character or less, or does
not start with a dash. -/
def NoOption : List Str → Prop
  | [] => True
  | s :: _ => s.length < 2 ∨ s.head? ≠ some dash

instance (l : List Str) : Decidable (NoOption l) := by unfold NoOption; split <;> infer_instance

/-- `Leads defs pre k l`: in arguments that start with `pre` followed by `k`, the options give `l` and `k` is the first
argument after them: `pre` is the options, and `k` is not one, or `pre` is the options and `--`. -/
def Leads (defs : Str → Option Kind) (pre : List Str) (k : Str) (l : List (Str × Val)) : Prop :=
  (Writes defs pre l ∧ NoOption [k]) ∨ ∃ pre', pre = pre' ++ [[dash, dash]] ∧ Writes defs pre' l

/-- The options of a table of names and kinds. -/
def options (table : List (Str × Kind)) (n : Str) : Option Kind := (table.find? fun e => e.1 == n).map (·.2)

/-- The options `pkger` has: `-h`, `-o dir`, `-include path`. -/
def toolOptions : Str → Option Kind := options [(b! "h", .bool), (b! "o", .text), (b! "include", .text)]

/-- The options `pkger list` has: `-json`, `-include path`. -/
def listOptions : Str → Option Kind := options [(b! "json", .bool), (b! "include", .text)]

/-- The option `pkger path` and `pkger parse` have: `-h`. -/
def helpOptions : Str → Option Kind := options [(b! "h", .bool)]

/-- `Given defs args l rest`: the arguments `args` are options that give `l`, followed by the arguments `rest`. -/
def Given (defs : Str → Option Kind) (args : List Str) (l : List (Str × Val)) (rest : List Str) : Prop :=
  ∃ pre, Writes defs pre l ∧ ((args = pre ++ rest ∧ NoOption rest) ∨ args = pre ++ b! "--" :: rest)

end Flag

namespace Stdos

/-- The host, recording the paths of the calls that change the disk: `Create`, `MkdirAll`, `Remove`, `RemoveAll`. -/
def Host.changes {S : Type} (O : Host S) : Host (S × List Str) where
  create p s := match O.create p s.1 with | (h, r) => ((h, s.2 ++ [p]), r)
  openFile p s := match O.openFile p s.1 with | (h, r) => ((h, s.2), r)
  fstat fd s := match O.fstat fd s.1 with | (h, r) => ((h, s.2), r)
  readdir fd c s := match O.readdir fd c s.1 with | (h, r) => ((h, s.2), r)
  close fd s := match O.close fd s.1 with | (h, r) => ((h, s.2), r)
  stat p s := match O.stat p s.1 with | (h, r) => ((h, s.2), r)
  mkdirAll p m s := match O.mkdirAll p m s.1 with | (h, r) => ((h, s.2 ++ [p]), r)
  remove p s := match O.remove p s.1 with | (h, r) => ((h, s.2 ++ [p]), r)
  removeAll p s := match O.removeAll p s.1 with | (h, r) => ((h, s.2 ++ [p]), r)
  tree p s := match O.tree p s.1 with | (h, r) => ((h, s.2), r)
  package p s := match O.package p s.1 with | (h, r) => ((h, s.2), r)

end Stdos
end Verif
