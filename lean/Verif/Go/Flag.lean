import Verif.Go.Bytes

/-!
`flag.FlagSet.Parse` (Go standard library) of a flag set made with `flag.ExitOnError`.

Simplifications: what is printed on an error is left out; every error ends the process (`exit`), as does a request
for help with a flag set that does not define it.
-/

namespace Verif
namespace Flag

/-- `-` -/
abbrev dash : UInt8 := 45
/-- `=` -/
abbrev equals : UInt8 := 61

/-- How a flag takes its value: `BoolVar`, or `StringVar` and `Var`, which take any text. -/
inductive Kind where
  | bool
  | text
deriving DecidableEq, Repr

/-- A value given to a flag. -/
inductive Val where
  | bool (b : Bool)
  | text (s : Str)
deriving DecidableEq, Repr

/-- `strconv.ParseBool`. -/
def parseBool (s : Str) : Option Bool :=
  if s ∈ [b! "1", b! "t", b! "T", b! "TRUE", b! "true", b! "True"] then some true
  else if s ∈ [b! "0", b! "f", b! "F", b! "FALSE", b! "false", b! "False"] then some false
  else none

/-- What an argument is: not a flag (too short, or no dash), the terminator `--`, a malformed flag, or a flag with
its name and the value after `=`. -/
inductive Arg where
  | plain
  | terminator
  | bad
  | flag (name : Str) (value : Option Str)
deriving DecidableEq, Repr

/-- The first part of `parseOne`: the dashes and the `=`. -/
def classify (s : Str) : Arg :=
  match s with
  | c :: c' :: t =>
    if c ≠ dash then .plain
    else if c' = dash ∧ t = [] then .terminator
    else
      let name := if c' = dash then t else c' :: t
      match name with
      | [] => .bad
      | x :: _ =>
        if x = dash ∨ x = equals then .bad
        else if equals ∈ name then
          .flag (name.takeWhile (· != equals)) (some ((name.dropWhile (· != equals)).drop 1))
        else .flag name none
  | _ => .plain

/-- The result of `Parse`: the flags set, in order, and the remaining arguments; or the process has ended. -/
inductive Outcome where
  | exit
  | done (sets : List (Str × Val)) (rest : List Str)
deriving DecidableEq, Repr

/-- Put one setting in front. -/
def Outcome.cons (x : Str × Val) : Outcome → Outcome
  | .exit => .exit
  | .done l rest => .done (x :: l) rest

/-- `Parse` with the defined flags `defs`. -/
def parse (defs : Str → Option Kind) : List Str → Outcome
  | [] => .done [] []
  | s :: rest =>
    match classify s with
    | .plain => .done [] (s :: rest)
    | .terminator => .done [] rest
    | .bad => .exit
    | .flag name value =>
      match defs name, value with
      | none, _ => .exit
      | some .bool, none => (parse defs rest).cons (name, .bool true)
      | some .bool, some v =>
        match parseBool v with
        | none => .exit
        | some b => (parse defs rest).cons (name, .bool b)
      | some .text, some v => (parse defs rest).cons (name, .text v)
      | some .text, none =>
        match rest with
        | [] => .exit
        | v :: rest' => (parse defs rest').cons (name, .text v)

/-- The last value given to a `StringVar` flag, or the default. -/
def lastText (sets : List (Str × Val)) (name dflt : Str) : Str :=
  sets.foldl (fun acc x => match x with | (n, .text s) => if n = name then s else acc | _ => acc) dflt

/-- The last value given to a `BoolVar` flag, or `false`. -/
def lastBool (sets : List (Str × Val)) (name : Str) : Bool :=
  sets.foldl (fun acc x => match x with | (n, .bool b) => if n = name then b else acc | _ => acc) false

/-- All values given to a flag whose `Set` appends. -/
def allTexts (sets : List (Str × Val)) (name : Str) : List Str :=
  sets.filterMap fun x => match x with | (n, .text s) => if n = name then some s else none | _ => none

end Flag
end Verif
