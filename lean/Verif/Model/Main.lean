import Verif.Go.Defer
import Verif.Model.Cmd

/-! The program `pkger`: cmd/pkger/main.go. -/

namespace Verif
namespace Main

open Go

/-- What `pkger` does: something that `run` does, or running `go mod tidy`. -/
inductive Effect (ε : Type) where
  | act (e : ε)
  | tidy
deriving DecidableEq, Repr

/-- How `run` (cmd/pkger/main.go:34-41) ends: with a nil error, with an error, with a panic, or not at all because the
flag package or something else ends the process. -/
inductive RunEnd where
  | ok
  | err
  | panic
  | exit (status : Nat)
deriving DecidableEq, Repr

variable {ε : Type}

/-- `clean`, cmd/pkger/main.go:12-18.  Whether `go mod tidy` succeeds is ignored (:17). -/
def clean : Ran (Effect ε) := Ran.effect .tidy

/-- `log.Fatal`: it prints, and ends the process with status 1. -/
def fatal : Ran (Effect ε) := Ran.exit 1

/-- The call of `run` and what follows it, cmd/pkger/main.go:28-31. -/
def body (effects : List ε) (fin : RunEnd) : Ran (Effect ε) :=
  match fin with
  | .ok => ⟨effects.map .act, .returned⟩
  | .err => Ran.seq ⟨effects.map .act, .returned⟩ (Ran.seq clean fatal)
  | .panic => ⟨effects.map .act, .panicked⟩
  | .exit s => ⟨effects.map .act, .exited s⟩

/-- `main`, cmd/pkger/main.go:11-32, for what `run` does and how it ends.  The call deferred last (:21-26) runs first. -/
def main (effects : List ε) (fin : RunEnd) : Ran (Effect ε) :=
  Ran.deferred (fun _ => (clean, false))
    (Ran.deferred (fun panicked => if panicked then (Ran.seq clean fatal, true) else (⟨[], .returned⟩, false))
      (body effects fin))

/-- How `run` ends when it does the packaging (cmd/pkger/main.go:40, cmds/pack.go:74). -/
def packEnd : Res Unit → RunEnd
  | .ok _ => .ok
  | .err _ => .err
  | .panic => .panic

end Main
end Verif
