/-!
Go functions with deferred calls, as far as the order of effects and the ways to end matter: `defer`, `panic`,
`recover`, and the end of the process by `os.Exit` (which runs no deferred calls).
-/

namespace Verif
namespace Go

/-- How a piece of a Go program ends. -/
inductive End where
  | returned
  | panicked
  | exited (status : Nat)
deriving DecidableEq, Repr

/-- A piece of a Go program that has run: its effects in order, and how it ended. -/
structure Ran (ε : Type) where
  effects : List ε
  fin : End
deriving DecidableEq, Repr

namespace Ran

variable {ε : Type}

/-- One effect. -/
def effect (e : ε) : Ran ε := ⟨[e], .returned⟩

/-- `os.Exit`. -/
def exit (status : Nat) : Ran ε := ⟨[], .exited status⟩

/-- One piece after another: the second runs only if the first returns. -/
def seq (a b : Ran ε) : Ran ε :=
  match a.fin with
  | .returned => ⟨a.effects ++ b.effects, b.fin⟩
  | _ => a

/-- `body` with the deferred call `d`, which runs when the body returns or panics; it is told whether the body panicked,
and says whether it has recovered. -/
def deferred (d : Bool → Ran ε × Bool) (body : Ran ε) : Ran ε :=
  match body.fin with
  | .exited _ => body
  | .returned => ⟨body.effects ++ (d false).1.effects, (d false).1.fin⟩
  | .panicked =>
    match d true with
    | (r, recovered) =>
      ⟨body.effects ++ r.effects, match r.fin with
        | .returned => if recovered then .returned else .panicked
        | e => e⟩

/-- The status with which the process ends, if this piece is all of `main`: 0, the status given to `os.Exit`, or 2
after a panic. -/
def status (r : Ran ε) : Nat :=
  match r.fin with
  | .returned => 0
  | .panicked => 2
  | .exited s => s

end Ran
end Go
end Verif
