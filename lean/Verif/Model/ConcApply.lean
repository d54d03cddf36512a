import Verif.Model.Mem

/-!
Goroutines calling `Apply` and the package-level functions at the same time: apply.go:15-17 and
pkger.go:23-30, in single memory accesses, with the read-write lock `gil` (pkger.go:15).

The variable `current` holds a chain of `Wrap`s; it is represented by the list of its layers, newest first
(`[]` is nil).  `Lock` waits until nobody holds the lock, `RLock` until no writer does.  (Go's lock also makes
new readers wait for a waiting writer; here they need not, which only allows more schedules.)
-/

namespace Verif
namespace Conc

/-- A call a goroutine makes: `Apply(l, nil)`, `Apply(_, err)`, or some package-level function. -/
inductive Call (L : Type) where
  | apply (l : L)
  | applyErr
  | use

/-- What a finished call leaves behind: `start` and `fin` are the numbers of layers applied when it was called
and when it returned. -/
inductive Rec (L : Type) where
  | applied (l : L) (start fin : Nat)
  | failed
  | used (seen : List L) (start fin : Nat)

/-- Where a goroutine is. -/
inductive PC (L : Type) where
  | idle
  /-- before `gil.Lock()`, apply.go:15 -/
  | wantW (l : L) (start : Nat)
  /-- before reading `current`, apply.go:17 -/
  | hasW (l : L) (start : Nat)
  /-- before writing `current`, apply.go:17 -/
  | loadedW (l : L) (v : List L) (start : Nat)
  /-- before the deferred `gil.Unlock()`, apply.go:16 -/
  | storedW (l : L) (start : Nat)
  /-- before `gil.RLock()`, pkger.go:24 -/
  | wantR (start : Nat)
  /-- before reading `current` for the comparison, pkger.go:26 -/
  | hasR (start : Nat)
  /-- before reading `current` for the result, pkger.go:29 -/
  | checkedR (start : Nat)
  /-- before the deferred `gil.RUnlock()`, pkger.go:25 -/
  | loadedR (v : List L) (start : Nat)

structure Thread (L : Type) where
  prog : List (Call L)
  pc : PC L
  done : List (Rec L)

/-- The shared variables, the goroutines, and a record of the writes to `current`, oldest first (not part of
the program, for stating the properties). -/
structure St (L : Type) where
  cur : List L
  writer : Option Nat
  readers : List Nat
  threads : Nat → Thread L
  order : List (Nat × L)

def St.setThread {L : Type} (s : St L) (t : Nat) (th : Thread L) : St L :=
  { s with threads := Mem.upd s.threads t th }

/-- Goroutine `t` takes its next step; nothing happens if it has to wait or is finished. -/
def step {L : Type} (s : St L) (t : Nat) : St L :=
  let th := s.threads t
  match th.pc with
  | .idle =>
    match th.prog with
    | [] => s
    | .apply l :: rest => s.setThread t { th with prog := rest, pc := .wantW l s.order.length }
    | .applyErr :: rest => s.setThread t { th with prog := rest, done := th.done ++ [Rec.failed] }
    | .use :: rest => s.setThread t { th with prog := rest, pc := .wantR s.order.length }
  | .wantW l n =>
    if s.writer = none ∧ s.readers = [] then
      { s with writer := some t }.setThread t { th with pc := .hasW l n }
    else s
  | .hasW l n => s.setThread t { th with pc := .loadedW l s.cur n }
  | .loadedW l v n =>
    { s with cur := l :: v, order := s.order ++ [(t, l)] }.setThread t { th with pc := .storedW l n }
  | .storedW l n =>
    { s with writer := none }.setThread t
      { th with pc := .idle, done := th.done ++ [Rec.applied l n s.order.length] }
  | .wantR n =>
    if s.writer = none then
      { s with readers := t :: s.readers }.setThread t { th with pc := .hasR n }
    else s
  | .hasR n =>
    if s.cur.isEmpty then s.setThread t { th with pc := .loadedR [] n }
    else s.setThread t { th with pc := .checkedR n }
  | .checkedR n => s.setThread t { th with pc := .loadedR s.cur n }
  | .loadedR v n =>
    { s with readers := s.readers.filter (· ≠ t) }.setThread t
      { th with pc := .idle, done := th.done ++ [Rec.used v n s.order.length] }

/-- Any schedule: the goroutine numbers in the order they take steps. -/
def run {L : Type} (s : St L) (sched : List Nat) : St L := sched.foldl step s

/-- Nobody has started; `cur` is the stack so far and goroutine `t` is going to make the calls `progs t`. -/
def start {L : Type} (cur : List L) (progs : Nat → List (Call L)) : St L :=
  { cur := cur, writer := none, readers := [], threads := fun t => ⟨progs t, .idle, []⟩, order := [] }

end Conc
end Verif
