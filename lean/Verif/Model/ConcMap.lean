import Verif.Model.Mem

/-!
Goroutines storing into one `maps.Files` (or `maps.Infos`, the same generated code) at the same time:
internal/maps/files.go:23-33 and :105-107, in single memory accesses.  `sync.Once.Do` and `sync.Map.Store`
are taken as in their documentation: `Do` runs the function once and other callers wait for it; `Store` is
atomic.
-/

namespace Verif
namespace ConcMap

/-- Where a goroutine is in `Store(key, value)`. -/
inductive PC where
  | idle
  /-- before `m.once == nil`, files.go:24 -/
  | check (key : Nat)
  /-- before `m.once = &sync.Once{}`, files.go:25 -/
  | mkOnce (key : Nat)
  /-- before reading `m.once`, files.go:27 -/
  | getOnce (key : Nat)
  /-- calling `Do` on the `Once` number `o`, files.go:27 -/
  | doOnce (key o : Nat)
  /-- inside the function, before `m.data == nil`, files.go:28 -/
  | checkData (key o : Nat)
  /-- inside the function, before `m.data = &sync.Map{}`, files.go:29 -/
  | mkData (key o : Nat)
  /-- the function is about to return, files.go:31 -/
  | leave (key o : Nat)
  /-- before reading `m.data`, files.go:32 -/
  | getData (key : Nat)
  /-- before `Store` on the map number `d`, files.go:106 -/
  | store (key : Nat) (d : Option Nat)
  /-- nil pointer dereference -/
  | crashed
  deriving DecidableEq

structure Thread where
  prog : List Nat
  pc : PC

/-- The struct's two fields, the `Once`s (running by whom, done), the contents of the `sync.Map`s (by key;
the value stored is not modelled), and the goroutines. -/
structure St where
  once : Option Nat
  data : Option Nat
  running : Nat → Option Nat
  done : Nat → Bool
  maps : Nat → List Nat
  nextOnce : Nat
  nextMap : Nat
  threads : Nat → Thread

def St.setThread (s : St) (t : Nat) (th : Thread) : St := { s with threads := Mem.upd s.threads t th }

/-- Goroutine `t` takes its next step; nothing happens if it has to wait or is finished. -/
def step (s : St) (t : Nat) : St :=
  let th := s.threads t
  match th.pc with
  | .idle =>
    match th.prog with
    | [] => s
    | key :: rest => s.setThread t ⟨rest, .check key⟩
  | .check key =>
    match s.once with
    | none => s.setThread t { th with pc := .mkOnce key }
    | some _ => s.setThread t { th with pc := .getOnce key }
  | .mkOnce key =>
    { s with once := some s.nextOnce, nextOnce := s.nextOnce + 1 }.setThread t { th with pc := .getOnce key }
  | .getOnce key =>
    match s.once with
    | none => s.setThread t { th with pc := .crashed }
    | some o => s.setThread t { th with pc := .doOnce key o }
  | .doOnce key o =>
    if s.done o then s.setThread t { th with pc := .getData key }
    else
      match s.running o with
      | some _ => s
      | none => { s with running := Mem.upd s.running o (some t) }.setThread t { th with pc := .checkData key o }
  | .checkData key o =>
    match s.data with
    | none => s.setThread t { th with pc := .mkData key o }
    | some _ => s.setThread t { th with pc := .leave key o }
  | .mkData key o =>
    { s with data := some s.nextMap, nextMap := s.nextMap + 1 }.setThread t { th with pc := .leave key o }
  | .leave key o =>
    { s with done := Mem.upd s.done o true, running := Mem.upd s.running o none }.setThread t
      { th with pc := .getData key }
  | .getData key => s.setThread t { th with pc := .store key s.data }
  | .store key d =>
    match d with
    | none => s.setThread t { th with pc := .crashed }
    | some d => { s with maps := Mem.upd s.maps d (key :: s.maps d) }.setThread t { th with pc := .idle }
  | .crashed => s

/-- Any schedule. -/
def run (s : St) (sched : List Nat) : St := sched.foldl step s

/-- A zero `Files` value, as in `mem.New` (pkging/mem/mem.go:20-22); goroutine `t` is going to store the keys
`progs t`. -/
def fresh (progs : Nat → List Nat) : St :=
  { once := none, data := none, running := fun _ => none, done := fun _ => false, maps := fun _ => [],
    nextOnce := 0, nextMap := 0, threads := fun t => ⟨progs t, .idle⟩ }

/-- `Load(key)` finds the key, internal/maps/files.go:80-87, run alone. -/
def visible (s : St) (key : Nat) : Prop := ∃ d, s.data = some d ∧ key ∈ s.maps d

instance (s : St) (key : Nat) : Decidable (visible s key) :=
  match h : s.data with
  | none => isFalse (by rintro ⟨d, hd, _⟩; rw [h] at hd; cases hd)
  | some d => if hk : key ∈ s.maps d then isTrue ⟨d, h, hk⟩
    else isFalse (by rintro ⟨d', hd, hk'⟩; rw [h] at hd; injection hd with hd; subst hd; exact hk hk')

end ConcMap
end Verif
