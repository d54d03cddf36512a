import Verif.Model.Show
import Verif.Props.Cmd

/-! C76, C77: the program `pkger` as a whole. -/

namespace Verif
namespace Props

open Go Main

/-! ### C76 -/

/-- The statement of **C76**: `go mod tidy` is run exactly once, after everything else, however `run` ends, and the status
tells whether it succeeded. -/
def C76_statement : Prop :=
  ∀ (ε : Type) (effects : List ε) (fin : RunEnd),
    (main effects fin).effects = effects.map .act ++ [.tidy] ∧ ((main effects fin).status = 0 ↔ fin = .ok)

/-- **C76** (what holds): this is so unless the process is ended inside of `run`. -/
theorem C76_tidy_partial {ε : Type} (effects : List ε) {fin : RunEnd} (h : ∀ s, fin ≠ .exit s) :
    (main effects fin).effects = effects.map .act ++ [.tidy] ∧
    ((main effects fin).status = 0 ↔ fin = .ok) ∧ (fin ≠ .ok → (main effects fin).fin = .exited 1) := by
  cases fin with
  | ok => simp [main, body, Ran.deferred, clean, Ran.effect, Ran.status]
  | err => simp [main, body, Ran.deferred, Ran.seq, clean, fatal, Ran.effect, Ran.exit, Ran.status]
  | panic => simp [main, body, Ran.deferred, Ran.seq, clean, fatal, Ran.effect, Ran.exit, Ran.status]
  | exit s => exact absurd rfl (h s)

/-- **C76** (ended inside): then `go mod tidy` is not run. -/
theorem C76_exit {ε : Type} (effects : List ε) (s : Nat) :
    main effects (.exit s) = ⟨effects.map .act, .exited s⟩ := by
  simp [main, body, Ran.deferred]

/-- **C76 is false** of arguments that are not understood: the flag package ends the process. -/
theorem C76_refuted : ¬ C76_statement := by
  intro h
  have := (h Unit [] (.exit 2)).1
  rw [C76_exit] at this
  revert this
  decide

/-- Arguments with which this happens. -/
example : Cmd.route [b! "-x"] = .exit ∧ Cmd.route [b! "-o"] = .exit ∧ Cmd.route [b! "-h=maybe"] = .exit := by decide

example : (main [true, false] .panic).effects = [.act true, .act false, .tidy] := by decide

/-! ### C77 -/

open Pack

variable {S : Type}

/-- The statement of **C77**: if `pkger`, asked to package, ends with status 0, the complete output is there. -/
def C77_statement : Prop :=
  ∀ (S : Type) (A : Around S) (w : Stdos.World S) (old : Option Str) (args : List Str) (out : Str) (includes : List Str),
    Cmd.route args = .pack out includes → (program A w old args).2.status = 0 →
    ∃ name b, (program A w old args).1.states.getLast? = some (some (complete name b))

/-- **C77** (what holds): with writes that succeed, `pkger` asked to package ends with status 0 exactly if the
declarations of the current package are read, the files are embedded, and then the output is complete; otherwise it ends
with status 1.  Either way it ran `go mod tidy` last, and printed nothing. -/
theorem C77_status_partial {A : Around S} (hf : Faithful A.writer) (w : Stdos.World S) (old : Option Str)
    {args : List Str} {out : Str} {includes : List Str} (hr : Cmd.route args = .pack out includes) :
    (program A w old args).2.effects = [.act (), .tidy] ∧
    ((program A w old args).2.status = 0 ∨ (program A w old args).2.status = 1) ∧
    (program A w old args).1.world = w ∧ (program A w old args).1.out = [] ∧
    ((program A w old args).2.status = 0 ↔ ∃ ds c b, Parser.decls A.env A.tool (A.disk none) w.here includes = .ok ds ∧
      A.env.dirInfo (GoPath.dir (GoPath.join2 (GoPath.join2 w.here.dir out) (b! "pkged.go"))) = .ok c ∧ A.create = none ∧
      blob A.env { A.setup with disk := A.disk (some (headers c.name).flatten) } w.here ds = .ok b ∧
      (program A w old args).1.states.getLast? = some (some (complete c.name b))) := by
  have hrun : run A w old args =
      ⟨w, (exec A.env A.tool A.setup A.disk (.ok w.here) out includes A.create A.writer old).1, [], [],
        packEnd (exec A.env A.tool A.setup A.disk (.ok w.here) out includes A.create A.writer old).2⟩ := by
    simp only [run, hr]
  simp only [program, hrun]
  have hpe : ∀ s, packEnd (exec A.env A.tool A.setup A.disk (.ok w.here) out includes A.create A.writer old).2 ≠ .exit s := by
    intro s
    cases (exec A.env A.tool A.setup A.disk (.ok w.here) out includes A.create A.writer old).2 <;> simp [packEnd]
  obtain ⟨h1, h2, h3⟩ := C76_tidy_partial (ε := Unit) [()] hpe
  refine ⟨h1, ?_, trivial, trivial, ?_⟩
  · by_cases hok : packEnd (exec A.env A.tool A.setup A.disk (.ok w.here) out includes A.create A.writer old).2 = .ok
    · exact Or.inl (h2.mpr hok)
    · right
      unfold Ran.status
      rw [h3 hok]
  · rw [h2]
    have hiff : packEnd (exec A.env A.tool A.setup A.disk (.ok w.here) out includes A.create A.writer old).2 = .ok ↔
        (exec A.env A.tool A.setup A.disk (.ok w.here) out includes A.create A.writer old).2 = .ok () := by
      cases (exec A.env A.tool A.setup A.disk (.ok w.here) out includes A.create A.writer old).2 <;> simp [packEnd]
    rw [hiff]
    unfold exec
    simp only
    cases hd : Parser.decls A.env A.tool (A.disk none) w.here includes with
    | err e => simp
    | panic => simp
    | ok ds =>
      simp only
      rw [C47_success_partial hf]
      have hne : (package A.env A.setup A.disk w.here (GoPath.join2 (GoPath.join2 w.here.dir out) outName) ds A.create
          A.writer none).1 ≠ [] := by
        unfold package packageWith
        cases A.env.dirInfo (GoPath.dir (GoPath.join2 (GoPath.join2 w.here.dir out) outName)) with
        | error e => simp
        | ok c =>
          cases A.create with
          | some e => simp
          | none =>
            simp only
            split <;> simp
      have hlast : ∀ x, (x :: (package A.env A.setup A.disk w.here (GoPath.join2 (GoPath.join2 w.here.dir out) outName) ds
          A.create A.writer none).1).getLast? = (package A.env A.setup A.disk w.here
            (GoPath.join2 (GoPath.join2 w.here.dir out) outName) ds A.create A.writer none).1.getLast? := by
        intro x
        rw [List.getLast?_cons, List.getLast?_eq_some_getLast hne]
        rfl
      rw [hlast]
      constructor
      · rintro ⟨c, b, q1, q2, q3, q4⟩
        exact ⟨ds, c, b, rfl, q1, q2, q3, q4⟩
      · rintro ⟨ds', c, b, q1, q2, q3, q4, q5⟩
        cases q1
        exact ⟨c, b, q2, q3, q4, q5⟩

/-- The surroundings of the demo program: the writer is given. -/
def around (prog : Parser.Ast) (wr : Nat → Writer) : Around Unit :=
  { env := Demo.env, tool := Demo.tool prog, setup := demoSetup Demo.disk1, disk := demoDisk, host := Demo.host,
    pos := fun _ k => ⟨b! "/src/app/main.go", k, 1, k + 1⟩, listen := fun _ w => (w, .other 9), create := none,
    writer := wr, status := 2 }

/-- The demo package on disk. -/
def atHome : Stdos.World Unit := Stdos.new Demo.info ()

/-- Two cases: the demo program is packaged, and a program that declares a missing file is not. -/
example :
    Cmd.route [b! "-include", b! "/main.go"] = .pack [] [b! "/main.go"] ∧
    (program (around (Demo.program []) takeAll) atHome none [b! "-include", b! "/main.go"]).2.status = 0 ∧
    (program (around (Demo.program []) takeAll) atHome none [b! "-include", b! "/main.go"]).1.states.getLast?.map (·.isSome) =
      some true ∧
    (program (around (Demo.program []) takeAll) atHome none [b! "-include", b! "/nowhere"]).2.status = 1 := by
  refine ⟨by decide +kernel, by decide +kernel, by decide +kernel, by decide +kernel⟩

/-- **C77 is false** of writes that fail: with a full disk, `pkger` ends with status 0 and leaves an empty file. -/
theorem C77_full_disk_refuted : ¬ C77_statement := by
  intro h
  obtain ⟨name, b, h4⟩ := h Unit (around (Demo.program []) (fun _ _ => (0, some (.other 28)))) atHome none
    [b! "-include", b! "/main.go"] [] [b! "/main.go"] (by decide +kernel) (by decide +kernel)
  have h3 : (program (around (Demo.program []) (fun _ _ => (0, some (.other 28)))) atHome none
      [b! "-include", b! "/main.go"]).1.states.getLast? = some (some []) := by decide +kernel
  rw [h3] at h4
  simp [complete, footer] at h4

end Props
end Verif
