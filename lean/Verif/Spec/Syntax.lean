import Verif.Model.Parser
import Verif.Spec.Lit

/-! Which declarations a source file contains. -/

namespace Verif
namespace Spec

open Parser

mutual
/-- Every node of a syntax tree in the order of the source text, each with the nodes it is nested in. -/
def occurrences (outer : List Ast) : Ast → List (List Ast × Ast)
  | .ident n o => [(outer, .ident n o)]
  | .lit t => [(outer, .lit t)]
  | .sel x n => (outer, .sel x n) :: occurrences (.sel x n :: outer) x
  | .call f args =>
    (outer, .call f args) :: (occurrences (.call f args :: outer) f ++ occurrencesList (.call f args :: outer) args)
  | .other kids => (outer, .other kids) :: occurrencesList (.other kids :: outer) kids

/-- The same for a list of trees. -/
def occurrencesList (outer : List Ast) : List Ast → List (List Ast × Ast)
  | [] => []
  | a :: as => occurrences outer a ++ occurrencesList outer as
end

/-- Every node of a syntax tree in the order of the source text. -/
def nodes (a : Ast) : List Ast := (occurrences [] a).map (·.2)

/-- The names of the functions that declare files. -/
def declaring : List (Str × Kind) :=
  [(b! "MkdirAll", .mkdirAll), (b! "Create", .create), (b! "Include", .include), (b! "Stat", .stat),
   (b! "Open", .open), (b! "Dir", .dir), (b! "Walk", .walk)]

/-- `pkger.F(args…)` with `F` declaring files. -/
def IsCall (a : Ast) (k : Kind) (args : List Ast) : Prop :=
  ∃ o name, a = .call (.sel (.ident (b! "pkger") o) name) args ∧ (name, k) ∈ declaring

/-- `Constant objs e v`: the expression `e` is a string literal, or a constant defined by a constant, with value
`v`. -/
inductive Constant (objs : Nat → Obj) : Ast → Str → Prop where
  | lit {text v} : GoString text v → Constant objs (.lit text) v
  | const {name o sp e v} {i : Nat} : (objs o).isCon = true → (objs o).spec = some sp →
      sp.names[i]? = some name → (∀ j < i, sp.names[j]? ≠ some name) → sp.values[i]? = some e →
      Constant objs e v → Constant objs (.ident name (some o)) v

/-- The value named by a declaration in the file `abs` stands for this file: the name is resolved in the module the
source file belongs to, or in the module it names. -/
inductive FileFor (E : Env) (abs val : Str) : File → Prop where
  | own {info pt} : E.dirInfo (GoPath.dir abs) = .ok info → E.parse info val = .ok pt → pt.pkg = info.module.path →
      FileFor E abs val ⟨GoPath.join2 info.module.dir pt.name, pt, info⟩
  | foreign {info pt info'} : E.dirInfo (GoPath.dir abs) = .ok info → E.parse info val = .ok pt →
      pt.pkg ≠ info.module.path → E.pkgInfo pt.pkg = .ok info' →
      FileFor E abs val ⟨GoPath.join2 info'.module.dir pt.name, pt, info'⟩

/-- The node `a` of the source file `src` declares `d`. -/
def Declares (E : Env) (src : Source) (a : Ast) (d : Decl) : Prop :=
  ∃ arg args, IsCall a d.kind (arg :: args) ∧ Constant src.objs arg d.value ∧ FileFor E src.abs d.value d.file

/-- A pkger call that declares nothing, because its argument is missing or cannot be evaluated or resolved. -/
def Unusable (E : Env) (src : Source) (a : Ast) : Prop :=
  (∃ k args, IsCall a k args) ∧ ∀ d, ¬ Declares E src a d

/-- `Picks P l out`: `out` has, in order, one result for each element of `l` that has one. -/
inductive Picks {α β : Type} (P : α → β → Prop) : List α → List β → Prop where
  | nil : Picks P [] []
  | pick {x xs y ys} : P x y → Picks P xs ys → Picks P (x :: xs) (y :: ys)
  | skip {x xs ys} : (∀ y, ¬ P x y) → Picks P xs ys → Picks P (x :: xs) ys

/-- A node as Go's syntax and typing rules admit it as argument or constant value: identifiers do not start with a
quote, and literals are not rune literals (which are not strings). -/
def Typed : Ast → Prop
  | .ident n _ => n.head? ≠ some 34 ∧ n.head? ≠ some 96 ∧ n.head? ≠ some 39
  | .lit t => t.head? ≠ some 39
  | _ => True

instance : DecidablePred Typed := fun a => by cases a <;> simp only [Typed] <;> infer_instance

/-- A source file that Go's syntax and typing rules admit. -/
structure TypedSource (src : Source) : Prop where
  args : ∀ a ∈ nodes src.ast, ∀ k arg args, IsCall a k (arg :: args) → Typed arg
  consts : ∀ o sp, (src.objs o).spec = some sp → ∀ e ∈ sp.values, Typed e

/-- An expression whose evaluation comes to an end: every identifier has an object, every constant has a value, and
there is no cycle. -/
inductive Resolved (objs : Nat → Obj) : Ast → Prop where
  | lit (t) : Resolved objs (.lit t)
  | sel (x n) : Resolved objs (.sel x n)
  | call (f args) : Resolved objs (.call f args)
  | other (kids) : Resolved objs (.other kids)
  | notCon {name o} : (objs o).isCon = false → Resolved objs (.ident name (some o))
  | noSpec {name o} : (objs o).isCon = true → (objs o).spec = none → Resolved objs (.ident name (some o))
  | notNamed {name o sp} : (objs o).isCon = true → (objs o).spec = some sp → name ∉ sp.names →
      Resolved objs (.ident name (some o))
  | const {name o sp e} {i : Nat} : (objs o).isCon = true → (objs o).spec = some sp →
      sp.names[i]? = some name → (∀ j < i, sp.names[j]? ≠ some name) → sp.values[i]? = some e →
      Resolved objs e → Resolved objs (.ident name (some o))

end Spec
end Verif
