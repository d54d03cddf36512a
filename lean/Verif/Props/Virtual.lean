import Verif.Props.Files
import Verif.Spec.ParserDemo

/-! C37: paths the program creates itself. -/

namespace Verif
namespace Props

open Parser Spec

/-- **C37** in full: for the declarations found in any program, leaving out those that name a path the program
creates with `MkdirAll` or `Create` makes no difference to the list of files (or to the error). -/
def C37_statement : Prop :=
  ∀ (E : Env) (G : GoTool) (disk : Disk.Node) (her : Info) (includes : List Str) (m : DeclMap)
    (sort : List File → List File), AnyOrder G → Sorts sort → parse E G disk her includes = .ok m →
    files E disk sort (ordered m) =
      files E disk sort (ordered (without m fun d =>
        looksUp d && (created m).any fun c => c.file.path = d.file.path))

theorem filesLoop_append {E : Env} {disk : Disk.Node} : ∀ (a b : List Decl) (s : FState),
    filesLoop E disk (a ++ b) s =
      match filesLoop E disk a s with
      | .ok s => filesLoop E disk b s
      | .error e => .error e
  | [], b, s => rfl
  | d :: a, b, s => by
    simp only [List.cons_append, filesLoop]
    split
    · exact filesLoop_append a b _
    · split
      · rfl
      · exact filesLoop_append a b _

theorem filesLoop_creates {E : Env} {disk : Disk.Node} : ∀ (a : List Decl) (s : FState),
    (∀ d ∈ a, d.kind = .mkdirAll ∨ d.kind = .create) →
    filesLoop E disk a s = .ok ⟨s.m, (a.map (·.value)).reverse ++ s.v⟩
  | [], s, _ => rfl
  | d :: a, s, h => by
    have hd := h d (by simp)
    simp only [filesLoop]
    rw [filer_none.mpr hd, virtualPaths_creates hd]
    simp only
    rw [filesLoop_creates a _ (fun x hx => h x (by simp [hx]))]
    simp

theorem filesLoop_skip {E : Env} {disk : Disk.Node} (known : List Str) (p : Decl → Bool)
    (hp : ∀ d, p d = true → d.kind ≠ .mkdirAll ∧ d.kind ≠ .create ∧ d.kind ≠ .walk ∧ d.value ∈ known) :
    ∀ (ds : List Decl) (s : FState), (∀ x ∈ known, x ∈ s.v) →
      filesLoop E disk ds s = filesLoop E disk (ds.filter fun d => !p d) s
  | [], s, _ => rfl
  | d :: ds, s, hk => by
    cases hpd : p d with
    | true =>
      obtain ⟨h1, h2, h3, h4⟩ := hp d hpd
      simp only [List.filter_cons, hpd, Bool.not_true, Bool.false_eq_true, if_false]
      rw [← filesLoop_skip known p hp ds s hk]
      simp only [filesLoop]
      have hv : virtualPaths d = [] := virtualPaths_other (by rintro (h | h) <;> contradiction)
      have hf : filer E disk d = some fun virt => openFiles E disk virt d := by
        unfold filer
        split <;> first | rfl | contradiction
      rw [hv, hf]
      have ho : openFiles E disk (fun x => s.v.contains x) d = .ok [] := by
        unfold openFiles
        rw [if_pos (by simpa using hk _ h4)]
      simp only [List.nil_append, ho, addFiles]
    | false =>
      simp only [List.filter_cons, hpd, Bool.not_false, if_true, filesLoop]
      split
      · exact filesLoop_skip known p hp ds _ (fun x hx => List.mem_append_right _ (hk x hx))
      · split
        · rfl
        · apply filesLoop_skip known p hp ds
          intro x hx
          rw [addFiles_eq]
          exact List.mem_append_right _ (List.mem_append_right _ (hk x hx))

theorem ordered_split (m : DeclMap) : ordered m = created m ++ [Kind.include, .stat, .open, .dir, .walk].flatMap m := by
  simp [ordered, orderedKinds, created]

theorem filter_flatMap (m : DeclMap) (p : Decl → Bool) (ks : List Kind) :
    (ks.flatMap m).filter (fun d => !p d) = ks.flatMap (without m p) := by
  induction ks with
  | nil => rfl
  | cons k ks ih => simp [List.flatMap_cons, List.filter_append, ih, without]

/-- **C37** for `Include`, `Stat`, `Open` and `Dir` naming the path by the same string (missing: `Walk`, and other
ways of writing the path): wherever the declarations are in the program, they make no difference, whatever is on
disk. -/
theorem C37_created_not_looked_up_partial {E : Env} {G : GoTool} {disk : Disk.Node} {her : Info} {includes : List Str}
    {m : DeclMap} {sort : List File → List File} (hm : parse E G disk her includes = .ok m) (disk' : Disk.Node) :
    files E disk' sort (ordered m) =
      files E disk' sort (ordered (without m fun d =>
        (looksUp d && d.kind ≠ .walk) && (created m).any fun c => c.value = d.value)) := by
  have hkinds := kindsOk_parse hm
  have hcr : ∀ d ∈ created m, d.kind = .mkdirAll ∨ d.kind = .create := by
    intro d hd
    rcases List.mem_append.mp hd with h | h
    · exact Or.inl (hkinds _ d h)
    · exact Or.inr (hkinds _ d h)
  let p : Decl → Bool := fun d => (looksUp d && d.kind ≠ .walk) && (created m).any fun c => c.value = d.value
  have hcreated : created (without m p) = created m := by
    have hf : ∀ l : List Decl, (∀ d ∈ l, d.kind = .mkdirAll ∨ d.kind = .create) → l.filter (fun d => !p d) = l := by
      intro l hl
      rw [List.filter_eq_self]
      intro d hd
      rcases hl d hd with h | h <;> simp [p, looksUp, h]
    unfold created
    show (m .mkdirAll).filter _ ++ (m .create).filter _ = _
    rw [hf _ (fun d hd => Or.inl (hkinds _ d hd)), hf _ (fun d hd => Or.inr (hkinds _ d hd))]
  show files E disk' sort (ordered m) = files E disk' sort (ordered (without m p))
  unfold files
  congr 1
  rw [ordered_split m, ordered_split (without m p), hcreated, filesLoop_append, filesLoop_append,
    filesLoop_creates _ _ hcr, ← filter_flatMap]
  simp only
  apply filesLoop_skip ((created m).map (·.value)) p
  · intro d hd
    simp only [p, looksUp, Bool.and_eq_true, decide_eq_true_eq, List.any_eq_true, ne_eq] at hd
    obtain ⟨⟨⟨h1, h2⟩, h3⟩, c, hc, hv⟩ := hd
    exact ⟨h1, h2, h3, List.mem_map.mpr ⟨c, hc, hv⟩⟩
  · intro x hx
    simp only [List.append_nil, List.mem_reverse]
    exact hx

/-- The program of the next example: `Open` comes before the `Create` in the source. -/
def createOpen : Ast := Demo.program [Demo.callLit (b! "Open") (b! "\"/new.txt\""), Demo.callLit (b! "Create") (b! "\"/new.txt\""),
  Demo.callLit (b! "Open") (b! "\"/readme\"")]

/-- The declarations of this program are found, and `/new.txt`, which is not on disk, makes no difficulty. -/
example :
    (parse Demo.env (Demo.tool createOpen) Demo.disk1 Demo.info []).isOk = true ∧
    (match Parser.decls Demo.env (Demo.tool createOpen) Demo.disk1 Demo.info [] with
      | .ok ds => (match files Demo.env Demo.disk1 Demo.sortFiles ds with | .ok l => l.map (·.abs) | .error _ => [])
      | _ => []) = [b! "/src/app/readme"] := by decide +kernel

/-- The program `pkger.MkdirAll("/new"); pkger.Walk("/new", ...)`. -/
def mkdirWalk : Ast := Demo.program [Demo.callLit (b! "MkdirAll") (b! "\"/new\""), Demo.callLit (b! "Walk") (b! "\"/new\"")]

/-- The program `pkger.Create("/new"); pkger.Open("app:/new")`. -/
def createOpenQualified : Ast :=
  Demo.program [Demo.callLit (b! "Create") (b! "\"/new\""), Demo.callLit (b! "Open") (b! "\"app:/new\"")]

/-- Both sides of the statement for a given program, if it parses. -/
def C37_sides (prog : Ast) : Option (Except Err (List File) × Except Err (List File)) :=
  match parse Demo.env (Demo.tool prog) Demo.disk1 Demo.info [] with
  | .ok m => some (files Demo.env Demo.disk1 Demo.sortFiles (ordered m),
      files Demo.env Demo.disk1 Demo.sortFiles (ordered (without m fun d =>
        looksUp d && (created m).any fun c => c.file.path = d.file.path)))
  | _ => none

theorem C37_sides_eq (h : C37_statement) (prog : Ast) (a b : Except Err (List File))
    (hs : C37_sides prog = some (a, b)) : a = b := by
  unfold C37_sides at hs
  split at hs
  · rename_i m hm
    cases hs
    exact h _ _ _ _ _ m _ (Demo.tool_anyOrder prog) Demo.sortFiles_sorts hm
  · cases hs

/-- **C37** is false of the code: `Walk` of a directory the program creates is looked up on disk, and packaging fails
if it is not there. -/
theorem C37_walk_refuted : ¬ C37_statement := by
  intro h
  have := C37_sides_eq h mkdirWalk (.error (.text .notExist)) (.ok []) (by decide +kernel)
  cases this

/-- **C37** is false of the code also for other declarations, if the path is written differently. -/
theorem C37_spelling_refuted : ¬ C37_statement := by
  intro h
  have := C37_sides_eq h createOpenQualified (.error (.text .notExist)) (.ok []) (by decide +kernel)
  cases this

end Props
end Verif
