import Verif.Lemmas.Mem

/-! Which paths an operation may bind or unbind. -/

namespace Verif
namespace Mem

/-- The paths `MkdirAll(p)` stores: `p` and, going up, every directory its recursion reaches. -/
inductive Chain (E : Env) (here : Info) : Str → Path → Prop where
  | self {p : Str} {pt : Path} : E.parse here p = .ok pt → Chain E here p pt
  | up {p : Str} {pt q : Path} : E.parse here p = .ok pt → (GoPath.split pt.name).1 ≠ GoPath.rootS →
      Chain E here (GoPath.split pt.name).1 q → Chain E here p q

/-- The file names `filepath.Walk` reports below a root. -/
inductive Visits : Str → Disk.Node → Str → Prop where
  | self (path : Str) (n : Disk.Node) : Visits path n path
  | kid {path : Str} {d : Details} {kids : List (Str × Disk.Node)} {e : Str × Disk.Node} {q : Str} :
      e ∈ kids → Visits (GoPath.join2 path e.1) e.2 q → Visits path (.dir d kids) q

/-- The paths an operation names, so that it may store or delete them. -/
def Op.touches (E : Env) (here : Info) (o : Op) (q : Path) : Prop :=
  match o with
  | .create name => Chain E here GoPath.rootS q ∨ E.parse here name = .ok q
  | .mkdirAll p _ => Chain E here p q
  | .remove name => E.parse here name = .ok q
  | .removeAll name => ∃ pt, E.parse here name = .ok pt ∧ pt.name <+: q.name
  | .add fs => ∃ f ∈ fs, ∃ path, Visits f.name f.node path ∧ E.parse here path = .ok q
  | _ => False

theorem get_mkdirAllF (E : Env) (fuel : Nat) {w : World} {p : Str} (perm : Nat) {q : Path}
    (h : ¬ Chain E w.here p q) :
    AMap.get (mkdirAllF E fuel w p perm).1.files q = AMap.get w.files q := by
  induction fuel generalizing w p with
  | zero => rfl
  | succ n ih =>
    unfold mkdirAllF parse
    cases hp : E.parse w.here p with
    | error e => rfl
    | ok pt =>
      simp only
      have hne : q ≠ pt := by rintro rfl; exact h (.self hp)
      by_cases hd : (GoPath.split pt.name).1 ≠ GoPath.rootS
      · rw [if_pos hd]
        have hrec := ih (w := w) (p := (GoPath.split pt.name).1) (fun hc => h (.up hp hd hc))
        revert hrec
        generalize mkdirAllF E n w (GoPath.split pt.name).1 perm = m
        obtain ⟨w1, r⟩ := m
        intro hrec
        cases r with
        | ok u => simp only [store, alloc]; rw [AMap.get_set_ne _ _ hne]; exact hrec
        | err e => exact hrec
        | panic => exact hrec
      · rw [if_neg hd]
        simp only [store, alloc]
        rw [AMap.get_set_ne _ _ hne]

theorem get_mkdirAll (E : Env) {w : World} {p : Str} (perm : Nat) {q : Path}
    (h : ¬ Chain E w.here p q) :
    AMap.get (mkdirAll E w p perm).1.files q = AMap.get w.files q := get_mkdirAllF E _ perm h

theorem here_mkdirAll (E : Env) (w : World) (p : Str) (perm : Nat) :
    (mkdirAll E w p perm).1.here = w.here := (ext_prims (prims_mkdirAll E w p perm)).here

theorem get_create (E : Env) {w : World} {name : Str} {q : Path}
    (h1 : ¬ Chain E w.here GoPath.rootS q) (h2 : E.parse w.here name ≠ .ok q) :
    AMap.get (create E w name).1.files q = AMap.get w.files q := by
  have hm := get_mkdirAll E 0o755 h1
  have hh := here_mkdirAll E w GoPath.rootS 0o755
  unfold create
  revert hm hh
  generalize mkdirAll E w GoPath.rootS 0o755 = m
  obtain ⟨w0, r0⟩ := m
  intro hm hh
  simp only at hm hh
  simp only [parse]
  split
  · exact hm
  · cases hp : E.parse w0.here name with
    | error e => exact hm
    | ok pt =>
      rw [hh] at hp
      have hne : q ≠ pt := by rintro rfl; exact h2 hp
      simp only
      split
      · exact hm
      · exact hm
      · split
        · exact hm
        · exact hm
        · simp only [store, alloc]
          rw [AMap.get_set_ne _ _ hne]; exact hm

theorem get_addNode {w : World} {her : Info} {pt q : Path} {n : Disk.Node} (h : q ≠ pt) :
    AMap.get (addNode w her pt n).files q = AMap.get w.files q := by
  simp only [addNode, store, alloc]
  rw [AMap.get_set_ne _ _ h]

theorem here_addWalkFn (E : Env) (path : Str) (n : Disk.Node) (w : World) :
    (addWalkFn E path n w).1.here = w.here := by
  unfold addWalkFn
  split
  · rfl
  · split <;> rfl

theorem get_addWalkFn (E : Env) {path : Str} {n : Disk.Node} {w : World} {q : Path}
    (h : E.parse w.here path ≠ .ok q) :
    AMap.get (addWalkFn E path n w).1.files q = AMap.get w.files q := by
  unfold addWalkFn parse
  cases hp : E.parse w.here path with
  | error e => rfl
  | ok pt =>
    simp only
    split
    · rfl
    · exact get_addNode (by rintro rfl; exact h hp)

mutual
theorem get_walkNode (E : Env) (here : Info) (q : Path) : ∀ (path : Str) (n : Disk.Node) (w : World),
    w.here = here → (∀ p, Visits path n p → E.parse here p ≠ .ok q) →
    (Disk.walkNode (addWalkFn E) path n w).1.here = here ∧
    AMap.get (Disk.walkNode (addWalkFn E) path n w).1.files q = AMap.get w.files q
  | path, .file d b, w, hw, h => by
    rw [Disk.walkNode]
    refine ⟨(here_addWalkFn E _ _ _).trans hw, get_addWalkFn E ?_⟩
    rw [hw]; exact h path (.self _ _)
  | path, .dir d kids, w, hw, h => by
    rw [Disk.walkNode]
    have h1 := get_addWalkFn E (path := path) (n := .dir d kids) (w := w) (q := q)
      (by rw [hw]; exact h path (.self _ _))
    have h2 := (here_addWalkFn E path (.dir d kids) w).trans hw
    revert h1 h2
    generalize addWalkFn E path (.dir d kids) w = m
    obtain ⟨w1, r⟩ := m
    intro h1 h2
    cases r with
    | some e => exact ⟨h2, h1⟩
    | none =>
      have h3 := get_walkKids E here q path kids w1 h2
        (fun e he p hp => h p (.kid he hp))
      exact ⟨h3.1, h3.2.trans h1⟩
theorem get_walkKids (E : Env) (here : Info) (q : Path) :
    ∀ (path : Str) (kids : List (Str × Disk.Node)) (w : World), w.here = here →
    (∀ e ∈ kids, ∀ p, Visits (GoPath.join2 path e.1) e.2 p → E.parse here p ≠ .ok q) →
    (Disk.walkKids (addWalkFn E) path kids w).1.here = here ∧
    AMap.get (Disk.walkKids (addWalkFn E) path kids w).1.files q = AMap.get w.files q
  | path, [], w, hw, _ => by rw [Disk.walkKids]; exact ⟨hw, rfl⟩
  | path, (name, n) :: rest, w, hw, h => by
    rw [Disk.walkKids]
    have h1 := get_walkNode E here q (GoPath.join2 path name) n w hw (fun p hp => h (name, n) (by simp) p hp)
    revert h1
    generalize Disk.walkNode (addWalkFn E) (GoPath.join2 path name) n w = m
    obtain ⟨w1, r⟩ := m
    intro h1
    have h2 := get_walkKids E here q path rest w1 h1.1 (fun e he p hp => h e (List.mem_cons_of_mem _ he) p hp)
    cases r with
    | none => exact ⟨h2.1, h2.2.trans h1.2⟩
    | some e =>
      simp only
      split
      · exact ⟨h2.1, h2.2.trans h1.2⟩
      · exact h1
end

theorem walk_fst {S : Type} (cb : Disk.WalkFn S) (root : Str) (n : Disk.Node) (s : S) :
    (Disk.walk cb root n s).1 = (Disk.walkNode cb root n s).1 := by
  unfold Disk.walk
  split
  · rename_i h; rw [h]
  · rfl

theorem get_addOne (E : Env) {w : World} {f : OsFile} {q : Path}
    (h : ∀ p, Visits f.name f.node p → E.parse w.here p ≠ .ok q) :
    (addOne E w f).1.here = w.here ∧ AMap.get (addOne E w f).1.files q = AMap.get w.files q := by
  unfold addOne parse
  cases hp : E.parse w.here f.name with
  | error e => exact ⟨rfl, rfl⟩
  | ok pt =>
    simp only
    split
    · exact ⟨rfl, rfl⟩
    · split
      · have h1 := get_walkNode E w.here q f.name f.node w rfl h
        rw [← walk_fst] at h1
        revert h1
        generalize Disk.walk (addWalkFn E) f.name f.node w = m
        obtain ⟨w1, r⟩ := m
        intro h1
        cases r with
        | none => exact h1
        | some e => exact h1
      · refine ⟨rfl, get_addNode ?_⟩
        rintro rfl
        exact h _ (.self _ _) hp

theorem get_add (E : Env) {w : World} {fs : List OsFile} {q : Path}
    (h : ∀ f ∈ fs, ∀ p, Visits f.name f.node p → E.parse w.here p ≠ .ok q) :
    AMap.get (add E w fs).1.files q = AMap.get w.files q := by
  induction fs generalizing w with
  | nil => rfl
  | cons f fs ih =>
    have h1 := get_addOne E (h f (by simp))
    unfold add
    revert h1
    generalize addOne E w f = m
    obtain ⟨w1, r⟩ := m
    intro h1
    cases r with
    | ok u =>
      simp only at h1 ⊢
      rw [ih (by rw [h1.1]; exact fun g hg => h g (List.mem_cons_of_mem _ hg)), h1.2]
    | err e => exact h1.2
    | panic => exact h1.2

theorem get_openFile (E : Env) (w : World) (name : Str) : (openFile E w name).1.files = w.files := by
  unfold openFile
  split
  · rfl
  · split
    · rfl
    · simp only
      split <;> rfl

theorem get_fileOpen (E : Env) (w : World) (id : Nat) (name : Str) :
    (fileOpen E w id name).1.files = w.files := by
  unfold fileOpen
  simp only
  split
  · rfl
  · rename_i pt0 _
    split
    · rfl
    · split
      · rfl
      · have h1 := get_openFile E w (Path.str ⟨pt0.pkg, GoPath.join2 (w.heap id).path.name pt0.name⟩)
        revert h1
        generalize openFile E w (Path.str ⟨pt0.pkg, GoPath.join2 (w.heap id).path.name pt0.name⟩) = m
        obtain ⟨w1, r⟩ := m
        intro h1
        cases r with
        | ok di =>
          simp only
          split
          · exact h1
          · split
            · exact h1
            · exact h1
        | err e => exact h1
        | panic => exact h1

theorem get_close (w : World) (id : Nat) : (close w id).1.files = w.files := by
  unfold close
  simp only
  split <;> rfl

/-- An operation that does not touch a path leaves its binding alone. -/
theorem get_step (E : Env) {w : World} {o : Op} {q : Path} (h : ¬ o.touches E w.here q) :
    AMap.get (step E w o).files q = AMap.get w.files q := by
  cases o with
  | create name =>
    simp only [Op.touches, not_or] at h
    exact get_create E h.1 h.2
  | mkdirAll p perm => exact get_mkdirAll E perm h
  | openFile name => simp only [step]; rw [get_openFile]
  | stat name => rfl
  | remove name =>
    simp only [step, remove, parse]
    cases hp : E.parse w.here name with
    | error e => rfl
    | ok pt =>
      simp only
      split
      · rfl
      · simp only
        rw [AMap.get_erase_ne]
        rintro rfl; exact h hp
  | removeAll name =>
    simp only [step, removeAll, parse]
    cases hp : E.parse w.here name with
    | error e => rfl
    | ok pt =>
      simp only
      rw [AMap.get_filter w.files (fun k => !Str.hasPrefix k.name pt.name)]
      rw [if_pos]
      simp only [Bool.not_eq_true', Str.hasPrefix_false_iff]
      intro hpre
      exact h ⟨pt, hp, hpre⟩
  | write id b => rfl
  | close id => simp only [step]; rw [get_close]
  | read id n => rfl
  | seek id off whence => rfl
  | readdir id count => rfl
  | fileOpen id name => simp only [step]; rw [get_fileOpen]
  | add fs =>
    refine get_add E ?_
    intro f hf p hp hpq
    exact h ⟨f, hf, p, hp, hpq⟩
  | tick t => rfl

/-- Along the history, no step changes the binding of `pt`. -/
def KeepsBinding (E : Env) (pt : Path) : World → List Op → Prop
  | _, [] => True
  | w, o :: ops =>
    AMap.get (step E w o).files pt = AMap.get w.files pt ∧ KeepsBinding E pt (step E w o) ops

theorem keepsBinding_of_touches (E : Env) {pt : Path} {here : Info} (ops : List Op) :
    ∀ {w : World}, HeapOk w → w.here = here → (∀ o ∈ ops, o.HostOk ∧ ¬ o.touches E here pt) →
    KeepsBinding E pt w ops := by
  induction ops with
  | nil => intro w _ _ _; trivial
  | cons o ops ih =>
    intro w hw hh h
    have h1 := h o (by simp)
    refine ⟨get_step E (by rw [hh]; exact h1.2), ih (heapOk_step E hw o h1.1) ?_ (fun o' ho' => h o' (List.mem_cons_of_mem _ ho'))⟩
    rw [here_step E hw o h1.1, hh]

theorem KeepsBinding.get (E : Env) {pt : Path} {ops : List Op} : ∀ {w : World},
    KeepsBinding E pt w ops → AMap.get (run E w ops).files pt = AMap.get w.files pt := by
  induction ops with
  | nil => intro w _; rfl
  | cons o ops ih =>
    intro w h
    rw [run_cons, ih h.2, h.1]

theorem KeepsBinding.append (E : Env) {pt : Path} {a b : List Op} : ∀ {w : World},
    KeepsBinding E pt w (a ++ b) ↔ KeepsBinding E pt w a ∧ KeepsBinding E pt (run E w a) b := by
  induction a with
  | nil => intro w; simp [KeepsBinding]
  | cons o a ih =>
    intro w
    simp only [List.cons_append, KeepsBinding, run_cons, ih, and_assoc]

end Mem
end Verif
