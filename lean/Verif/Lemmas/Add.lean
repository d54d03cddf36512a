import Verif.Lemmas.Scan
import Verif.Lemmas.Handle

/-! What `Add` stores. -/

namespace Verif
namespace Mem

open Disk (Node)

/-- The package lookups never answer with the marker `filepath.SkipDir`, which would silently end the walk of
`Add` (pkging/mem/add.go:37). -/
structure NoSkip (E : Env) : Prop where
  parse : ∀ i p, E.parse i p ≠ .error .skipDir
  pkgInfo : ∀ p, E.pkgInfo p ≠ .error .skipDir

/-- The entries of an opened file or directory with their paths. -/
def OsFile.entries (f : OsFile) : List (Str × Node) :=
  f.node.tree.map fun e => (Disk.joinAll f.name e.1, e.2)

/-- A package description the Go tool gives. -/
def FromTool (E : Env) (her : Info) : Prop := (∃ p, E.pkgInfo p = .ok her) ∨ ∃ d, E.dirInfo d = .ok her

/-- What is stored as the package of an entry with a path in `pkg`: for a directory what the Go tool says of `pkg`; for a
regular file also what it says of some directory. -/
def Known (E : Env) (pkg : Str) (n : Node) (her : Info) : Prop :=
  E.pkgInfo pkg = .ok her ∨ (n.isDir = false ∧ ∃ d, E.dirInfo d = .ok her)

theorem Known.tool {E : Env} {pkg : Str} {n : Node} {her : Info} (h : Known E pkg n her) : FromTool E her :=
  h.imp (fun h => ⟨_, h⟩) (·.2)

/-- `w'` results from `w` by storing the entries one after the other. -/
inductive Added (E : Env) : List (Str × Node) → World → World → Prop where
  | nil (w) : Added E [] w w
  | cons {p n l w w' pt her} : E.parse w.here p = .ok pt → Known E pt.pkg n her → Added E l (addNode w her pt n) w' →
      Added E ((p, n) :: l) w w'

theorem Added.append {E : Env} {l l' : List (Str × Node)} {w w' w'' : World} (h : Added E l w w')
    (h' : Added E l' w' w'') : Added E (l ++ l') w w'' := by
  induction h with
  | nil => exact h'
  | cons h1 h2 _ ih => exact .cons h1 h2 (ih h')

theorem addWalkFn_ok {E : Env} (hs : NoSkip E) {p : Str} {n : Node} {w w' : World} {r : Option Err}
    (h : addWalkFn E p n w = (w', r)) (hr : r = none ∨ r = some .skipDir) :
    ∃ pt her, E.parse w.here p = .ok pt ∧ E.pkgInfo pt.pkg = .ok her ∧ w' = addNode w her pt n := by
  unfold addWalkFn parse at h
  cases hp : E.parse w.here p with
  | error e =>
    rw [hp] at h
    simp only [Prod.mk.injEq] at h
    obtain ⟨_, rfl⟩ := h
    rcases hr with hr | hr
    · cases hr
    · injection hr with hr; subst hr; exact absurd hp (hs.parse _ _)
  | ok pt =>
    rw [hp] at h
    simp only at h
    cases hi : E.pkgInfo pt.pkg with
    | error e =>
      rw [hi] at h
      simp only [Prod.mk.injEq] at h
      obtain ⟨_, rfl⟩ := h
      rcases hr with hr | hr
      · cases hr
      · injection hr with hr; subst hr; exact absurd hi (hs.pkgInfo _)
    | ok her =>
      rw [hi] at h
      simp only [Prod.mk.injEq] at h
      exact ⟨pt, her, rfl, hi, h.1.symm⟩

theorem addWalkFn_noSkip {E : Env} (hs : NoSkip E) (p : Str) (n : Node) (w : World) :
    (addWalkFn E p n w).2 ≠ some .skipDir := by
  unfold addWalkFn parse
  cases hp : E.parse w.here p with
  | error e => simp only; intro h; injection h with h; subst h; exact absurd hp (hs.parse _ _)
  | ok pt =>
    simp only
    cases hi : E.pkgInfo pt.pkg with
    | error e => simp only; intro h; injection h with h; subst h; exact absurd hi (hs.pkgInfo _)
    | ok her => simp

theorem steps_added {E : Env} (hs : NoSkip E) {l : List (Str × Node)} {w w' : World}
    (h : Disk.Steps (addWalkFn E) l w w') : Added E l w w' := by
  induction h with
  | nil => exact .nil _
  | cons h1 h2 _ ih =>
    obtain ⟨pt, her, hp, hi, rfl⟩ := addWalkFn_ok hs h1 h2
    exact .cons hp (Or.inl hi) ih

theorem addOne_added {E : Env} (hs : NoSkip E) {w w' : World} {f : OsFile}
    (h : addOne E w f = (w', .ok ())) : Added E f.entries w w' := by
  unfold addOne parse at h
  cases hp : E.parse w.here f.name with
  | error e => rw [hp] at h; simp at h
  | ok pt =>
    rw [hp] at h
    simp only at h
    cases hd : E.dirInfo (if f.node.isDir then f.name else GoPath.dir f.name) with
    | error e => rw [hd] at h; simp at h
    | ok her =>
      rw [hd] at h
      simp only at h
      by_cases hdir : f.node.isDir = true
      · rw [if_pos hdir] at h
        generalize hw : Disk.walk (addWalkFn E) f.name f.node w = m at h
        obtain ⟨w1, r⟩ := m
        cases r with
        | some e => simp at h
        | none =>
          simp only [Prod.mk.injEq, and_true] at h
          subst h
          have := Disk.walk_steps (cb := addWalkFn E) (skip := fun _ => false)
            (fun p n s => by simp [addWalkFn_noSkip hs p n s]) hw
          rw [Disk.visits_tree] at this
          exact steps_added hs this
      · rw [if_neg hdir] at h
        simp only [Prod.mk.injEq, and_true] at h
        subst h
        cases hn : f.node with
        | dir d kids => rw [hn] at hdir; exact absurd rfl hdir
        | file d b =>
          unfold OsFile.entries
          rw [hn]
          simp only [Disk.Node.tree, List.map_cons, List.map_nil]
          exact .cons hp (Or.inr ⟨rfl, _, hd⟩) (.nil _)

/-- A successful `Add` has stored every entry, in order. -/
theorem add_added {E : Env} (hs : NoSkip E) : ∀ {fs : List OsFile} {w w' : World},
    add E w fs = (w', .ok ()) → Added E (fs.flatMap OsFile.entries) w w' := by
  intro fs
  induction fs with
  | nil => intro w w' h; simp only [add, Prod.mk.injEq, and_true] at h; subst h; exact .nil _
  | cons f fs ih =>
    intro w w' h
    simp only [add] at h
    generalize hw : addOne E w f = m at h
    obtain ⟨w1, r⟩ := m
    cases r with
    | err e => simp at h
    | panic => simp at h
    | ok u =>
      simp only at h
      exact (addOne_added hs hw).append (ih h)

/-! ### Success of `Add` depends on the lookups only -/

theorem addWalkFn_err {E : Env} {w w' : World} (hh : w'.here = w.here) (p : Str) (n : Node) :
    (addWalkFn E p n w').2 = (addWalkFn E p n w).2 := by
  unfold addWalkFn parse
  rw [hh]
  cases E.parse w.here p with
  | error e => rfl
  | ok pt =>
    simp only
    cases E.pkgInfo pt.pkg <;> rfl

mutual
theorem walkNode_err {E : Env} {here : Info} : ∀ (path : Str) (n : Node) (w w' : World), w.here = here → w'.here = here →
    (Disk.walkNode (addWalkFn E) path n w').2 = (Disk.walkNode (addWalkFn E) path n w).2 ∧
    (Disk.walkNode (addWalkFn E) path n w).1.here = here
  | path, .file d b, w, w', h, h' => by
    simp only [Disk.walkNode]
    exact ⟨addWalkFn_err (by rw [h, h']) _ _, by rw [here_addWalkFn, h]⟩
  | path, .dir d kids, w, w', h, h' => by
    simp only [Disk.walkNode]
    have he := addWalkFn_err (E := E) (w := w) (w' := w') (by rw [h, h']) path (.dir d kids)
    have h1 := here_addWalkFn E path (.dir d kids) w
    have h2 := here_addWalkFn E path (.dir d kids) w'
    generalize hm : addWalkFn E path (.dir d kids) w = m at he h1
    generalize hm' : addWalkFn E path (.dir d kids) w' = m' at he h2
    obtain ⟨s, r⟩ := m
    obtain ⟨s', r'⟩ := m'
    simp only at he h1 h2
    subst he
    cases r' with
    | some e => exact ⟨rfl, by rw [← h]; exact h1⟩
    | none => exact walkKids_err path kids s s' (by rw [h1, h]) (by rw [h2, h'])
theorem walkKids_err {E : Env} {here : Info} : ∀ (path : Str) (kids : List (Str × Node)) (w w' : World), w.here = here →
    w'.here = here →
    (Disk.walkKids (addWalkFn E) path kids w').2 = (Disk.walkKids (addWalkFn E) path kids w).2 ∧
    (Disk.walkKids (addWalkFn E) path kids w).1.here = here
  | path, [], w, w', h, h' => by simp only [Disk.walkKids]; exact ⟨trivial, h⟩
  | path, (name, n) :: rest, w, w', h, h' => by
    simp only [Disk.walkKids]
    have he := walkNode_err (E := E) (GoPath.join2 path name) n w w' h h'
    have hx := walkNode_err (E := E) (GoPath.join2 path name) n w' w h' h
    generalize hm : Disk.walkNode (addWalkFn E) (GoPath.join2 path name) n w = m at he hx
    generalize hm' : Disk.walkNode (addWalkFn E) (GoPath.join2 path name) n w' = m' at he hx
    obtain ⟨s, r⟩ := m
    obtain ⟨s', r'⟩ := m'
    simp only at he hx
    obtain ⟨rfl, h1⟩ := he
    have h2 := hx.2
    cases r' with
    | none => exact walkKids_err path rest s s' h1 h2
    | some e =>
      simp only
      split
      · exact walkKids_err path rest s s' h1 h2
      · exact ⟨rfl, h1⟩
end

theorem addOne_err {E : Env} {w w' : World} (hh : w'.here = w.here) (f : OsFile) :
    (addOne E w' f).2 = (addOne E w f).2 ∧ (addOne E w f).1.here = w.here := by
  unfold addOne parse
  rw [hh]
  cases E.parse w.here f.name with
  | error e => exact ⟨rfl, rfl⟩
  | ok pt =>
    simp only
    cases E.dirInfo (if f.node.isDir then f.name else GoPath.dir f.name) with
    | error e => exact ⟨rfl, rfl⟩
    | ok her =>
      simp only
      by_cases hdir : f.node.isDir = true
      · rw [if_pos hdir, if_pos hdir]
        have hw := walkNode_err (E := E) (here := w.here) f.name f.node w w' rfl hh
        have h2 : (Disk.walk (addWalkFn E) f.name f.node w').2 = (Disk.walk (addWalkFn E) f.name f.node w).2 := by
          rw [walk_snd, walk_snd, hw.1]
        have h1 : (Disk.walk (addWalkFn E) f.name f.node w).1.here = w.here := by rw [walk_fst]; exact hw.2
        generalize Disk.walk (addWalkFn E) f.name f.node w = m at h1 h2
        generalize Disk.walk (addWalkFn E) f.name f.node w' = m' at h2
        obtain ⟨s, r⟩ := m
        obtain ⟨s', r'⟩ := m'
        simp only at h1 h2
        subst h2
        cases r' with
        | none => exact ⟨rfl, h1⟩
        | some e => exact ⟨rfl, h1⟩
      · rw [if_neg hdir, if_neg hdir]
        exact ⟨rfl, rfl⟩

/-- Whether `Add` succeeds does not depend on what is stored. -/
theorem add_err {E : Env} : ∀ (fs : List OsFile) {w w' : World}, w'.here = w.here →
    (add E w' fs).2 = (add E w fs).2 := by
  intro fs
  induction fs with
  | nil => intro w w' _; rfl
  | cons f fs ih =>
    intro w w' hh
    have h1 := addOne_err (E := E) hh f
    have h2 := (addOne_err (E := E) (w := w') (w' := w) hh.symm f).2
    simp only [add]
    generalize addOne E w f = m at h1
    generalize addOne E w' f = m' at h1 h2
    obtain ⟨s, r⟩ := m
    obtain ⟨s', r'⟩ := m'
    simp only at h1 h2
    obtain ⟨rfl, h3⟩ := h1
    cases r' with
    | ok u => exact ih (by rw [h2, h3, hh])
    | err e => rfl
    | panic => rfl

/-! ### What is stored afterwards -/

/-- The last of the entries whose path designates `pt`. -/
def lastFor (E : Env) (here : Info) (pt : Path) : List (Str × Node) → Option Node
  | [] => none
  | (p, n) :: l =>
    match lastFor E here pt l with
    | some m => some m
    | none => if E.parse here p = .ok pt then some n else none

theorem lookup_addNode {w : World} (hw : WF w) (her : Info) (pt q : Path) (n : Node) :
    lookup (addNode w her pt n) q = if q = pt then some (addedObj her pt n) else lookup w q := by
  unfold lookup addNode store alloc
  simp only [AMap.get_set]
  by_cases h : q = pt
  · simp [h]
  · rw [if_neg h, if_neg h]
    cases hg : AMap.get w.files q with
    | none => rfl
    | some id =>
      have := (hw.bound q id hg).1
      simp only [Option.map_some]
      rw [upd_ne _ _ (by omega)]

theorem wf_addNode {w : World} (hw : WF w) (her : Info) (pt : Path) (n : Node) : WF (addNode w her pt n) := by
  refine ⟨AMap.nodup_set _ _ hw.nodup, ?_⟩
  intro k id h
  simp only [addNode, store, alloc, AMap.get_set] at h ⊢
  by_cases hk : k = pt
  · rw [if_pos hk] at h
    injection h with h
    subst h
    simp [addedObj, hk]
  · rw [if_neg hk] at h
    have := hw.bound k id h
    rw [upd_ne _ _ (by omega)]
    exact ⟨by omega, this.2⟩

theorem Added.here {E : Env} {l : List (Str × Node)} {w w' : World} (h : Added E l w w') : w'.here = w.here := by
  induction h with
  | nil => rfl
  | cons _ _ _ ih => rw [ih]; rfl

theorem Added.infos {E : Env} {l : List (Str × Node)} {w w' : World} (h : Added E l w w') : w'.infos = w.infos := by
  induction h with
  | nil => rfl
  | cons _ _ _ ih => rw [ih]; rfl

theorem Added.wf {E : Env} {l : List (Str × Node)} {w w' : World} (h : Added E l w w') (hw : WF w) : WF w' := by
  induction h with
  | nil => exact hw
  | cons _ _ _ ih => exact ih (wf_addNode hw _ _ _)

theorem Added.parses {E : Env} {l : List (Str × Node)} {w w' : World} (h : Added E l w w') :
    ∀ e ∈ l, ∃ pt, E.parse w.here e.1 = .ok pt := by
  induction h with
  | nil => intro e he; cases he
  | cons h1 _ _ ih =>
    intro e he
    rcases List.mem_cons.mp he with rfl | he
    · exact ⟨_, h1⟩
    · exact ih e he

/-- Each path holds the last entry designating it, and paths designated by no entry hold what they held. -/
theorem Added.lookup {E : Env} {l : List (Str × Node)} {w w' : World} (h : Added E l w w') (hw : WF w) (q : Path) :
    match lastFor E w.here q l with
    | none => lookup w' q = Mem.lookup w q
    | some n => ∃ her, Known E q.pkg n her ∧ Mem.lookup w' q = some (addedObj her q n) := by
  induction h with
  | nil => rfl
  | @cons p n l w w' pt her h1 ht h2 ih =>
    have ih := ih (wf_addNode hw _ _ _)
    have hh : (addNode w her pt n).here = w.here := rfl
    rw [hh] at ih
    simp only [lastFor]
    cases hl : lastFor E w.here q l with
    | some m => rw [hl] at ih; exact ih
    | none =>
      rw [hl] at ih
      simp only at ih ⊢
      rw [h1]
      by_cases hq : q = pt
      · subst hq
        rw [if_pos rfl]
        exact ⟨her, ht, by rw [ih, lookup_addNode hw, if_pos rfl]⟩
      · have : ¬ (Except.ok pt : Except Err Path) = .ok q := by intro h; injection h with h; exact hq h.symm
        rw [if_neg this]
        simp only
        rw [ih, lookup_addNode hw, if_neg hq]

theorem lastFor_none {E : Env} {here : Info} {q : Path} {l : List (Str × Node)}
    (h : ∀ e ∈ l, E.parse here e.1 ≠ .ok q) : lastFor E here q l = none := by
  induction l with
  | nil => rfl
  | cons e l ih =>
    obtain ⟨p, n⟩ := e
    simp only [lastFor, ih (fun e he => h e (by simp [he])), h (p, n) (by simp), if_false]

theorem lastFor_mem {E : Env} {here : Info} {q : Path} {l : List (Str × Node)} {n : Node}
    (h : lastFor E here q l = some n) : ∃ p, (p, n) ∈ l ∧ E.parse here p = .ok q := by
  induction l with
  | nil => cases h
  | cons e l ih =>
    obtain ⟨p, m⟩ := e
    simp only [lastFor] at h
    split at h
    · rename_i x hx
      injection h with h
      subst h
      obtain ⟨p', h1, h2⟩ := ih hx
      exact ⟨p', by simp [h1], h2⟩
    · split at h
      · rename_i hp
        injection h with h
        subst h
        exact ⟨p, by simp, hp⟩
      · cases h

/-- If all entries designating `q` are the same file, that one is the last. -/
theorem lastFor_unique {E : Env} {here : Info} {q : Path} {l : List (Str × Node)} {p : Str} {n : Node}
    (hm : (p, n) ∈ l) (hp : E.parse here p = .ok q)
    (hu : ∀ e ∈ l, E.parse here e.1 = .ok q → e.2 = n) : lastFor E here q l = some n := by
  cases hl : lastFor E here q l with
  | some m =>
    obtain ⟨p', h1, h2⟩ := lastFor_mem hl
    have := hu _ h1 h2
    simp only at this
    rw [this]
  | none =>
    exfalso
    clear hu
    induction l with
    | nil => cases hm
    | cons e l ih =>
      obtain ⟨p', n'⟩ := e
      simp only [lastFor] at hl
      split at hl
      · cases hl
      · rename_i hx
        split at hl
        · cases hl
        · rename_i hne
          rcases List.mem_cons.mp hm with h | h
          · cases h; exact hne hp
          · exact ih h hx

end Mem
end Verif
