import Verif.Spec.Reach
import Verif.Spec.Demo

/-!
The life of a Pkger and of its handles: `Current` and `Info` (C56), closing (C54), and what becomes of a `FileInfo`
(C53).
-/

namespace Verif
namespace Props

open Mem

/-! ### C56 -/

/-- **C56**: whatever is done with a Pkger made for `i`, `Current` returns `i`. -/
theorem C56_current {E : Env} {i : Info} {w : World} (h : Reached E i w) : current w = .ok i := by
  rw [current, h.here]

/-- **C56**: `Info` knows exactly the package the Pkger was made for, whatever is done with it. -/
theorem C56_info {E : Env} {i : Info} {w : World} (h : Reached E i w) (p : Str) :
    (∀ j, info w p = .ok j ↔ p = i.importPath ∧ j = i) ∧
    (p ≠ i.importPath → info w p = .err (.noSuchPackage p)) := by
  have hi := h.infos.2
  by_cases hp : p = i.importPath
  · subst hp
    have h1 : info w i.importPath = .ok i := by simp [info, hi]
    refine ⟨fun j => ?_, fun h => absurd rfl h⟩
    rw [h1]
    constructor
    · intro h; injection h with h; exact ⟨rfl, h.symm⟩
    · rintro ⟨_, rfl⟩; rfl
  · have h1 : info w p = .err (.noSuchPackage p) := by
      simp [info, hi, hp]
    refine ⟨fun j => ?_, fun _ => h1⟩
    rw [h1]
    constructor
    · intro h; cases h
    · intro h; exact absurd h.1 hp

theorem keeps_mkdirAllF (E : Env) (fuel : Nat) : ∀ (w : World) (p : Str) (perm : Nat),
    (mkdirAllF E fuel w p perm).1.here = w.here ∧ (mkdirAllF E fuel w p perm).1.infos = w.infos := by
  intro w p perm
  have := ext_prims (prims_mkdirAllF E fuel w p perm)
  exact ⟨this.here, this.infos⟩

theorem keeps_openFile (E : Env) (w : World) (name : Str) :
    (openFile E w name).1.here = w.here ∧ (openFile E w name).1.infos = w.infos := by
  unfold openFile
  split
  · exact ⟨rfl, rfl⟩
  · split
    · exact ⟨rfl, rfl⟩
    · simp only
      split <;> exact ⟨rfl, rfl⟩

theorem keeps_fileOpen (E : Env) (w : World) (id : Nat) (name : Str) :
    (fileOpen E w id name).1.here = w.here ∧ (fileOpen E w id name).1.infos = w.infos := by
  unfold fileOpen
  simp only
  split
  · exact ⟨rfl, rfl⟩
  · rename_i pt0 _
    split
    · exact ⟨rfl, rfl⟩
    · split
      · exact ⟨rfl, rfl⟩
      · have h1 := keeps_openFile E w (Path.str ⟨pt0.pkg, GoPath.join2 (w.heap id).path.name pt0.name⟩)
        revert h1
        generalize openFile E w (Path.str ⟨pt0.pkg, GoPath.join2 (w.heap id).path.name pt0.name⟩) = m
        obtain ⟨w1, r⟩ := m
        intro h1
        cases r with
        | err e => exact h1
        | panic => exact h1
        | ok di =>
          simp only at h1 ⊢
          split
          · exact h1
          · split
            · exact h1
            · exact h1

theorem keeps_addWalkFn (E : Env) (path : Str) (n : Disk.Node) (w : World) :
    (addWalkFn E path n w).1.here = w.here ∧ (addWalkFn E path n w).1.infos = w.infos := by
  unfold addWalkFn
  split
  · exact ⟨rfl, rfl⟩
  · split <;> exact ⟨rfl, rfl⟩

mutual
theorem keeps_walkNode (E : Env) : ∀ (path : Str) (n : Disk.Node) (w : World),
    (Disk.walkNode (addWalkFn E) path n w).1.here = w.here ∧
    (Disk.walkNode (addWalkFn E) path n w).1.infos = w.infos
  | path, .file d b, w => by rw [Disk.walkNode]; exact keeps_addWalkFn E path _ w
  | path, .dir d kids, w => by
    rw [Disk.walkNode]
    have h1 := keeps_addWalkFn E path (.dir d kids) w
    revert h1
    generalize addWalkFn E path (.dir d kids) w = m
    obtain ⟨w1, r⟩ := m
    intro h1
    cases r with
    | some e => exact h1
    | none =>
      have h2 := keeps_walkKids E path kids w1
      exact ⟨h2.1.trans h1.1, h2.2.trans h1.2⟩

theorem keeps_walkKids (E : Env) : ∀ (path : Str) (kids : List (Str × Disk.Node)) (w : World),
    (Disk.walkKids (addWalkFn E) path kids w).1.here = w.here ∧
    (Disk.walkKids (addWalkFn E) path kids w).1.infos = w.infos
  | path, [], w => by rw [Disk.walkKids]; exact ⟨rfl, rfl⟩
  | path, (name, n) :: rest, w => by
    rw [Disk.walkKids]
    have h1 := keeps_walkNode E (GoPath.join2 path name) n w
    revert h1
    generalize Disk.walkNode (addWalkFn E) (GoPath.join2 path name) n w = m
    obtain ⟨w1, r⟩ := m
    intro h1
    have h2 := keeps_walkKids E path rest w1
    cases r with
    | none => exact ⟨h2.1.trans h1.1, h2.2.trans h1.2⟩
    | some e =>
      simp only
      split
      · exact ⟨h2.1.trans h1.1, h2.2.trans h1.2⟩
      · exact h1
end

theorem keeps_addOne (E : Env) (w : World) (f : OsFile) :
    (addOne E w f).1.here = w.here ∧ (addOne E w f).1.infos = w.infos := by
  unfold addOne
  split
  · exact ⟨rfl, rfl⟩
  · simp only
    split
    · exact ⟨rfl, rfl⟩
    · split
      · have h1 := keeps_walkNode E f.name f.node w
        rw [← walk_fst] at h1
        revert h1
        generalize Disk.walk (addWalkFn E) f.name f.node w = m
        obtain ⟨w1, r⟩ := m
        intro h1
        cases r <;> exact h1
      · exact ⟨rfl, rfl⟩

theorem keeps_add (E : Env) (fs : List OsFile) : ∀ (w : World),
    (add E w fs).1.here = w.here ∧ (add E w fs).1.infos = w.infos := by
  induction fs with
  | nil => intro w; exact ⟨rfl, rfl⟩
  | cons f fs ih =>
    intro w
    rw [add]
    have h1 := keeps_addOne E w f
    revert h1
    generalize addOne E w f = m
    obtain ⟨w1, r⟩ := m
    intro h1
    cases r with
    | ok _ => exact ⟨(ih w1).1.trans h1.1, (ih w1).2.trans h1.2⟩
    | err e => exact h1
    | panic => exact h1

theorem keeps_step (E : Env) (w : World) (o : Op) :
    (step E w o).here = w.here ∧ (step E w o).infos = w.infos := by
  cases o with
  | create name =>
    have := ext_prims (prims_create E w name)
    exact ⟨this.here, this.infos⟩
  | mkdirAll p perm => exact keeps_mkdirAllF E _ w p perm
  | openFile name => exact keeps_openFile E w name
  | stat name => exact ⟨rfl, rfl⟩
  | remove name =>
    have := ext_prims (prims_remove E w name)
    exact ⟨this.here, this.infos⟩
  | removeAll name =>
    have := ext_prims (prims_removeAll E w name)
    exact ⟨this.here, this.infos⟩
  | write id b => exact ⟨rfl, rfl⟩
  | close id =>
    show (close w id).1.here = _ ∧ (close w id).1.infos = _
    unfold close
    simp only
    split <;> exact ⟨rfl, rfl⟩
  | read id n => exact ⟨rfl, rfl⟩
  | seek id off whence => exact ⟨rfl, rfl⟩
  | readdir id c => exact ⟨rfl, rfl⟩
  | fileOpen id name => exact keeps_fileOpen E w id name
  | add fs => exact keeps_add E fs w
  | tick t => exact ⟨rfl, rfl⟩

/-- **C56**: no history changes what `Current` and `Info` answer, from any state at all (for example a Pkger read from
embedded data). -/
theorem C56_unchanged (E : Env) (ops : List Op) : ∀ (w : World),
    current (run E w ops) = current w ∧ ∀ p, info (run E w ops) p = info w p := by
  induction ops with
  | nil => intro w; exact ⟨rfl, fun _ => rfl⟩
  | cons o ops ih =>
    intro w
    obtain ⟨h1, h2⟩ := keeps_step E w o
    obtain ⟨h3, h4⟩ := ih (step E w o)
    rw [run_cons]
    exact ⟨by rw [h3, current, current, h1], fun p => by rw [h4, info, info, h2]⟩

/-- **C56** for `New`: a Pkger made for `i` answers `i` to `Current` and to `Info` of its import path, and knows no other
package, after any history. -/
theorem C56_new (E : Env) (i : Info) (t : Int) (ops : List Op) :
    current (run E (new i t) ops) = .ok i ∧ info (run E (new i t) ops) i.importPath = .ok i ∧
      ∀ p, p ≠ i.importPath → info (run E (new i t) ops) p = .err (.noSuchPackage p) := by
  obtain ⟨h1, h2⟩ := C56_unchanged E ops (new i t)
  refine ⟨h1.trans rfl, ?_, ?_⟩
  · rw [h2]
    simp [info, new, AMap.get_set_self]
  · intro p hp
    rw [h2]
    simp [info, new, AMap.get_set_ne _ _ hp, AMap.get]

/-- The hypotheses of C56 are met by a Pkger with a history. -/
example : ∃ w, Reached Demo.env Demo.info w ∧ Stored w ⟨b! "app", b! "/a/b"⟩ ∧
    info w (b! "app") = .ok Demo.info ∧ info w (b! "lib") = .err (.noSuchPackage (b! "lib")) :=
  ⟨_, Reached.ofNew 1000 [.mkdirAll (b! "/a") 0o755, .create (b! "/a/b"), .remove (b! "/a")] (by simp [Op.HostOk]),
    ⟨2, by decide +kernel⟩, by decide +kernel, by decide +kernel⟩

/-! ### C54 -/

/-- **C54** in full: a closed handle delivers nothing and accepts nothing; closing it once more succeeds and changes
nothing a caller can see, however much later. -/
def C54_statement : Prop :=
  ∀ (E : Env) (i : Info) (w : World) (id : Nat), Reached E i w → id < w.next →
    (∀ n, 0 < n → (read (close w id).1 id n).2.2 ≠ none) ∧
    (∀ b, b ≠ [] → (write (close w id).1 id b).2 = 0) ∧
    ∀ ops, (∀ o ∈ ops, o.HostOk) → (∀ b, .write id b ∉ ops) →
      (close (run E (close w id).1 ops) id).2 = .ok () ∧
      SameView E (run E (close w id).1 ops) (close (run E (close w id).1 ops) id).1

/-- The state `C54` fails in: a file with content. -/
def closedDemo : World := Demo.after [.create (b! "/f"), .write 1 (b! "hello"), .close 1]

/-- The code violates C54: `Close` (pkging/mem/file.go:45-69) forgets the reader and the writer, and the next `Read`
(:73-75) or `Write` (:86-88) makes new ones.  A closed file can be read and written. -/
theorem C54_refuted : ¬ C54_statement := by
  intro h
  have h1 := (h Demo.env Demo.info closedDemo 1 (Reached.ofNew 1000 _ (by simp [Op.HostOk])) (by decide +kernel)).1 2 (by decide)
  exact h1 (by decide +kernel)

/-- Writing to a closed handle is accepted, too, and closing it again publishes what was written. -/
theorem C54_write_after_close_refuted :
    (write (close closedDemo 1).1 1 (b! "new")).2 = 3 ∧
    openView Demo.env (close (write (close closedDemo 1).1 1 (b! "new")).1 1).1 (b! "/f") =
      .ok (⟨b! "f", 3, 0o644, 1000, false⟩, b! "new") := by
  decide +kernel

/-- Reading and closing keep a handle free of pending writes. -/
theorem noWriter_step (E : Env) {w : World} (hw : HeapOk w) {o : Op} (ho : o.HostOk) {id : Nat}
    (hid : id < w.next) (hc : ∀ b, o ≠ .write id b) (hn : (w.heap id).writer = none) :
    ((step E w o).heap id).writer = none := by
  by_cases ht : o.target = some id
  · cases o with
    | write i b =>
      simp only [Op.target, Option.some.injEq] at ht
      subst ht
      exact absurd rfl (hc b)
    | close i =>
      simp only [Op.target, Option.some.injEq] at ht
      subst ht
      show ((close w i).1.heap i).writer = none
      unfold close
      simp only
      split <;> (simp only [setObj, upd_self]; unfold closeObj; split <;> rfl)
    | read i n =>
      simp only [Op.target, Option.some.injEq] at ht
      subst ht
      simp only [step, Mem.read, setObj, upd_self]
      rw [(readObj_fields (w.heap i) n).2.1, hn]
    | seek i off whence =>
      simp only [Op.target, Option.some.injEq] at ht
      subst ht
      simp only [step, Mem.seek, setObj, upd_self]
      rw [(seekObj_fields (w.heap i) off whence).2.1, hn]
    | readdir i count => exact hn
    | fileOpen i name =>
      have := (ext_prims (prims_fileOpen E hw i name)).heap id hid
      simp only [step]
      rw [this, hn]
    | _ => simp [Op.target] at ht
  · rw [heap_frame E hw o ho hid ht, hn]

theorem noWriter_run (E : Env) {id : Nat} (ops : List Op) : ∀ {w : World}, HeapOk w → (∀ o ∈ ops, o.HostOk) →
    id < w.next → (∀ b, .write id b ∉ ops) → (w.heap id).writer = none →
    ((run E w ops).heap id).writer = none := by
  induction ops with
  | nil => intro w _ _ _ _ hn; exact hn
  | cons o ops ih =>
    intro w hw ho hid hc hn
    have ho1 := ho o (by simp)
    exact ih (heapOk_step E hw o ho1) (fun o' h' => ho o' (List.mem_cons_of_mem _ h'))
      (Nat.lt_of_lt_of_le hid (next_step E hw o ho1)) (fun b h' => hc b (List.mem_cons_of_mem _ h'))
      (noWriter_step E hw ho1 hid (by rintro b rfl; exact hc b (by simp)) hn)

theorem close_writer (w : World) (id : Nat) : ((close w id).1.heap id).writer = none := by
  unfold close
  simp only
  split <;> (simp only [setObj, upd_self]; unfold closeObj; split <;> rfl)

theorem close_next (w : World) (id : Nat) : (close w id).1.next = w.next := by
  unfold close
  simp only
  split <;> rfl

/-- Names look the same if the stored objects have the same details and bytes. -/
theorem sameView_of_parts {E : Env} {w w' : World} (hh : w'.here = w.here)
    (h : ∀ q, (lookup w' q).map (fun f => (f.info, f.bytes)) = (lookup w q).map fun f => (f.info, f.bytes)) :
    SameView E w w' := by
  intro name
  rw [SameAt, statView_eq, statView_eq, openView_eq, openView_eq, hh]
  cases E.parse w.here name with
  | error e => exact ⟨rfl, rfl⟩
  | ok pt =>
    have hq := h pt
    simp only
    cases h1 : lookup w' pt with
    | none =>
      cases h2 : lookup w pt with
      | none => exact ⟨rfl, rfl⟩
      | some f => rw [h1, h2] at hq; cases hq
    | some g =>
      cases h2 : lookup w pt with
      | none => rw [h1, h2] at hq; cases hq
      | some f =>
        rw [h1, h2] at hq
        simp only [Option.map_some, Option.some.injEq, Prod.mk.injEq] at hq
        simp only [hq.1, hq.2]
        exact ⟨trivial, trivial⟩

/-- **C54**, the part that holds: once closed, a handle that is not written to again can be closed any number of times,
at any later moment; that succeeds, and no name looks different afterwards, no other handle changes, and this one keeps
its content and details.  Missing from C54: reading and writing a closed handle should fail, see `C54_refuted`. -/
theorem C54_close_again_partial {E : Env} {i : Info} {w : World} {id : Nat} (hr : Reached E i w) (hid : id < w.next)
    {ops : List Op} (ho : ∀ o ∈ ops, o.HostOk) (hw : ∀ b, .write id b ∉ ops) :
    (close (run E (close w id).1 ops) id).2 = .ok () ∧
    SameView E (run E (close w id).1 ops) (close (run E (close w id).1 ops) id).1 ∧
    (∀ j, j ≠ id → (close (run E (close w id).1 ops) id).1.heap j = (run E (close w id).1 ops).heap j) ∧
    ((close (run E (close w id).1 ops) id).1.heap id).data = ((run E (close w id).1 ops).heap id).data ∧
    ((close (run E (close w id).1 ops) id).1.heap id).info = ((run E (close w id).1 ops).heap id).info := by
  have hinv : Inv (close w id).1 := inv_step E hr.inv (.close id) trivial
  have hn := noWriter_run E ops hinv.heap ho (by rw [close_next]; exact hid) hw (close_writer w id)
  revert hn
  generalize run E (close w id).1 ops = v
  intro hn
  have hc : close v id = (setObj v id { v.heap id with reader := none, writer := none }, .ok ()) := by
    unfold close closeObj
    simp only [hn]
  rw [hc]
  refine ⟨rfl, ?_, ?_, by simp [setObj], by simp [setObj]⟩
  · have hlk : ∀ q, (lookup (setObj v id { v.heap id with reader := none, writer := none }) q).map
        (fun f => (f.info, f.bytes)) = (lookup v q).map fun f => (f.info, f.bytes) := by
      intro q
      unfold lookup setObj
      simp only
      cases AMap.get v.files q with
      | none => rfl
      | some j =>
        simp only [Option.map_some]
        by_cases hj : j = id
        · subst hj; simp [FileObj.bytes]
        · rw [upd_ne _ _ hj]
    exact sameView_of_parts rfl hlk
  · intro j hj
    simp [setObj, upd_ne _ _ hj]

/-- The hypotheses of `C54_close_again_partial` are met by a handle that was written, closed and then read. -/
example : Reached Demo.env Demo.info closedDemo ∧ 1 < closedDemo.next ∧
    (read (run Demo.env (close closedDemo 1).1 [.read 1 2, .tick 5000]) 1 9).2.1 = b! "llo" ∧
    openView Demo.env (close (run Demo.env (close closedDemo 1).1 [.read 1 2, .tick 5000]) 1).1 (b! "/f") =
      .ok (⟨b! "f", 5, 0o644, 1000, false⟩, b! "hello") :=
  ⟨(Reached.ofNew 1000 _ (by simp [Op.HostOk])), by decide +kernel, by decide +kernel, by decide +kernel⟩

end Props
end Verif
