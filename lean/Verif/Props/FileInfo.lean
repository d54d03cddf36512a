import Verif.Props.Life

/-! What a `FileInfo` tells, and what becomes of it (C53). -/

namespace Verif
namespace Props

open Mem

/-- `os.FileMode.IsDir`: bit 31, `os.ModeDir`, is set. -/
def modeIsDir (mode : Nat) : Bool := mode.testBit 31

/-- A file of the operating system, for which `IsDir()` is `Mode().IsDir()`, with everything below it. -/
inductive NodeModes : Disk.Node → Prop where
  | file (d : Details) (b : Str) : d.isDir = modeIsDir d.mode → NodeModes (.file d b)
  | dir (d : Details) (kids : List (Str × Disk.Node)) :
      d.isDir = modeIsDir d.mode → (∀ e ∈ kids, NodeModes e.2) → NodeModes (.dir d kids)

/-- All files given to `Add` are such. -/
def HostModes (ops : List Op) : Prop := ∀ fs, .add fs ∈ ops → ∀ f ∈ fs, NodeModes f.node

/-- **C53** in full, for the in-memory Pkger: the `FileInfo` of a handle is a copy of the one `Stat` returns; no later
history changes a `FileInfo` `Stat` has returned; and `IsDir` agrees with `Mode`. -/
def C53_statement : Prop :=
  ∀ (E : Env) (i : Info) (t : Int) (ops : List Op), (∀ o ∈ ops, o.HostOk) → HostModes ops →
    ∀ (name : Str) (id : Nat), stat E (run E (new i t) ops) name = .ok id →
      (∀ w' h, openFile E (run E (new i t) ops) name = (w', .ok h) →
        (w'.heap h).info = ((run E (new i t) ops).heap id).info) ∧
      (∀ later, (∀ o ∈ later, o.HostOk) →
        ((run E (run E (new i t) ops) later).heap id).info = ((run E (new i t) ops).heap id).info) ∧
      ∀ d, ((run E (new i t) ops).heap id).info = some d → d.isDir = modeIsDir d.mode

/-- The code violates C53: `Stat` returns a pointer to the details of the stored file itself
(pkging/mem/file.go:99-104), and `Close` writes into them (:65-66). -/
theorem C53_live_refuted : ¬ C53_statement := by
  intro h
  have h1 := (h Demo.env Demo.info 1000 [.create (b! "/f")] (by simp [Op.HostOk]) (by intro fs hf; simp at hf)
    (b! "/f") 1 (by decide +kernel)).2.1 [.write 1 (b! "hello"), .close 1] (by simp [Op.HostOk])
  revert h1
  decide +kernel

/-- The code violates C53: directories made by `MkdirAll` have the mode the caller gives (pkging/mem/mem.go:147-152),
without the bit `os.ModeDir`, so that `IsDir()` and `Mode().IsDir()` disagree. -/
theorem C53_mode_refuted : ¬ C53_statement := by
  intro h
  have h1 := (h Demo.env Demo.info 1000 [.mkdirAll (b! "/d") 0o755] (by simp [Op.HostOk]) (by intro fs hf; simp at hf)
    (b! "/d") 0 (by decide +kernel)).2.2 ⟨b! "d", 0, 0o755, 1000, true⟩ (by decide +kernel)
  revert h1
  decide +kernel

/-- **C53**, copies: in every state, the details of a new handle are those `Stat` reports. -/
theorem C53_copy_partial {E : Env} {w w' : World} {name : Str} {h : Nat} (ho : openFile E w name = (w', .ok h)) :
    ∃ id, stat E w name = .ok id ∧ (w'.heap h).info = (w.heap id).info := by
  unfold openFile at ho
  cases hp : parse E w name with
  | error e => rw [hp] at ho; simp at ho
  | ok pt =>
    rw [hp] at ho
    simp only at ho
    cases hg : AMap.get w.files pt with
    | none => rw [hg] at ho; simp at ho
    | some i =>
      rw [hg] at ho
      simp only at ho
      cases hi : (w.heap i).info with
      | none => rw [hi] at ho; simp at ho
      | some d =>
        rw [hi] at ho
        simp only [alloc, Prod.mk.injEq, Res.ok.injEq] at ho
        obtain ⟨rfl, rfl⟩ := ho
        refine ⟨i, ?_, ?_⟩
        · simp [stat, hp, hg, fileStat, hi]
        · simp [openedObj, newFileInfo, hi]

/-- **C53**, stability: the `FileInfo` of a file object changes only by closing that very object. -/
theorem C53_stable_partial {E : Env} {i : Info} {w : World} (hr : Reached E i w) {id : Nat} (hid : id < w.next)
    {ops : List Op} (ho : ∀ o ∈ ops, o.HostOk) (hc : .close id ∉ ops) :
    ((run E w ops).heap id).info = (w.heap id).info := (pending_run E ops hr.inv.heap ho hid hc).2.1

/-- The parts of the details that never change. -/
def fixed (d : Details) : Str × Nat × Bool := (d.name, d.mode, d.isDir)

theorem fixed_step (E : Env) {w : World} (hw : HeapOk w) {o : Op} (ho : o.HostOk) {id : Nat} (hid : id < w.next) :
    ((step E w o).heap id).info.map fixed = (w.heap id).info.map fixed := by
  by_cases hc : o = .close id
  · subst hc
    show (((close w id).1.heap id).info).map fixed = _
    unfold close
    simp only
    split <;>
      (simp only [setObj, upd_self]; unfold closeObj; split <;> (cases (w.heap id).info <;> simp [fixed]))
  · rw [(pending_step E hw ho hid hc).2.1]

/-- **C53**, stability: whatever happens, name, mode and directory flag of a `FileInfo` stay; only size and time can
change. -/
theorem C53_fixed_partial (E : Env) {i : Info} {w : World} (hr : Reached E i w) {id : Nat} (hid : id < w.next)
    (ops : List Op) (ho : ∀ o ∈ ops, o.HostOk) :
    ((run E w ops).heap id).info.map fixed = (w.heap id).info.map fixed := by
  have hw := hr.inv.heap
  clear hr
  induction ops generalizing w with
  | nil => rfl
  | cons o ops ih =>
    have ho1 := ho o (by simp)
    rw [run_cons, ih (Nat.lt_of_lt_of_le hid (next_step E hw o ho1)) (fun o' h' => ho o' (List.mem_cons_of_mem _ h'))
      (heapOk_step E hw o ho1), fixed_step E hw ho1 hid]

/-! #### An invariant of all details -/

/-- All details in a state satisfy `P`. -/
def AllInfo (P : Details → Prop) (w : World) : Prop := ∀ id d, (w.heap id).info = some d → P d

/-- All details of a file on disk, and of everything below it, satisfy `P`. -/
inductive NodeAll (P : Details → Prop) : Disk.Node → Prop where
  | file (d : Details) (b : Str) : P d → NodeAll P (.file d b)
  | dir (d : Details) (kids : List (Str × Disk.Node)) : P d → (∀ e ∈ kids, NodeAll P e.2) → NodeAll P (.dir d kids)

theorem NodeAll.details {P : Details → Prop} {n : Disk.Node} (h : NodeAll P n) : P n.details := by
  cases h <;> assumption

section
variable {P : Details → Prop}

theorem all_alloc {w : World} (h : AllInfo P w) {f : FileObj} (hf : ∀ d, f.info = some d → P d) :
    AllInfo P (alloc w f).1 := by
  intro id d hd
  simp only [alloc] at hd
  by_cases he : id = w.next
  · subst he; rw [upd_self] at hd; exact hf d hd
  · rw [upd_ne _ _ he] at hd; exact h id d hd

theorem all_setObj {w : World} (h : AllInfo P w) {id : Nat} {f : FileObj} (hf : ∀ d, f.info = some d → P d) :
    AllInfo P (setObj w id f) := by
  intro j d hd
  simp only [setObj] at hd
  by_cases he : j = id
  · subst he; rw [upd_self] at hd; exact hf d hd
  · rw [upd_ne _ _ he] at hd; exact h j d hd

theorem all_mkdirAllF (E : Env) (hdir : ∀ name perm t, P ⟨name, 0, perm, t, true⟩) (fuel : Nat) :
    ∀ (w : World) (p : Str) (perm : Nat), AllInfo P w → AllInfo P (mkdirAllF E fuel w p perm).1 := by
  induction fuel with
  | zero => intro w p perm h; exact h
  | succ n ih =>
    intro w p perm h
    unfold mkdirAllF
    cases hp : parse E w p with
    | error e => exact h
    | ok pt =>
      simp only
      have hrec : AllInfo P (if (GoPath.split pt.name).1 ≠ GoPath.rootS then
          mkdirAllF E n w (GoPath.split pt.name).1 perm else (w, .ok ())).1 := by
        split
        · exact ih _ _ _ h
        · exact h
      revert hrec
      generalize (if (GoPath.split pt.name).1 ≠ GoPath.rootS then
          mkdirAllF E n w (GoPath.split pt.name).1 perm else (w, .ok ())) = r
      intro hrec
      obtain ⟨w1, r⟩ := r
      cases r with
      | err e => exact hrec
      | panic => exact hrec
      | ok u =>
        refine all_alloc hrec ?_
        intro d hd
        simp only [closeObj, Option.some.injEq] at hd
        subst hd
        exact hdir _ _ _

theorem all_create (E : Env) (hdir : ∀ name perm t, P ⟨name, 0, perm, t, true⟩)
    (hfile : ∀ name t, P ⟨name, 0, 0o644, t, false⟩) (w : World) (name : Str) (h : AllInfo P w) :
    AllInfo P (create E w name).1 := by
  have h0 : AllInfo P (mkdirAll E w GoPath.rootS 0o755).1 := all_mkdirAllF E hdir _ w GoPath.rootS 0o755 h
  unfold create
  revert h0
  generalize mkdirAll E w GoPath.rootS 0o755 = m
  obtain ⟨w0, r0⟩ := m
  intro h0
  simp only
  split
  · exact h0
  · split
    · exact h0
    · split
      · exact h0
      · exact h0
      · split
        · exact h0
        · exact h0
        · refine all_alloc h0 ?_
          intro d hd
          simp only [createdObj, Option.some.injEq] at hd
          subst hd
          exact hfile _ _

theorem all_openFile (E : Env) (w : World) (name : Str) (h : AllInfo P w) : AllInfo P (openFile E w name).1 := by
  unfold openFile
  split
  · exact h
  · split
    · exact h
    · simp only
      split
      · exact h
      · rename_i d hd
        refine all_alloc h ?_
        intro d' hd'
        simp only [openedObj, newFileInfo, Option.some.injEq] at hd'
        subst hd'
        exact h _ _ hd

theorem all_fileOpen (E : Env) (w : World) (id : Nat) (name : Str) (h : AllInfo P w) :
    AllInfo P (fileOpen E w id name).1 := by
  unfold fileOpen
  simp only
  split
  · exact h
  · rename_i pt0 _
    split
    · exact h
    · split
      · exact h
      · have h1 := all_openFile E w (Path.str ⟨pt0.pkg, GoPath.join2 (w.heap id).path.name pt0.name⟩) h
        revert h1
        generalize openFile E w (Path.str ⟨pt0.pkg, GoPath.join2 (w.heap id).path.name pt0.name⟩) = m
        obtain ⟨w1, r⟩ := m
        intro h1
        cases r with
        | err e => exact h1
        | panic => exact h1
        | ok di =>
          simp only at h1 ⊢
          split
          · exact h1
          · rename_i d hd
            split
            · refine all_alloc h1 ?_
              intro d' hd'
              simp only [newFileInfo, Option.some.injEq] at hd'
              subst hd'
              exact h1 _ _ hd
            · exact h1

theorem all_addNode {w : World} (h : AllInfo P w) (her : Info) (pt : Path) {n : Disk.Node} (hn : P n.details) :
    AllInfo P (addNode w her pt n) := by
  refine all_alloc h ?_
  intro d hd
  simp only [addedObj, newFileInfo, Option.some.injEq] at hd
  subst hd
  exact hn

theorem all_addWalkFn (E : Env) (path : Str) {n : Disk.Node} (hn : P n.details) {w : World} (h : AllInfo P w) :
    AllInfo P (addWalkFn E path n w).1 := by
  unfold addWalkFn
  split
  · exact h
  · split
    · exact h
    · exact all_addNode h _ _ hn

mutual
theorem all_walkNode (E : Env) : ∀ (path : Str) (n : Disk.Node) (w : World), NodeAll P n → AllInfo P w →
    AllInfo P (Disk.walkNode (addWalkFn E) path n w).1
  | path, .file d b, w, hn, h => by rw [Disk.walkNode]; exact all_addWalkFn E path hn.details h
  | path, .dir d kids, w, hn, h => by
    rw [Disk.walkNode]
    have h1 := all_addWalkFn E path (n := .dir d kids) hn.details h
    revert h1
    generalize addWalkFn E path (.dir d kids) w = m
    obtain ⟨w1, r⟩ := m
    intro h1
    cases r with
    | some e => exact h1
    | none =>
      cases hn with
      | dir _ _ _ hk => exact all_walkKids E path kids w1 hk h1

theorem all_walkKids (E : Env) : ∀ (path : Str) (kids : List (Str × Disk.Node)) (w : World),
    (∀ e ∈ kids, NodeAll P e.2) → AllInfo P w → AllInfo P (Disk.walkKids (addWalkFn E) path kids w).1
  | path, [], w, _, h => by rw [Disk.walkKids]; exact h
  | path, (name, n) :: rest, w, hk, h => by
    rw [Disk.walkKids]
    have h1 := all_walkNode E (GoPath.join2 path name) n w (hk (name, n) (by simp)) h
    revert h1
    generalize Disk.walkNode (addWalkFn E) (GoPath.join2 path name) n w = m
    obtain ⟨w1, r⟩ := m
    intro h1
    have h2 := all_walkKids E path rest w1 (fun e he => hk e (by simp [he])) h1
    cases r with
    | none => exact h2
    | some e =>
      simp only
      split
      · exact h2
      · exact h1
end

theorem all_addOne (E : Env) (w : World) {f : OsFile} (hf : NodeAll P f.node) (h : AllInfo P w) :
    AllInfo P (addOne E w f).1 := by
  unfold addOne
  split
  · exact h
  · simp only
    split
    · exact h
    · split
      · have h1 := all_walkNode E f.name f.node w hf h
        rw [← walk_fst] at h1
        revert h1
        generalize Disk.walk (addWalkFn E) f.name f.node w = m
        obtain ⟨w1, r⟩ := m
        intro h1
        cases r <;> exact h1
      · exact all_addNode h _ _ hf.details

theorem all_add (E : Env) (fs : List OsFile) : ∀ (w : World), (∀ f ∈ fs, NodeAll P f.node) → AllInfo P w →
    AllInfo P (add E w fs).1 := by
  induction fs with
  | nil => intro w _ h; exact h
  | cons f fs ih =>
    intro w hf h
    rw [add]
    have h1 := all_addOne E w (hf f (by simp)) h
    revert h1
    generalize addOne E w f = m
    obtain ⟨w1, r⟩ := m
    intro h1
    cases r with
    | ok _ => exact ih w1 (fun x hx => hf x (by simp [hx])) h1
    | err e => exact h1
    | panic => exact h1

/-- An invariant of details: true of new directories and files and of the files added, and independent of size and
time. -/
theorem all_run (E : Env) (hdir : ∀ name perm t, P ⟨name, 0, perm, t, true⟩)
    (hfile : ∀ name t, P ⟨name, 0, 0o644, t, false⟩)
    (hclose : ∀ d size t, P d → P { d with size := size, modTime := t }) (ops : List Op) :
    ∀ (w : World), (∀ fs, .add fs ∈ ops → ∀ f ∈ fs, NodeAll P f.node) → AllInfo P w → AllInfo P (run E w ops) := by
  induction ops with
  | nil => intro w _ h; exact h
  | cons o ops ih =>
    intro w hops h
    rw [run_cons]
    refine ih _ (fun fs hfs => hops fs (List.mem_cons_of_mem _ hfs)) ?_
    cases o with
    | create name => exact all_create E hdir hfile w name h
    | mkdirAll p perm => exact all_mkdirAllF E hdir _ w p perm h
    | openFile name => exact all_openFile E w name h
    | stat name => exact h
    | remove name =>
      show AllInfo P (remove E w name).1
      unfold remove
      split
      · exact h
      · split <;> exact h
    | removeAll name =>
      show AllInfo P (removeAll E w name).1
      unfold removeAll
      split <;> exact h
    | write id b => exact all_setObj h fun d hd => h id d hd
    | close id =>
      have hc : ∀ d, (closeObj w.now (w.heap id)).info = some d → P d := by
        intro d hd
        unfold closeObj at hd
        split at hd
        · exact h id d hd
        · simp only [Option.map_eq_some_iff] at hd
          obtain ⟨d', hd', rfl⟩ := hd
          exact hclose d' _ _ (h id d' hd')
      show AllInfo P (close w id).1
      unfold close
      simp only
      split <;> exact all_setObj h hc
    | read id n =>
      refine all_setObj h fun d hd => h id d ?_
      rw [← (readObj_fields (w.heap id) n).2.2.1]; exact hd
    | seek id off whence =>
      refine all_setObj h fun d hd => h id d ?_
      rw [← (seekObj_fields (w.heap id) off whence).2.2.1]; exact hd
    | readdir id c => exact h
    | fileOpen id name => exact all_fileOpen E w id name h
    | add fs => exact all_add E fs w (hops fs (by simp)) h
    | tick t => exact h

end

theorem nodeAll_modes {n : Disk.Node} (h : NodeModes n) :
    NodeAll (fun d => modeIsDir d.mode = true → d.isDir = true) n := by
  induction h with
  | file d b hd => exact .file d b (fun h => hd.trans h)
  | dir d kids hd _ ih => exact .dir d kids (fun h => hd.trans h) ih

/-- **C53**, modes: whatever the history, a file whose mode says directory is one; hence `IsDir` and `Mode` agree on
everything that is not a directory.  Missing from C53: directories whose mode does not say so, see
`C53_mode_refuted`. -/
theorem C53_mode_partial (E : Env) {w : World} (h0 : AllInfo (fun d => modeIsDir d.mode = true → d.isDir = true) w)
    {ops : List Op} (hm : HostModes ops) {id : Nat} {d : Details} (hd : ((run E w ops).heap id).info = some d) :
    (modeIsDir d.mode = true → d.isDir = true) ∧ (d.isDir = false → d.isDir = modeIsDir d.mode) := by
  have h := all_run (P := fun d => modeIsDir d.mode = true → d.isDir = true) E (by intros; rfl)
    (by intro _ _ h; exact absurd h (by simp only [modeIsDir]; decide +kernel)) (fun d _ _ h => h) ops w
    (fun fs hfs f hf => nodeAll_modes (hm fs hfs f hf)) h0 id d hd
  refine ⟨h, fun hf => ?_⟩
  cases hb : modeIsDir d.mode with
  | false => exact hf
  | true => rw [h hb] at hf; cases hf

/-- A Pkger made by `New` has no details yet. -/
theorem allInfo_new (P : Details → Prop) (i : Info) (t : Int) : AllInfo P (new i t) := by
  intro id d hd
  simp [new, FileObj.zero] at hd

/-- The hypotheses of the theorems above are met: a file and a directory from disk, a directory and a file made here, a
handle. -/
def infoDemo : List Op :=
  [.add [⟨b! "/src/app/x", .file ⟨b! "x", 2, 0o600, 7, false⟩ (b! "hi")⟩,
    ⟨b! "/src/app/y", .dir ⟨b! "y", 96, 0o755 + 2147483648, 7, true⟩ []⟩], .mkdirAll (b! "/d") 0o755,
    .create (b! "/d/f"), .openFile (b! "/x")]

example : HostModes infoDemo := by
  intro fs h f hf
  simp only [infoDemo, List.mem_cons, Op.add.injEq, List.not_mem_nil, or_false, reduceCtorEq] at h
  subst h
  simp only [List.mem_cons, List.not_mem_nil, or_false] at hf
  rcases hf with rfl | rfl
  · exact .file _ _ (by decide +kernel)
  · exact .dir _ _ (by decide +kernel) (by simp)

example : statView Demo.env (Demo.after infoDemo) (b! "/y") = .ok ⟨b! "y", 96, 0o755 + 2147483648, 7, true⟩ ∧
    openFile Demo.env (Demo.after infoDemo) (b! "/x") ≠ (Demo.after infoDemo, .panic) ∧
    statView Demo.env (Demo.after infoDemo) (b! "/d/f") = .ok ⟨b! "f", 0, 0o644, 1000, false⟩ := by
  refine ⟨by decide +kernel, ?_, by decide +kernel⟩
  intro h
  have := congrArg Prod.snd h
  revert this
  decide +kernel

end Props
end Verif
