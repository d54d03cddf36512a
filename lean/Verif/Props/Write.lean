import Verif.Lemmas.Handle
import Verif.Spec.Demo
import Verif.Spec.Reach

/-! C08-C12: writing, visibility, isolation of handles, sizes. -/

namespace Verif
namespace Props

open Mem

/-- The state right after a successful `Create`. -/
theorem created_state {E : Env} {w w1 : World} {name : Str} {id : Nat}
    (hc : create E w name = (w1, .ok id)) :
    ∃ pt d, E.parse w1.here name = .ok pt ∧ E.parse w.here name = .ok pt ∧
      AMap.get w1.files pt = some id ∧ id < w1.next ∧
      (w1.heap id).data = none ∧ (w1.heap id).writer = none ∧ (w1.heap id).info = some d ∧
      d.size = 0 ∧ d.isDir = false := by
  obtain ⟨pt, her, h1, h2, h3, h4, h5⟩ := create_ok hc
  have hx := ext_prims (prims_mkdirAll E w GoPath.rootS 0o755)
  refine ⟨pt, ⟨GoPath.base name, 0, 0o644, w.now, false⟩, ?_, h1, ?_, ?_, ?_, ?_, ?_, rfl, rfl⟩
  · rw [h4]; simp only [store, alloc, hx.here]; exact h1
  · rw [h4]; simp [store]
  · rw [h4]; simp [store, alloc, h3]
  · rw [h4]; simp [store, alloc, h3, createdObj]
  · rw [h4]; simp [store, alloc, h3, createdObj]
  · rw [h4]; simp [store, alloc, h3, createdObj]

theorem heapOk_create {E : Env} {w w1 : World} {name : Str} {id : Nat} (hw : HeapOk w)
    (hc : create E w name = (w1, .ok id)) : HeapOk w1 := by
  have := heapOk_prims (prims_create E w name) hw
  rwa [hc] at this

/-- **C09.** Between `Create` and the `Close` of its handle, whatever is written to the handle and
whatever else happens (as long as the path itself is not bound anew), `Stat` keeps reporting the same
details, with size 0, and `Open` an empty file. -/
theorem C09_invisible_until_close (E : Env) {w w1 : World} {i : Info} (hr : Reached E i w) {name : Str} {id : Nat}
    {pt : Path} (hp : E.parse w.here name = .ok pt) (hc : create E w name = (w1, .ok id)) (ops : List Op)
    (hok : ∀ o ∈ ops, o.HostOk) (hnc : .close id ∉ ops) (hk : KeepsBinding E pt w1 ops) :
    ∃ d, d.size = 0 ∧ d.isDir = false ∧
      statView E w1 name = .ok d ∧ statView E (run E w1 ops) name = .ok d ∧
      openView E (run E w1 ops) name = .ok (d, []) := by
  have hw := hr.inv.heap
  obtain ⟨pt', d, h1, h1', h2, h3, h4, h5, h6, h7, h8⟩ := created_state hc
  rw [hp] at h1'
  injection h1' with h1'
  subst h1'
  have hw1 := heapOk_create hw hc
  have hpend := pending_run E ops hw1 hok h3 hnc
  have hget := hk.get
  rw [h2] at hget
  refine ⟨d, h7, h8, ?_, ?_, ?_⟩
  · rw [statView_eq, h1]; simp [lookup, h2, h6]
  · rw [statView_eq, here_run' E ops hw1 hok, h1]
    simp [lookup, hget, hpend.2.1, h6]
  · rw [openView_eq, here_run' E ops hw1 hok, h1]
    simp [lookup, hget, hpend.2.1, h6, FileObj.bytes, hpend.1, h4]

/-- **C08.** After `Create`, any writes to the returned handle interleaved with any other operations,
`Close`, and again any operations (none of which binds the path anew or closes the handle again),
`Open` of the path succeeds and its handle delivers exactly the concatenation of the written chunks. -/
theorem C08_written_bytes_are_read (E : Env) {w w1 : World} {i : Info} (hr : Reached E i w) {name : Str} {id : Nat}
    {pt : Path} (hp : E.parse w.here name = .ok pt) (hc : create E w name = (w1, .ok id))
    (ops1 ops2 : List Op) (hok1 : ∀ o ∈ ops1, o.HostOk) (hok2 : ∀ o ∈ ops2, o.HostOk)
    (hnc1 : .close id ∉ ops1) (hnc2 : .close id ∉ ops2)
    (hk : KeepsBinding E pt w1 (ops1 ++ .close id :: ops2)) :
    ∃ w3 h, openFile E (run E w1 (ops1 ++ .close id :: ops2)) name = (w3, .ok h) ∧
      Delivers w3 h (chunks id ops1).flatten := by
  have hw := hr.inv.heap
  obtain ⟨pt', d, h1, h1', h2, h3, h4, h5, h6, h7, h8⟩ := created_state hc
  rw [hp] at h1'
  injection h1' with h1'
  subst h1'
  have hw1 := heapOk_create hw hc
  have hpend := pending_run E ops1 hw1 hok1 h3 hnc1
  have hw2 := heapOk_run E hw1 ops1 hok1
  have hn2 : id < (run E w1 ops1).next := Nat.lt_of_lt_of_le h3 (next_run E hw1 ops1 hok1)
  -- the object after Close
  have hclose : (step E (run E w1 ops1) (.close id)).heap id =
      closeObj (run E w1 ops1).now ((run E w1 ops1).heap id) := by
    simp only [step, close]; split <;> simp [setObj]
  have hbytes : ((step E (run E w1 ops1) (.close id)).heap id).bytes = (chunks id ops1).flatten := by
    rw [hclose]
    have hwr := hpend.2.2
    rw [h5] at hwr
    unfold closeObj
    cases hwriter : ((run E w1 ops1).heap id).writer with
    | none =>
      rw [hwriter] at hwr
      simp only [Option.getD_none, List.nil_append] at hwr
      simp [FileObj.bytes, hpend.1, h4, ← hwr]
    | some b =>
      rw [hwriter] at hwr
      simp only [Option.getD_some, Option.getD_none, List.nil_append] at hwr
      simp [FileObj.bytes, hwr]
  have hinfo : ∃ d', ((step E (run E w1 ops1) (.close id)).heap id).info = some d' := by
    rw [hclose]
    exact objStep_info (.close _) ⟨d, by rw [hpend.2.1, h6]⟩
  have hw3 := heapOk_step E hw2 (.close id) trivial
  have hn3 : id < (step E (run E w1 ops1) (.close id)).next :=
    Nat.lt_of_lt_of_le hn2 (next_step E hw2 (.close id) trivial)
  have hpend2 := pending_run E ops2 hw3 hok2 hn3 hnc2
  have hget := hk.get
  rw [h2] at hget
  have hall : ∀ o ∈ ops1 ++ .close id :: ops2, o.HostOk := by
    intro o ho
    rcases List.mem_append.mp ho with ho | ho
    · exact hok1 o ho
    · rcases List.mem_cons.mp ho with rfl | ho
      · trivial
      · exact hok2 o ho
  have hhere := here_run' E (ops1 ++ .close id :: ops2) hw1 hall
  rw [run_append, run_cons] at hget hhere ⊢
  obtain ⟨d', hd'⟩ := hinfo
  obtain ⟨w3, h, ho, hobj⟩ := openFile_of_lookup (E := E) (name := name) (pt := pt)
    (w := run E (step E (run E w1 ops1) (.close id)) ops2)
    (f := (run E (step E (run E w1 ops1) (.close id)) ops2).heap id) (d := d')
    (by rw [hhere]; exact h1) (by simp [lookup, hget]) (by rw [hpend2.2.1, hd'])
  refine ⟨w3, h, ho, ?_⟩
  have := openFile_delivers ho
  rw [hobj] at this
  rw [show (chunks id ops1).flatten = (openedObj ((run E (step E (run E w1 ops1) (.close id)) ops2).heap id) d').bytes
    by simp only [openedObj, FileObj.bytes]; rw [hpend2.1]; exact hbytes.symm]
  exact this

/-- The hypothesis of C08 and C09 holds for every history of operations that do not name the path. -/
theorem C08_hypothesis_met (E : Env) {w w1 : World} {i : Info} (hr : Reached E i w) {name : Str} {id : Nat}
    {pt : Path} (hc : create E w name = (w1, .ok id)) (ops : List Op)
    (h : ∀ o ∈ ops, o.HostOk ∧ ¬ o.touches E w.here pt) : KeepsBinding E pt w1 ops := by
  have hw := hr.inv.heap
  refine keepsBinding_of_touches E ops (heapOk_create hw hc) ?_ h
  have := (ext_prims (prims_create E w name)).here
  rwa [hc] at this

/-- Chunks, writes to a second handle, a read and a removal elsewhere in between. -/
example :
    let w1 := (create Demo.env Demo.w0 (b! "/a.txt")).1
    let ops1 : List Op := [.write 1 (b! "he"), .mkdirAll (b! "/d") 0o755, .create (b! "/d/b.txt"),
      .write 4 (b! "zz"), .write 1 (b! "llo"), .close 4, .remove (b! "/d/b.txt")]
    (create Demo.env Demo.w0 (b! "/a.txt")).2 = .ok 1 ∧
    KeepsBinding Demo.env ⟨b! "app", b! "/a.txt"⟩ w1 (ops1 ++ [.close 1]) ∧
    (chunks 1 ops1).flatten = b! "hello" ∧
    (∃ d, openView Demo.env (run Demo.env w1 ops1) (b! "/a.txt") = .ok (d, [])) ∧
    (∃ d, openView Demo.env (run Demo.env w1 (ops1 ++ [.close 1])) (b! "/a.txt") = .ok (d, b! "hello")) := by
  refine ⟨by decide +kernel, ?_, by decide +kernel,
    ⟨⟨b! "a.txt", 0, 0o644, 1000, false⟩, by decide +kernel⟩,
    ⟨⟨b! "a.txt", 5, 0o644, 1000, false⟩, by decide +kernel⟩⟩
  simp only [List.cons_append, List.nil_append, KeepsBinding]
  decide +kernel

/-- **C10** (snapshot). A handle returned by `Open` keeps delivering the content the file had when it was
opened, whatever other operations happen afterwards. -/
theorem C10_open_is_snapshot (E : Env) {w w1 : World} {i : Info} (hr : Reached E i w) {name : Str} {id : Nat}
    (hopen : openFile E w name = (w1, .ok id)) {d : Details} {content : Str}
    (hc : openView E w name = .ok (d, content)) (ops : List Op)
    (hok : ∀ o ∈ ops, o.HostOk) (ht : ∀ o ∈ ops, o.target ≠ some id) :
    Delivers (run E w1 ops) id content ∧ ((run E w1 ops).heap id).info = some d := by
  have hw := hr.inv.heap
  have hw1 : HeapOk w1 := by
    have := heapOk_prims (prims_openFile E hw name) hw
    rwa [hopen] at this
  obtain ⟨d', hv, hd'⟩ := openView_of_openFile hopen
  rw [hv] at hc
  simp only [Res.ok.injEq, Prod.mk.injEq] at hc
  obtain ⟨_, _, _, _, _, _, h4, h5⟩ := openFile_ok hopen
  have hframe := heap_frame_run E hw1 ops hok (id := id) (by rw [h5, h4]; simp [alloc]) ht
  refine ⟨?_, by rw [hframe, hd', hc.1]⟩
  refine Delivers.congr hframe ?_
  rw [← hc.2]
  exact openFile_delivers hopen

/-- A handle returned by `Open` is not bound to any path. -/
theorem opened_unbound {E : Env} {w w1 : World} (hw : Inv w) {name : Str} {id : Nat}
    (hopen : openFile E w name = (w1, .ok id)) : Unbound w1 id := by
  obtain ⟨pt, i, d, h1, h2, h3, h4, h5⟩ := openFile_ok hopen
  refine ⟨by rw [h5, h4]; simp [alloc], ?_⟩
  intro k hk
  rw [h5] at hk
  simp only [alloc] at hk
  have := (hw.wf.bound k id hk).1
  omega

/-- **C10** (isolation). In any history after the `Open`, erasing every `Read`, `Seek`, `Write` and
`Close` on the opened handle makes no difference to what `Open` and `Stat` of any name show at the
end. -/
theorem C10_opened_handle_isolated (E : Env) {w w1 : World} {i : Info} (hr : Reached E i w) {name : Str} {id : Nat}
    (hopen : openFile E w name = (w1, .ok id)) (ops : List Op) (hok : ∀ o ∈ ops, o.HostOk) :
    SameView E (run E w1 (ops.filter fun o => !o.usesHandle id)) (run E w1 ops) := by
  have hw := hr.inv
  have hw1 : HeapOk w1 := by
    have := heapOk_prims (prims_openFile E hw.heap name) hw.heap
    rwa [hopen] at this
  have hu := opened_unbound hw hopen
  refine (diff_run_erase E ops hw1 hw1 hok hu (DiffAt.refl id w1)).sameView E ?_
  exact unbound_run E _ hw1 (fun o ho => hok o (List.mem_filter.mp ho).1) hu

example :
    let w := Demo.after [.create (b! "/a"), .write 1 (b! "v1"), .close 1]
    let w1 := (openFile Demo.env w (b! "/a")).1
    let ops : List Op := [.write 2 (b! "evil"), .create (b! "/a"), .close 2, .write 4 (b! "v2"), .close 4]
    (openFile Demo.env w (b! "/a")).2 = .ok 2 ∧
    openView Demo.env (run Demo.env w1 ops) (b! "/a") =
      .ok (⟨b! "a", 2, 0o644, 1000, false⟩, b! "v2") ∧
    (ops.filter fun o => !o.usesHandle 2).length = 3 := by decide +kernel

/-- **C11.** When a path is created twice, nothing done with the handle of the first `Create` after the
second one makes a difference: erasing every `Read`, `Seek`, `Write` and `Close` on it from any history
leaves what `Open` and `Stat` of any name show. -/
theorem C11_latest_create_owns (E : Env) {w w1 w3 : World} {i : Info} (hr : Reached E i w) {name name' : Str} {id1 id2 : Nat}
    {pt : Path} (hp : E.parse w.here name = .ok pt) (hp' : E.parse w.here name' = .ok pt)
    (hc1 : create E w name = (w1, .ok id1)) (mid : List Op) (hmid : ∀ o ∈ mid, o.HostOk)
    (hc2 : create E (run E w1 mid) name' = (w3, .ok id2))
    (ops : List Op) (hok : ∀ o ∈ ops, o.HostOk) :
    SameView E (run E w3 (ops.filter fun o => !o.usesHandle id1)) (run E w3 ops) := by
  have hw := hr.inv
  have hi1 : Inv w1 := by
    have := inv_prims (prims_create E w name) hw
    rwa [hc1] at this
  have hi2 := inv_run E hi1 mid hmid
  have hi3 : Inv w3 := by
    have := inv_prims (prims_create E (run E w1 mid) name') hi2
    rwa [hc2] at this
  obtain ⟨pt1, _, _, e1, g1, n1, _⟩ := created_state hc1
  obtain ⟨pt2, _, _, e2, g2, n2, _⟩ := created_state hc2
  have hh1 : w1.here = w.here := by
    have := (ext_prims (prims_create E w name)).here
    rwa [hc1] at this
  rw [here_run' E mid hi1.heap hmid, hh1, hp'] at e2
  rw [hp] at e1
  injection e1 with e1
  injection e2 with e2
  subst e1
  subst e2
  obtain ⟨_, _, _, _, h3, h4, _⟩ := create_ok hc2
  have hpath1 : (w1.heap id1).path = pt := (hi1.wf.bound _ _ g1).2.1
  have hlt : id1 < id2 := by
    rw [h3]
    have a := next_run E hi1.heap mid hmid
    have b := (ext_prims (prims_mkdirAll E (run E w1 mid) GoPath.rootS 0o755)).next
    omega
  have hu : Unbound w3 id1 := by
    refine ⟨by omega, ?_⟩
    intro k hk
    have hkp := (hi3.wf.bound k id1 hk).2.1
    -- the object of id1 still carries the path of the first Create
    have hpres : ∀ (ops : List Op) (v : World), Inv v → (∀ o ∈ ops, o.HostOk) → id1 < v.next →
        ((run E v ops).heap id1).path = (v.heap id1).path := by
      intro ops
      induction ops with
      | nil => intro v _ _ _; rfl
      | cons o ops ih =>
        intro v hv ho hn
        have ho1 := ho o (by simp)
        rw [run_cons, ih _ (inv_step E hv o ho1) (fun o' h' => ho o' (List.mem_cons_of_mem _ h'))
          (Nat.lt_of_lt_of_le hn (next_step E hv.heap o ho1))]
        by_cases ht : o.usesHandle id1 = true
        · exact (diff_handleOp E v ht).path
        · by_cases ht2 : o.target = some id1
          · cases o with
            | readdir i c => rfl
            | fileOpen i nm => exact congrArg _ ((ext_prims (prims_fileOpen E hv.heap i nm)).heap id1 hn)
            | write i b => simp [Op.target, Op.usesHandle] at ht ht2; exact absurd ht2 ht
            | close i => simp [Op.target, Op.usesHandle] at ht ht2; exact absurd ht2 ht
            | read i n => simp [Op.target, Op.usesHandle] at ht ht2; exact absurd ht2 ht
            | seek i a b => simp [Op.target, Op.usesHandle] at ht ht2; exact absurd ht2 ht
            | _ => simp [Op.target] at ht2
          · rw [heap_frame E hv.heap o ho1 hn ht2]
    have hp2 := hpres mid w1 hi1 hmid n1
    have hx := (ext_prims (prims_create E (run E w1 mid) name')).heap id1
      (Nat.lt_of_lt_of_le n1 (next_run E hi1.heap mid hmid))
    rw [hc2] at hx
    rw [hx, hp2, hpath1] at hkp
    subst hkp
    rw [g2] at hk
    injection hk with hk
    omega
  refine (diff_run_erase E ops hi3.heap hi3.heap hok hu (DiffAt.refl id1 w3)).sameView E ?_
  exact unbound_run E _ hi3.heap (fun o ho => hok o (List.mem_filter.mp ho).1) hu

example :
    let w1 := (create Demo.env Demo.w0 (b! "/a")).1
    let w2 := run Demo.env w1 [.write 1 (b! "old")]
    let w3 := (create Demo.env w2 (b! "/a")).1
    (create Demo.env Demo.w0 (b! "/a")).2 = .ok 1 ∧ (create Demo.env w2 (b! "/a")).2 = .ok 3 ∧
    openView Demo.env (run Demo.env w3 [.write 3 (b! "new"), .close 3, .close 1]) (b! "/a") =
      .ok (⟨b! "a", 3, 0o644, 1000, false⟩, b! "new") := by decide +kernel

/-- **C12.** In every reachable state, the size `Stat` reports for a regular file is the number of bytes
a fresh `Open` of the same name delivers. -/
theorem C12_size_is_readable_length (E : Env) {i : Info} {w : World} (hr : Reached E i w) {name : Str} {d : Details}
    (hs : statView E w name = .ok d) (hfile : d.isDir = false) :
    ∃ w1 h content, openFile E w name = (w1, .ok h) ∧
      Delivers w1 h content ∧ d.size = (content.length : Int) := by
  have hi := hr.inv
  rw [statView_eq] at hs
  cases hp : E.parse w.here name with
  | error e => simp [hp] at hs
  | ok pt =>
    rw [hp] at hs
    simp only at hs
    cases hl : lookup w pt with
    | none => simp [hl] at hs
    | some f =>
      rw [hl] at hs
      simp only at hs
      cases hd : f.info with
      | none => simp [hd] at hs
      | some d' =>
        rw [hd] at hs
        simp only [Res.ok.injEq] at hs
        subst hs
        obtain ⟨w1, h, ho, hobj⟩ := openFile_of_lookup hp hl hd
        refine ⟨w1, h, f.bytes, ho, ?_, ?_⟩
        · have := openFile_delivers ho
          rw [hobj] at this
          exact this
        · unfold lookup at hl
          cases hg : AMap.get w.files pt with
          | none => simp [hg] at hl
          | some id =>
            rw [hg] at hl
            simp only [Option.map_some, Option.some.injEq] at hl
            have := (hi.heap id).size d' (by rw [hl]; exact hd) hfile
            rw [hl] at this
            exact this

example : statView Demo.env (Demo.after [.create (b! "/a"), .write 1 (b! "xyz"), .close 1,
      .create (b! "/b"), .write 1 (b! "ignored")]) (b! "/a") =
    .ok ⟨b! "a", 3, 0o644, 1000, false⟩ := by decide +kernel

/-- A writer is pending exactly if something, be it nothing, was written since. -/
theorem writer_run (E : Env) {id : Nat} (ops : List Op) : ∀ {w : World}, HeapOk w →
    (∀ o ∈ ops, o.HostOk) → id < w.next → .close id ∉ ops →
    ((run E w ops).heap id).writer.isSome = ((w.heap id).writer.isSome || !(chunks id ops).isEmpty) := by
  induction ops with
  | nil => intro w _ _ _ _; simp [chunks]
  | cons o ops ih =>
    intro w hw ho hid hc
    have ho1 := ho o (by simp)
    rw [run_cons, ih (heapOk_step E hw o ho1) (fun o' h' => ho o' (List.mem_cons_of_mem _ h'))
      (Nat.lt_of_lt_of_le hid (next_step E hw o ho1)) (fun h => hc (List.mem_cons_of_mem _ h))]
    by_cases ht : o.target = some id
    · cases o with
      | write i b =>
        simp only [Op.target, Option.some.injEq] at ht
        subst ht
        simp [step, write, setObj, writeObj, chunks]
      | close i =>
        simp only [Op.target, Option.some.injEq] at ht
        subst ht
        exact absurd (by simp) hc
      | read i n =>
        simp only [Op.target, Option.some.injEq] at ht
        subst ht
        have := readObj_fields (w.heap i) n
        simp only [step, Mem.read, setObj, upd_self, chunks]
        rw [this.2.1]
      | seek i off whence =>
        simp only [Op.target, Option.some.injEq] at ht
        subst ht
        have := seekObj_fields (w.heap i) off whence
        simp only [step, Mem.seek, setObj, upd_self, chunks]
        rw [this.2.1]
      | readdir i count => simp [step, chunks]
      | fileOpen i name =>
        simp only [Op.target, Option.some.injEq] at ht
        subst ht
        have := (ext_prims (prims_fileOpen E hw i name)).heap i hid
        simp only [step, chunks]
        rw [this]
      | _ => simp [Op.target] at ht
    · rw [heap_frame E hw o ho1 hid ht]
      cases o with
      | write i b =>
        have : i ≠ id := fun e => ht (by simp [Op.target, e])
        simp [chunks, this]
      | _ => simp [chunks]

/-- **C64.** After `Create`, writes, `Close` and whatever else (as in C08), `Stat` reports the base of the name given to
`Create`, the number of bytes written, mode 0644, no directory, and the time of `Close`; the time of `Create` if there
was no call of `Write`. -/
theorem C64_stat_after_close (E : Env) {w w1 : World} {i : Info} (hr : Reached E i w) {name : Str} {id : Nat}
    {pt : Path} (hp : E.parse w.here name = .ok pt) (hc : create E w name = (w1, .ok id))
    (ops1 ops2 : List Op) (hok1 : ∀ o ∈ ops1, o.HostOk) (hok2 : ∀ o ∈ ops2, o.HostOk)
    (hnc1 : .close id ∉ ops1) (hnc2 : .close id ∉ ops2)
    (hk : KeepsBinding E pt w1 (ops1 ++ .close id :: ops2)) :
    statView E (run E w1 (ops1 ++ .close id :: ops2)) name =
      .ok ⟨GoPath.base name, (chunks id ops1).flatten.length, 0o644,
        if chunks id ops1 = [] then w.now else (run E w1 ops1).now, false⟩ := by
  have hw := hr.inv.heap
  obtain ⟨pt', her, h1', _, h3, h4, _⟩ := create_ok hc
  rw [hp] at h1'
  injection h1' with h1'
  subst h1'
  have hx := ext_prims (prims_mkdirAll E w GoPath.rootS 0o755)
  have h1 : E.parse w1.here name = .ok pt := by rw [h4]; simp only [store, alloc, hx.here]; exact hp
  have h2 : AMap.get w1.files pt = some id := by rw [h4]; simp [store]
  have hid : id < w1.next := by rw [h4]; simp [store, alloc, h3]
  have h5 : (w1.heap id).writer = none := by rw [h4]; simp [store, alloc, h3, createdObj]
  have h6 : (w1.heap id).info = some ⟨GoPath.base name, 0, 0o644, w.now, false⟩ := by
    rw [h4]; simp [store, alloc, h3, createdObj]
  have hw1 := heapOk_create hw hc
  have hpend := pending_run E ops1 hw1 hok1 hid hnc1
  have hwr := writer_run E ops1 hw1 hok1 hid hnc1
  have hw2 := heapOk_run E hw1 ops1 hok1
  have hn2 : id < (run E w1 ops1).next := Nat.lt_of_lt_of_le hid (next_run E hw1 ops1 hok1)
  have hclose : (step E (run E w1 ops1) (.close id)).heap id =
      closeObj (run E w1 ops1).now ((run E w1 ops1).heap id) := by
    simp only [step, close]; split <;> simp [setObj]
  have hinfo : ((step E (run E w1 ops1) (.close id)).heap id).info =
      some ⟨GoPath.base name, (chunks id ops1).flatten.length, 0o644,
        if chunks id ops1 = [] then w.now else (run E w1 ops1).now, false⟩ := by
    rw [hclose]
    unfold closeObj
    rw [h5] at hwr
    have hb := hpend.2.2
    rw [h5] at hb
    cases hwriter : ((run E w1 ops1).heap id).writer with
    | none =>
      rw [hwriter] at hwr
      have he : chunks id ops1 = [] := by simpa using hwr
      simp [hpend.2.1, h6, he]
    | some b =>
      rw [hwriter] at hwr hb
      have he : chunks id ops1 ≠ [] := by simpa using hwr
      simp only [Option.getD_some, Option.getD_none, List.nil_append] at hb
      simp [hpend.2.1, h6, he, hb]
  have hw3 := heapOk_step E hw2 (.close id) trivial
  have hn3 : id < (step E (run E w1 ops1) (.close id)).next :=
    Nat.lt_of_lt_of_le hn2 (next_step E hw2 (.close id) trivial)
  have hpend2 := pending_run E ops2 hw3 hok2 hn3 hnc2
  have hget := hk.get
  rw [h2] at hget
  have hall : ∀ o ∈ ops1 ++ .close id :: ops2, o.HostOk := by
    intro o ho
    rcases List.mem_append.mp ho with ho | ho
    · exact hok1 o ho
    · rcases List.mem_cons.mp ho with rfl | ho
      · trivial
      · exact hok2 o ho
  have hhere := here_run' E (ops1 ++ .close id :: ops2) hw1 hall
  rw [statView_eq, hhere, h1]
  rw [run_append, run_cons] at hget ⊢
  simp [lookup, hget, hpend2.2.1, hinfo]

/-- Five bytes in two writes, with the clock advancing. -/
example :
    let w1 := (create Demo.env Demo.w0 (b! "/a.txt")).1
    let ops1 : List Op := [.tick 2000, .write 1 (b! "he"), .tick 3000, .write 1 (b! "llo"), .tick 4000]
    (create Demo.env Demo.w0 (b! "/a.txt")).2 = .ok 1 ∧
    KeepsBinding Demo.env ⟨b! "app", b! "/a.txt"⟩ w1 (ops1 ++ .close 1 :: [.tick 5000]) ∧
    statView Demo.env (run Demo.env w1 (ops1 ++ .close 1 :: [.tick 5000])) (b! "/a.txt") =
      .ok ⟨b! "a.txt", 5, 0o644, 4000, false⟩ := by
  refine ⟨by decide +kernel, ?_, by decide +kernel⟩
  simp only [KeepsBinding, List.cons_append, List.nil_append]
  decide +kernel

end Props
end Verif
