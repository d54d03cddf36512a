import Verif.Lemmas.Mkdir
import Verif.Spec.Demo
import Verif.Spec.Reach

/-! C17, C18, C19: `Create` and the parents of stored paths. -/

namespace Verif
namespace Props

open Mem Spec

/-- The root directory of a module. -/
def rootOf (i : Info) : Path := ⟨i.module.path, GoPath.rootS⟩

theorem clear_root {i : Info} (h : InfoOk i) : Clear i GoPath.rootS := by
  rcases h.dirOk with h | ⟨ds, hne, hp, hd⟩
  · exact Or.inl h
  · right
    rw [hd]
    intro hpre
    have := hpre.length_le
    obtain ⟨c, cs, rfl⟩ := List.exists_cons_of_ne_nil hne
    have hc : c ≠ [] := (hp c (by simp)).1.1
    have hc' := List.length_pos_iff.mpr hc
    have : (GoPath.mk (c :: cs)).length ≤ 1 := this
    have h2 : (GoPath.mk (c :: cs)).length ≥ 1 + c.length := by
      cases cs with
      | nil => simp [GoPath.mk, GoPath.joinSlash]; omega
      | cons d cs => simp [GoPath.mk, GoPath.joinSlash]; omega
    omega

theorem ordinary_root {i : Info} (h : InfoOk i) : Ordinary i GoPath.rootS :=
  ordinary_mk (cs := []) (by intro w hw; simp at hw) (clear_root h)

theorem rootedElems_root : GoPath.rootedElems GoPath.rootS = [] := by decide

theorem chain_root {E : Env} {w : World} (hl : ParseLaws E w.here) (hi : InfoOk w.here) (hwf : WF w)
    {q : Path} (h : Chain E w.here GoPath.rootS q) : q = rootOf w.here := by
  obtain ⟨as, h1, _, rfl⟩ := (mkdirAll_spec hl hwf (ordinary_root hi) 0).2.2 q h
  rw [rootedElems_root] at h1
  have : as = [] := by simpa using h1
  subst this
  rfl

/-- The first part of the statement of **C17**: a successful `Create` had an existing directory as
parent. -/
def C17_statement (E : Env) : Prop :=
  ∀ (i : Info) (t : Int) (ops : List Op) (name : Str) (pt parent : Path) (w1 : World) (id : Nat),
    (∀ o ∈ ops, o.HostOk) → E.parse i name = .ok pt → IsParent parent pt →
    create E (run E (new i t) ops) name = (w1, .ok id) →
    parent.name = GoPath.rootS ∨
    ∃ f d, lookup (run E (new i t) ops) parent = some f ∧ f.info = some d ∧ d.isDir = true

/-- **C17 is false**: a regular file is accepted as parent. -/
theorem C17_file_as_parent_refuted : ¬ C17_statement Demo.env := by
  intro h
  have hc : (create Demo.env (run Demo.env (new Demo.info 1000) [.create (b! "/f")]) (b! "/f/x")).2 = .ok 3 := by
    decide +kernel
  obtain h | ⟨f, d, h1, h2, h3⟩ := h Demo.info 1000 [.create (b! "/f")] (b! "/f/x") ⟨b! "app", b! "/f/x"⟩
    ⟨b! "app", b! "/f"⟩
    (create Demo.env (run Demo.env (new Demo.info 1000) [.create (b! "/f")]) (b! "/f/x")).1 3
    (by intro o ho; simp at ho; subst ho; trivial) (by decide +kernel)
    ⟨rfl, [b! "f"], b! "x", by decide, by decide, by decide⟩ (Prod.ext rfl hc)
  · revert h; decide
  · have hd : (lookup (run Demo.env (new Demo.info 1000) [.create (b! "/f")]) ⟨b! "app", b! "/f"⟩).bind
        (fun f => f.info.map Details.isDir) = some false := by decide +kernel
    rw [h1] at hd
    simp [h2, h3] at hd

/-- **C17** (another violation): a failing `Create` adds the root directory. -/
theorem C17_failed_create_adds_root_refuted :
    (create Demo.env Demo.w0 (b! "/no/such/dir")).2 = .err .couldNotStat ∧
    statView Demo.env Demo.w0 (b! "/") = .err .couldNotStat ∧
    statView Demo.env (create Demo.env Demo.w0 (b! "/no/such/dir")).1 (b! "/") =
      .ok ⟨[], 0, 0o755, 1000, true⟩ := by decide +kernel

/-- Whatever `Create` does, only the created path and the root of the module can change. -/
theorem create_frame (E : Env) {w : World} (hl : ParseLaws E w.here) (hi : InfoOk w.here) (hwf : WF w)
    {name : Str} {q : Path} (h1 : q ≠ rootOf w.here) (h2 : E.parse w.here name ≠ .ok q) :
    lookup (create E w name).1 q = lookup w q := by
  unfold lookup
  rw [get_create E (fun hc => h1 (chain_root hl hi hwf hc)) h2]
  cases hg : AMap.get w.files q with
  | none => rfl
  | some j =>
    simp only [Option.map_some]
    rw [(ext_prims (prims_create E w name)).heap j (hwf.bound q j hg).1]

/-- A failing `Create` changes at most the root of the module. -/
theorem create_err_frame (E : Env) {w : World} (hl : ParseLaws E w.here) (hi : InfoOk w.here) (hwf : WF w)
    {name : Str} {q : Path} (h1 : q ≠ rootOf w.here) (herr : ∀ id, (create E w name).2 ≠ .ok id) :
    lookup (create E w name).1 q = lookup w q := by
  rw [← lookup_mkdirAll E hwf 0o755 (p := GoPath.rootS) (q := q) (fun hc => h1 (chain_root hl hi hwf hc))]
  suffices h : (create E w name).1 = (mkdirAll E w GoPath.rootS 0o755).1 by rw [h]
  revert herr
  unfold create
  generalize mkdirAll E w GoPath.rootS 0o755 = m
  obtain ⟨w0, r0⟩ := m
  cases r0 with
  | panic => intro _; rfl
  | _ =>
    simp only
    cases parse E w0 name with
    | error e => intro _; rfl
    | ok pt =>
      simp only
      cases info w0 pt.pkg with
      | err e => intro _; rfl
      | panic => intro _; rfl
      | ok her =>
        simp only
        intro herr
        split
        · rfl
        · rfl
        · next h => rw [h] at herr; exact absurd rfl (herr _)

/-- `Create` of an ordinary name succeeds only if the parent is the root or is stored. -/
theorem create_parent (E : Env) {w : World} (hl : ParseLaws E w.here) (hi : InfoOk w.here) (hwf : WF w)
    {name : Str} (hp : Ordinary w.here name)
    {parent : Path} (hpar : IsParent parent ⟨w.here.module.path, GoPath.clean name⟩)
    {w1 : World} {id : Nat} (hc : create E w name = (w1, .ok id)) :
    parent = rootOf w.here ∨ Stored w parent := by
  obtain ⟨hpkg, cs, c, hg, h1, h2⟩ := hpar
  have h2 : GoPath.clean name = GoPath.mk (cs ++ [c]) := h2
  have hel : GoPath.rootedElems name = cs ++ [c] :=
    GoPath.mk_injective (GoPath.good_rootedElems name) hg (hp.clean.symm.trans h2)
  have hord := hp.ord
  rw [hel] at hord
  have hcs := (ord_append.mp hord).1
  have hclear : Clear w.here (GoPath.mk cs) := by
    have := hp.2.2
    rw [h2] at this
    exact clear_init this
  have hpeq : parent = ⟨w.here.module.path, GoPath.mk cs⟩ := by
    cases parent; simp only at hpkg h1; subst hpkg; subst h1; rfl
  by_cases hne : cs = []
  · left; subst hne; rw [hpeq]; rfl
  right
  obtain ⟨pt, her, e1, e2, e3, e4, e5⟩ := create_ok hc
  rw [hp.parse hl, hel] at e1
  injection e1 with e1
  subst e1
  have hdir : GoPath.dir (GoPath.mk (cs ++ [c])) = GoPath.mk cs := by
    have := GoPath.dir_mk_snoc (GoPath.good_append.mp hg).1 ((GoPath.good_append.mp hg).2 c (by simp))
    simpa using this
  have hoc := ordinary_mk hcs hclear
  rw [hdir] at e5
  obtain ⟨j, hj⟩ := e5 (by
    intro h; exact hne ((GoPath.mk_eq_root hcs.good).mp h))
  have hnr : parent ≠ rootOf w.here := by
    rw [hpeq]; intro h; injection h with _ h; exact hne ((GoPath.mk_eq_root hcs.good).mp h)
  unfold stat parse at hj
  rw [here_mkdirAll, hoc.parse hl, GoPath.rootedElems_mk hcs.good] at hj
  simp only at hj
  rw [← hpeq, get_mkdirAll E 0o755 (fun hc => hnr (chain_root hl hi hwf hc))] at hj
  unfold Stored
  cases hgq : AMap.get w.files parent with
  | none => rw [hgq] at hj; simp at hj
  | some k => simp

/-- **C17** (what holds, success). In every reachable state, `Create` of an ordinary name of the own
module succeeds only if the parent is the root or is stored. -/
theorem C17_parent_exists_partial (E : Env) {i : Info} {w : World} (hr : Reached E i w)
    (hl : ParseLaws E i) (hi : InfoOk i) {name : Str} (hp : Ordinary i name)
    {parent : Path} (hpar : IsParent parent ⟨i.module.path, GoPath.clean name⟩)
    {w1 : World} {id : Nat} (hc : create E w name = (w1, .ok id)) :
    parent = rootOf i ∨ Stored w parent := by
  have hinv := hr.inv
  have hh := hr.here
  subst hh
  exact create_parent E hl hi hinv.wf hp hpar hc

/-- **C17** (what holds, failure). A failing `Create` (of any name at all) changes nothing but, at most,
the entry of the module's root directory. -/
theorem C17_failure_frame_partial (E : Env) {i : Info} {w : World} (hr : Reached E i w)
    (hl : ParseLaws E i) (hi : InfoOk i) {name : Str}
    (herr : ∀ id, (create E w name).2 ≠ .ok id) :
    (∀ q, q ≠ rootOf i → lookup (create E w name).1 q = lookup w q) ∧
    ∀ name', E.parse i name' ≠ .ok (rootOf i) →
      SameAt E w (create E w name).1 name' := by
  have hinv := hr.inv
  have hh := hr.here
  subst hh
  refine ⟨fun q hq => create_err_frame E hl hi hinv.wf hq herr, ?_⟩
  intro name' hn
  apply sameAt_of_lookup (ext_prims (prims_create E w name)).here
  intro q hq
  exact create_err_frame E hl hi hinv.wf (by rintro rfl; exact hn hq) herr

example :
    let w := Demo.after [.mkdirAll (b! "/d") 0o755]
    Ordinary Demo.info (b! "/d/x/../f") ∧ IsParent ⟨b! "app", b! "/d"⟩ ⟨b! "app", GoPath.clean (b! "/d/x/../f")⟩ ∧
    (create Demo.env w (b! "/d/x/../f")).2 = .ok 2 ∧
    (create Demo.env w (b! "/e/f")).2 = .err .couldNotStat := by
  refine ⟨by decide +kernel, ⟨rfl, [b! "d"], b! "f", by decide, by decide, by decide⟩, by decide +kernel,
    by decide +kernel⟩

/-- **C18.** In every reachable state, after a successful `Create` of any name, that name is `Stat`-ed and
opened as an empty regular file with mode 0644 whatever was there before, and every name whose path is
neither the created one nor the module's root looks exactly as before. -/
theorem C18_create_truncates (E : Env) {i : Info} {w : World} (hr : Reached E i w)
    (hl : ParseLaws E i) (hi : InfoOk i) {name : Str} {pt : Path} {w1 : World}
    {id : Nat} (hp : E.parse i name = .ok pt) (hc : create E w name = (w1, .ok id)) :
    (∀ alias, E.parse i alias = .ok pt →
      (∃ m, statView E w1 alias = .ok ⟨GoPath.base name, 0, 0o644, m, false⟩) ∧
      ∃ d, openView E w1 alias = .ok (d, []) ∧ d.isDir = false ∧ d.size = 0) ∧
    (∀ name', E.parse i name' ≠ .ok pt → E.parse i name' ≠ .ok (rootOf i) →
      SameAt E w w1 name') := by
  have hinv := hr.inv
  have hh := hr.here
  subst hh
  have hw1 : w1 = (create E w name).1 := by rw [hc]
  have hhere : w1.here = w.here := by rw [hw1]; exact (ext_prims (prims_create E w name)).here
  refine ⟨?_, ?_⟩
  · intro alias ha
    obtain ⟨pt', her, e1, e2, e3, e4, e5⟩ := create_ok hc
    rw [hp] at e1
    injection e1 with e1
    subst e1
    have hlk : lookup w1 pt = some (createdObj her pt name w.now) := by
      rw [e4, e3]; simp [lookup, store, alloc]
    refine ⟨⟨w.now, ?_⟩, ?_⟩
    · rw [statView_eq, hhere, ha]; simp only [hlk]; rfl
    · rw [openView_eq, hhere, ha]; simp only [hlk, createdObj]
      exact ⟨_, rfl, rfl, rfl⟩
  · intro name' h1 h2
    rw [hw1]
    apply sameAt_of_lookup (ext_prims (prims_create E w name)).here
    intro q hq
    apply create_frame E hl hi hinv.wf
    · rintro rfl; exact h2 hq
    · intro h; rw [hp] at h; injection h with h; subst h; exact h1 hq

/-- **C18** (name part): the `Stat` name is the last path element, for a clean name. -/
theorem C18_stat_name (E : Env) {i : Info} {w : World} (hr : Reached E i w)
    (hl : ParseLaws E i) (hi : InfoOk i) {cs : List Str} {c : Str} {w1 : World}
    {id : Nat} (hp : Ordinary i (GoPath.mk (cs ++ [c]))) (hg : GoPath.Good (cs ++ [c]))
    (hc : create E w (GoPath.mk (cs ++ [c])) = (w1, .ok id)) :
    ∃ m, statView E w1 (GoPath.mk (cs ++ [c])) = .ok ⟨c, 0, 0o644, m, false⟩ := by
  have hparse := hp.parse hl
  obtain ⟨⟨m, hm⟩, _⟩ := (C18_create_truncates E hr hl hi hparse hc).1 _ hparse
  refine ⟨m, ?_⟩
  rw [hm, GoPath.base_mk_snoc ((GoPath.good_append.mp hg).2 c (by simp))]

example :
    let w := Demo.after [.create (b! "/f"), .write 1 (b! "old"), .close 1, .mkdirAll (b! "/g/h") 0o700]
    statView Demo.env w (b! "/f") = .ok ⟨b! "f", 3, 0o644, 1000, false⟩ ∧
    (create Demo.env w (b! "/f")).2 = .ok 5 ∧
    statView Demo.env (create Demo.env w (b! "/f")).1 (b! "/f") = .ok ⟨b! "f", 0, 0o644, 1000, false⟩ ∧
    -- a directory is replaced as well
    statView Demo.env (create Demo.env w (b! "/g")).1 (b! "/g") = .ok ⟨b! "g", 0, 0o644, 1000, false⟩ := by
  decide +kernel

/-- **C18** (violated corner): when the root itself is a regular file, creating another file turns it into
a directory and its content is lost. -/
theorem C18_root_content_refuted :
    let w := Demo.after [.create (b! "/"), .write 1 (b! "x"), .close 1]
    openView Demo.env w (b! "/") = .ok (⟨b! "/", 1, 0o644, 1000, false⟩, b! "x") ∧
    (create Demo.env w (b! "/f")).2 = .ok 3 ∧
    openView Demo.env (create Demo.env w (b! "/f")).1 (b! "/") = .ok (⟨[], 0, 0o755, 1000, true⟩, []) := by
  decide +kernel

/-! ### C19 -/

/-- Every stored path other than those directly in the root has its parent stored. -/
def NoOrphans (w : World) : Prop :=
  ∀ parent q, Stored w q → IsParent parent q → parent.name ≠ GoPath.rootS → Stored w parent

/-- The statement of **C19**. -/
def C19_statement (E : Env) : Prop :=
  ∀ (i : Info) (t : Int) (ops : List Op), (∀ o ∈ ops, o.HostOk) → NoOrphans (run E (new i t) ops)

/-- **C19 is false**: `Remove` deletes a directory that still has entries. -/
theorem C19_remove_refuted : ¬ C19_statement Demo.env := by
  intro h
  have hs : AMap.get (run Demo.env (new Demo.info 1000) [.mkdirAll (b! "/a/b") 0o755, .remove (b! "/a")]).files
      ⟨b! "app", b! "/a/b"⟩ = some 1 := by decide +kernel
  have hn : AMap.get (run Demo.env (new Demo.info 1000) [.mkdirAll (b! "/a/b") 0o755, .remove (b! "/a")]).files
      ⟨b! "app", b! "/a"⟩ = none := by decide +kernel
  obtain ⟨j, hj⟩ := h Demo.info 1000 [.mkdirAll (b! "/a/b") 0o755, .remove (b! "/a")]
    (by intro o ho; simp at ho; rcases ho with rfl | rfl <;> trivial)
    ⟨b! "app", b! "/a"⟩ ⟨b! "app", b! "/a/b"⟩ ⟨_, hs⟩
    ⟨rfl, [b! "a"], b! "b", by decide, by decide, by decide⟩ (by decide)
  rw [hn] at hj
  cases hj

/-- **C19** (another violation): the entries `MkdirAll` makes directly in the root have no parent. -/
theorem C19_root_missing_refuted :
    (AMap.get (Demo.after [.mkdirAll (b! "/a") 0o755]).files ⟨b! "app", b! "/a"⟩).isSome = true ∧
    AMap.get (Demo.after [.mkdirAll (b! "/a") 0o755]).files ⟨b! "app", b! "/"⟩ = none := by
  decide +kernel

/-- **C19** (another violation): entries of another package have no parents. -/
theorem C19_other_package_refuted :
    (AMap.get (Demo.after [.mkdirAll (b! "lib:/a/b") 0o755]).files ⟨b! "lib", b! "/a/b"⟩).isSome = true ∧
    AMap.get (Demo.after [.mkdirAll (b! "lib:/a/b") 0o755]).files ⟨b! "lib", b! "/a"⟩ = none := by
  decide +kernel

/-- The calls that keep the tree whole in state `w`: creating ordinary names of the own module, removing
trees, removing single entries below which nothing is stored, and everything done with handles. -/
def Tame (E : Env) (w : World) : Op → Prop
  | .create name => Ordinary w.here name
  | .mkdirAll p _ => Ordinary w.here p
  | .remove name => ∀ pt, E.parse w.here name = .ok pt → ∀ q, Stored w q → ¬ IsParent pt q
  | .add _ => False
  | _ => True

/-- Every call of the history is tame in the state it is made in. -/
def TameRun (E : Env) (w : World) : List Op → Prop
  | [] => True
  | o :: ops => Tame E w o ∧ TameRun E (step E w o) ops

theorem stored_of_get {w w' : World} (h : ∀ q, AMap.get w'.files q = AMap.get w.files q)
    (hn : NoOrphans w) : NoOrphans w' := by
  intro parent q hq hp hr
  unfold Stored at hq ⊢
  rw [h] at hq ⊢
  exact hn parent q hq hp hr

theorem rootless {w : World} {parent : Path} (h : IsParent parent (rootOf w.here)) : False := by
  obtain ⟨_, cs, c, hg, _, h2⟩ := h
  have := (GoPath.mk_eq_root hg).mp h2.symm
  simp at this

theorem noOrphans_step (E : Env) {w : World} (hl : ParseLaws E w.here) (hi : InfoOk w.here) (hwf : WF w)
    (hn : NoOrphans w) {o : Op} (ht : Tame E w o) : NoOrphans (step E w o) := by
  cases o with
  | create name =>
    intro parent q hq hp hr
    simp only [step] at hq ⊢
    have hgrow : Stored w parent → parent ≠ rootOf w.here → Stored (create E w name).1 parent := by
      intro h hne
      by_cases hpe : E.parse w.here name = .ok parent
      · -- the created path itself, or a failed call
        generalize hc : create E w name = c
        obtain ⟨w1, r⟩ := c
        cases r with
        | ok id =>
          obtain ⟨pt, her, e1, e2, e3, e4, e5⟩ := create_ok hc
          rw [hpe] at e1; injection e1 with e1; subst e1
          rw [e4, e3]; exact ⟨_, by simp [store, alloc]; rfl⟩
        | err e =>
          have := create_err_frame E hl hi hwf (name := name) hne (by intro id; rw [hc]; simp)
          rw [hc] at this
          rw [stored_iff_lookup] at h ⊢
          rw [this]; exact h
        | panic =>
          have := create_err_frame E hl hi hwf (name := name) hne (by intro id; rw [hc]; simp)
          rw [hc] at this
          rw [stored_iff_lookup] at h ⊢
          rw [this]; exact h
      · unfold Stored at h ⊢
        rw [get_create E (fun hc => hne (chain_root hl hi hwf hc)) hpe]
        exact h
    have hpr : parent ≠ rootOf w.here := by rintro rfl; exact hr rfl
    by_cases hqr : q = rootOf w.here
    · subst hqr; exact (rootless hp).elim
    by_cases hqe : E.parse w.here name = .ok q
    · generalize hc : create E w name = c
      obtain ⟨w1, r⟩ := c
      rw [hc] at hq hgrow
      have herr : (∀ id, r ≠ .ok id) → Stored w1 parent := by
        intro he
        have := create_err_frame E hl hi hwf (name := name) hqr (by intro id; rw [hc]; exact he id)
        rw [hc] at this
        apply hgrow _ hpr
        refine hn parent q ?_ hp hr
        rw [stored_iff_lookup] at hq ⊢
        rw [← this]; exact hq
      cases r with
      | ok id =>
        have hq' := ht.parse hl
        rw [hqe] at hq'
        injection hq' with hq'
        rw [← ht.clean] at hq'
        rcases create_parent E hl hi hwf ht (hq' ▸ hp) hc with h | h
        · exact absurd h hpr
        · exact hgrow h hpr
      | err e => exact herr (by simp)
      | panic => exact herr (by simp)
    · apply hgrow _ hpr
      refine hn parent q ?_ hp hr
      unfold Stored at hq ⊢
      rw [get_create E (fun hc => hqr (chain_root hl hi hwf hc)) hqe] at hq
      exact hq
  | mkdirAll p perm =>
    have hspec := mkdirAll_spec hl hwf ht perm
    have hgrow : ∀ q, Stored w q → Stored (mkdirAll E w p perm).1 q := by
      intro q hq
      by_cases hc : Chain E w.here p q
      · obtain ⟨as, h1, h2, rfl⟩ := hspec.2.2 q hc
        obtain ⟨f, hf, _⟩ := hspec.2.1 as h1 h2
        exact stored_iff_lookup.mpr ⟨f, hf⟩
      · unfold Stored
        rw [get_mkdirAll E perm hc]
        exact hq
    intro parent q hq hp hr
    simp only [step] at hq ⊢
    by_cases hc : Chain E w.here p q
    · obtain ⟨as, h1, h2, rfl⟩ := hspec.2.2 q hc
      obtain ⟨hpkg, cs, c, hg, h3, h4⟩ := hp
      have has : GoPath.Good as := by
        intro x hx
        exact GoPath.good_rootedElems p x (h1.subset hx)
      have h4 : as = cs ++ [c] := GoPath.mk_injective has hg h4
      subst h4
      obtain ⟨f, hf, _⟩ := hspec.2.1 cs ((List.prefix_append cs [c]).trans h1) (by
        left; intro h; subst h; exact hr (by rw [h3]; rfl))
      refine stored_iff_lookup.mpr ⟨f, ?_⟩
      cases parent; simp only at hpkg h3; subst hpkg; subst h3
      exact hf
    · apply hgrow
      refine hn parent q ?_ hp hr
      unfold Stored at hq ⊢
      rw [get_mkdirAll E perm hc] at hq
      exact hq
  | openFile name => exact stored_of_get (fun q => by simp only [step]; rw [get_openFile]) hn
  | stat name => exact hn
  | remove name =>
    intro parent q hq hp hr
    simp only [step, remove, Mem.parse] at hq ⊢
    simp only [Tame] at ht
    cases hpt : E.parse w.here name with
    | error e => simp only [hpt] at hq ⊢; exact hn parent q hq hp hr
    | ok pt =>
      simp only [hpt] at hq ⊢
      split at hq
      · next h => simp only [h] at *; exact hn parent q hq hp hr
      · next h =>
        simp only [h]
        unfold Stored at hq ⊢
        simp only at hq ⊢
        have hqw : Stored w q := by
          by_cases hqp : q = pt
          · subst hqp; rw [AMap.get_erase_self] at hq; obtain ⟨_, hq⟩ := hq; cases hq
          · rw [AMap.get_erase_ne _ hqp] at hq; exact hq
        have hpp : parent ≠ pt := by rintro rfl; exact ht parent hpt q hqw hp
        rw [AMap.get_erase_ne _ hpp]
        exact hn parent q hqw hp hr
  | removeAll name =>
    intro parent q hq hp hr
    simp only [step, removeAll, Mem.parse] at hq ⊢
    cases hpt : E.parse w.here name with
    | error e => simp only [hpt] at hq ⊢; exact hn parent q hq hp hr
    | ok pt =>
      simp only [hpt] at hq ⊢
      unfold Stored at hq ⊢
      simp only at hq ⊢
      rw [AMap.get_filter w.files (fun k => !Str.hasPrefix k.name pt.name)] at hq ⊢
      have hpre : ¬ pt.name <+: q.name := by
        intro h
        rw [if_neg (by simpa [Str.hasPrefix_iff] using h)] at hq
        obtain ⟨_, hq⟩ := hq
        cases hq
      have hpq : parent.name <+: q.name := by
        obtain ⟨_, cs, c, hg, h1, h2⟩ := hp
        exact IsUnder.prefix ⟨cs, [c], hg, h1, h2⟩
      rw [if_pos (by simpa [Str.hasPrefix_false_iff] using hpre)] at hq
      rw [if_pos (by
        simp only [Bool.not_eq_true', Str.hasPrefix_false_iff]
        exact fun h => hpre (h.trans hpq))]
      exact hn parent q hq hp hr
  | write id b => exact stored_of_get (fun q => rfl) hn
  | close id => exact stored_of_get (fun q => by simp only [step]; rw [get_close]) hn
  | read id n => exact stored_of_get (fun q => rfl) hn
  | seek id off wh => exact stored_of_get (fun q => rfl) hn
  | readdir id n => exact hn
  | fileOpen id name => exact stored_of_get (fun q => by simp only [step]; rw [get_fileOpen]) hn
  | add fs => exact ht.elim
  | tick t => exact hn

/-- **C19** (what holds). Along every history of tame calls, of any length, every stored path has its
parent directory stored, up to the missing root.  (`Add` is excluded: it stores a file without its
directories, see C58.) -/
theorem C19_no_orphans_partial (E : Env) {i : Info} (hl : ParseLaws E i) (hi : InfoOk i) {w : World}
    (hr : Reached E i w) (hn : NoOrphans w) (ops : List Op) (hok : ∀ o ∈ ops, o.HostOk) (ht : TameRun E w ops) :
    NoOrphans (run E w ops) := by
  have key : ∀ (ops : List Op) (w : World), Inv w → w.here = i → NoOrphans w → (∀ o ∈ ops, o.HostOk) →
      TameRun E w ops → NoOrphans (run E w ops) := by
    intro ops
    induction ops with
    | nil => intro w _ _ hn _ _; exact hn
    | cons o ops ih =>
      intro w hinv hh hn hok ht
      have ho := hok o (by simp)
      refine ih _ (inv_step E hinv o ho) ?_ ?_ (fun o' h' => hok o' (List.mem_cons_of_mem _ h')) ht.2
      · rw [here_step E hinv.heap o ho, hh]
      · exact noOrphans_step E (hh ▸ hl) (hh ▸ hi) hinv.wf hn ht.1
  exact key ops _ hr.inv hr.here hn hok ht

/-- An empty Pkger has no orphans. -/
theorem noOrphans_new (i : Info) (t : Int) : NoOrphans (new i t) := by
  intro parent q hq
  obtain ⟨j, hj⟩ := hq
  simp [new] at hj

/-- A history in the scope of the theorem: it creates and removes a tree. -/
example : TameRun Demo.env Demo.w0
    [.mkdirAll (b! "/a/b/c") 0o755, .create (b! "/a/b/f"), .write 4 (b! "x"), .close 4, .removeAll (b! "/a/b")] := by
  refine ⟨by unfold Tame; decide +kernel, by unfold Tame; decide +kernel, trivial, trivial, trivial, trivial⟩

end Props
end Verif
