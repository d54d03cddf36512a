import Verif.Props.LayerMem
import Verif.Lemmas.Mkdir

/-! C110: several embedded modules and the order in which they are applied. -/

namespace Verif
namespace Props

open Layer Mem Spec

/-- The implementation behind the package-level functions after the layers `ns` were applied in this order, as the
generated files of several packages do (cmd/pkger/cmds/pack.go:150, apply.go:10-19). -/
def afterApply {C : Type} (E : Env) (disk : Pkger (Store C) (Nat × Nat)) (ns : List Nat) : Pkger (Store C) (Nat × Nat) :=
  impl disk (applyAll none (ns.map fun n => (some (memLayer E n), none)))

/-- The layers are Pkgers of their own modules `infos n`, in reachable states. -/
def OwnModules {C : Type} (E : Env) (infos : Nat → Info) (s : Store C) (ns : List Nat) : Prop :=
  ∀ n ∈ ns, Reached E (infos n) (s.1 n)

theorem afterApply_eq {C : Type} (E : Env) (disk : Pkger (Store C) (Nat × Nat)) {ns : List Nat} {b : Nat} {bs : List Nat}
    (h : ns.reverse = b :: bs) : afterApply E disk ns = memStack E b bs := by
  have ha := applyAll_stack (ns.map fun n => (memLayer (C := C) E n, (none : Option Err))) []
  rw [List.append_nil, List.map_map] at ha
  have happ : applied (ns.map fun n => (memLayer (C := C) E n, (none : Option Err))) = memLayers E (b :: bs) := by
    unfold applied memLayers
    rw [List.filter_eq_self.mpr (by simp), List.map_map, ← h, List.map_reverse]
    rfl
  unfold afterApply
  rw [show (none : Option (Pkger (Store C) (Nat × Nat))) = stackOf [] from rfl]
  rw [show (ns.map fun n => (some (memLayer (C := C) E n), (none : Option Err))) =
    ns.map ((fun c => (some c.1, c.2)) ∘ fun n => (memLayer (C := C) E n, (none : Option Err))) from rfl, ha, happ]
  rfl

/-- A call that goes to the first layer that does not fail. -/
def Falls {C α : Type} (m : Pkger (Store C) (Nat × Nat) → Act (Store C) α) : Prop :=
  ∀ parent base, m (wrap parent base) = fallback base parent m

theorem stack_chosen {C α : Type} (E : Env) {m : Pkger (Store C) (Nat × Nat) → Act (Store C) α} (hm : Falls m) {k : Nat}
    {older : List Nat} {s : Store C} (newer : List Nat) : ∀ (b : Nat) (bs : List Nat), b :: bs = newer ++ k :: older →
    (∀ j ∈ newer, ∃ e, m (memLayer E j) s = (s, .err e)) → (∃ t a, m (memLayer E k) s = (t, .ok a)) →
    m (memStack E b bs) s = m (memLayer E k) s := by
  induction newer with
  | nil =>
    intro b bs hl _ ⟨t, a, h⟩
    injection hl with h1 h2
    subst h1 h2
    rw [memStack, hm]
    simp only [fallback, call, h]
  | cons j js ih =>
    intro b bs hl hnew hk
    injection hl with h1 h2
    subst h1
    obtain ⟨e, he⟩ := hnew b (by simp)
    cases bs with
    | nil => simp at h2
    | cons c cs =>
      rw [← ih c cs h2 (fun j hj => hnew j (List.mem_cons_of_mem _ hj)) hk, memStack, hm]
      simp only [fallback, call, he]
      rfl

theorem stack_none {C α : Type} (E : Env) {m : Pkger (Store C) (Nat × Nat) → Act (Store C) α} (hm : Falls m) {s : Store C} {e : Err} :
    ∀ (b : Nat) (bs : List Nat), (∀ j ∈ b :: bs, m (memLayer E j) s = (s, .err e)) → m (memStack E b bs) s = (s, .err e) := by
  intro b bs
  induction bs generalizing b with
  | nil =>
    intro h
    rw [memStack, hm]
    simp only [fallback, call, h b (by simp)]
    rfl
  | cons c cs ih =>
    intro h
    rw [memStack, hm]
    simp only [fallback, call, h b (by simp)]
    exact ih c (fun j hj => h j (List.mem_cons_of_mem _ hj))

/-- If one layer answers and all others fail in the same way without changing anything, the order does not matter. -/
theorem any_order {C α : Type} (E : Env) (disk : Pkger (Store C) (Nat × Nat)) {m : Pkger (Store C) (Nat × Nat) → Act (Store C) α}
    (hm : Falls m) {ns : List Nat} {s : Store C} {k : Nat} (hk : k ∈ ns)
    (hans : ∃ t a, m (memLayer E k) s = (t, .ok a)) (hfail : ∀ j ∈ ns, j ≠ k → ∃ e, m (memLayer E j) s = (s, .err e)) :
    m (afterApply E disk ns) s = m (memLayer E k) s := by
  have hk' : k ∈ ns.reverse := List.mem_reverse.mpr hk
  cases hl : ns.reverse with
  | nil => rw [hl] at hk'; cases hk'
  | cons b bs =>
    rw [afterApply_eq E disk hl]
    rw [hl] at hk'
    obtain ⟨newer, older, hsp, hnk⟩ := List.append_of_mem_first hk'
    refine stack_chosen E hm newer b bs hsp ?_ hans
    intro j hj
    refine hfail j ?_ (fun h => hnk (h ▸ hj))
    rw [← List.mem_reverse, hl, hsp]
    exact List.mem_append_left _ hj
where
  List.append_of_mem_first {k : Nat} : ∀ {l : List Nat}, k ∈ l → ∃ a c, l = a ++ k :: c ∧ k ∉ a
    | x :: xs, h => by
      by_cases hx : x = k
      · exact ⟨[], xs, by rw [hx]; rfl, by simp⟩
      · have hm : k ∈ xs := by
          rcases List.mem_cons.mp h with h | h
          · exact absurd h.symm hx
          · exact h
        obtain ⟨a, c, h1, h2⟩ := List.append_of_mem_first hm
        exact ⟨x :: a, c, by rw [h1]; rfl, by simp [h2, Ne.symm hx]⟩

/-! ### One layer -/

theorem upd_same {α : Type} (f : Nat → α) (n : Nat) : upd f n (f n) = f := by
  funext m; by_cases h : m = n <;> simp [upd, h]

theorem layer_open_absent {C : Type} {E : Env} {s : Store C} {n : Nat} {p : Str} {q : Path} (hp : E.parse (s.1 n).here p = .ok q)
    (h : ¬ Stored (s.1 n) q) : (memLayer (C := C) E n).openFile p s = (s, .err .notExist) := by
  have hg : AMap.get (s.1 n).files q = none := by
    cases hg : AMap.get (s.1 n).files q with
    | none => rfl
    | some a => exact absurd ⟨a, hg⟩ h
  simp only [memLayer, memPkger, openFile, Mem.parse, hp, hg, mapRes, upd_same]

theorem layer_stat_absent {C : Type} {E : Env} {s : Store C} {n : Nat} {p : Str} {q : Path} (hp : E.parse (s.1 n).here p = .ok q)
    (h : ¬ Stored (s.1 n) q) : (memLayer (C := C) E n).stat p s = (s, .err .couldNotStat) := by
  have hg : AMap.get (s.1 n).files q = none := by
    cases hg : AMap.get (s.1 n).files q with
    | none => rfl
    | some a => exact absurd ⟨a, hg⟩ h
  simp only [memLayer, memPkger, stat, Mem.parse, hp, hg, mapRes]

theorem layer_open_stored {C : Type} {E : Env} {i : Info} {s : Store C} {n : Nat} {p : Str} {q : Path} (hr : Reached E i (s.1 n))
    (hp : E.parse (s.1 n).here p = .ok q) (h : Stored (s.1 n) q) : ∃ t a, (memLayer (C := C) E n).openFile p s = (t, .ok a) := by
  obtain ⟨a, hg⟩ := h
  obtain ⟨_, _, d, hd⟩ := hr.inv.wf.bound q a hg
  obtain ⟨w', h, ho, _⟩ := openFile_of_lookup hp (f := (s.1 n).heap a) (by simp [lookup, hg]) hd
  exact ⟨(upd s.1 n w', s.2), (n, h), by simp only [memLayer, memPkger, ho, mapRes]⟩

theorem layer_stat_stored {C : Type} {E : Env} {i : Info} {s : Store C} {n : Nat} {p : Str} {q : Path} (hr : Reached E i (s.1 n))
    (hp : E.parse (s.1 n).here p = .ok q) (h : Stored (s.1 n) q) : ∃ t a, (memLayer (C := C) E n).stat p s = (t, .ok a) := by
  obtain ⟨a, hg⟩ := h
  obtain ⟨_, _, d, hd⟩ := hr.inv.wf.bound q a hg
  exact ⟨s, (n, a), by simp only [memLayer, memPkger, stat, Mem.parse, hp, hg, fileStat, hd, mapRes]⟩

/-! ### C110 -/

/-- The statement of **C110**: which layer answers `Open`, and whether one does, is the same in whatever order the layers
were applied. -/
def C110_statement (E : Env) : Prop :=
  ∀ (disk : Pkger (Store Unit) (Nat × Nat)) (infos : Nat → Info) (s : Store Unit) (ns ns' : List Nat) (p : Str),
    OwnModules E infos s ns → (∀ n ∈ ns, ∀ m ∈ ns, n ≠ m → (infos n).module.path ≠ (infos m).module.path) → ns.Nodup →
    ns.Perm ns' → openedIn ((afterApply E disk ns).openFile p s) = openedIn ((afterApply E disk ns').openFile p s)

/-- The modules `app` (0) and `lib` (1). -/
def modules (n : Nat) : Info := if n = 1 then Demo.libInfo else Demo.info

/-- Both modules have a file `/a`, `lib` has `/b` as well. -/
def twoModules (n : Nat) : World :=
  if n = 1 then run Demo.env (new Demo.libInfo 1000) (fileOps (b! "/a") (b! "lib's") 1 ++ [.create (b! "/b")])
  else run Demo.env (new Demo.info 1000) (fileOps (b! "/a") (b! "app's") 1)

theorem twoModules_reached (n : Nat) : Reached Demo.env (modules n) (twoModules n) := by
  unfold twoModules modules
  split
  · exact Reached.ofNew 1000 _ (by
      intro o ho; simp [fileOps] at ho
      rcases ho with rfl | rfl | rfl | rfl <;> trivial)
  · exact Reached.ofNew 1000 _ (by
      intro o ho; simp [fileOps] at ho
      rcases ho with rfl | rfl | rfl <;> trivial)

/-- A disk that is never asked. -/
def noDisk : Pkger (Store Unit) (Nat × Nat) := memLayer Demo.env 99

/-- **C110 is false**: a name without package means the module that was applied last. -/
theorem C110_refuted : ¬ C110_statement Demo.env := by
  intro h
  have := h noDisk modules (twoModules, ()) [0, 1] [1, 0] (b! "/a") (fun n _ => twoModules_reached n)
    (by
      intro n hn m hm hnm
      simp at hn hm
      rcases hn with rfl | rfl <;> rcases hm with rfl | rfl <;> first | exact absurd rfl hnm | decide)
    (by decide) (by exact List.Perm.swap 1 0 [])
  revert this
  decide +kernel

/-- **C110** (what holds, full paths).  Modules embedded in any number, each with its own files, applied in any order: a full
path `pkg:/name` that one of them has is opened, and its details are given, by this one; if none has it, both calls report
that and change nothing.  So the order does not matter. -/
theorem C110_qualified_partial {C : Type} (E : Env) (disk : Pkger (Store C) (Nat × Nat)) {infos : Nat → Info} {s : Store C}
    {ns : List Nat} (hne : ns ≠ []) (hok : OwnModules E infos s ns) (hlaw : ∀ n ∈ ns, ParseLaws E (infos n)) {pkg : Str} {cs : List Str}
    (hpkg : PlainPkg pkg) (hcs : Plain cs) (hclear : ∀ n ∈ ns, Clear (infos n) (GoPath.mk cs)) :
    (∀ k ∈ ns, Stored (s.1 k) ⟨pkg, GoPath.mk cs⟩ → (∀ j ∈ ns, j ≠ k → ¬ Stored (s.1 j) ⟨pkg, GoPath.mk cs⟩) →
      (∃ t h, (memLayer E k).openFile (pkg ++ Str.colon :: GoPath.mk cs) s = (t, .ok h)) ∧
      (afterApply E disk ns).openFile (pkg ++ Str.colon :: GoPath.mk cs) s =
        (memLayer E k).openFile (pkg ++ Str.colon :: GoPath.mk cs) s ∧
      (∃ t h, (memLayer E k).stat (pkg ++ Str.colon :: GoPath.mk cs) s = (t, .ok h)) ∧
      (afterApply E disk ns).stat (pkg ++ Str.colon :: GoPath.mk cs) s =
        (memLayer E k).stat (pkg ++ Str.colon :: GoPath.mk cs) s) ∧
    ((∀ j ∈ ns, ¬ Stored (s.1 j) ⟨pkg, GoPath.mk cs⟩) →
      (afterApply E disk ns).openFile (pkg ++ Str.colon :: GoPath.mk cs) s = (s, .err .notExist) ∧
      (afterApply E disk ns).stat (pkg ++ Str.colon :: GoPath.mk cs) s = (s, .err .couldNotStat)) := by
  have hp : ∀ n ∈ ns, E.parse (s.1 n).here (pkg ++ Str.colon :: GoPath.mk cs) = .ok ⟨pkg, GoPath.mk cs⟩ := by
    intro n hn
    rw [(hok n hn).here]
    exact (hlaw n hn).qualified pkg cs hpkg hcs (hclear n hn)
  constructor
  · intro k hk hst hothers
    have ho := layer_open_stored (hok k hk) (hp k hk) hst
    have hs := layer_stat_stored (hok k hk) (hp k hk) hst
    exact ⟨ho, any_order E disk (m := fun x => x.openFile _) (fun _ _ => rfl) hk ho
        (fun j hj hjk => ⟨_, layer_open_absent (hp j hj) (hothers j hj hjk)⟩),
      hs, any_order E disk (m := fun x => x.stat _) (fun _ _ => rfl) hk hs
        (fun j hj hjk => ⟨_, layer_stat_absent (hp j hj) (hothers j hj hjk)⟩)⟩
  · intro hnone
    cases hl : ns.reverse with
    | nil => exact absurd (List.reverse_eq_nil_iff.mp hl) hne
    | cons b bs =>
      have hmem : ∀ j ∈ b :: bs, j ∈ ns := by intro j hj; rw [← hl] at hj; exact List.mem_reverse.mp hj
      rw [afterApply_eq E disk hl]
      exact ⟨stack_none E (m := fun x => x.openFile _) (fun _ _ => rfl) b bs
          (fun j hj => layer_open_absent (hp j (hmem j hj)) (hnone j (hmem j hj))),
        stack_none E (m := fun x => x.stat _) (fun _ _ => rfl) b bs
          (fun j hj => layer_stat_absent (hp j (hmem j hj)) (hnone j (hmem j hj)))⟩

/-- **C110** (what holds, packages).  `Info(pkg)` of an embedded module is its own description, in any order. -/
theorem C110_info_partial {C : Type} (E : Env) (disk : Pkger (Store C) (Nat × Nat)) {infos : Nat → Info} {s : Store C}
    {ns : List Nat} (hok : OwnModules E infos s ns)
    {k : Nat} (hk : k ∈ ns) (hdiff : ∀ j ∈ ns, j ≠ k → (infos j).importPath ≠ (infos k).importPath) :
    (afterApply E disk ns).info (infos k).importPath s = (s, .ok (infos k)) := by
  have hself : (memLayer (C := C) E k).info (infos k).importPath s = (s, .ok (infos k)) := by
    simp only [memLayer, memPkger, Mem.info, (hok k hk).infos.2, if_true]
  rw [any_order E disk (m := fun x => x.info _) (fun _ _ => rfl) hk ⟨_, _, hself⟩, hself]
  intro j hj hjk
  refine ⟨.noSuchPackage (infos k).importPath, ?_⟩
  simp only [memLayer, memPkger, Mem.info, (hok j hj).infos.2, if_neg (Ne.symm (hdiff j hj hjk))]

/-- **C110** (what holds, names without package).  Such a name leads to the module applied last among those that have it as a
file of their own. -/
theorem C110_plain_partial {C : Type} (E : Env) (disk : Pkger (Store C) (Nat × Nat)) {infos : Nat → Info} {s : Store C}
    {older newer : List Nat} {k : Nat} (hok : OwnModules E infos s (older ++ k :: newer))
    (hlaw : ∀ n ∈ older ++ k :: newer, ParseLaws E (infos n)) {name : Str}
    (hname : ∀ n ∈ older ++ k :: newer, Ordinary (infos n) name)
    (hst : Stored (s.1 k) ⟨(infos k).module.path, GoPath.clean name⟩)
    (hnew : ∀ j ∈ newer, ¬ Stored (s.1 j) ⟨(infos j).module.path, GoPath.clean name⟩) :
    (∃ t h, (memLayer E k).openFile name s = (t, .ok h)) ∧
    (afterApply E disk (older ++ k :: newer)).openFile name s = (memLayer E k).openFile name s := by
  have hp : ∀ n ∈ older ++ k :: newer, E.parse (s.1 n).here name = .ok ⟨(infos n).module.path, GoPath.clean name⟩ := by
    intro n hn
    rw [(hok n hn).here]
    obtain ⟨h1, h2, h3⟩ := hname n hn
    exact (hlaw n hn).rooted name h1 h2 h3
  have hk : k ∈ older ++ k :: newer := by simp
  have ho := layer_open_stored (hok k hk) (hp k hk) hst
  refine ⟨ho, ?_⟩
  have hrev : (older ++ k :: newer).reverse = newer.reverse ++ k :: older.reverse := by simp
  cases hl : (older ++ k :: newer).reverse with
  | nil => simp at hl
  | cons b bs =>
    rw [afterApply_eq E disk hl]
    refine stack_chosen E (m := fun x => x.openFile name) (fun _ _ => rfl) newer.reverse b bs (by rw [← hl, hrev]) ?_ ho
    intro j hj
    have hj' : j ∈ newer := List.mem_reverse.mp hj
    have hjm : j ∈ older ++ k :: newer := by simp [hj']
    exact ⟨_, layer_open_absent (hp j hjm) (hnew j hj')⟩

/-- `lib:/a` and `app:/a` lead to their modules in both orders; `/a` to the one applied last; `/b`, which only `lib` has, to
`lib`. -/
example :
    let x := afterApply Demo.env noDisk [0, 1]
    let y := afterApply Demo.env noDisk [1, 0]
    let s : Store Unit := (twoModules, ())
    [x, y].map (fun z => (openedIn (z.openFile (b! "lib:/a") s), openedIn (z.openFile (b! "app:/a") s),
      openedIn (z.openFile (b! "/a") s), openedIn (z.openFile (b! "/b") s), openedIn (z.openFile (b! "app:/b") s))) =
      [(some 1, some 0, some 1, some 1, none), (some 1, some 0, some 0, some 1, none)] ∧
    [x, y].map (fun z => (z.info (b! "lib") s).2) = [.ok Demo.libInfo, .ok Demo.libInfo] := by decide +kernel

/-- The hypotheses of the theorems are met there. -/
example : OwnModules Demo.env modules ((twoModules, ()) : Store Unit) [0, 1] ∧ (∀ n ∈ [0, 1], ParseLaws Demo.env (modules n)) ∧
    PlainPkg (b! "lib") ∧ Plain [b! "a"] ∧ (∀ n ∈ [0, 1], Clear (modules n) (GoPath.mk [b! "a"])) ∧
    (∀ n ∈ [0, 1], Ordinary (modules n) (b! "/a")) ∧
    (AMap.get (twoModules 1).files ⟨b! "lib", GoPath.mk [b! "a"]⟩).isSome = true ∧
    AMap.get (twoModules 0).files ⟨b! "lib", GoPath.mk [b! "a"]⟩ = none := by
  refine ⟨fun n _ => twoModules_reached n, ?_, by decide, by decide, by decide, by decide +kernel, by decide +kernel, by decide +kernel⟩
  intro n hn
  simp at hn
  rcases hn with rfl | rfl
  · exact Demo.laws
  · exact HereParse.lawful ⟨by decide, Or.inr ⟨[b! "src", b! "lib"], by decide, by decide, by decide⟩⟩ _ _ _ _

end Props
end Verif
