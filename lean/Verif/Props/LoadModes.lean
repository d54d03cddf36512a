import Verif.Props.LoadFiles

/-! C116: the modes of directories copied into a Pkger. -/

namespace Verif
namespace Props

open FileSys Script
open LoadFiles hiding loadFiles
open Spec hiding Out
open Disk (Node)
open Disk.Node (WF WFKids)

/-- The Pkger has a directory there, with this mode. -/
def DirMode (c : Info) (w : Mem.World) (q : List Str) (m : Nat) : Prop :=
  ∃ f d, Mem.lookup w ⟨c.module.path, GoPath.mk q⟩ = some f ∧ f.info = some d ∧ d.isDir = true ∧ d.mode = m

/-! ### One thing done -/

/-- It may change what is stored there. -/
def Touch (q : List Str) : Script.Act → Prop
  | .mkdirAll es _ => q <+: es
  | .put es _ => q = es
  | _ => True

theorem act_modes {E : Env} {c : Info} (hl : ParseLaws E c) (hi : InfoOk c) (hpk : c.importPath = c.module.path) {rel : List Str}
    {fs fs1 : Fs} {w : Mem.World} {a : Script.Act} (h : InMem E c rel fs w) (hf : Fits c rel fs a)
    (hd : Does fs a fs1 (.done true)) (hs : List Nat) {q : List Str} (hg : GoPath.Good q) (hq : q ≠ []) :
    (¬ Touch q a → Mem.lookup (mem E a.prog w hs).1 (own c q) = Mem.lookup w (own c q)) ∧
      ∀ es p, a = .mkdirAll es p → q <+: es → DirMode c (mem E a.prog w hs).1 q p := by
  have hwf := h.reached.inv.wf
  obtain ⟨⟨hne, hp, hc⟩, hr, hf⟩ := hf
  cases hd with
  | put es chunks h1 h2 =>
    simp only [Script.Act.elems] at hne hp hc hr
    refine ⟨?_, fun _ _ he => by cases he⟩
    intro ht
    obtain ⟨cs, x, rfl⟩ := good_snoc_of_ne hne
    rw [List.dropLast_concat] at h1
    have hgc := (GoPath.good_append.mp hp.good).1
    have hpar : cs = [] ∨ Mem.Stored w (own c cs) := by
      by_cases h0 : cs = []
      · exact Or.inl h0
      · right
        have hrc : rel <+: cs := by
          rcases List.prefix_concat_iff.mp hr with h' | h'
          · exact absurd h'.symm hf.1
          · exact h'
        obtain ⟨f, d, g1, _⟩ := h.lookup_some hgc h0 hrc h1
        exact Mem.stored_iff_lookup.mpr ⟨f, g1⟩
    obtain ⟨w', hs', k1, _, _, k4⟩ := put_mem hl hi hpk h.reached hp hc hpar chunks hs
    rw [k1]
    exact k4 _ (fun he => hq (own_inj hg (by intro x hx; cases hx) he)) fun he => ht (own_inj hg hp.good he)
  | mkdirAll es perm h1 =>
    simp only [Script.Act.elems] at hne hp hc hr
    have hrel' : GoPath.rootedElems (GoPath.mk es) = es := GoPath.rootedElems_mk hp.good
    obtain ⟨m1, m2, m3⟩ := Mem.mkdirAll_spec (w := w) (by rw [h.reached.here]; exact hl) hwf
      (s := GoPath.mk es) (by rw [h.reached.here]; exact ordinary_mk hp.ord hc) perm
    rw [hrel', h.reached.here] at m2 m3
    have hrun : (mem E (Script.Act.mkdirAll es perm).prog w hs).1 = (Mem.mkdirAll E w (GoPath.mk es) perm).1 := by
      simp only [Script.Act.prog, Script.mem, memCall, mem_pure]
    rw [hrun]
    constructor
    · intro ht
      refine Mem.lookup_mkdirAll E hwf perm fun hch => ht ?_
      rw [h.reached.here] at hch
      obtain ⟨as, e1, _, e2⟩ := m3 _ hch
      have : GoPath.Good as := by obtain ⟨t, rfl⟩ := e1; exact (GoPath.good_append.mp hp.good).1
      rw [own_inj hg this e2]
      exact e1
    · intro es' p he hpre
      injection he with e1 e2
      subst e1
      subst e2
      obtain ⟨f, k1, k2, _⟩ := m2 q hpre (Or.inl hq)
      exact ⟨f, _, k1, k2, rfl, rfl⟩
  | remove es => exact ⟨fun ht => absurd trivial ht, fun _ _ he => by cases he⟩
  | removeAll es => exact ⟨fun ht => absurd trivial ht, fun _ _ he => by cases he⟩

/-! ### Several things done, until one fails -/

/-- These things, each if the one before worked, and then `k`. -/
def chain (as : List Script.Act) (k : Plan Bool) : Plan Bool := as.foldr (fun a p => .act a (andThen p)) k

theorem chain_append (as bs : List Script.Act) (k : Plan Bool) : chain (as ++ bs) k = chain as (chain bs k) := by
  simp [chain]

/-- If all works, the first did. -/
theorem chain_first {c : Info} {rel : List Str} {fs fs' : Fs} {a : Script.Act} {k : Plan Bool}
    (h : Goes c rel fs (.act a (andThen k)) fs' true) :
    ∃ fs1, Fits c rel fs a ∧ Does fs a fs1 (.done true) ∧ Goes c rel fs1 k fs' true := by
  obtain ⟨⟨hf, hc⟩, hr⟩ := h
  cases hr with
  | @act _ fs1 _ _ o _ _ hd hr =>
    by_cases ho : o = .done true
    · subst ho
      have hc := hc _ _ hd
      simp only [andThen, if_pos] at hc hr
      exact ⟨fs1, hf, hd, hc, hr⟩
    · simp only [andThen, if_neg ho] at hr
      cases hr

theorem chain_keeps {E : Env} {c : Info} (hl : ParseLaws E c) (hi : InfoOk c) (hpk : c.importPath = c.module.path) {rel : List Str}
    (hrel : GoPath.Good rel) {q : List Str} (hg : GoPath.Good q) (hq : q ≠ []) {r : Bool} : ∀ (as : List Script.Act) {fs fs' : Fs}
    {w : Mem.World} (hs : List Nat), InMem E c rel fs w → Goes c rel fs (chain as (.ret r)) fs' true → (∀ a ∈ as, ¬ Touch q a) →
    Mem.lookup (mem E (chain as (.ret r)).prog w hs).1 (own c q) = Mem.lookup w (own c q) := by
  intro as
  induction as with
  | nil => intro fs fs' w hs _ _ _; rfl
  | cons a as ih =>
    intro fs fs' w hs hw h ht
    obtain ⟨fs1, hf, hd, h⟩ := chain_first h
    obtain ⟨w1, hs1, e1, e2⟩ := act_mem hl hi hpk hrel hw hf hd hs
    have h1 := (act_modes hl hi hpk hw hf hd hs hg hq).1 (ht a (by simp))
    have h2 := ih hs1 e2 h fun b hb => ht b (by simp [hb])
    rw [e1] at h1
    rw [← h1, ← h2]
    show Mem.lookup (mem E (Plan.act a (andThen (chain as (.ret r)))).prog w hs).1 (own c q) = _
    simp only [Plan.prog, mem_bind, e1]
    rfl

/-- The last thing that may change it decides. -/
theorem chain_last {E : Env} {c : Info} (hl : ParseLaws E c) (hi : InfoOk c) (hpk : c.importPath = c.module.path) {rel : List Str}
    (hrel : GoPath.Good rel) {q : List Str} (hg : GoPath.Good q) (hq : q ≠ []) {r : Bool} {es : List Str} {p : Nat} (hpre : q <+: es)
    {l2 : List Script.Act} (ht : ∀ a ∈ l2, ¬ Touch q a) : ∀ (l1 : List Script.Act) {fs fs' : Fs}
    {w : Mem.World} (hs : List Nat), InMem E c rel fs w → Goes c rel fs (chain (l1 ++ .mkdirAll es p :: l2) (.ret r)) fs' true →
    DirMode c (mem E (chain (l1 ++ .mkdirAll es p :: l2) (.ret r)).prog w hs).1 q p := by
  intro l1
  induction l1 with
  | nil =>
    intro fs fs' w hs hw h
    obtain ⟨fs1, hf, hd, h⟩ := chain_first h
    obtain ⟨w1, hs1, e1, e2⟩ := act_mem hl hi hpk hrel hw hf hd hs
    obtain ⟨f, d, h1, h2⟩ := (act_modes hl hi hpk hw hf hd hs hg hq).2 es p rfl hpre
    rw [e1] at h1
    refine ⟨f, d, ?_, h2⟩
    rw [← h1]
    have := chain_keeps hl hi hpk hrel hg hq l2 hs1 e2 h ht
    refine Eq.trans ?_ this
    show Mem.lookup (mem E (Plan.act (.mkdirAll es p) (andThen (chain l2 (.ret r)))).prog w hs).1 (own c q) = _
    simp only [Plan.prog, mem_bind, e1]
    rfl
  | cons a as ih =>
    intro fs fs' w hs hw h
    obtain ⟨fs1, hf, hd, h⟩ := chain_first h
    obtain ⟨w1, hs1, e1, e2⟩ := act_mem hl hi hpk hrel hw hf hd hs
    have := ih hs1 e2 h
    show DirMode c (mem E (Plan.act a (andThen (chain (as ++ .mkdirAll es p :: l2) (.ret r)))).prog w hs).1 q p
    simp only [Plan.prog, mem_bind, e1]
    exact this

/-! ### What `LoadFiles` does -/

/-- What is done for an entry of the tree. -/
def actOf (cut : Str → List Str) (es : List Str) (e : List Str × Node) : Option Script.Act :=
  if hidden (es ++ e.1) then none
  else some (match e.2 with
    | .file _ b => .put (es ++ e.1) (cut b)
    | .dir d _ => .mkdirAll (es ++ e.1) d.mode)

theorem actOf_cons (cut : Str → List Str) (es : List Str) (x : Str) (e : List Str × Node) :
    actOf cut es (x :: e.1, e.2) = actOf cut (es ++ [x]) e := by
  simp [actOf]

mutual
theorem load_chain (cut : Str → List Str) : ∀ (n : Node) (es : List Str) (k : Plan Bool),
    load cut es n k = chain (n.tree.filterMap (actOf cut es)) k
  | .file d b, es, k => by
    rw [load]
    simp only [Node.tree, List.filterMap_cons, List.filterMap_nil, actOf, List.append_nil]
    cases hidden es <;> simp [chain]
  | .dir d kids, es, k => by
    rw [load, loadKids_chain cut kids es k]
    simp only [Node.tree, List.filterMap_cons, actOf, List.append_nil]
    cases hidden es <;> simp [chain]

theorem loadKids_chain (cut : Str → List Str) : ∀ (kids : List (Str × Node)) (es : List Str) (k : Plan Bool),
    loadKids cut es kids k = chain ((Node.treeKids kids).filterMap (actOf cut es)) k
  | [], es, k => by rw [loadKids]; simp [Node.treeKids, chain]
  | (x, n) :: rest, es, k => by
    rw [loadKids, load_chain cut n, loadKids_chain cut rest es k, ← chain_append]
    simp only [Node.treeKids, List.filterMap_append, List.filterMap_map, Function.comp_def, actOf_cons]
end

theorem exists_last {α : Type} {P : α → Prop} : ∀ {l : List α}, (∃ a ∈ l, P a) → ∃ l1 a l2, l = l1 ++ a :: l2 ∧ P a ∧ ∀ b ∈ l2, ¬ P b
  | [], h => by obtain ⟨a, ha, _⟩ := h; cases ha
  | a :: l, h => by
    by_cases hl : ∃ b ∈ l, P b
    · obtain ⟨l1, b, l2, e1, e2, e3⟩ := exists_last hl
      exact ⟨a :: l1, b, l2, by rw [e1]; rfl, e2, e3⟩
    · obtain ⟨b, hb, hp⟩ := h
      rcases List.mem_cons.mp hb with rfl | hb
      · exact ⟨[], b, l, rfl, hp, fun x hx hpx => hl ⟨x, hx, hpx⟩⟩
      · exact absurd ⟨b, hb, hp⟩ hl

/-- **C116** about modes, in part: with a Pkger just made, a directory that is copied in has the mode of the directory the
walk came to last of those at and below it that are not hidden.  Missing is what is missing in `C116_new_partial`. -/
theorem C116_modes_partial (E : Env) {c : Info} (hl : ParseLaws E c) (hi : InfoOk c) (hpk : c.importPath = c.module.path) (t : Int)
    {cut : Str → List Str} (hcut : ∀ b, (cut b).flatten = b) {n : Node} (hn : WF n) (hnd : n.isDir = true) {es : List Str}
    (hes : es ≠ []) (hv : ¬ Hidden es) (hcl : Clean es n)
    (hp : ∀ cs, n.find cs ≠ none → Plain (es ++ cs) ∧ Clear c (GoPath.mk (es ++ cs)))
    {cs : List Str} {k : Node} (hk : n.find cs = some k) (hkd : k.isDir = true) (hh : ¬ Hidden (es ++ cs)) :
    ∃ l1 cs' k' l2, n.tree = l1 ++ (cs', k') :: l2 ∧ cs <+: cs' ∧ k'.isDir = true ∧ ¬ Hidden (es ++ cs') ∧
      (∀ e ∈ l2, cs <+: e.1 → e.2.isDir = true → Hidden (es ++ e.1)) ∧
      DirMode c (mem E (LoadFiles.loadFiles cut es n).prog (Mem.new c t) []).1 (es ++ cs) k'.details.mode := by
  have ht : Tree (fun q => if q = [] then some .dir else none) := by
    refine ⟨by simp, ?_, ?_⟩
    · intro es x h; simp at h
    · intro es h
      by_cases he : es = []
      · subst he; decide
      · simp [he] at h
  have hw0 : InMem E c [] _ (Mem.new c t) := inMem_new E c t ht (by intro es he _; simp [he])
  obtain ⟨fs', _, hgo⟩ := goes_loadFiles (c := c) (rel := []) hcut hn hnd hes hv hcl hp List.nil_prefix
    (fs := fun q => if q = [] then some .dir else none)
    (by
      rintro ⟨a, b, _, h⟩
      by_cases ha : a = [] <;> simp [ha] at h)
    (by
      rintro x q ⟨t, rfl⟩
      simp)
  obtain ⟨l1, ⟨cs', k'⟩, l2, e1, ⟨e2, e3, e4⟩, e5⟩ := exists_last (l := n.tree)
    (P := fun e => cs <+: e.1 ∧ e.2.isDir = true ∧ ¬ Hidden (es ++ e.1))
    ⟨(cs, k), (Disk.mem_tree_iff _ _ _ hn).mpr hk, List.prefix_refl _, hkd, hh⟩
  refine ⟨l1, cs', k', l2, e1, e2, e3, e4, ?_, ?_⟩
  · intro e he h1 h2
    apply Classical.byContradiction
    intro h3
    exact e5 e he ⟨h1, h2, h3⟩
  · unfold LoadFiles.loadFiles at hgo ⊢
    rw [if_pos hnd, load_chain] at hgo ⊢
    have hact : actOf cut es (cs', k') = some (.mkdirAll (es ++ cs') k'.details.mode) := by
      cases k' with
      | file => cases e3
      | dir d kids => simp [actOf, hidden_not.mpr e4, Node.details]
    generalize (n.tree.any fun e => !hidden (es ++ e.1)) = r at hgo ⊢
    have hmem : ∀ e ∈ l2, n.find e.1 = some e.2 := fun e he => (Disk.mem_tree_iff _ _ _ hn).mp (by rw [e1]; simp [he])
    rw [e1, List.filterMap_append, List.filterMap_cons, hact] at hgo ⊢
    refine chain_last hl hi hpk (by decide) (hp cs (by rw [hk]; simp)).1.good (by simp [hes])
      ((List.prefix_append_right_inj es).mpr e2) ?_ _ _ hw0 hgo
    intro a ha
    obtain ⟨⟨ds, m⟩, he, hae⟩ := List.mem_filterMap.mp ha
    unfold actOf at hae
    split at hae
    · cases hae
    · rename_i hvis
      cases hae
      cases m with
      | file d b =>
        intro htouch
        have := List.append_cancel_left (show es ++ cs = es ++ ds from htouch)
        subst this
        rw [hmem _ he] at hk
        cases hk
        cases hkd
      | dir d kids =>
        intro htouch
        exact e5 _ he ⟨(List.prefix_append_right_inj es).mp htouch, rfl, by rw [← hidden_iff]; exact hvis⟩

/-- **C116** about modes, in part: a directory without directories in it that are not hidden has the mode it had. -/
theorem C116_leaf_mode_partial (E : Env) {c : Info} (hl : ParseLaws E c) (hi : InfoOk c) (hpk : c.importPath = c.module.path) (t : Int)
    {cut : Str → List Str} (hcut : ∀ b, (cut b).flatten = b) {n : Node} (hn : WF n) (hnd : n.isDir = true) {es : List Str}
    (hes : es ≠ []) (hv : ¬ Hidden es) (hcl : Clean es n)
    (hp : ∀ cs, n.find cs ≠ none → Plain (es ++ cs) ∧ Clear c (GoPath.mk (es ++ cs)))
    {cs : List Str} {k : Node} (hk : n.find cs = some k) (hkd : k.isDir = true) (hh : ¬ Hidden (es ++ cs))
    (hleaf : ∀ ds k', ds ≠ [] → n.find (cs ++ ds) = some k' → k'.isDir = true → Hidden (es ++ cs ++ ds)) :
    DirMode c (mem E (LoadFiles.loadFiles cut es n).prog (Mem.new c t) []).1 (es ++ cs) k.details.mode := by
  obtain ⟨l1, cs', k', l2, e1, ⟨ds, e2⟩, e3, e4, _, e6⟩ := C116_modes_partial E hl hi hpk t hcut hn hnd hes hv hcl hp hk hkd hh
  have hf : n.find cs' = some k' := (Disk.mem_tree_iff _ _ _ hn).mp (by rw [e1]; simp)
  subst e2
  by_cases hd : ds = []
  · subst hd
    rw [List.append_nil, hk] at hf
    cases hf
    exact e6
  · exact absurd (by rw [← List.append_assoc]; exact hleaf ds k' hd hf e3) e4

/-- A directory with two directories of other modes. -/
def twoModes : Node := .dir ⟨b! "www", 0, 0o755, 0, true⟩ [(b! "a", .dir ⟨b! "a", 0, 0o700, 0, true⟩
  [(b! "f", .file ⟨b! "f", 1, 0o644, 0, false⟩ (b! "x"))]), (b! "b", .dir ⟨b! "b", 0, 0o711, 0, true⟩ [])]

theorem twoModes_clean : Clean [b! "www"] twoModes := by
  intro cs ds hf hh
  exfalso
  have : ∀ e ∈ twoModes.tree, ∀ k ≤ e.1.length, hidden ([b! "www"] ++ e.1.take k) = false := by decide +kernel
  have := find_mem_tree (n := twoModes) (by decide +kernel) (P := fun cs => ∀ k ≤ cs.length,
    hidden ([b! "www"] ++ cs.take k) = false) this hf cs.length (by simp)
  rw [List.take_left, hidden_not] at this
  exact this hh

/-- The hypotheses of `C116_modes_partial` and `C116_leaf_mode_partial` are met: `/www/a` keeps its mode and `/www` gets
that of `/www/b`. -/
example : DirMode Demo.info (mem Demo.env (LoadFiles.loadFiles (fun b => [b]) [b! "www"] twoModes).prog (Mem.new Demo.info 7) []).1
      [b! "www", b! "a"] 0o700 ∧
    DirMode Demo.info (mem Demo.env (LoadFiles.loadFiles (fun b => [b]) [b! "www"] twoModes).prog (Mem.new Demo.info 7) []).1
      [b! "www"] 0o711 := by
  have hp : ∀ cs, twoModes.find cs ≠ none → Plain ([b! "www"] ++ cs) ∧ Clear Demo.info (GoPath.mk ([b! "www"] ++ cs)) :=
    fun cs hf => find_mem_tree (n := twoModes) (by decide +kernel) (P := fun cs => Plain ([b! "www"] ++ cs) ∧
      Clear Demo.info (GoPath.mk ([b! "www"] ++ cs))) (by decide +kernel) hf
  constructor
  · refine C116_leaf_mode_partial Demo.env Demo.laws Demo.info_ok rfl 7 (cut := fun b => [b]) (by simp) (n := twoModes)
      (by decide +kernel) rfl (es := [b! "www"]) (by simp) (by rw [← hidden_iff]; decide) twoModes_clean hp (cs := [b! "a"])
      rfl rfl (by rw [← hidden_iff]; decide) ?_
    intro ds k' hne hf hd
    exfalso
    have hm := (Disk.mem_tree_iff _ _ _ (by decide +kernel)).mpr hf
    simp only [twoModes, Node.tree, Node.treeKids, List.map_cons, List.map_nil, List.append_nil, List.mem_cons, Prod.mk.injEq,
      List.cons_append, List.nil_append, List.not_mem_nil, or_false, List.cons.injEq, reduceCtorEq, false_and] at hm
    rcases hm with hm | hm | hm | hm
    · simp at hm
    · exact hne hm.1.2
    · rw [hm.2] at hd; cases hd
    · exact absurd hm.1.1 (by decide)
  · obtain ⟨l1, cs', k', l2, e1, _, e3, _, e5, e6⟩ := C116_modes_partial Demo.env Demo.laws Demo.info_ok rfl 7 (cut := fun b => [b])
      (by simp) (n := twoModes) (by decide +kernel) rfl (es := [b! "www"]) (by simp) (by rw [← hidden_iff]; decide)
      twoModes_clean hp (cs := []) rfl rfl (by rw [← hidden_iff]; decide)
    have hlast : twoModes.tree.getLast? = some ([b! "b"], .dir ⟨b! "b", 0, 0o711, 0, true⟩ []) := rfl
    rcases List.eq_nil_or_concat l2 with rfl | ⟨l, e, rfl⟩
    · rw [e1, List.getLast?_concat, Option.some.injEq, Prod.mk.injEq] at hlast
      rw [hlast.2] at e6
      exact e6
    · rw [e1, List.concat_eq_append, ← List.cons_append, ← List.append_assoc, List.getLast?_concat, Option.some.injEq] at hlast
      have := e5 e (by simp) List.nil_prefix (by rw [hlast]; rfl)
      rw [hlast, ← hidden_iff] at this
      exact absurd this (by decide)

end Props
end Verif
