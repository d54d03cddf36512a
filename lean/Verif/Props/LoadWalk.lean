import Verif.Props.LoadHttp

/-! C119: walking a directory copied into a Pkger. -/

namespace Verif
namespace Props

open FileSys Script
open LoadFiles hiding loadFiles
open Spec hiding Out
open Disk (Node)
open Disk.Node (WF WFKids)
open Mem (Visit visits walkResult AtPaths Stored)

/-- What `LoadFiles` returns, pkging/pkgtest/load_ref.go:94, with the path each entry is copied to: the entries that are not
hidden, as `filepath.Walk` comes to them, with name and kind. -/
def infos (c : Info) (es : List Str) (n : Node) : List (Str × Str × Bool) :=
  (n.tree.filter fun e => !hidden (es ++ e.1)).map fun e =>
    ((own c (es ++ e.1)).str, (es ++ e.1).getLast?.getD [], e.2.isDir)

/-- What the callback of `WalkTest` is told, pkging/pkgtest/walk.go:21-27. -/
def seen (vs : List Visit) : List (Str × Str × Bool) := vs.map fun v => (v.path, v.details.name, v.details.isDir)

/-- The walk of a directory that has the entries of `n` that are not hidden, and nothing else. -/
theorem walk_copied (E : Env) {c : Info} (hl : ParseLaws E c) {n : Node} (hn : WF n) {es : List Str} (hes : es ≠ [])
    (hp : ∀ cs, n.find cs ≠ none → Plain (es ++ cs) ∧ Clear c (GoPath.mk (es ++ cs))) {rel : List Str} (hre : rel <+: es)
    {fs' : Fs} {w : Mem.World} (him : InMem E c rel fs' w)
    (hA : ∀ cs k, visible es n cs k → ∃ e, fs' (es ++ cs) = some e ∧ e.isDir = k.isDir)
    (hB : ∀ q, rel <+: q → fs' q ≠ none → GoPath.mk es <+: GoPath.mk q → ∃ cs k, q = es ++ cs ∧ visible es n cs k) :
    walkResult E id nod w (GoPath.mk es) = .ok () ∧
      (seen (visits E id nod w (GoPath.mk es))).Pairwise (fun a b => Str.lt a.1 b.1 = true) ∧
      (seen (visits E id nod w (GoPath.mk es))).Perm (infos c es n) ∧
      ((infos c es n).Pairwise (fun a b => Str.lt a.1 b.1 = true) → seen (visits E id nod w (GoPath.mk es)) = infos c es n) := by
  have hroot : n.find [] = some n := by cases n <;> rfl
  have e2 : ∀ cs k, visible es n cs k → ∃ f d, Mem.lookup w (own c (es ++ cs)) = some f ∧ f.info = some d ∧
      d.name = (es ++ cs).getLast?.getD [] ∧ d.isDir = k.isDir := by
    intro cs k hk
    obtain ⟨e, h1, h2⟩ := hA cs k hk
    obtain ⟨f, d, g1, g2, g3, g4, _⟩ := him.lookup_some (hp cs (by rw [hk.1]; simp)).1.good (by simp [hes])
      (hre.trans (List.prefix_append _ _)) h1
    exact ⟨f, d, g1, g2, g3, g4.trans h2⟩
  have hparse : ∀ cs, n.find cs ≠ none → E.parse c (GoPath.mk (es ++ cs)) = .ok (own c (es ++ cs)) := by
    intro cs hcs
    obtain ⟨h1, h2⟩ := hp cs hcs
    rw [(ordinary_mk h1.ord h2).parse hl, GoPath.rootedElems_mk h1.good]
    rfl
  have hge : GoPath.Good es := by
    have := (hp [] (by rw [hroot]; simp)).1.good
    rwa [List.append_nil] at this
  have hpe : E.parse c (GoPath.mk es) = .ok (own c es) := by
    have := hparse [] (by rw [hroot]; simp)
    rwa [List.append_nil] at this
  have hclean : Mem.CleanNames w c.module.path := by
    intro q hq hqp
    obtain ⟨f, hf⟩ := Mem.stored_iff_lookup.mp hq
    obtain ⟨qs, h1, _, h3⟩ := him.plain q (by rw [hf]; simp) hqp
    exact ⟨qs, h1.good, h3⟩
  obtain ⟨r1, qs, r2, r3, r4, r5⟩ := C20_walk_visits_partial E him.reached (root := own c es) hclean hpe
  have hmk : ∀ cs, (own c cs).name ≠ [] := by intro cs; simp [own, GoPath.mk]
  have hinj : ∀ cs cs', n.find cs ≠ none → n.find cs' ≠ none → (own c (es ++ cs)).str = (own c (es ++ cs')).str → cs = cs' := by
    intro cs cs' h1 h2 h
    have := Mem.str_inj (a := own c (es ++ cs)) (b := own c (es ++ cs')) rfl (hmk _) (hmk _) h
    have := GoPath.mk_injective (hp cs h1).1.good (hp cs' h2).1.good (congrArg Path.name this)
    exact List.append_cancel_left this
  -- the visited paths
  have hmem : ∀ q, q ∈ qs ↔ ∃ cs k, q = own c (es ++ cs) ∧ visible es n cs k := by
    intro q
    rw [r4]
    constructor
    · rintro ⟨h1, h2, h3⟩
      obtain ⟨xs, h4, h5⟩ := hclean q h1 h2
      have hq : q = own c xs := by cases q; simp only [own] at h2 h5 ⊢; rw [h2, h5]
      subst hq
      have hlow : xs <+: es → xs = es := fun hx =>
        (GoPath.mk_injective hge h4 (h3.eq_of_length_le (mk_prefix_of hx).length_le)).symm
      obtain ⟨f, hf⟩ := Mem.stored_iff_lookup.mp h1
      have hxne : xs ≠ [] := by
        rintro rfl
        exact hes (hlow List.nil_prefix).symm
      have hrx : rel <+: xs := him.beside xs h4 ((mk_prefix_of hre).trans h3) (by rw [hf]; simp)
      cases hfx : fs' xs with
      | none =>
        have hsh := him.has xs h4 hxne hrx
        rw [hfx] at hsh
        have hsh : Mem.lookup w (own c xs) = none := hsh
        rw [hsh] at hf
        cases hf
      | some e =>
        obtain ⟨cs, k, rfl, h6⟩ := hB xs hrx (by rw [hfx]; simp) h3
        exact ⟨cs, k, rfl, h6⟩
    · rintro ⟨cs, k, rfl, h1, h2⟩
      obtain ⟨f, d, g1, _⟩ := e2 cs k ⟨h1, h2⟩
      exact ⟨Mem.stored_iff_lookup.mpr ⟨f, g1⟩, rfl, mk_prefix_of (List.prefix_append _ _)⟩
  -- what the function is told
  have htold : ∀ v ∈ visits E id nod w (GoPath.mk es), ∃ cs k, visible es n cs k ∧ v.path = (own c (es ++ cs)).str ∧
      v.details.name = (es ++ cs).getLast?.getD [] ∧ v.details.isDir = k.isDir := by
    intro v hv'
    obtain ⟨q, hq, h1, h2⟩ := r5 v hv'
    obtain ⟨cs, k, rfl, h3, h4⟩ := (hmem q).mp hq
    obtain ⟨f, d, g1, g2, g3, g4⟩ := e2 cs k ⟨h3, h4⟩
    have hst := h2 _ (hparse cs (by rw [h3]; simp))
    rw [Mem.statView_eq, him.reached.here, hparse cs (by rw [h3]; simp)] at hst
    simp only [g1, g2, Res.ok.injEq] at hst
    rw [← hst]
    exact ⟨cs, k, ⟨h3, h4⟩, h1, g3, g4⟩
  have hsort : (seen (visits E id nod w (GoPath.mk es))).Pairwise (fun a b => Str.lt a.1 b.1 = true) := by
    have : ((visits E id nod w (GoPath.mk es)).map (·.path)).Pairwise (fun a b => Str.lt a b = true) := by
      rw [show (visits E id nod w (GoPath.mk es)).map (·.path) = qs.map Path.str from r2, List.pairwise_map]
      exact r3
    rw [List.pairwise_map] at this
    unfold seen
    rw [List.pairwise_map]
    exact this
  have hnd1 : (seen (visits E id nod w (GoPath.mk es))).Nodup := by
    refine hsort.imp ?_
    rintro a b hab rfl
    exact ((Str.lt_iff _ _).mp hab).2 rfl
  have hin : ∀ e, e ∈ n.tree.filter (fun e => !hidden (es ++ e.1)) ↔ visible es n e.1 e.2 := by
    rintro ⟨cs, k⟩
    rw [List.mem_filter, Disk.mem_tree_iff _ _ _ hn]
    unfold visible
    rw [← hidden_iff]
    simp
  have hnd2 : (infos c es n).Nodup := by
    have h1 := Disk.tree_nodup n hn
    unfold List.Nodup at h1
    rw [List.pairwise_map] at h1
    unfold infos List.Nodup
    rw [List.pairwise_map]
    refine List.Pairwise.imp_of_mem ?_ (h1.sublist List.filter_sublist)
    intro a b ha hb hne he
    refine hne (hinj a.1 b.1 (by rw [((hin a).mp ha).1]; simp) (by rw [((hin b).mp hb).1]; simp) ?_)
    exact congrArg Prod.fst he
  have hperm : (seen (visits E id nod w (GoPath.mk es))).Perm (infos c es n) := by
    refine (List.perm_ext_iff_of_nodup hnd1 hnd2).mpr ?_
    intro x
    unfold seen infos
    rw [List.mem_map, List.mem_map]
    constructor
    · rintro ⟨v, hv', rfl⟩
      obtain ⟨cs, k, h1, h2, h3, h4⟩ := htold v hv'
      exact ⟨(cs, k), (hin _).mpr h1, by rw [h2, h3, h4]⟩
    · rintro ⟨⟨cs, k⟩, he, rfl⟩
      have hvis := (hin _).mp he
      have : (own c (es ++ cs)).str ∈ (visits E id nod w (GoPath.mk es)).map (·.path) := by
        rw [show (visits E id nod w (GoPath.mk es)).map (·.path) = qs.map Path.str from r2]
        exact List.mem_map_of_mem ((hmem _).mpr ⟨cs, k, rfl, hvis⟩)
      obtain ⟨v, hv', hvp⟩ := List.mem_map.mp this
      refine ⟨v, hv', ?_⟩
      obtain ⟨cs', k', h1, h2, h3, h4⟩ := htold v hv'
      have hcs : cs' = cs := hinj _ _ (by rw [h1.1]; simp) (by rw [hvis.1]; simp) (h2.symm.trans hvp)
      subst hcs
      have hk : k' = k := by
        have := h1.1.symm.trans hvis.1
        simpa using this
      subst hk
      rw [h2, h3, h4]
  refine ⟨r1, hsort, hperm, ?_⟩
  intro hord
  refine List.Perm.eq_of_pairwise (le := fun a b => Str.lt a.1 b.1 = true) ?_ hsort hord hperm
  intro a b _ _ hab hba
  exact absurd (Str.le_antisymm ((Str.lt_iff _ _).mp hab).1 ((Str.lt_iff _ _).mp hba).1) ((Str.lt_iff _ _).mp hab).2

/-- **C119** in part: `Walk` of a directory that `LoadFiles` copied into a Pkger returns nil and calls the function once for
each entry that `LoadFiles` returned, with its path, name and kind, in the order of the paths.  If that is the order in
which `filepath.Walk` came to them, it is the list that `LoadFiles` returned.  Missing are the other orders
(`C119_order_refuted`), places beside which there are names that begin with the same letters (C20), modes and times, and what
is missing in `C116_loads_partial`. -/
theorem C119_into_partial (E : Env) {c : Info} (hl : ParseLaws E c) (hi : InfoOk c) (hpk : c.importPath = c.module.path)
    {rel : List Str} (hrel : GoPath.Good rel) {fs : Fs} {w : Mem.World} (hw : InMem E c rel fs w)
    {cut : Str → List Str} (hcut : ∀ b, (cut b).flatten = b) {n : Node} (hn : WF n) (hnd : n.isDir = true) {es : List Str}
    (hes : es ≠ []) (hre : rel <+: es) (hv : ¬ Hidden es) (hcl : Clean es n)
    (hp : ∀ cs, n.find cs ≠ none → Plain (es ++ cs) ∧ Clear c (GoPath.mk (es ++ cs)))
    (hover : ¬ OverFile fs es) (hfree : ∀ x q, es ++ [x] <+: q → fs q = none) (hap : Apart rel fs es) (hs : List Nat) :
    ∃ w' hs', mem E (LoadFiles.loadFiles cut es n).prog w hs = (w', hs', true) ∧
      walkResult E id nod w' (GoPath.mk es) = .ok () ∧
      (seen (visits E id nod w' (GoPath.mk es))).Pairwise (fun a b => Str.lt a.1 b.1 = true) ∧
      (seen (visits E id nod w' (GoPath.mk es))).Perm (infos c es n) ∧
      ((infos c es n).Pairwise (fun a b => Str.lt a.1 b.1 = true) → seen (visits E id nod w' (GoPath.mk es)) = infos c es n) := by
  obtain ⟨fs', h1, h2, h3⟩ := goes_loadFiles (c := c) (rel := rel) hcut hn hnd hes hv hcl hp hre hover hfree
  obtain ⟨w', hs', q1, q2⟩ := C97_mem_partial E hl hi hpk hrel h3 hw h2 hs
  have hroot : n.find [] = some n := by cases n <;> rfl
  have hge : GoPath.Good es := by
    have := (hp [] (by rw [hroot]; simp)).1.good
    rwa [List.append_nil] at this
  refine ⟨w', hs', q1, walk_copied E hl hn hes hp hre q2 ?_ ?_⟩
  · intro cs k hk
    cases k with
    | file d b => exact ⟨.file b, h1.1 cs _ (by unfold shape; rw [hk.1]; rfl) hk.2, rfl⟩
    | dir d kids => exact ⟨.dir, h1.1 cs _ (by unfold shape; rw [hk.1]; rfl) hk.2, rfl⟩
  · intro q hrq hq hpre
    have hgq : GoPath.Good q := q2.tree.good _ hq
    by_cases hqe : q = es
    · exact ⟨[], n, by rw [hqe, List.append_nil], hroot, by rw [List.append_nil]; exact hv⟩
    · by_cases hold : ∀ cs, q = es ++ cs → shape n cs = none ∨ Hidden q
      · exfalso
        rw [h1.2 q hold] at hq
        unfold Fs.mkdirs at hq
        by_cases hlow : q <+: es
        · exact hqe (GoPath.mk_injective hge hgq (hpre.eq_of_length_le (mk_prefix_of hlow).length_le)).symm
        · rw [if_neg hlow] at hq
          obtain ⟨cs, rfl⟩ := hap q hrq hq hpre
          cases cs with
          | nil => exact hqe (List.append_nil _)
          | cons x cs => exact hq (hfree x _ ⟨cs, by simp⟩)
      · obtain ⟨cs, hold⟩ := Classical.not_forall.mp hold
        obtain ⟨e, hold⟩ := Classical.not_imp.mp hold
        rw [not_or] at hold
        subst e
        cases hk : n.find cs with
        | none => exact absurd (shape_none.mpr hk) hold.1
        | some k => exact ⟨cs, k, rfl, hk, hold.2⟩

/-- **C119** for a Pkger just made, in part: `Walk` of a directory that `LoadFiles` copied into a Pkger just made returns nil and calls the function
once for each entry that `LoadFiles` returned, with its path, name and kind, in the order of the paths.  If that is the
order in which `filepath.Walk` came to them, it is the list that `LoadFiles` returned.  Missing is
what is missing in `C119_into_partial`. -/
theorem C119_walk_partial (E : Env) {c : Info} (hl : ParseLaws E c) (hi : InfoOk c) (hpk : c.importPath = c.module.path) (t : Int)
    {cut : Str → List Str} (hcut : ∀ b, (cut b).flatten = b) {n : Node} (hn : WF n) (hnd : n.isDir = true) {es : List Str}
    (hes : es ≠ []) (hv : ¬ Hidden es) (hcl : Clean es n)
    (hp : ∀ cs, n.find cs ≠ none → Plain (es ++ cs) ∧ Clear c (GoPath.mk (es ++ cs))) :
    ∃ w hs, mem E (LoadFiles.loadFiles cut es n).prog (Mem.new c t) [] = (w, hs, true) ∧
      walkResult E id nod w (GoPath.mk es) = .ok () ∧
      (seen (visits E id nod w (GoPath.mk es))).Pairwise (fun a b => Str.lt a.1 b.1 = true) ∧
      (seen (visits E id nod w (GoPath.mk es))).Perm (infos c es n) ∧
      ((infos c es n).Pairwise (fun a b => Str.lt a.1 b.1 = true) → seen (visits E id nod w (GoPath.mk es)) = infos c es n) := by
  have ht : Tree (fun q => if q = [] then some .dir else none) := by
    refine ⟨by simp, ?_, ?_⟩
    · intro es x h; simp at h
    · intro es h
      by_cases he : es = []
      · subst he; decide
      · simp [he] at h
  have hw0 : InMem E c [] _ (Mem.new c t) := inMem_new E c t ht (by intro es he _; simp [he])
  have hge : GoPath.Good es := by
    have := (hp [] (by cases n <;> simp [Node.find])).1.good
    rwa [List.append_nil] at this
  refine C119_into_partial E hl hi hpk (by decide) hw0 hcut hn hnd hes List.nil_prefix hv hcl hp ?_ ?_ ?_ []
  · rintro ⟨a, b, _, h⟩
    by_cases ha : a = [] <;> simp [ha] at h
  · rintro x q ⟨t, rfl⟩
    simp
  · intro q _ hq hpre
    by_cases hqe : q = []
    · subst hqe
      have := root_not_beside hge hpre
      simp [hes] at this
    · simp [hqe] at hq

/-- The hypotheses of `C119_walk_partial` are met, that on the order too: the walk of `/tmp/www` comes to three entries below
it and to none that is hidden. -/
example : ∃ w hs, mem Demo.env (LoadFiles.loadFiles (fun b => [b]) [b! "tmp", b! "www"] wwwDir).prog
      (Mem.new Demo.info 7) [] = (w, hs, true) ∧
    walkResult Demo.env id nod w (b! "/tmp/www") = .ok () ∧
    seen (visits Demo.env id nod w (b! "/tmp/www")) = [(b! "app:/tmp/www", b! "www", true),
      (b! "app:/tmp/www/a.txt", b! "a.txt", false), (b! "app:/tmp/www/doc", b! "doc", true),
      (b! "app:/tmp/www/doc/index.html", b! "index.html", false)] := by
  obtain ⟨w, hs, h1, h2, _, _, h5⟩ := C119_walk_partial Demo.env Demo.laws Demo.info_ok rfl 7 (cut := fun b => [b]) (by simp)
    (n := wwwDir) (by decide +kernel) rfl (es := [b! "tmp", b! "www"]) (by simp) (by rw [← hidden_iff]; decide) wwwDir_clean
    (fun cs hf => find_mem_tree (n := wwwDir) (by decide +kernel) (P := fun cs => Plain ([b! "tmp", b! "www"] ++ cs) ∧
      Clear Demo.info (GoPath.mk ([b! "tmp", b! "www"] ++ cs))) (by decide +kernel) hf)
  exact ⟨w, hs, h1, h2, (h5 (by decide +kernel)).trans (by decide +kernel)⟩

/-- The hypotheses of `C119_into_partial` are met: the same in a Pkger with other files, some of the same names. -/
example : ∃ w hs, mem Demo.env (LoadFiles.loadFiles (fun b => [b]) [b! "tmp", b! "www"] wwwDir).prog (siteMem siteApp) [] =
      (w, hs, true) ∧
    walkResult Demo.env id nod w (b! "/tmp/www") = .ok () ∧
    seen (visits Demo.env id nod w (b! "/tmp/www")) = [(b! "app:/tmp/www", b! "www", true),
      (b! "app:/tmp/www/a.txt", b! "a.txt", false), (b! "app:/tmp/www/doc", b! "doc", true),
      (b! "app:/tmp/www/doc/index.html", b! "index.html", false)] := by
  have hnone : ∀ q, [b! "tmp"] <+: q → shape siteApp.2 q = none := by
    rintro q ⟨t, rfl⟩
    rw [shape_none, Disk.find_append]
    rfl
  obtain ⟨w, hs, h1, h2, _, _, h5⟩ := C119_into_partial Demo.env Demo.laws Demo.info_ok rfl (by decide)
    (site_inMem siteApp_ok rfl) (cut := fun b => [b]) (by simp) (n := wwwDir) (by decide +kernel) rfl
    (es := [b! "tmp", b! "www"]) (by simp) List.nil_prefix (by rw [← hidden_iff]; decide) wwwDir_clean
    (fun cs hf => find_mem_tree (n := wwwDir) (by decide +kernel) (P := fun cs => Plain ([b! "tmp", b! "www"] ++ cs) ∧
      Clear Demo.info (GoPath.mk ([b! "tmp", b! "www"] ++ cs))) (by decide +kernel) hf)
    (by rw [← overFile_iff]; decide +kernel)
    (fun x q hq => hnone q ((by simp : [b! "tmp"] <+: [b! "tmp", b! "www"] ++ [x]).trans hq))
    (by
      intro q _ hq
      exact find_mem_tree (n := siteApp.2) (by decide +kernel) (P := fun q => GoPath.mk [b! "tmp", b! "www"] <+: GoPath.mk q →
        [b! "tmp", b! "www"] <+: q) (by decide +kernel) (fun h => hq (shape_none.mpr h))) []
  exact ⟨w, hs, h1, h2, (h5 (by decide +kernel)).trans (by decide +kernel)⟩

/-- **C119** in full: what the walk tells is, entry by entry, what `LoadFiles` returned, as `WalkTest` has it
(pkging/pkgtest/walk.go:31-35). -/
def C119_statement (E : Env) (c : Info) : Prop :=
  ∀ (n : Node) (es : List Str) (t : Int), WF n → n.isDir = true → es ≠ [] → ¬ Hidden es → Clean es n →
    (∀ cs, n.find cs ≠ none → Plain (es ++ cs) ∧ Clear c (GoPath.mk (es ++ cs))) →
    seen (visits E id nod (mem E (LoadFiles.loadFiles (fun b => [b]) es n).prog (Mem.new c t) []).1 (GoPath.mk es)) = infos c es n

/-- A directory `a` with a file in it, beside the file `a-b`. -/
def dashDir : Node := (Demo.dirNode (b! "www") [Demo.dirNode (b! "a") [Demo.fileNode (b! "x") (b! "1")],
  Demo.fileNode (b! "a-b") (b! "2")]).2

theorem dashDir_clean : Clean [b! "www"] dashDir := by
  intro cs ds hf
  have : ∀ e ∈ dashDir.tree, ∀ k ≤ e.1.length, hidden ([b! "www"] ++ e.1.take k) = true →
      hidden ([b! "www"] ++ e.1) = true := by decide +kernel
  have := find_mem_tree (n := dashDir) (by decide +kernel) (P := fun cs => ∀ k ≤ cs.length,
    hidden ([b! "www"] ++ cs.take k) = true → hidden ([b! "www"] ++ cs) = true) this hf cs.length (by simp)
  rw [List.take_left, hidden_iff, hidden_iff] at this
  simpa using this

/-- **C119 is false** as it stands: the walk comes to `a-b` before `a/x`, `filepath.Walk` after it, so that `WalkTest` would
compare the two with each other. -/
theorem C119_order_refuted : ¬ C119_statement Demo.env Demo.info := by
  intro h
  have hp : ∀ cs, dashDir.find cs ≠ none → Plain ([b! "www"] ++ cs) ∧ Clear Demo.info (GoPath.mk ([b! "www"] ++ cs)) :=
    fun cs hf => find_mem_tree (n := dashDir) (by decide +kernel) (P := fun cs => Plain ([b! "www"] ++ cs) ∧
      Clear Demo.info (GoPath.mk ([b! "www"] ++ cs))) (by decide +kernel) hf
  have hh : ¬ Hidden [b! "www"] := by rw [← hidden_iff]; decide
  have h := h dashDir [b! "www"] 7 (by decide +kernel) rfl (by simp) hh dashDir_clean hp
  obtain ⟨w, hs, h1, _, h3, _⟩ := C119_walk_partial Demo.env Demo.laws Demo.info_ok rfl 7 (cut := fun b => [b]) (by simp)
    (n := dashDir) (by decide +kernel) rfl (es := [b! "www"]) (by simp) hh dashDir_clean hp
  rw [h1] at h
  simp only at h
  rw [h] at h3
  revert h3
  decide +kernel

end Props
end Verif
