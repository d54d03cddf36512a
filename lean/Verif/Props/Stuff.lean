import Verif.Lemmas.Stuff
import Verif.Props.FileTree
import Verif.Props.Declared

/-! C44, C45, C46: which files packaging embeds. -/

namespace Verif
namespace Props

open Mem Pack
open Disk (Node)
open Parser (File Decl GoTool)

/-- The listed file is not excluded by its name. -/
def Kept (f : File) : Prop := ¬ b! ".tmp" <:+ f.abs

instance (f : File) : Decidable (Kept f) := by unfold Kept; infer_instance

theorem kept_iff {f : File} : Kept f ↔ Str.hasSuffix f.abs tmp = false := by
  unfold Kept
  rw [← Bool.not_eq_true, Str.hasSuffix_iff]
  rfl

/-- **C44** in full: for the declarations found in any program, whatever packaging writes can be read back, and every
listed file not ending in `.tmp` then opens under its package path with the details and bytes it has on disk. -/
def C44_statement : Prop :=
  ∀ (E : Env) (G : GoTool) (S : Setup) (c : Info) (includes : List Str) (ds : List Decl)
    (ord : AMap Str Serial.EFile → List (Str × Serial.EFile)) (now : Int),
    Spec.AnyOrder G → Spec.Sorts S.sort → (∀ p i, E.dirInfo p = .ok i → ParseLaws E i) → GzipLaw E →
    Serial.HereLaw S.here id → Serial.Visits ord → S.disk.WF → NodeOk S.disk →
    Parser.decls E G S.disk c includes = .ok ds →
    ∀ fs b, Parser.files E S.disk S.sort ds = .ok fs → blob E S c ds = .ok b →
    ∃ w, Serial.unmarshalEmbed E S.here ord now b = .ok w ∧
      ∀ f ∈ fs, Kept f → ∀ n, Parser.osStat S.disk f.abs = some n →
        openView E w f.path.str = .ok (n.details, n.data)

theorem nodeOk_find : ∀ (cs : List Str) {n m : Node}, NodeOk n → n.find cs = some m → NodeOk m := by
  intro cs
  induction cs with
  | nil => intro n m h hf; cases n <;> (simp only [Disk.Node.find, Option.some.injEq] at hf; subst hf; exact h)
  | cons a cs ih =>
    intro n m h hf
    cases n with
    | file d b => simp [Disk.Node.find] at hf
    | dir d kids =>
      simp only [Disk.Node.find] at hf
      split at hf
      · rename_i name k hk
        cases h with
        | dir _ _ _ hkids => exact ih (hkids _ (List.mem_of_find?_eq_some hk)) hf
      · cases hf

theorem stuffed_wellFormed {E : Env} (hs : NoSkip E) {S : Setup} {c : Info} (hl : ParseLaws E c) (ho : InfoOk c)
    {ds : List Decl} {fs : List File} (hf : Parser.files E S.disk S.sort ds = .ok fs)
    (hown : ∀ f ∈ fs, Kept f → ∃ rel n, OwnFile E c S.disk f rel n) {w : World} (hw : stuffed E S c ds = .ok w) :
    WellFormedPaths c w := by
  obtain ⟨w', h1, _, h3⟩ := stuffed_own hs hl ho hf (fun f h1 h2 => hown f h1 (kept_iff.mpr h2))
  rw [hw] at h1
  injection h1 with h1
  subst h1
  intro q hq
  rw [stored_iff_lookup] at hq
  cases hlk : lookup w q with
  | none => rw [hlk] at hq; simp at hq
  | some o =>
    obtain ⟨f, _, _, rel, n, hon, cs, m, her, hm, _, rfl, _⟩ := h3 q o hlk
    exact ⟨ho.modulePlain, rel ++ cs, hon.2.2.plain cs m hm, rfl, hon.2.2.clear cs m hm⟩

theorem ownFile_unique {E : Env} {c : Info} {disk : Node} {f : File} {rel rel' : List Str} {n n' : Node}
    (h : OwnFile E c disk f rel n) (h' : OwnFile E c disk f rel' n') : rel = rel' ∧ n = n' := by
  have h1 : n.find [] = some n := by cases n <;> rfl
  have h2 : n'.find [] = some n' := by cases n' <;> rfl
  have h3 := h.2.2.plain [] n h1
  have h4 := h'.2.2.plain [] n' h2
  rw [List.append_nil] at h3 h4
  refine ⟨GoPath.mk_injective h3.good h4.good ?_, ?_⟩
  · have := h.1.symm.trans h'.1
    injection this
  · have := h.2.1.symm.trans h'.2.1
    injection this

theorem stuffed_expressible {E : Env} (hs : NoSkip E) {S : Setup} {c : Info} (hl : ParseLaws E c) (ho : InfoOk c)
    {ds : List Decl} {fs : List File} (hf : Parser.files E S.disk S.sort ds = .ok fs)
    (hown : ∀ f ∈ fs, Kept f → ∃ rel n, OwnFile E c S.disk f rel n ∧ TextTree S.zone rel n)
    (hc : Serial.InfoText c) (htool : ∀ her, FromTool E her → Serial.InfoText her)
    {w : World} (hw : stuffed E S c ds = .ok w) : Expressible S.zone c w := by
  obtain ⟨w', h1, _, h3⟩ := stuffed_own hs hl ho hf (fun f h1 h2 => by
    obtain ⟨rel, n, h, _⟩ := hown f h1 (kept_iff.mpr h2)
    exact ⟨rel, n, h⟩)
  rw [hw] at h1
  injection h1 with h1
  subst h1
  refine ⟨hc, ?_⟩
  intro q o hlk
  obtain ⟨f, hff, hk, rel, n, hon, cs, m, her, hm, ht, rfl, rfl⟩ := h3 q o hlk
  obtain ⟨rel', n', hon', htext⟩ := hown f hff (kept_iff.mpr hk)
  obtain ⟨rfl, rfl⟩ := ownFile_unique hon hon'
  obtain ⟨h4, h5⟩ := htext cs m hm
  refine ⟨?_, htool her ht.tool, ⟨hc.2.2.2.1, h5⟩, (show Serial.PathText Path.zero by decide +kernel)⟩
  intro d hd
  simp only [addedObj, newFileInfo, Option.some.injEq] at hd
  rw [← hd]
  exact h4

/-- **C44** if all listed files are in the directory of the packaged package, under the names their package paths say
(missing: files of other modules, and packages that are not the root of their module, for which C44 is false, see
`C44_other_module_refuted` and `C44_subpackage_refuted`), with ordinary names and details JSON can express: packaging
succeeds; what it writes can be read back and gives a Pkger ready for use; every listed file not ending in `.tmp`, and every entry below it, opens
under its package path with the details and bytes it has on disk; nothing else is embedded; and a directory knows the
package the Go tool named for its module path. -/
theorem C44_own_files_partial {E : Env} (hs : NoSkip E) (hz : GzipLaw E) {S : Setup}
    (hH : Serial.HereLaw S.here id) {ord : AMap Str Serial.EFile → List (Str × Serial.EFile)}
    (hord : Serial.Visits ord) (now : Int) {c : Info} (hl : ParseLaws E c) (ho : InfoOk c) (hnode : NodeOk S.disk)
    {ds : List Decl} {fs : List File} (hf : Parser.files E S.disk S.sort ds = .ok fs)
    (hown : ∀ f ∈ fs, Kept f → ∃ rel n, OwnFile E c S.disk f rel n ∧ TextTree S.zone rel n)
    (hc : Serial.InfoText c) (htool : ∀ her, FromTool E her → Serial.InfoText her) :
    ∃ b w, blob E S c ds = .ok b ∧ Serial.unmarshalEmbed E S.here ord now b = .ok w ∧ Start c w ∧
      (∀ f ∈ fs, Kept f → ∀ n, Parser.osStat S.disk f.abs = some n →
        openView E w f.path.str = .ok (n.details, n.data)) ∧
      (∀ f ∈ fs, Kept f → ∀ rel n, OwnFile E c S.disk f rel n → ∀ cs m, n.find cs = some m →
        openView E w (GoPath.mk (rel ++ cs)) = .ok (m.details, m.data)) ∧
      (∀ q, Stored w q → ∃ f ∈ fs, Kept f ∧ ∃ rel n, OwnFile E c S.disk f rel n ∧
        ∃ cs m, n.find cs = some m ∧ q = ⟨c.module.path, GoPath.mk (rel ++ cs)⟩) ∧
      (∀ q f d, lookup w q = some f → f.info = some d → d.isDir = true → E.pkgInfo q.pkg = .ok f.here) := by
  have hown' : ∀ f ∈ fs, Kept f → ∃ rel n, OwnFile E c S.disk f rel n := by
    intro f hff hk
    obtain ⟨rel, n, h, _⟩ := hown f hff hk
    exact ⟨rel, n, h⟩
  obtain ⟨w0, h1, h2, h3⟩ := stuffed_own hs hl ho hf (fun f h1 h2 => hown' f h1 (kept_iff.mpr h2))
  have hr : Reached E c w0 := stuffed_reached (fun cs n h => nodeOk_find cs hnode h) h1
  obtain ⟨w, hu, ha⟩ := C04_round_trip_partial (Z := S.zone) now hl hz hH hord hr
    (stuffed_wellFormed hs hl ho hf hown' h1) (stuffed_expressible hs hl ho hf hown hc htool h1)
  obtain ⟨w1, hu1, hstart, _⟩ := C70_loaded_partial (Z := S.zone) now hl hz hH rfl hord hr
    (stuffed_wellFormed hs hl ho hf hown' h1) (stuffed_expressible hs hl ho hf hown hc htool h1)
  have hw1 : w = w1 := by rw [hu] at hu1; injection hu1
  subst hw1
  have hview : ∀ f ∈ fs, Kept f → ∀ rel n, OwnFile E c S.disk f rel n → ∀ cs m, n.find cs = some m → ∀ name,
      E.parse c name = .ok ⟨c.module.path, GoPath.mk (rel ++ cs)⟩ → openView E w name = .ok (m.details, m.data) := by
    intro f hff hk rel n hon cs m hm name hp
    obtain ⟨her, _, hlk⟩ := h2 f hff (kept_iff.mp hk) rel n hon cs m hm
    rw [(ha.view name).2]
    exact (added_views hlk (by rw [hr.here]; exact hp)).2
  refine ⟨_, w, ?_, hu, hstart, ?_, ?_, ?_, ?_⟩
  · unfold blob
    rw [h1]
  · intro f hff hk n hn
    obtain ⟨rel, n', hon⟩ := hown' f hff hk
    have : n' = n := by
      have := hon.2.1
      rw [hn] at this
      injection this with this
      exact this.symm
    subst this
    have hroot : n'.find [] = some n' := by cases n' <;> rfl
    refine hview f hff hk rel n' hon [] n' hroot _ ?_
    have hp := hon.2.2.plain [] n' hroot
    have hcl := hon.2.2.clear [] n' hroot
    rw [List.append_nil] at hp hcl ⊢
    rw [hon.1, qualified_str ho.modulePlain rfl]
    exact hl.qualified _ _ ho.modulePlain hp hcl
  · intro f hff hk rel n hon cs m hm
    exact hview f hff hk rel n hon cs m hm _ (plain_parse hl (hon.2.2.plain cs m hm) (hon.2.2.clear cs m hm))
  · intro q hq
    rw [ha.paths, stored_iff_lookup] at hq
    cases hlk : lookup w0 q with
    | none => rw [hlk] at hq; simp at hq
    | some o =>
      obtain ⟨f, h5, h6, rel, n, hon, cs, m, her, hm, _, h7, _⟩ := h3 q o hlk
      exact ⟨f, h5, kept_iff.mpr h6, rel, n, hon, cs, m, hm, h7⟩
  · intro q f d hq hfd hdir
    obtain ⟨w2, hu2, hlk⟩ := loaded_lookup (Z := S.zone) now hl hz hH hord hr
      (stuffed_wellFormed hs hl ho hf hown' h1) (stuffed_expressible hs hl ho hf hown hc htool h1)
    have hw2 : w = w2 := by rw [hu] at hu2; injection hu2
    subst hw2
    rw [hlk] at hq
    cases hl0 : lookup w0 q with
    | none => rw [hl0] at hq; cases hq
    | some o =>
      rw [hl0] at hq
      simp only [Option.map_some, Option.some.injEq] at hq
      subst hq
      obtain ⟨f, _, _, rel, n, hon, cs, m, her, hm, hk, h7, rfl⟩ := h3 q o hl0
      rcases hk with hk | ⟨hk, _⟩
      · rw [h7]; exact hk
      · simp only [Serial.reborn, addedObj, newFileInfo, Option.some.injEq] at hfd
        have hno : NodeOk m := nodeOk_find _ (nodeOk_find _ hnode hon.2.1) hm
        rw [← hfd] at hdir
        cases hno with
        | file d' b h8 h9 =>
          simp only [Disk.Node.details] at hdir
          rw [h8] at hdir
          cases hdir
        | dir d' kids h8 h9 => cases hk

/-! ### The demo module -/

/-- Packaging the demo module. -/
def demoSetup (disk : Node) : Setup := ⟨disk, Demo.sortFiles, Serial.plainHere, utc, 1000⟩

theorem demo_tool_text : ∀ her, FromTool Demo.env her → Serial.InfoText her := by
  intro her h
  have : her = Demo.info ∨ her = Demo.libInfo := by
    rcases h with ⟨p, h⟩ | ⟨p, h⟩
    · change Demo.pkgInfo p = _ at h
      unfold Demo.pkgInfo at h
      split at h
      · cases h; simp
      · split at h
        · cases h; simp
        · cases h
    · change Demo.dirInfo p = _ at h
      unfold Demo.dirInfo at h
      split at h
      · cases h; simp
      · split at h
        · cases h; simp
        · cases h
  rcases this with rfl | rfl <;> decide +kernel

theorem demo_own {disk : Node} {f : File} {rel : List Str} {n : Node}
    (h1 : f.path = ⟨b! "app", GoPath.mk rel⟩) (h2 : Parser.osStat disk f.abs = some n) (hw : n.WF)
    (h3 : f.abs = GoPath.join2 (b! "/src/app") (GoPath.mk rel))
    (h4 : ∀ e ∈ n.tree, Plain (rel ++ e.1) ∧ Clear Demo.info (GoPath.mk (rel ++ e.1)) ∧
      Serial.DetailsOk utc e.2.details ∧ Utf8.Valid (GoPath.mk (rel ++ e.1)))
    (h5 : Demo.env.dirInfo (if n.isDir then f.abs else GoPath.dir f.abs) = .ok Demo.info) :
    OwnFile Demo.env Demo.info disk f rel n ∧ TextTree utc rel n := by
  have hm : ∀ cs m, n.find cs = some m → (cs, m) ∈ n.tree := fun cs m h => (Disk.mem_tree_iff cs _ m hw).mpr h
  refine ⟨⟨h1, h2, h3, by decide, hw, ?_, ?_, ⟨Demo.info, by decide +kernel⟩, ⟨Demo.info, h5⟩⟩, ?_⟩
  · intro cs m h; exact (h4 _ (hm cs m h)).1
  · intro cs m h; exact (h4 _ (hm cs m h)).2.1
  · intro cs m h; exact (h4 _ (hm cs m h)).2.2

/-- The files of the demo program. -/
def demoList : List File :=
  [⟨b! "/src/app/assets", ⟨b! "app", b! "/assets"⟩, Demo.info⟩,
   ⟨b! "/src/app/assets/a.txt", ⟨b! "app", b! "/assets/a.txt"⟩, Demo.info⟩,
   ⟨b! "/src/app/assets/b.txt", ⟨b! "app", b! "/assets/b.txt"⟩, Demo.info⟩]

theorem demoList_files : Parser.files Demo.env Demo.disk1 Demo.sortFiles demoDecls = .ok demoList := by
  decide +kernel

theorem nodeOk_disk1 : NodeOk Demo.disk1 := by
  unfold Demo.disk1 Demo.disk Demo.dirNode Demo.fileNode
  repeat' first
    | exact .file _ _ rfl rfl
    | (refine .dir _ _ rfl ?_; intro e he; simp only [List.mem_cons, List.not_mem_nil, or_false] at he)
    | (rcases he with rfl | rfl | rfl)
    | (rcases he with rfl | rfl)
    | subst he

theorem demoList_own : ∀ f ∈ demoList, Kept f →
    ∃ rel n, OwnFile Demo.env Demo.info Demo.disk1 f rel n ∧ TextTree utc rel n := by
  intro f hf _
  simp only [demoList, List.mem_cons, List.not_mem_nil, or_false] at hf
  rcases hf with rfl | rfl | rfl
  · exact ⟨[b! "assets"], _, demo_own (by decide +kernel) rfl (by decide +kernel) (by decide +kernel)
      (by decide +kernel) (by decide +kernel)⟩
  · exact ⟨[b! "assets", b! "a.txt"], _, demo_own (by decide +kernel) rfl (by decide +kernel) (by decide +kernel)
      (by decide +kernel) (by decide +kernel)⟩
  · exact ⟨[b! "assets", b! "b.txt"], _, demo_own (by decide +kernel) rfl (by decide +kernel) (by decide +kernel)
      (by decide +kernel) (by decide +kernel)⟩

/-- A concrete case: the hypotheses hold of the demo program, whose embedded `/assets/b.txt` reads `bbb`. -/
example : ∃ b w, blob Demo.env (demoSetup Demo.disk1) Demo.info demoDecls = .ok b ∧
    Serial.unmarshalEmbed Demo.env Serial.plainHere id 5 b = .ok w ∧
    openView Demo.env w (b! "app:/assets/b.txt") = .ok (⟨b! "b.txt", 3, 420, 0, false⟩, b! "bbb") := by
  obtain ⟨b, w, h1, h2, _, h3, _⟩ := C44_own_files_partial demo_noSkip Demo.gzipLaw (S := demoSetup Demo.disk1)
    plainHere_law visits_id 5 Demo.laws Demo.info_ok nodeOk_disk1 demoList_files demoList_own (by decide +kernel)
    demo_tool_text
  exact ⟨b, w, h1, h2, h3 ⟨b! "/src/app/assets/b.txt", ⟨b! "app", b! "/assets/b.txt"⟩, Demo.info⟩ (by simp [demoList])
    (by decide +kernel) _ rfl⟩

/-- Whether some listed file of the program does not open as it should after packaging. -/
def failsC44 (E : Env) (prog : Parser.Ast) (disk : Node) (c : Info) : Bool :=
  match Parser.decls E (Demo.tool prog) disk c [] with
  | .ok ds =>
    match Parser.files E disk Demo.sortFiles ds with
    | .ok fs =>
      match blob E (demoSetup disk) c ds with
      | .ok b =>
        match Serial.unmarshalEmbed E Serial.plainHere id 0 b with
        | .ok w => fs.any fun f => decide (Kept f) &&
            match Parser.osStat disk f.abs with
            | some n => !(match openView E w f.path.str with | .ok x => x == (n.details, n.data) | _ => false)
            | none => false
        | _ => true
      | _ => false
    | _ => false
  | _ => false

theorem not_C44_of_fails {E : Env} {prog : Parser.Ast} {disk : Node} {c : Info}
    (hl : ∀ p i, E.dirInfo p = .ok i → ParseLaws E i) (hz : GzipLaw E) (hw : disk.WF) (hn : NodeOk disk)
    (h : failsC44 E prog disk c = true) : ¬ C44_statement := by
  intro hC
  unfold failsC44 at h
  split at h
  · rename_i ds hds
    split at h
    · rename_i fs hfs
      split at h
      · rename_i b hb
        obtain ⟨w, h1, h2⟩ := hC E (Demo.tool prog) (demoSetup disk) c [] ds id 0 (Demo.tool_anyOrder _)
          Demo.sortFiles_sorts hl hz plainHere_law visits_id hw hn hds fs b hfs hb
        have h1' : Serial.unmarshalEmbed E Serial.plainHere id 0 b = .ok w := h1
        rw [h1'] at h
        simp only [List.any_eq_true, Bool.and_eq_true, decide_eq_true_eq] at h
        obtain ⟨f, hf, hk, h3⟩ := h
        split at h3
        · rename_i n hn
          rw [h2 f hf hk n hn] at h3
          simp at h3
        · cases h3
      · cases h
    · cases h
  · cases h

/-- The demo module next to the module `lib`. -/
def otherDisk : Node :=
  Demo.disk [Demo.dirNode (b! "src")
    [Demo.dirNode (b! "app") [Demo.fileNode (b! "main.go") (b! "package main")],
     Demo.dirNode (b! "lib") [Demo.fileNode (b! "x") (b! "xxx")]]]

/-- The program `pkger.Open("lib:/x")`. -/
def otherProg : Parser.Ast := Demo.program [Demo.callLit (b! "Open") (b! "\"lib:/x\"")]

theorem demo_dir_laws : ∀ p i, Demo.env.dirInfo p = .ok i → ParseLaws Demo.env i := by
  intro p i h
  have : i = Demo.libInfo ∨ i = Demo.info := by
    change Demo.dirInfo p = .ok i at h
    unfold Demo.dirInfo at h
    split at h
    · cases h; simp
    · split at h
      · cases h; simp
      · cases h
  rcases this with rfl | rfl
  · exact HereParse.lawful ⟨by decide, Or.inr ⟨[b! "src", b! "lib"], by decide, by decide, by decide⟩⟩ _ _ _ _
  · exact HereParse.lawful Demo.info_ok _ _ _ _

/-- **C44** is false of the code (given the reconstruction of `Parse`): a declared file of another module is embedded
under its name on disk, as a file of the packaged module, and cannot be opened under its package path. -/
theorem C44_other_module_refuted : ¬ C44_statement := by
  refine not_C44_of_fails (E := Demo.env) (prog := otherProg) (disk := otherDisk) (c := Demo.info) demo_dir_laws
    Demo.gzipLaw (by decide +kernel) ?_ (by decide +kernel)
  unfold otherDisk Demo.disk Demo.dirNode Demo.fileNode
  repeat' first
    | exact .file _ _ rfl rfl
    | (refine .dir _ _ rfl ?_; intro e he; simp only [List.mem_cons, List.not_mem_nil, or_false] at he)
    | (rcases he with rfl | rfl)
    | subst he

/-- The package `app/cmd` of the demo module. -/
def cmdInfo : Info := { Demo.info with dir := b! "/src/app/cmd", importPath := b! "app/cmd" }

/-- The demo environment with that package. -/
def cmdEnv : Env :=
  HereParse.env (fun d => if Str.hasPrefix d (b! "/src/app/cmd") then .ok cmdInfo else Demo.dirInfo d)
    Demo.pkgInfo Demo.gzip Demo.gunzip

/-- The program `pkger.Open("/readme")` in that package. -/
def cmdDisk : Node :=
  Demo.disk [Demo.dirNode (b! "src") [Demo.dirNode (b! "app")
    [Demo.dirNode (b! "cmd") [Demo.fileNode (b! "main.go") (b! "package main")],
     Demo.fileNode (b! "readme") (b! "hello")]]]

/-- **C44** is false of the code (given the reconstruction of `Parse`) when packaging a package that is not the root
of its module: a file declared as `/readme` is embedded under its name on disk. -/
theorem C44_subpackage_refuted : ¬ C44_statement := by
  refine not_C44_of_fails (E := cmdEnv) (prog := Demo.program [Demo.callLit (b! "Open") (b! "\"/readme\"")])
    (disk := cmdDisk) (c := cmdInfo) ?_ (fun _ => rfl) (by decide +kernel) ?_ (by decide +kernel)
  · intro p i h
    change (if Str.hasPrefix p (b! "/src/app/cmd") then Except.ok cmdInfo else Demo.dirInfo p) = .ok i at h
    split at h
    · cases h
      exact HereParse.lawful ⟨by decide, Or.inr ⟨[b! "src", b! "app", b! "cmd"], by decide, by decide, by decide⟩⟩ _ _ _ _
    · have := demo_dir_laws p i h
      have hi : i = Demo.libInfo ∨ i = Demo.info := by
        unfold Demo.dirInfo at h
        split at h
        · cases h; simp
        · split at h
          · cases h; simp
          · cases h
      rcases hi with rfl | rfl
      · exact HereParse.lawful ⟨by decide, Or.inr ⟨[b! "src", b! "lib"], by decide, by decide, by decide⟩⟩ _ _ _ _
      · exact HereParse.lawful Demo.info_ok _ _ _ _
  · unfold cmdDisk Demo.disk Demo.dirNode Demo.fileNode
    repeat' first
      | exact .file _ _ rfl rfl
      | (refine .dir _ _ rfl ?_; intro e he; simp only [List.mem_cons, List.not_mem_nil, or_false] at he)
      | (rcases he with rfl | rfl)
      | subst he

/-! ### C45 -/

/-- **C45** in full: for the declarations found in any program, packaging stores nothing under the path of a file on
disk that ends in `.tmp`, nor under a path the program creates. -/
def C45_statement : Prop :=
  ∀ (E : Env) (G : GoTool) (S : Setup) (c : Info) (includes : List Str) (ds : List Decl) (w : World),
    Spec.AnyOrder G → Spec.Sorts S.sort → (∀ p i, E.dirInfo p = .ok i → ParseLaws E i) → S.disk.WF → NodeOk S.disk →
    Parser.decls E G S.disk c includes = .ok ds → stuffed E S c ds = .ok w → ∀ q, Stored w q →
    (∀ p n, Parser.osStat S.disk p = some n → b! ".tmp" <:+ p → E.parse c p ≠ .ok q) ∧
    (∀ d ∈ ds, d.kind = .create ∨ d.kind = .mkdirAll → E.parse c d.value ≠ .ok q)

/-- What is embedded comes from the listed files: each stored path belongs to an entry of the tree at a listed file
that does not end in `.tmp`. -/
theorem C45_origin_partial {E : Env} (hs : NoSkip E) {S : Setup} {c : Info} {ds : List Decl} {w : World}
    (hw : S.disk.WF) (h : stuffed E S c ds = .ok w) :
    ∃ fs, Parser.files E S.disk S.sort ds = .ok fs ∧ ∀ q, Stored w q → ∃ f ∈ fs, Kept f ∧
      ∃ n cs m, Parser.osStat S.disk f.abs = some n ∧ n.find cs = some m ∧
        E.parse c (Disk.joinAll f.abs cs) = .ok q := by
  obtain ⟨fs, hf, ha⟩ := stuffed_ok h
  refine ⟨fs, hf, ?_⟩
  intro q hq
  have had := add_added hs ha
  have hl := had.lookup (inv_new c S.now).wf q
  change match lastFor E c _ _ with | none => _ | some n => _ at hl
  cases hlast : lastFor E c q ((sources S.disk fs).flatMap OsFile.entries) with
  | none =>
    rw [hlast] at hl
    simp only at hl
    rw [stored_iff_lookup, hl] at hq
    simp [lookup, Mem.new] at hq
  | some m =>
    obtain ⟨p, h3, h4⟩ := lastFor_mem hlast
    obtain ⟨o, ho, he⟩ := List.mem_flatMap.mp h3
    obtain ⟨f, h5, h6, h7, h8⟩ := mem_sources.mp ho
    obtain ⟨cs, h9, rfl⟩ := (mem_entries (Disk.find_wf _ hw h8)).mp he
    rw [← h7] at h4
    exact ⟨f, h5, kept_iff.mpr h6, o.node, cs, m, h8, h9, h4⟩

/-- **C45** for files and paths of the own module (missing: entries of directories, for which C45 is false, see
`C45_tmp_refuted` and `C45_virtual_refuted`): what is stored is the path of a listed file not ending in `.tmp`, or
lies below a listed directory. -/
theorem C45_listed_partial {E : Env} (hs : NoSkip E) {S : Setup} {c : Info} (hl : ParseLaws E c) (ho : InfoOk c)
    {ds : List Decl} {fs : List File} (hf : Parser.files E S.disk S.sort ds = .ok fs)
    (hown : ∀ f ∈ fs, Kept f → ∃ rel n, OwnFile E c S.disk f rel n) {w : World} (h : stuffed E S c ds = .ok w)
    {q : Path} (hq : Stored w q) :
    (∃ f ∈ fs, Kept f ∧ f.path = q ∧ ¬ b! ".tmp" <:+ q.name) ∨
    (∃ f ∈ fs, Kept f ∧ ∃ n, Parser.osStat S.disk f.abs = some n ∧ n.isDir = true ∧
      ∃ rel cs, cs ≠ [] ∧ f.path.name = GoPath.mk rel ∧ q = ⟨f.path.pkg, GoPath.mk (rel ++ cs)⟩) := by
  obtain ⟨w', h1, _, h3⟩ := stuffed_own hs hl ho hf (fun f h1 h2 => hown f h1 (kept_iff.mpr h2))
  rw [h] at h1
  injection h1 with h1
  subst h1
  rw [stored_iff_lookup] at hq
  cases hlk : lookup w q with
  | none => rw [hlk] at hq; simp at hq
  | some o =>
    obtain ⟨f, hff, hk, rel, n, hon, cs, m, her, hm, _, hq', _⟩ := h3 q o hlk
    subst hq'
    cases cs with
    | nil =>
      left
      refine ⟨f, hff, kept_iff.mpr hk, by rw [hon.1, List.append_nil], ?_⟩
      simp only [List.append_nil]
      intro hsuf
      apply kept_iff.mpr hk
      by_cases hr : rel = []
      · subst hr
        exfalso
        revert hsuf
        decide
      · rcases ho.dirOk with hd | ⟨D, hD, hp, he⟩
        · exact absurd hd hon.2.2.dir
        · have hname := hon.2.2.name
          simp only at hname
          have hg : Plain rel := by
            have := hon.2.2.plain [] m hm
            rwa [List.append_nil] at this
          rw [hname, he, GoPath.join2_mk hp.good hg.good, GoPath.mk_append hD hr]
          exact hsuf.trans (List.suffix_append _ _)
    | cons a cs =>
      right
      refine ⟨f, hff, kept_iff.mpr hk, n, hon.2.1, ?_, rel, a :: cs, by simp, by rw [hon.1], by rw [hon.1]⟩
      cases n with
      | file d b => simp [Disk.Node.find] at hm
      | dir d kids => rfl

/-- The hypotheses hold of the demo program; its directory and both files are stored. -/
example : ∃ w, stuffed Demo.env (demoSetup Demo.disk1) Demo.info demoDecls = .ok w ∧
    Stored w ⟨b! "app", b! "/assets/a.txt"⟩ ∧
    ∀ q, Stored w q → q.name = b! "/assets" ∨ b! "/assets/" <+: q.name := by
  have hown : ∀ f ∈ demoList, Kept f → ∃ rel n, OwnFile Demo.env Demo.info Demo.disk1 f rel n := by
    intro f hf hk
    obtain ⟨rel, n, h, _⟩ := demoList_own f hf hk
    exact ⟨rel, n, h⟩
  obtain ⟨w, h1, h2, _⟩ := stuffed_own demo_noSkip (S := demoSetup Demo.disk1) Demo.laws Demo.info_ok demoList_files
    (fun f h1 h2 => hown f h1 (kept_iff.mpr h2))
  refine ⟨w, h1, ?_, ?_⟩
  · obtain ⟨her, _, h⟩ := h2 ⟨b! "/src/app/assets/a.txt", ⟨b! "app", b! "/assets/a.txt"⟩, Demo.info⟩
      (by simp [demoList]) (by decide +kernel) [b! "assets", b! "a.txt"] _
      (demo_own (by decide +kernel) rfl (by decide +kernel) (by decide +kernel) (by decide +kernel)
        (by decide +kernel)).1 [] _ rfl
    rw [stored_iff_lookup]
    exact ⟨_, h⟩
  · intro q hq
    have hl : ∀ f ∈ demoList, f.path.name = b! "/assets" ∨ b! "/assets/" <+: f.path.name := by decide +kernel
    have hd : ∀ f ∈ demoList, ∀ n, Parser.osStat Demo.disk1 f.abs = some n → n.isDir = true →
        f.path.name = b! "/assets" := by
      intro f hf n hn hnd
      have : ∀ f ∈ demoList, (match Parser.osStat Demo.disk1 f.abs with
        | some n => !n.isDir || f.path.name == b! "/assets"
        | none => true) = true := by decide +kernel
      have := this f hf
      rw [hn] at this
      simpa [hnd] using this
    rcases C45_listed_partial demo_noSkip (S := demoSetup Demo.disk1) Demo.laws Demo.info_ok demoList_files hown h1 hq with
      ⟨f, hf, _, rfl, _⟩ | ⟨f, hf, _, n, hn, hnd, rel, cs, hcs, hrel, rfl⟩
    · exact hl f hf
    · right
      have h3 := hd f hf n hn hnd
      rw [hrel] at h3
      by_cases hr : rel = []
      · subst hr; exact absurd h3 (by decide)
      · rw [GoPath.mk_append hr hcs]
        simp only [h3]
        exact ⟨_, by rw [GoPath.mk]; rfl⟩

/-- The demo module with a temporary file and a file the program creates itself. -/
def tmpDisk : Node :=
  Demo.disk [Demo.dirNode (b! "src") [Demo.dirNode (b! "app")
    [Demo.dirNode (b! "assets") [Demo.fileNode (b! "a.tmp") (b! "aaa"), Demo.fileNode (b! "log") (b! "old")],
     Demo.fileNode (b! "main.go") (b! "package main")]]]

theorem nodeOk_tmpDisk : NodeOk tmpDisk := by
  unfold tmpDisk Demo.disk Demo.dirNode Demo.fileNode
  repeat' first
    | exact .file _ _ rfl rfl
    | (refine .dir _ _ rfl ?_; intro e he; simp only [List.mem_cons, List.not_mem_nil, or_false] at he)
    | (rcases he with rfl | rfl)
    | subst he

/-- Whether packaging the program stores the path. -/
def stores (prog : Parser.Ast) (disk : Node) (q : Path) : Bool :=
  match Parser.decls Demo.env (Demo.tool prog) disk Demo.info [] with
  | .ok ds =>
    match stuffed Demo.env (demoSetup disk) Demo.info ds with
    | .ok w => (AMap.get w.files q).isSome
    | _ => false
  | _ => false

/-- **C45** is false of the code: a file ending in `.tmp` is embedded if its directory is walked. -/
theorem C45_tmp_refuted : ¬ C45_statement := by
  intro h
  have h1 : stores (Demo.program [Demo.callLit (b! "Dir") (b! "\"/assets\"")]) tmpDisk ⟨b! "app", b! "/assets/a.tmp"⟩ =
    true := by decide +kernel
  unfold stores at h1
  split at h1
  · rename_i ds hds
    split at h1
    · rename_i w hw
      obtain ⟨id, hid⟩ := Option.isSome_iff_exists.mp h1
      exact (h Demo.env _ (demoSetup tmpDisk) Demo.info [] ds w (Demo.tool_anyOrder _) Demo.sortFiles_sorts demo_dir_laws
        (show tmpDisk.WF by decide +kernel) nodeOk_tmpDisk hds hw _ ⟨id, hid⟩).1 (b! "/src/app/assets/a.tmp") _ rfl
        (by decide +kernel) (by decide +kernel)
    · cases h1
  · cases h1

/-- **C45** is false of the code: a file the program creates itself is embedded if it is on disk already and its
directory is walked. -/
theorem C45_virtual_refuted : ¬ C45_statement := by
  intro h
  have h1 : (match Parser.decls Demo.env (Demo.tool (Demo.program [Demo.callLit (b! "Create") (b! "\"/assets/log\""),
      Demo.callLit (b! "Dir") (b! "\"/assets\"")])) tmpDisk Demo.info [] with
    | .ok ds =>
      match stuffed Demo.env (demoSetup tmpDisk) Demo.info ds with
      | .ok w => (AMap.get w.files ⟨b! "app", b! "/assets/log"⟩).isSome &&
          ds.any fun d => d.kind == .create && d.value == b! "/assets/log"
      | _ => false
    | _ => false) = true := by decide +kernel
  split at h1
  · rename_i ds hds
    split at h1
    · rename_i w hw
      rw [Bool.and_eq_true, List.any_eq_true] at h1
      obtain ⟨h2, d, hd, h3⟩ := h1
      simp only [Bool.and_eq_true, beq_iff_eq] at h3
      obtain ⟨id, hid⟩ := Option.isSome_iff_exists.mp h2
      refine (h Demo.env _ (demoSetup tmpDisk) Demo.info [] ds w (Demo.tool_anyOrder _) Demo.sortFiles_sorts demo_dir_laws
        (show tmpDisk.WF by decide +kernel) nodeOk_tmpDisk hds hw _ ⟨id, hid⟩).2 d hd (Or.inl h3.1) ?_
      rw [h3.2]
      decide +kernel
    · cases h1
  · cases h1

/-! ### C46 -/

/-- **C46** in full: if the writer fails, or takes fewer bytes than there are, `Stuff` does not report success. -/
def C46_statement : Prop :=
  ∀ (E : Env) (S : Setup) (c : Info) (ds : List Decl) (wr : Writer) (b : Str), blob E S c ds = .ok b →
    ((wr b).2 ≠ none ∨ (wr b).1 < b.length) → (stuff E S c ds wr).2 ≠ .ok ()

/-- What `Stuff` reports does not depend on the writer at all: no failure to write is ever reported. -/
theorem C46_writer_ignored (E : Env) (S : Setup) (c : Info) (ds : List Decl) (wr wr' : Writer) :
    (stuff E S c ds wr).2 = (stuff E S c ds wr').2 := by
  unfold stuff
  cases blob E S c ds <;> rfl

/-- **C46** is false of the code: the error of the final write is dropped. -/
theorem C46_refuted : ¬ C46_statement := by
  intro h
  have hb : (match blob Demo.env (demoSetup Demo.disk1) Demo.info demoDecls with | .ok b => !b.isEmpty | _ => false) = true := by
    decide +kernel
  split at hb
  · rename_i b hb'
    refine h Demo.env (demoSetup Demo.disk1) Demo.info demoDecls (fun _ => (0, some (.other 7))) b hb' (Or.inl (by simp)) ?_
    unfold stuff
    rw [hb']
  · cases hb

/-- **C46** for the other failures (missing: failures of the final write, see `C46_refuted`): any error while listing,
opening or adding files is reported, and then nothing is written; and with a writer that takes everything, exactly the
blob is written. -/
theorem C46_other_errors_partial (E : Env) (S : Setup) (c : Info) (ds : List Decl) (wr : Writer) :
    (∀ e, blob E S c ds = .err e → stuff E S c ds wr = ([], .err e)) ∧
    (∀ b, blob E S c ds = .ok b → (wr b).1 = b.length → stuff E S c ds wr = (b, .ok ())) := by
  unfold stuff
  refine ⟨?_, ?_⟩
  · intro e h; rw [h]
  · intro b h hw; rw [h]; simp [hw]

/-- Both cases occur: the demo program is packaged, and a program naming a missing file is not. -/
example : (match blob Demo.env (demoSetup Demo.disk1) Demo.info demoDecls with | .ok b => b.length > 100 | _ => false) ∧
    blob Demo.env (demoSetup Demo.disk1) Demo.info
      [⟨.open, ⟨b! "/src/app/gone", ⟨b! "app", b! "/gone"⟩, Demo.info⟩, b! "/gone"⟩] = .err (.text .notExist) := by
  constructor
  · have : (match blob Demo.env (demoSetup Demo.disk1) Demo.info demoDecls with
      | .ok b => decide (b.length > 100) | _ => false) = true := by decide +kernel
    split at this
    · simpa using this
    · cases this
  · decide +kernel

end Props
end Verif
