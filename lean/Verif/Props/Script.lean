import Verif.Lemmas.ScriptMem
import Verif.Spec.FileSysDemo
import Verif.Props.DiskHttp

/-! C97: programs that make, fill, read, list and remove files while they run. -/

namespace Verif
namespace Props

open FileSys Script
open Spec hiding Out
open Disk (Node)
open Disk.Node (WF)
open Stdos (Host)
open DiskClient (Io)
open Pack
open Mem (NoSkip NodeOk FromTool)

/-! ### What a program should do -/

/-- The program, started with the files `fs`, should end with the files `fs'` and this result. -/
inductive Runs {α : Type} : Fs → Plan α → Fs → α → Prop where
  | ret (fs : Fs) (r : α) : Runs fs (.ret r) fs r
  | act {fs fs1 fs2 : Fs} {a : Script.Act} {o : Out} {k : Out → Plan α} {r : α} :
      Does fs a fs1 o → Runs fs1 (k o) fs2 r → Runs fs (.act a k) fs2 r

/-- Whatever it gets to know, the program names files by plain names and has enough buffers for what it reads. -/
def Orderly {α : Type} (c : Info) : Fs → Plan α → Prop
  | _, .ret _ => True
  | fs, .act a k => Script.Named c a ∧ Sized fs a ∧ ∀ fs' o, Does fs a fs' o → Orderly c fs' (k o)

/-- Whatever it gets to know, the program does what both Pkgers do alike. -/
def Complies {α : Type} (c : Info) (rel : List Str) : Fs → Plan α → Prop
  | _, .ret _ => True
  | fs, .act a k => Fits c rel fs a ∧ ∀ fs' o, Does fs a fs' o → Complies c rel fs' (k o)

theorem Complies.orderly {α : Type} {c : Info} {rel : List Str} : ∀ {fs : Fs} {p : Plan α}, Complies c rel fs p → Orderly c fs p := by
  intro fs p
  induction p generalizing fs with
  | ret r => intro _; trivial
  | act a k ih => exact fun h => ⟨h.1.1, h.1.sized, fun fs' o hd => ih o (h.2 fs' o hd)⟩

/-- What should be done is one thing. -/
theorem does_unique {fs f1 f2 : Fs} {a : Script.Act} {o1 o2 : Out} (h1 : Does fs a f1 o1) (h2 : Does fs a f2 o2) : f1 = f2 ∧ o1 = o2 := by
  cases h1 <;> cases h2 <;> first
    | exact ⟨rfl, rfl⟩
    | (exfalso; simp_all; done)
    | skip
  case list.list h3 _ _ h6 => exact ⟨rfl, by rw [listing_unique h3 h6]⟩
  case get.get h3 _ h4 => exact ⟨rfl, by rw [h3] at h4; cases h4; rfl⟩

theorem runs_unique {α : Type} {fs f1 f2 : Fs} {p : Plan α} {r1 r2 : α} (h1 : Runs fs p f1 r1) (h2 : Runs fs p f2 r2) :
    f1 = f2 ∧ r1 = r2 := by
  induction h1 with
  | ret => cases h2; exact ⟨rfl, rfl⟩
  | act hd _ ih =>
    cases h2 with
    | act hd' h2 =>
      obtain ⟨e1, e2⟩ := does_unique hd hd'
      subst e1
      subst e2
      exact ih h2

/-! ### Both Pkgers -/

variable {S : Type} {O : Host S} {I : Io S} {W : Writes S}

/-- **C97** on the disk: the program does what it should. -/
theorem C97_disk {α : Type} (E : Env) {U : Unix O I W} {c : Info} (hl : ParseLaws E c) {m : List Str} (hm : GoPath.Good m)
    (hdir : c.dir = GoPath.mk m) (p : Plan α) {fs : Fs} {u : Stdos.World S} (hu : OnDisk U c m fs u) (ho : Orderly c fs p)
    (fl : List Stdos.File) :
    ∃ u' fl' fs' r, disk E O I W p.prog u fl = (u', fl', r) ∧ Runs fs p fs' r ∧ OnDisk U c m fs' u' := by
  induction p generalizing fs u fl with
  | ret r => exact ⟨u, fl, fs, r, rfl, .ret _ _, hu⟩
  | act a k ih =>
    obtain ⟨u1, fl1, fs1, o, e1, e2, e3⟩ := act_disk (E := E) hl hm hdir hu ho.1 ho.2.1 fl
    obtain ⟨u2, fl2, fs2, r, q1, q2, q3⟩ := ih o e3 (ho.2.2 _ _ e2) fl1
    refine ⟨u2, fl2, fs2, r, ?_, .act e2 q2, q3⟩
    simp only [Plan.prog, disk_bind, e1]
    exact q1

/-- **C97** in memory, in part: the program does what it should, if it does what both do alike. -/
theorem C97_mem_partial {α : Type} (E : Env) {c : Info} (hl : ParseLaws E c) (hi : InfoOk c) (hpk : c.importPath = c.module.path)
    {rel : List Str} (hrel : GoPath.Good rel) {p : Plan α} {fs fs' : Fs} {r : α} (hr : Runs fs p fs' r) {w : Mem.World}
    (hw : InMem E c rel fs w) (hc : Complies c rel fs p) (hs : List Nat) :
    ∃ w' hs', mem E p.prog w hs = (w', hs', r) ∧ InMem E c rel fs' w' := by
  induction hr generalizing w hs with
  | ret fs r => exact ⟨w, hs, rfl, hw⟩
  | act hd _ ih =>
    obtain ⟨w1, hs1, e1, e2⟩ := act_mem hl hi hpk hrel hw hc.1 hd hs
    obtain ⟨w2, hs2, q1, q2⟩ := ih e2 (hc.2 _ _ hd) hs1
    refine ⟨w2, hs2, ?_, q2⟩
    simp only [Plan.prog, mem_bind, e1]
    exact q1

/-- **C97**, in part: the program gets the same answers from both, and both have the same files afterwards.  `Fits` says
which things are missing. -/
theorem C97_agree_partial {α : Type} (E : Env) {U : Unix O I W} {c : Info} (hl : ParseLaws E c) (hi : InfoOk c)
    (hpk : c.importPath = c.module.path) {m : List Str} (hm : GoPath.Good m) (hdir : c.dir = GoPath.mk m) {rel : List Str}
    (hrel : GoPath.Good rel) {fs : Fs} {u : Stdos.World S} (hu : OnDisk U c m fs u) {w : Mem.World} (hw : InMem E c rel fs w)
    (p : Plan α) (hc : Complies c rel fs p) (fl : List Stdos.File) (hs : List Nat) :
    (disk E O I W p.prog u fl).2.2 = (mem E p.prog w hs).2.2 ∧
      ∃ fs', Runs fs p fs' (mem E p.prog w hs).2.2 ∧ OnDisk U c m fs' (disk E O I W p.prog u fl).1 ∧
        InMem E c rel fs' (mem E p.prog w hs).1 := by
  obtain ⟨u', fl', fs', r, e1, e2, e3⟩ := C97_disk E hl hm hdir p hu hc.orderly fl
  obtain ⟨w', hs', q1, q2⟩ := C97_mem_partial E hl hi hpk hrel e2 hw hc hs
  rw [e1, q1]
  exact ⟨rfl, fs', e2, e3, q2⟩

/-! ### Where programs start -/

/-- A Pkger just made, for a part of the module in which there is nothing yet. -/
theorem inMem_new (E : Env) (c : Info) (t : Int) {rel : List Str} {fs : Fs} (ht : Tree fs)
    (hno : ∀ es, es ≠ [] → rel <+: es → fs es = none) : InMem E c rel fs (Mem.new c t) where
  reached := Mem.Reached.ofNew t [] (by simp)
  tree := ht
  has := by
    intro es _ h1 h2
    rw [hno es h1 h2]
    rfl
  plain := by intro q h; exact absurd rfl h
  beside := by intro es _ _ h; exact absurd rfl h

/-- The files of a directory. -/
def shape (n : Node) : Fs := fun es => (n.find es).map fun
  | .file _ b => .file b
  | .dir _ _ => .dir

theorem shape_some {n : Node} {es : List Str} {e : Entry} (h : shape n es = some e) :
    ∃ k, n.find es = some k ∧ e.isDir = k.isDir ∧ e.bytes = k.data := by
  unfold shape at h
  obtain ⟨k, h1, h2⟩ := Option.map_eq_some_iff.mp h
  refine ⟨k, h1, ?_⟩
  cases k <;> (simp only at h2; subst h2; exact ⟨rfl, rfl⟩)

theorem shape_none {n : Node} {es : List Str} : shape n es = none ↔ n.find es = none := by
  unfold shape
  exact Option.map_eq_none_iff

theorem good_find {es : List Str} {n k : Node} (hw : WF n) (hf : n.find es = some k) : GoPath.Good es :=
  Disk.tree_good n hw (es, k) ((Disk.mem_tree_iff _ _ _ hw).mpr hf)

theorem shape_tree {n : Node} (hw : WF n) (hd : n.isDir = true) : Tree (shape n) where
  root := by cases n with
    | file => cases hd
    | dir => rfl
  up := by
    intro es x h
    cases hf : n.find (es ++ [x]) with
    | none => exact absurd (shape_none.mpr hf) h
    | some k =>
      rw [Disk.find_append] at hf
      unfold shape
      cases ha : n.find es with
      | none => rw [ha] at hf; cases hf
      | some j =>
        rw [ha] at hf
        cases j with
        | dir => rfl
        | file => cases hf
  good := by
    intro es h
    cases hf : n.find es with
    | none => exact absurd (shape_none.mpr hf) h
    | some k => exact good_find hw hf

theorem named_name {es : List Str} {n k : Node} (hn : Site.Named n) (hf : n.find es = some k) (hne : es ≠ []) :
    k.details.name = es.getLast?.getD [] := by
  have hs := List.dropLast_concat_getLast hne
  rw [← hs, Disk.find_append] at hf
  cases ha : n.find es.dropLast with
  | none => rw [ha] at hf; cases hf
  | some j =>
    rw [ha] at hf
    have hj := DiskClient.named_find _ hn ha
    cases j with
    | file => cases hf
    | dir d kids =>
      cases hj with
      | dir _ _ _ h2 _ =>
        simp only [Node.find] at hf
        cases hk : kids.find? (fun e => e.1 == es.getLast hne) with
        | none => rw [hk] at hf; cases hf
        | some e =>
          rw [hk] at hf
          have h3 := h2 e (List.mem_of_find?_eq_some hk)
          have h4 : e.1 = es.getLast hne := by simpa using List.find?_some hk
          have h5 : e.2 = k := by simpa using hf
          rw [← h5, h3, h4, List.getLast?_eq_some_getLast hne]
          rfl

/-- A Pkger as one gets it from embedded files has them. -/
theorem Mirrors.inMem {E : Env} {c : Info} (hl : ParseLaws E c) {root : Node} {rel : List Str} {w : Mem.World}
    (hm : Mirrors E c root rel w) (hw : WF root) (hd : root.isDir = true) (hn : Site.Named root)
    (hplain : ∀ es k, root.find es = some k → Plain es ∧ Clear c (GoPath.mk es))
    (hsep : ∀ es k, root.find es = some k → GoPath.mk rel <+: GoPath.mk es → rel <+: es) : InMem E c rel (shape root) w := by
  have hgood : ∀ es k, root.find es = some k → GoPath.Good es ∧ Ordinary c (GoPath.mk es) := fun es k h =>
    ⟨(hplain es k h).1.good, ordinary_mk (hplain es k h).1.ord (hplain es k h).2⟩
  have hst : ∀ {q}, Mem.lookup w q ≠ none → Mem.Stored w q := by
    intro q h
    cases hq : Mem.lookup w q with
    | none => exact absurd hq h
    | some f => exact Mem.stored_iff_lookup.mpr ⟨f, hq⟩
  refine ⟨⟨w, [], hm.start, by simp, rfl⟩, shape_tree hw hd, ?_, ?_, ?_⟩
  · intro es hg hne hr
    obtain ⟨cs, rfl⟩ := hr
    cases hf : shape root (rel ++ cs) with
    | none =>
      show Mem.lookup w _ = none
      cases hq : Mem.lookup w (own c (rel ++ cs)) with
      | none => rfl
      | some f =>
        obtain ⟨es, k, h1, h2⟩ := hm.only _ (Mem.stored_iff_lookup.mpr ⟨f, hq⟩)
        have := own_inj hg (hgood es k h1).1 h2
        subst this
        rw [shape_none.mp hf] at h1
        cases h1
    | some e =>
      obtain ⟨k, h1, h2, h3⟩ := shape_some hf
      obtain ⟨f, q1, q2, q3⟩ := hm.lookup hl hgood h1
      exact ⟨f, k.details, q1, q2, named_name hn h1 hne,
        (DiskClient.named_isDir (DiskClient.named_find _ hn h1)).trans h2.symm, q3.trans h3.symm⟩
  · intro q h _
    obtain ⟨es, k, h1, rfl⟩ := hm.only _ (hst h)
    exact ⟨es, (hplain es k h1).1, (hplain es k h1).2, rfl⟩
  · intro es hg hpre h
    obtain ⟨es', k, h1, h2⟩ := hm.only _ (hst h)
    have := own_inj hg (hgood es' k h1).1 h2
    subst this
    exact hsep _ k h1 hpre

/-- **C97** for the program and its embedded files, in part: below a directory that was embedded, the program run from its
embedded files gets the same answers as the program run from the disk. -/
theorem C97_program_partial {E : Env} (hs : NoSkip E) (hz : GzipLaw E) {G : Parser.GoTool} {T : Setup} (hsort : Sorts T.sort)
    (hH : Serial.HereLaw T.here id) {ord : AMap Str Serial.EFile → List (Str × Serial.EFile)}
    (hord : Serial.Visits ord) (now : Int) {c : Info} (hl : ParseLaws E c) (ho : InfoOk c) (hw : T.disk.WF)
    (hnode : NodeOk T.disk) {m : List Str} {root : Node} (hmod : OwnModule E c T.disk m root) (hnamed : Site.Named root)
    (htext : ∀ cs k, (cs, k) ∈ root.tree → Serial.DetailsOk T.zone k.details ∧ Utf8.Valid (GoPath.mk cs))
    (hc : Serial.InfoText c) (htool : ∀ her, FromTool E her → Serial.InfoText her)
    {includes : List Str} {decls : List Parser.Decl} (hds : Parser.decls E G T.disk c includes = .ok decls)
    (hown : ∀ d ∈ decls, Names d → ∃ rel, OwnDecl E c m d rel ∧
      ((d.kind ≠ .walk ∧ Creates decls d.value) ∨ (root.find rel).isSome))
    (hnil0 : ¬ Creates decls []) (hpk : c.importPath = c.module.path) :
    ∃ b w, blob E T c decls = .ok b ∧ Serial.unmarshalEmbed E T.here ord now b = .ok w ∧ Mem.Start c w ∧
      ∀ d ∈ decls, Names d → ¬ Creates decls d.value → Kept d.file → ∀ rel, d.value = GoPath.mk rel → Plain rel →
      (∀ es k, root.find es = some k → GoPath.mk rel <+: GoPath.mk es → rel <+: es) →
      ∀ (S : Type) (O : Host S) (I : Io S) (W : Writes S) (U : Unix O I W) (h : S), U.ok h → U.fs h = shape T.disk →
      ∀ (α : Type) (p : Plan α), Complies c rel (shape root) p →
        (disk E O I W p.prog (Stdos.new c h) []).2.2 = (mem E p.prog w []).2.2 := by
  obtain ⟨b, w, h1, h2, h3, h4, h5, _⟩ := C79_program_partial hs hz hsort hH hord now hl ho hw hnode hmod htext hc htool hds
    hown hnil0
  have hwr : WF root := Disk.find_wf _ hw hmod.found
  have hplain : ∀ es k, root.find es = some k → Plain es ∧ Clear c (GoPath.mk es) := by
    intro es k hk
    have ht := (Disk.mem_tree_iff _ _ _ hwr).mpr hk
    exact ⟨by simpa using hmod.one.plain es k ht, hmod.clear es k ht⟩
  refine ⟨b, w, h1, h2, h3, ?_⟩
  intro d hd hn hcr hk rel hv hp hsep S O I W U h hok hfs α p hcomp
  have hmir : Mirrors E c root rel w := ⟨h3, fun cs k hf => h4 d hd hn hcr hk rel hv hp cs k hf, by
    intro q hq
    obtain ⟨d', _, _, rel', cs', k', _, e1, e2⟩ := h5 q hq
    exact ⟨rel' ++ cs', k', e1, e2⟩⟩
  have hdisk : OnDisk U c m (shape root) (Stdos.new c h) := by
    refine ⟨rfl, ?_, hok, ?_, ?_⟩
    · show AMap.get (AMap.set [] c.importPath c) c.module.path = some c
      rw [hpk, AMap.get_set_self]
    · show U.fs h m = _
      rw [hfs]
      unfold shape
      rw [hmod.found]
      have := hmod.isDir
      cases root with
      | file => cases this
      | dir => rfl
    · show (U.fs h).sub m = _
      rw [hfs]
      funext es
      simp only [Fs.sub, shape, Disk.find_append, hmod.found]
  exact (C97_agree_partial E hl ho hpk hmod.plain.good hmod.dir hp.good hdisk
    (hmir.inMem hl hwr hmod.isDir hnamed hplain hsep) p hcomp [] []).1

/-! ### Checking a program -/

/-- The paths in a module at which there may be something. -/
def inModule (m : List Str) (s : Machine) : List (List Str) := (s.paths.filter fun q => m.isPrefixOf q).map (·.drop m.length)

theorem mem_inModule {m : List Str} {s : Machine} (hs : s.Ok) {q : List Str} (h : s.files.sub m q ≠ none) : q ∈ inModule m s := by
  unfold inModule
  rw [List.mem_map]
  refine ⟨m ++ q, List.mem_filter.mpr ⟨hs.found _ h, ?_⟩, by simp⟩
  rw [List.isPrefixOf_iff_prefix]
  exact List.prefix_append _ _

/-- `Fits`, computed: `l` are the paths where there may be something. -/
def fits (c : Info) (rel : List Str) (fs : Fs) (l : List (List Str)) (a : Script.Act) : Bool :=
  let apart := fun es => l.all fun q => decide (rel <+: q → fs q ≠ none → GoPath.mk es <+: GoPath.mk q → es <+: q)
  decide (a.elems ≠ [] ∧ Plain a.elems ∧ Clear c (GoPath.mk a.elems) ∧ rel <+: a.elems) &&
  match a with
  | .put es _ => decide (es ≠ rel) && !isFile (fs es.dropLast) && decide (fs es ≠ some .dir)
  | .get es sizes =>
    decide (fs es ≠ some (.file [])) && sizes.all (fun n => decide (0 < n)) &&
      match fs es with
      | some (.file b) => decide (b.length < sizes.length)
      | _ => true
  | .mkdirAll es _ => !overFile fs es
  | .stat _ => true
  | .list es =>
    !isFile (fs es) && apart es && l.all fun p => l.all fun q =>
      decide (p = es ++ [p.getLast?.getD []] → q = es ++ [q.getLast?.getD []] → fs p = some .dir → fs q ≠ none →
        p.getLast?.getD [] <+: q.getLast?.getD [] → p.getLast?.getD [] = q.getLast?.getD [])
  | .remove es => l.all fun q => decide (q = es ++ [q.getLast?.getD []] → fs q = none)
  | .removeAll es => !belowFile fs es && apart es

theorem not_isFile {e : Option Entry} (h : (!isFile e) = true) (b : Str) : e ≠ some (.file b) := by
  rintro rfl
  cases h

theorem fits_sound {c : Info} {rel : List Str} {fs : Fs} {l : List (List Str)} (hl : ∀ q, fs q ≠ none → q ∈ l) {a : Script.Act}
    (h : fits c rel fs l a = true) : Fits c rel fs a := by
  unfold fits at h
  simp only [Bool.and_eq_true, decide_eq_true_eq] at h
  obtain ⟨⟨h1, h2, h3, h4⟩, h⟩ := h
  have hap : ∀ es, (l.all fun q => decide (rel <+: q → fs q ≠ none → GoPath.mk es <+: GoPath.mk q → es <+: q)) = true →
      Apart rel fs es := by
    intro es he q q1 q2 q3
    exact of_decide_eq_true (List.all_eq_true.mp he q (hl q q2)) q1 q2 q3
  refine ⟨⟨h1, h2, h3⟩, h4, ?_⟩
  cases a with
  | put es chunks =>
    simp only [Bool.and_eq_true, decide_eq_true_eq] at h
    exact ⟨h.1.1, not_isFile h.1.2, h.2⟩
  | get es sizes =>
    simp only [Bool.and_eq_true, decide_eq_true_eq, List.all_eq_true] at h
    refine ⟨h.1.1, h.1.2, ?_⟩
    intro b hb
    have := h.2
    rw [hb] at this
    simpa using this
  | mkdirAll es perm =>
    intro ho
    simp only at h
    rw [overFile_iff.mpr ho] at h
    cases h
  | stat es => trivial
  | list es =>
    simp only [Bool.and_eq_true] at h
    refine ⟨not_isFile h.1.1, hap es h.1.2, ?_⟩
    intro x y hx hy hxy
    have h5 := of_decide_eq_true (List.all_eq_true.mp (List.all_eq_true.mp h.2 (es ++ [x]) (hl _ (by rw [hx]; simp)))
      (es ++ [y]) (hl _ hy))
    simpa [hx, hy, hxy] using h5
  | remove es =>
    rintro ⟨x, hx⟩
    have := of_decide_eq_true (List.all_eq_true.mp h (es ++ [x]) (hl _ hx))
    exact hx (this (by simp))
  | removeAll es =>
    simp only [Bool.and_eq_true] at h
    refine ⟨?_, hap es h.2⟩
    intro hb
    rw [belowFile_iff.mpr hb] at h
    cases h.1

/-- `Complies`, computed, for the program that starts in this state. -/
def complies {α : Type} (E : Env) (c : Info) (m rel : List Str) : Plan α → Stdos.World Machine → Bool
  | .ret _, _ => true
  | .act a k, u =>
    fits c rel (u.host.files.sub m) (inModule m u.host) a &&
      complies E c m rel (k (disk E machine machineIo machineWrites a.prog u []).2.2)
        (disk E machine machineIo machineWrites a.prog u []).1

theorem complies_sound {α : Type} (E : Env) {c : Info} (hl : ParseLaws E c) {m : List Str} (hm : GoPath.Good m)
    (hdir : c.dir = GoPath.mk m) {rel : List Str} (p : Plan α) {fs : Fs} {u : Stdos.World Machine} (hu : OnDisk unix c m fs u)
    (h : complies E c m rel p u = true) : Complies c rel fs p := by
  induction p generalizing fs u with
  | ret r => trivial
  | act a k ih =>
    simp only [complies, Bool.and_eq_true] at h
    have hf : Fits c rel fs a := by
      have := fits_sound (fun q hq => mem_inModule hu.ok hq) h.1
      rw [← hu.files]
      exact this
    refine ⟨hf, ?_⟩
    intro fs' o hd
    obtain ⟨u1, fl1, fs1, o1, e1, e2, e3⟩ := act_disk (E := E) hl hm hdir hu hf.1 hf.sized []
    obtain ⟨q1, q2⟩ := does_unique hd e2
    subst q1
    subst q2
    have h2 := h.2
    rw [e1] at h2
    exact ih o e3 h2

/-! ### Examples -/

/-- The system with the files of a disk. -/
def Machine.of (n : Node) : Machine := { Machine.empty with files := shape n, paths := n.tree.map (·.1) }

theorem machine_ok {n : Node} (hw : WF n) (hd : n.isDir = true) : (Machine.of n).Ok where
  tree := shape_tree hw hd
  found := by
    intro q h
    cases hf : n.find q with
    | none => exact absurd (shape_none.mpr hf) h
    | some k => exact List.mem_map.mpr ⟨(q, k), (Disk.mem_tree_iff _ _ _ hw).mpr hf, rfl⟩
  nodup := Disk.tree_nodup n hw

/-- Things done one after the other. -/
def doAll : List Script.Act → List Script.Out → Plan (List Script.Out)
  | [], l => .ret l
  | a :: as, l => .act a fun o => doAll as (l ++ [o])

/-- A program on the module `app` on the disk, which is at `/src/app`. -/
def onMachine {α : Type} (app : Str × Node) (p : Plan α) : α :=
  (disk Demo.env machine machineIo machineWrites p.prog (Stdos.new Demo.info (Machine.of (siteDisk app))) []).2.2

/-- The same program on the embedded files of the module. -/
def onEmbedded {α : Type} (app : Str × Node) (p : Plan α) : α := (mem Demo.env p.prog (siteMem app) []).2.2

theorem site_onDisk {app : Str × Node} (h : SiteOk app) (hd : app.2.isDir = true) (hw : WF (siteDisk app)) :
    OnDisk unix Demo.info [b! "src", b! "app"] (shape app.2) (Stdos.new Demo.info (Machine.of (siteDisk app))) where
  here := rfl
  knows := rfl
  ok := machine_ok hw rfl
  root := by
    show shape (siteDisk app) _ = _
    unfold shape
    rw [h.found]
    obtain ⟨_, n⟩ := app
    cases n with
    | file => cases hd
    | dir => rfl
  files := by
    show Fs.sub (shape (siteDisk app)) _ = _
    funext es
    simp only [Fs.sub, shape, Disk.find_append, h.found]

theorem site_inMem {app : Str × Node} (h : SiteOk app) (hd : app.2.isDir = true) : InMem Demo.env Demo.info [] (shape app.2) (siteMem app) :=
  (siteMem_mirrors h.wf h.nodeOk h.nodup h.view).inMem Demo.laws h.wf hd h.named
    (fun es k hf => h.plain (es, k) ((Disk.mem_tree_iff _ _ _ h.wf).mpr hf)) fun _ _ _ _ => List.nil_prefix

/-- A program that makes a directory and a file in it, reads this file and another and, if they differ, lists and removes
what it has made. -/
def sitePlan : Plan (List Script.Out) :=
  .act (.mkdirAll [b! "www", b! "new"] 0o755) fun _ =>
  .act (.put [b! "www", b! "new", b! "x"] [b! "ab", b! "cdef"]) fun o1 =>
  .act (.get [b! "www", b! "new", b! "x"] [4, 1, 9, 9, 9, 9, 9]) fun o2 =>
  .act (.get [b! "www", b! "a.txt"] [2, 2, 2, 2, 2, 2]) fun o3 =>
  if o2 = o3 then .ret [] else
  .act (.list [b! "www"]) fun o4 =>
  .act (.put [b! "www", b! "nowhere", b! "y"] []) fun o5 =>
  .act (.remove [b! "www", b! "new", b! "x"]) fun o6 =>
  .act (.stat [b! "www", b! "new", b! "x"]) fun o7 =>
  .act (.removeAll [b! "www", b! "doc"]) fun o8 =>
  .act (.list [b! "www"]) fun o9 => .ret [o1, o2, o3, o4, o5, o6, o7, o8, o9]

/-- It meets the hypotheses of `C97_agree_partial`. -/
theorem sitePlan_complies : Complies Demo.info [] (shape siteApp.2) sitePlan :=
  complies_sound Demo.env Demo.laws (by decide) (by decide) sitePlan (site_onDisk siteApp_ok rfl (by decide +kernel)) (by decide +kernel)

example : onMachine siteApp sitePlan = onEmbedded siteApp sitePlan :=
  (C97_agree_partial Demo.env Demo.laws Demo.info_ok rfl (by decide) (by decide) (by decide)
    (site_onDisk siteApp_ok rfl (by decide +kernel)) (site_inMem siteApp_ok rfl) sitePlan sitePlan_complies [] []).1

example : onEmbedded siteApp sitePlan = [.done true, .content (some (b! "abcdef")), .content (some (b! "hello")),
    .names (some [(b! "a.txt", false), (b! "doc", true), (b! "img", true), (b! "new", true), (b! "www", false)]), .done false,
    .done true, .about none, .done true,
    .names (some [(b! "a.txt", false), (b! "img", true), (b! "new", true), (b! "www", false)])] := by decide +kernel

/-- A program started with a Pkger just made, on a module that has nothing at `/tmp`. -/
def tmpPlan : Plan (List Script.Out) :=
  doAll [.mkdirAll [b! "tmp", b! "a"] 0o755, .put [b! "tmp", b! "a", b! "f"] [b! "xyz"], .stat [b! "tmp", b! "a", b! "f"],
    .list [b! "tmp", b! "a"], .removeAll [b! "tmp"], .stat [b! "tmp", b! "a"]] []

example : onMachine siteApp tmpPlan = (mem Demo.env tmpPlan.prog (Mem.new Demo.info 7) []).2.2 := by
  refine (C97_agree_partial Demo.env (rel := [b! "tmp"]) Demo.laws Demo.info_ok rfl (by decide) (by decide) (by decide)
    (site_onDisk siteApp_ok rfl (by decide +kernel)) (inMem_new _ _ _ (shape_tree siteApp_ok.wf rfl) ?_) tmpPlan
    (complies_sound Demo.env Demo.laws (by decide) (by decide) tmpPlan (site_onDisk siteApp_ok rfl (by decide +kernel))
      (by decide +kernel)) [] []).1
  rintro es hne ⟨t, rfl⟩
  rw [shape_none, Disk.find_append]
  rfl

example : onMachine siteApp tmpPlan =
    [.done true, .done true, .about (some (some 3)), .names (some [(b! "f", false)]), .done true, .about none] := by
  decide +kernel

theorem dash_named : Site.Named dashApp.2 := by
  unfold dashApp Demo.dirNode Demo.fileNode
  repeat' first
    | exact .file _ _ rfl rfl
    | (refine .dir _ _ rfl ?_ ?_ <;> intro e he <;> simp only [List.mem_cons, List.not_mem_nil, or_false] at he)
    | (rcases he with rfl | rfl)
    | subst he
    | rfl

/-- A program that changes what it has embedded. -/
def dashPlan : Plan (List Script.Out) :=
  doAll [.get [b! "assets", b! "a-b"] [9, 9, 9], .put [b! "assets", b! "a-b"] [b! "new"], .get [b! "assets", b! "a-b"] [9, 9, 9, 9],
    .remove [b! "assets", b! "a", b! "x"], .stat [b! "assets", b! "a", b! "x"], .stat [b! "assets", b! "a"]] []

/-- The program that walks `/assets` meets the hypotheses of `C97_program_partial`. -/
theorem dash_program : ∃ b w, blob Demo.env (demoSetup dashDisk) Demo.info dashDecls = .ok b ∧
    Serial.unmarshalEmbed Demo.env Serial.plainHere id 5 b = .ok w ∧
    (disk Demo.env machine machineIo machineWrites dashPlan.prog (Stdos.new Demo.info (Machine.of dashDisk)) []).2.2 =
      (mem Demo.env dashPlan.prog w []).2.2 := by
  obtain ⟨b, w, h1, h2, _, h4⟩ := C97_program_partial demo_noSkip Demo.gzipLaw (T := demoSetup dashDisk)
    Demo.sortFiles_sorts plainHere_law visits_id 5 Demo.laws Demo.info_ok (by decide +kernel) nodeOk_dash
    dash_ownModule dash_named (by
      intro cs k hck
      have : ∀ e ∈ dashApp.2.tree, Serial.DetailsOk utc e.2.details ∧ Utf8.Valid (GoPath.mk e.1) := by decide +kernel
      exact this (cs, k) hck) (by decide +kernel) demo_tool_text dashDecls_found (by
      intro d hd hn
      simp only [dashDecls, List.mem_singleton] at hd
      subst hd
      exact ⟨[b! "assets"], ⟨by decide, by decide +kernel, by decide +kernel, rfl, by decide, by decide,
          by decide +kernel⟩, Or.inr (by decide +kernel)⟩) (by
      rintro ⟨d, hd, hk, hv⟩
      have : ∀ d ∈ dashDecls, d.value ≠ [] := by decide
      exact this d hd hv) rfl
  refine ⟨b, w, h1, h2, ?_⟩
  refine h4 _ (List.mem_singleton.mpr rfl) (by unfold Names; decide) (by
      rintro ⟨d, hd, hk, hv⟩
      have : ∀ d ∈ dashDecls, ¬ (d.kind = .mkdirAll ∨ d.kind = .create) := by decide
      exact this d hd hk) (by decide +kernel) [b! "assets"] (by decide) (by decide +kernel) dash_noSibling Machine machine
    machineIo machineWrites unix (Machine.of dashDisk) (machine_ok (by decide +kernel) rfl) rfl _ dashPlan
    (complies_sound Demo.env (m := [b! "src", b! "app"]) (u := Stdos.new Demo.info (Machine.of dashDisk)) Demo.laws
      (by decide) (by decide) dashPlan ⟨rfl, rfl, machine_ok (by decide +kernel) rfl, rfl, ?_⟩ (by decide +kernel))
  funext es
  show shape dashDisk _ = _
  simp only [shape, Disk.find_append, dash_ownModule.found]

/-! ### What is not alike -/

/-- **C97** in full: a program gets the same answers, whatever it does with files of plain names. -/
def C97_statement : Prop :=
  ∀ (S : Type) (O : Host S) (I : Io S) (W : Writes S) (U : Unix O I W) (E : Env) (c : Info) (m rel : List Str) (fs : Fs)
    (u : Stdos.World S) (w : Mem.World) (p : Plan (List Script.Out)), ParseLaws E c → InfoOk c → c.importPath = c.module.path →
    GoPath.Good m → c.dir = GoPath.mk m → OnDisk U c m fs u → InMem E c rel fs w → Orderly c fs p →
    (disk E O I W p.prog u []).2.2 = (mem E p.prog w []).2.2

theorem not_C97_of {app : Str × Node} (h : SiteOk app) (hd : app.2.isDir = true) (hw : WF (siteDisk app))
    {p : Plan (List Script.Out)} (ho : Orderly Demo.info (shape app.2) p) (hne : onMachine app p ≠ onEmbedded app p) :
    ¬ C97_statement := by
  intro hs
  exact hne (hs _ _ _ _ unix Demo.env Demo.info [b! "src", b! "app"] [] (shape app.2) _ (siteMem app) p Demo.laws Demo.info_ok rfl
    (by decide) (by decide) (site_onDisk h hd hw) (site_inMem h hd) ho)

theorem orderly_doAll {c : Info} (as : List Script.Act)
    (h : ∀ a ∈ as, a.elems ≠ [] ∧ Plain a.elems ∧ Clear c (GoPath.mk a.elems) ∧ ∀ es sizes, a ≠ .get es sizes) :
    ∀ (fs : Fs) (l : List Script.Out), Orderly c fs (doAll as l) := by
  induction as with
  | nil => intro fs l; trivial
  | cons a as ih =>
    intro fs l
    obtain ⟨h1, h2, h3, h4⟩ := h a (by simp)
    refine ⟨⟨h1, h2, h3⟩, ?_, fun fs' o _ => ih (fun a ha => h a (by simp [ha])) fs' _⟩
    cases a with
    | get es sizes => exact absurd rfl (h4 es sizes)
    | _ => trivial


/-- Things after which the two are not alike, one for each thing `Fits` asks: a directory with something in it is removed;
a file is created below a regular file, or in the place of a directory; directories are made below a regular file; a
regular file is listed; something below a regular file is removed with all that is in it. -/
def different : List (List Script.Act) :=
  [[.remove [b! "www", b! "doc"]],
    [.put [b! "www", b! "a.txt", b! "x"] [b! "y"]],
    [.put [b! "www", b! "doc"] [b! "y"]],
    [.mkdirAll [b! "www", b! "a.txt", b! "x"] 0o755],
    [.list [b! "www", b! "a.txt"]],
    [.removeAll [b! "www", b! "a.txt", b! "x"]]]

/-- The same for names that begin with the name of a directory. -/
def differentNames : List (List Script.Act) :=
  [[.list [b! "www"]], [.removeAll [b! "www", b! "img"], .stat [b! "www", b! "img2"]]]

/-- **C97 is false.** -/
theorem C97_refuted :
    (∀ as ∈ different, onMachine siteApp (doAll as []) ≠ onEmbedded siteApp (doAll as []) ∧ ¬ C97_statement) ∧
    (∀ as ∈ differentNames, onMachine prefixApp (doAll as []) ≠ onEmbedded prefixApp (doAll as []) ∧ ¬ C97_statement) := by
  have h1 : ∀ as ∈ different, onMachine siteApp (doAll as []) ≠ onEmbedded siteApp (doAll as []) := by decide +kernel
  have h2 : ∀ as ∈ differentNames, onMachine prefixApp (doAll as []) ≠ onEmbedded prefixApp (doAll as []) := by decide +kernel
  constructor
  · intro as has
    refine ⟨h1 as has, not_C97_of siteApp_ok rfl (by decide +kernel) (orderly_doAll as ?_ _ _) (h1 as has)⟩
    simp only [different, List.mem_cons, List.not_mem_nil, or_false] at has
    rcases has with rfl | rfl | rfl | rfl | rfl | rfl <;> intro a ha <;> simp only [List.mem_singleton] at ha <;> subst ha <;>
      exact ⟨by decide, by decide, by decide, fun _ _ => (by intro h; cases h)⟩
  · intro as has
    refine ⟨h2 as has, not_C97_of prefixApp_ok rfl (by decide +kernel) (orderly_doAll as ?_ _ _) (h2 as has)⟩
    simp only [differentNames, List.mem_cons, List.not_mem_nil, or_false] at has
    rcases has with rfl | rfl <;> intro a ha <;> simp only [List.mem_cons, List.not_mem_nil, or_false] at ha
    · subst ha; exact ⟨by decide, by decide, by decide, fun _ _ => (by intro h; cases h)⟩
    · rcases ha with rfl | rfl <;> exact ⟨by decide, by decide, by decide, fun _ _ => (by intro h; cases h)⟩

/-- **C97 is false** for reading a file that is empty: from the disk the program reads nothing and `io.EOF`, in memory it
gets an error. -/
theorem C97_empty_refuted : onMachine siteApp (doAll [.get [b! "www", b! "img", b! "empty"] [9]] []) = [.content (some [])] ∧
    onEmbedded siteApp (doAll [.get [b! "www", b! "img", b! "empty"] [9]] []) = [.content none] ∧ ¬ C97_statement := by
  have h1 : onMachine siteApp (doAll [.get [b! "www", b! "img", b! "empty"] [9]] []) = [.content (some [])] := by decide +kernel
  have h2 : onEmbedded siteApp (doAll [.get [b! "www", b! "img", b! "empty"] [9]] []) = [.content none] := by decide +kernel
  refine ⟨h1, h2, not_C97_of siteApp_ok rfl (by decide +kernel) (p := doAll [.get [b! "www", b! "img", b! "empty"] [9]] []) ?_ ?_⟩
  · refine ⟨⟨by decide, by decide, by decide⟩, ⟨by decide, ?_⟩, fun _ _ _ => trivial⟩
    intro b hb
    have : shape siteApp.2 [b! "www", b! "img", b! "empty"] = some (.file []) := by decide +kernel
    rw [this] at hb
    cases hb
    decide
  · rw [h1, h2]; decide

end Props
end Verif
