import Verif.Props.DiskHttp
import Verif.Props.Show

/-! C87 - C89: what `pkger stat`, `info` and `serve` do, and the program as a whole. -/

namespace Verif
namespace Props

open Flag Cmd Main Serial Spec
open Disk (Node)
open Mem (Details)
open Site (Posix)
open DiskClient (Io)

variable {S : Type} {O : Stdos.Host S} {I : Io S} {disk : Node}

/-! ### Texts -/

theorem prints_nil {α : Type} (T : Json → α → Prop) : Prints T [] [] := ⟨[], [], rfl, rfl, trivial⟩

/-- Documents, each followed by a newline. -/
theorem prints_map {α : Type} {T : Json → α → Prop} (enc : α → Json) (u : Str) (hu : ∀ c ∈ u, Json.isSpace c = true)
    (l : List α) (hi : ∀ a ∈ l, (enc a).Ints) (ht : ∀ a ∈ l, T (enc a).sane a) :
    Prints T (l.map fun a => Json.pretty u 0 (enc a) ++ [10]).flatten l := by
  refine ⟨l.map fun a => Json.pretty u 0 (enc a), l.map fun a => (enc a).sane, ?_, ?_, ?_⟩
  · simp [unlines, Function.comp_def]
  · simp only [List.map_map]
    refine List.map_congr_left fun a ha => ?_
    have := Json.parse_pretty (u := u) (ws := []) hu (by simp) (hi a ha)
    rw [List.append_nil] at this
    exact this
  · have := eachTells_map (T := T) (fun a => (enc a).sane) id l ht
    rw [List.map_id] at this
    exact this

/-! ### `stat` (C87) -/

/-- What is to be shown of an entry: its details if it is a regular file, those of its entries, in any order, if it is a
directory. -/
def Displayed : Node → List Details → Prop
  | .file d _, l => l = [d]
  | .dir _ kids, l => l.Perm (kids.map (·.2.details))

/-- The loop goes through arguments that name entries of the disk. -/
theorem statLoop_exec (E : Env) (P : Posix O I disk) : ∀ (pre : List Str) (ks : List Node) {w : Stdos.World S},
    P.ok w.host → (∀ k ∈ ks, k.details.isDir = k.isDir) → EachTells (fun a k => Finds E P w a (some k)) pre ks →
    ∀ ds, ∃ w' fs lss, (∀ rest, statLoop E O w ds (pre ++ rest) =
        match statLoop E O w' fs rest with | (w4, out, ds', r) => (w4, lss.flatten ++ out, ds', r)) ∧
      w'.here = w.here ∧ (∀ p, P.told w' p = P.told w p) ∧ P.ok w'.host ∧ EachTells Displayed ks lss
  | [], [], w, hok, _, _, ds => ⟨w, ds, [], by
      intro rest
      simp only [List.nil_append, List.flatten_nil], rfl, fun _ => rfl, hok, trivial⟩
  | a :: pre, k :: ks, w, hok, hd, ⟨ha, hp⟩, ds => by
    obtain ⟨w1, f, e1, e2, e3, e4, e5, _, _, e8, _⟩ := open_found E P hok ha
    have hst : Stdos.fileStat O w1 f = (w1, f, .ok k.details) := by simp [Stdos.fileStat, e5]
    have hlift : ∀ {w2 : Stdos.World S}, w2.here = w1.here → (∀ p, P.told w2 p = P.told w1 p) →
        EachTells (fun a k => Finds E P w2 a (some k)) pre ks := by
      intro w2 h1 h2
      have : ∀ (pre : List Str) (ks : List Node), EachTells (fun a k => Finds E P w a (some k)) pre ks →
          EachTells (fun a k => Finds E P w2 a (some k)) pre ks := by
        intro pre
        induction pre with
        | nil => intro ks h; cases ks <;> exact h
        | cons b pre ih =>
          intro ks h
          cases ks with
          | nil => exact h
          | cons k ks => exact ⟨h.1.keep (h1.trans e2) (fun p => (h2 p).trans (e3 p)), ih ks h.2⟩
      exact this pre ks hp
    cases k with
    | file d b =>
      have hnd : d.isDir = false := hd (.file d b) (by simp)
      obtain ⟨w2, fs, lss, q1, q2, q3, q4, q5⟩ := statLoop_exec E P pre ks e4 (fun k hk => hd k (by simp [hk])) (hlift rfl fun _ => rfl)
        (f :: ds)
      refine ⟨w2, fs, [d] :: lss, ?_, q2.trans e2, fun p => (q3 p).trans (e3 p), q4, rfl, q5⟩
      intro rest
      have hnd' : (Node.file d b).details.isDir = false := hnd
      rw [List.cons_append, statLoop, e1]
      simp only [hst]
      rw [hnd', if_neg (by simp), q1 rest]
      rfl
    | dir d kids =>
      have hnd : (Node.dir d kids).details.isDir = true := hd (.dir d kids) (by simp)
      obtain ⟨h2, l, p, r1, r2, r3, _, _⟩ := P.readdir w1.host f.fd d kids (-1) e4 e8 (by omega)
      obtain ⟨w2, fs, lss, q1, q2, q3, q4, q5⟩ := statLoop_exec E P pre ks (w := { w1 with host := h2 }) r3
        (fun k hk => hd k (by simp [hk])) (hlift rfl fun _ => rfl) (f :: ds)
      refine ⟨w2, fs, l :: lss, ?_, q2.trans e2, fun p => (q3 p).trans (e3 p), q4, r2, q5⟩
      intro rest
      rw [List.cons_append, statLoop, e1]
      simp only [hst]
      rw [hnd, if_pos rfl]
      simp only [Stdos.fileReaddir, r1]
      rw [q1 rest]
      have hm : l.map Mem.newFileInfo = l := List.map_id l
      rw [hm]
      simp
  | [], _ :: _, _, _, _, h, _ => h.elim
  | _ :: _, [], _, _, _, h, _ => h.elim

/-- The names shown of an entry are valid UTF-8. -/
def NamesText : Node → Prop
  | .file d _ => Utf8.Valid d.name
  | .dir _ kids => ∀ e ∈ kids, Utf8.Valid e.2.details.name

instance : (k : Node) → Decidable (NamesText k)
  | .file d _ => inferInstanceAs (Decidable (Utf8.Valid d.name))
  | .dir _ kids => inferInstanceAs (Decidable (∀ e ∈ kids, Utf8.Valid e.2.details.name))

theorem displayed_text : ∀ {ks : List Node} {lss : List (List Details)}, EachTells Displayed ks lss → (∀ k ∈ ks, NamesText k) →
    ∀ d ∈ lss.flatten, Utf8.Valid d.name
  | [], [], _, _, d, hd => by simp at hd
  | k :: ks, l :: lss, h, ht, d, hd => by
    rw [List.flatten_cons] at hd
    rcases List.mem_append.mp hd with hd | hd
    · have h1 := h.1
      have h2 := ht k (by simp)
      cases k with
      | file d' b =>
        rw [show l = [d'] from h1, List.mem_singleton] at hd
        subst hd
        exact h2
      | dir d' kids =>
        obtain ⟨e, he, rfl⟩ := List.mem_map.mp ((List.Perm.mem_iff h1).mp hd)
        exact h2 e he
    · exact displayed_text h.2 (fun k hk => ht k (by simp [hk])) d hd
  | [], _ :: _, h, _, _, _ => h.elim
  | _ :: _, [], h, _, _, _ => h.elim

theorem stat_prints (Z : Int → Int) (ds : List Details) (h : ∀ d ∈ ds, Utf8.Valid d.name) :
    Prints (Tells Z) (statOutput Z ds) ds :=
  prints_map (fun d => encFileInfo Z (some d)) [32, 32] (by decide) ds (fun d _ => ⟨ints_details Z d, trivial⟩)
    fun d hd => tells_enc (h d hd)

/-- The arguments, or `.` if there are none. -/
def orHere (args : List Str) : List Str := match args with | [] => [b! "."] | _ => args

theorem orDot_eq (args : List Str) : orDot args = orHere args := by
  cases args with
  | nil => rfl
  | cons a l => simp [orDot, orHere]

theorem run_stat {A : Around S} {w : Stdos.World S} {old : Option Str} {args0 args : List Str}
    (hr : route args0 = .sub (b! "stat") args) :
    run A w old args0 = match statCmd A.env A.host w args with
      | (w', ds, r) => ⟨w', [old], statOutput A.setup.zone ds, [], finOf r⟩ := by
  rw [run_sub hr]
  unfold execSub
  rw [if_neg (by decide), if_neg (by decide), if_neg (by decide), if_neg (by decide), if_pos rfl]

/-- The statement of **C87** for `stat`: on an operating system that shows the files of `disk`, if every argument names an
entry (the package's directory if none is given), `pkger stat` prints for each in turn the details of the file, or of the
entries of the directory. -/
def C87_statement : Prop :=
  ∀ (S : Type) (A : Around S) (I : Io S) (disk : Node) (P : Posix A.host I disk) (w : Stdos.World S) (old : Option Str)
    (args0 args : List Str) (ks : List Node), P.ok w.host → route args0 = .sub (b! "stat") args →
    (∀ k ∈ ks, k.details.isDir = k.isDir) → EachTells (fun a k => Finds A.env P w a (some k)) (orHere args) ks →
    (run A w old args0).fin = .ok ∧
      ∃ lss, EachTells Displayed ks lss ∧ Prints (Tells A.setup.zone) (run A w old args0).out lss.flatten

/-- **C87** (`stat`; missing: names that are not valid UTF-8, see `C87_refuted`). -/
theorem C87_stat_partial {A : Around S} (P : Posix A.host I disk) {w : Stdos.World S} (hok : P.ok w.host) (old : Option Str)
    {args0 args : List Str} (hr : route args0 = .sub (b! "stat") args) {ks : List Node}
    (hd : ∀ k ∈ ks, k.details.isDir = k.isDir) (hk : EachTells (fun a k => Finds A.env P w a (some k)) (orHere args) ks)
    (ht : ∀ k ∈ ks, NamesText k) :
    (run A w old args0).fin = .ok ∧ (run A w old args0).states = [old] ∧
      ∃ lss, EachTells Displayed ks lss ∧ Prints (Tells A.setup.zone) (run A w old args0).out lss.flatten := by
  obtain ⟨w', fs, lss, h1, _, _, _, h5⟩ := statLoop_exec A.env P _ ks hok hd hk []
  have h6 := h1 []
  rw [List.append_nil, statLoop] at h6
  simp only [List.append_nil] at h6
  have h7 : run A w old args0 = ⟨closeAll A.host fs w', [old], statOutput A.setup.zone lss.flatten, [], .ok⟩ := by
    rw [run_stat hr]
    unfold statCmd
    rw [orDot_eq, h6]
    rfl
  rw [h7]
  exact ⟨rfl, rfl, lss, h5, stat_prints _ _ (displayed_text h5 ht)⟩

/-- **C87** (`stat`, errors).  If the first argument that names nothing is `a`: it is no path, nothing is known of its package, or there is no
such entry, what was asked for before is
printed, and the program ends with status 1. -/
theorem C87_stat_error {A : Around S} (P : Posix A.host I disk) {w : Stdos.World S} (hok : P.ok w.host) (old : Option Str)
    {args0 args pre post : List Str} {a : Str} (hr : route args0 = .sub (b! "stat") args) (he : orHere args = pre ++ a :: post)
    {ks : List Node} (hd : ∀ k ∈ ks, k.details.isDir = k.isDir)
    (hk : EachTells (fun a k => Finds A.env P w a (some k)) pre ks) (ha : Misses A.env P w a)
    (ht : ∀ k ∈ ks, NamesText k) :
    (program A w old args0).2.status = 1 ∧ (run A w old args0).states = [old] ∧
      ∃ lss, EachTells Displayed ks lss ∧ Prints (Tells A.setup.zone) (run A w old args0).out lss.flatten := by
  obtain ⟨w', fs, lss, h1, h2, h3, h4, h5⟩ := statLoop_exec A.env P _ ks hok hd hk []
  obtain ⟨w'', e, q1, _, _⟩ := open_missing A.env P h4 (ha.keep h2 h3)
  have h6 := h1 (a :: post)
  rw [statLoop, q1] at h6
  simp only [List.append_nil] at h6
  have h7 : run A w old args0 = ⟨closeAll A.host fs w'', [old], statOutput A.setup.zone lss.flatten, [], .err⟩ := by
    rw [run_stat hr]
    unfold statCmd
    rw [orDot_eq, he, h6]
    rfl
  refine ⟨?_, by rw [h7], lss, h5, by rw [h7]; exact stat_prints _ _ (displayed_text h5 ht)⟩
  have := (C76_tidy_partial (ε := Unit) [()] (fin := .err) (by intro s; simp)).2.2 (by simp)
  simp only [program, h7, Go.Ran.status]
  rw [this]

/-! ### `info` (C87) -/

/-- What is known of a package: what the Pkger remembers, and otherwise what the Go tool says. -/
def Knows (T : Str → Except Err Info) (w : Stdos.World S) (p : Str) (r : Except Err Info) : Prop :=
  (∃ i, AMap.get w.infos p = some i ∧ r = .ok i) ∨ (AMap.get w.infos p = none ∧ r = T p)

theorem infoLoop_exec {T : Str → Except Err Info} (hT : ∀ p h, (O.package p h).2 = T p) :
    ∀ (pre : List Str) (is : List Info) (w : Stdos.World S), EachTells (fun a i => Knows T w a (.ok i)) pre is →
    ∃ w', (∀ rest, infoLoop O w (pre ++ rest) = match infoLoop O w' rest with | (w2, out, r) => (w2, is ++ out, r)) ∧
      ∀ p r, Knows T w p r → Knows T w' p r
  | [], [], w, _ => ⟨w, by intro rest; simp only [List.nil_append], fun _ _ h => h⟩
  | a :: pre, i :: is, w, ⟨ha, hp⟩ => by
    obtain ⟨w1, e1, e2⟩ : ∃ w1, Stdos.info O w a = (w1, .ok i) ∧ ∀ p r, Knows T w p r → Knows T w1 p r := by
      rcases ha with ⟨j, h1, h2⟩ | ⟨h1, h2⟩
      · cases h2
        exact ⟨w, by simp [Stdos.info, h1], fun _ _ h => h⟩
      · have h3 := hT a w.host
        rw [← h2] at h3
        refine ⟨{ w with host := (O.package a w.host).1, infos := AMap.set w.infos a i }, ?_, ?_⟩
        · have : O.package a w.host = ((O.package a w.host).1, .ok i) := by rw [← h3]
          simp only [Stdos.info, h1]
          rw [this]
        · intro p r hr
          unfold Knows
          simp only [AMap.get_set]
          by_cases hpa : p = a
          · subst hpa
            refine Or.inl ⟨i, by simp, ?_⟩
            rcases hr with ⟨j, g1, _⟩ | ⟨_, g2⟩
            · rw [h1] at g1; cases g1
            · rw [g2, ← h2]
          · simp only [hpa, if_false]
            exact hr
    have hp' : EachTells (fun a i => Knows T w1 a (.ok i)) pre is := by
      have : ∀ (pre : List Str) (is : List Info), EachTells (fun a i => Knows T w a (.ok i)) pre is →
          EachTells (fun a i => Knows T w1 a (.ok i)) pre is := by
        intro pre
        induction pre with
        | nil => intro ks h; cases ks <;> exact h
        | cons b pre ih =>
          intro ks h
          cases ks with
          | nil => exact h
          | cons k ks => exact ⟨e2 _ _ h.1, ih ks h.2⟩
      exact this pre is hp
    obtain ⟨w2, q1, q2⟩ := infoLoop_exec hT pre is w1 hp'
    refine ⟨w2, ?_, fun p r h => q2 p r (e2 p r h)⟩
    intro rest
    rw [List.cons_append, infoLoop, e1]
    simp only
    rw [q1 rest]
    rfl
  | [], _ :: _, _, h => h.elim
  | _ :: _, [], _, h => h.elim

/-- A JSON value tells what is known of a package, in whatever form package here gives it. -/
def TellsInfo (H : HereJson) (kept : Info → Info) (j : Json) (i : Info) : Prop := H.infoOf Mem.infoZero j = some (kept i)

theorem info_prints {H : HereJson} {kept : Info → Info} (hH : HereLaw H kept) (is : List Info) (h : ∀ i ∈ is, InfoText i) :
    Prints (TellsInfo H kept) (infoOutput H is) is :=
  prints_map H.info [32] (by decide) is (fun i _ => hH.infoInts i) fun i hi => hH.info i (h i hi)

theorem run_info {A : Around S} {w : Stdos.World S} {old : Option Str} {args0 args : List Str}
    (hr : route args0 = .sub (b! "info") args) :
    run A w old args0 = match infoCmd A.host w args with
      | (w', is, r) => ⟨w', [old], infoOutput A.setup.here is, [], finOf r⟩ := by
  rw [run_sub hr]
  unfold execSub
  rw [if_neg (by decide), if_neg (by decide), if_neg (by decide), if_pos rfl]

/-- **C87** (`info`; missing: texts that are not valid UTF-8).  If the Go tool says the same of a package whenever it is
asked, `pkger info` prints for each package named (`.` if none is) what is known of it. -/
theorem C87_info_partial {A : Around S} {kept : Info → Info} (hH : HereLaw A.setup.here kept) {T : Str → Except Err Info}
    (hT : ∀ p h, (A.host.package p h).2 = T p) (w : Stdos.World S) (old : Option Str) {args0 args : List Str}
    (hr : route args0 = .sub (b! "info") args) {is : List Info}
    (hk : EachTells (fun a i => Knows T w a (.ok i)) (orHere args) is) (ht : ∀ i ∈ is, InfoText i) :
    (run A w old args0).fin = .ok ∧ (run A w old args0).states = [old] ∧
      Prints (TellsInfo A.setup.here kept) (run A w old args0).out is := by
  obtain ⟨w', h1, _⟩ := infoLoop_exec hT _ is w hk
  have h6 := h1 []
  rw [List.append_nil, infoLoop] at h6
  simp only [List.append_nil] at h6
  have h7 : run A w old args0 = ⟨w', [old], infoOutput A.setup.here is, [], .ok⟩ := by
    rw [run_info hr]
    unfold infoCmd
    rw [orDot_eq, h6]
    rfl
  rw [h7]
  exact ⟨rfl, rfl, info_prints hH is ht⟩

/-- **C87** (`info`, errors).  If the first package of which nothing is known is `a`, what was asked for before is printed,
and the program ends with status 1. -/
theorem C87_info_error {A : Around S} {kept : Info → Info} (hH : HereLaw A.setup.here kept) {T : Str → Except Err Info}
    (hT : ∀ p h, (A.host.package p h).2 = T p) (w : Stdos.World S) (old : Option Str) {args0 args pre post : List Str} {a : Str}
    {e : Err} (hr : route args0 = .sub (b! "info") args) (he : orHere args = pre ++ a :: post) {is : List Info}
    (hk : EachTells (fun a i => Knows T w a (.ok i)) pre is) (ha : Knows T w a (.error e)) (ht : ∀ i ∈ is, InfoText i) :
    (program A w old args0).2.status = 1 ∧ (run A w old args0).states = [old] ∧
      Prints (TellsInfo A.setup.here kept) (run A w old args0).out is := by
  obtain ⟨w', h1, h2⟩ := infoLoop_exec hT _ is w hk
  obtain ⟨w'', q1⟩ : ∃ w'', Stdos.info A.host w' a = (w'', .error e) := by
    rcases h2 _ _ ha with ⟨i, _, h⟩ | ⟨h3, h4⟩
    · cases h
    · refine ⟨{ w' with host := (A.host.package a w'.host).1 }, ?_⟩
      have h5 := hT a w'.host
      rw [← h4] at h5
      have : A.host.package a w'.host = ((A.host.package a w'.host).1, .error e) := by rw [← h5]
      simp only [Stdos.info, h3]
      rw [this]
  have h6 := h1 (a :: post)
  rw [infoLoop, q1] at h6
  simp only [List.append_nil] at h6
  have h7 : run A w old args0 = ⟨w'', [old], infoOutput A.setup.here is, [], .err⟩ := by
    rw [run_info hr]
    unfold infoCmd
    rw [orDot_eq, he, h6]
    rfl
  refine ⟨?_, by rw [h7], by rw [h7]; exact info_prints hH is ht⟩
  have := (C76_tidy_partial (ε := Unit) [()] (fin := .err) (by intro s; simp)).2.2 (by simp)
  simp only [program, h7, Go.Ran.status]
  rw [this]

/-! ### Examples for C87 -/

/-- The demo package on a disk that is shown as it is. -/
def siteAround (app : Str × Node) : Around Site.Table :=
  { env := Demo.env, tool := Demo.tool (Demo.program []), setup := demoSetup (siteDisk app), disk := fun _ => siteDisk app,
    host := Site.host (siteDisk app), pos := fun _ _ => ⟨[], 0, 0, 0⟩, listen := fun _ w => (w, .other 9), create := none,
    writer := takeAll, status := 2 }

theorem site_finds {app : Str × Node} {a : Str} {es : List Str} {k : Option Node}
    (h1 : Demo.env.parse Demo.info a = .ok ⟨b! "app", GoPath.mk es⟩) (h2 : GoPath.Good es)
    (h3 : (siteDisk app).find ([b! "src", b! "app"] ++ es) = k) : Finds Demo.env (Site.posix (siteDisk app)) siteStdos a k :=
  ⟨b! "app", es, Demo.info, [b! "src", b! "app"], h1, h2, rfl, rfl, by decide, h3⟩

/-- A package with a file and a directory. -/
def plainApp : Str × Node :=
  Demo.dirNode (b! "app") [Demo.dirNode (b! "d") [Demo.fileNode (b! "x") (b! "1"), Demo.fileNode (b! "y") (b! "22")],
    Demo.fileNode (b! "f") (b! "333")]

theorem table_ok : ∀ fd, Site.Table.empty.next ≤ fd → Site.Table.empty.at_ fd = none := fun _ _ => rfl

/-- The hypotheses of `C87_stat_partial` are met: `pkger stat /f /d` shows three files. -/
example : (Site.posix (siteDisk plainApp)).ok siteStdos.host ∧
    route [b! "stat", b! "/f", b! "/d"] = .sub (b! "stat") [b! "/f", b! "/d"] ∧
    EachTells (fun a k => Finds Demo.env (Site.posix (siteDisk plainApp)) siteStdos a (some k)) (orHere [b! "/f", b! "/d"])
      [(Demo.fileNode (b! "f") (b! "333")).2,
        (Demo.dirNode (b! "d") [Demo.fileNode (b! "x") (b! "1"), Demo.fileNode (b! "y") (b! "22")]).2] ∧
    (∀ k ∈ [(Demo.fileNode (b! "f") (b! "333")).2,
        (Demo.dirNode (b! "d") [Demo.fileNode (b! "x") (b! "1"), Demo.fileNode (b! "y") (b! "22")]).2],
      k.details.isDir = k.isDir ∧ NamesText k) ∧
    (run (siteAround plainApp) siteStdos none [b! "stat", b! "/f"]).out =
      b! "{\n  \"details\": {\n    \"name\": \"f\",\n    \"size\": 3,\n    \"mode\": 420,\n    \"mod_time\": \"1970-01-01T00:00:00Z\",\n    \"is_dir\": false,\n    \"sys\": null\n  }\n}\n" := by
  refine ⟨table_ok, by decide +kernel, ⟨?_, ?_, trivial⟩, by decide +kernel, by decide +kernel⟩
  · exact site_finds (es := [b! "f"]) (by decide +kernel) (by decide) rfl
  · exact site_finds (es := [b! "d"]) (by decide +kernel) (by decide) rfl

/-- The hypotheses of `C87_stat_error` are met. -/
example : Misses Demo.env (Site.posix (siteDisk plainApp)) siteStdos (b! "/g") ∧
    Misses Demo.env (Site.posix (siteDisk plainApp)) siteStdos (b! "lib:/f") ∧
    Misses Demo.env (Site.posix (siteDisk plainApp)) siteStdos (b! "::") ∧
    (program (siteAround plainApp) siteStdos none [b! "stat", b! "/f", b! "/g", b! "/d"]).2.status = 1 :=
  ⟨Or.inr (Or.inr (site_finds (es := [b! "g"]) (by decide +kernel) (by decide) rfl)),
    Or.inr (Or.inl ⟨⟨b! "lib", b! "/f"⟩, .other 20, by decide +kernel, rfl⟩), Or.inl ⟨.parse, by decide +kernel⟩, by decide +kernel⟩

/-- A file of a package that only the Go tool knows. -/
example : Finds Demo.env (Site.posix (siteDisk plainApp) fun p => if p = b! "lib" then .ok { Demo.libInfo with dir := b! "/src/app/d" }
      else .error (.other 2)) siteStdos (b! "lib:/x") (some (Demo.fileNode (b! "x") (b! "1")).2) :=
  ⟨b! "lib", [b! "x"], _, [b! "src", b! "app", b! "d"], by decide +kernel, by decide, rfl, rfl, by decide, rfl⟩

/-- **C87 is false** of names that are not valid UTF-8. -/
theorem C87_refuted : ¬ C87_statement := by
  intro h
  have hk : EachTells (fun a k => Finds Demo.env (Site.posix (siteDisk (Demo.dirNode (b! "app") [Demo.fileNode [255] (b! "1")]))) siteStdos a
      (some k)) (orHere [[47, 255]]) [(Demo.fileNode [255] (b! "1")).2] :=
    ⟨site_finds (es := [[255]]) (by decide +kernel) (by decide) rfl, trivial⟩
  obtain ⟨_, lss, h1, ts, js, h2, h3, h4⟩ := h Site.Table (siteAround (Demo.dirNode (b! "app") [Demo.fileNode [255] (b! "1")]))
    Site.io _ (Site.posix _) siteStdos none [b! "stat", [47, 255]] [[47, 255]] [(Demo.fileNode [255] (b! "1")).2] table_ok
    (by decide +kernel) (by decide +kernel) hk
  match lss, h1 with
  | [l], ⟨hl, _⟩ =>
    have hl' : l = [⟨[255], 1, 420, 0, false⟩] := hl
    subst hl'
    match ts, js, h2, h3, h4 with
    | [], [j], _, h3, _ => simp at h3
    | _ :: _ :: _, [j], _, h3, _ => simp at h3
    | [t], [j], h2, h3, h4 =>
      have h5 : (run (siteAround (Demo.dirNode (b! "app") [Demo.fileNode [255] (b! "1")])) siteStdos none
          [b! "stat", [47, 255]]).out = t ++ [10] := by rw [h2]; simp [unlines]
      have h6 : Json.parse t = some j := by simpa using h3
      obtain ⟨j', g1, g2, _⟩ := h4.1
      have h7 : (match Json.parse (((run (siteAround (Demo.dirNode (b! "app") [Demo.fileNode [255] (b! "1")])) siteStdos none
          [b! "stat", [47, 255]]).out).dropLast) with
        | some j => (match member (b! "details") j with
          | some j' => (match member (b! "name") j' with | some (.str s) => s | _ => [])
          | none => [])
        | none => []) = [239, 191, 189] := by decide +kernel
      rw [h5, List.dropLast_concat, h6] at h7
      simp only [g1, g2] at h7
      revert h7
      decide

/-- The hypotheses of `C87_info_partial` and `C87_info_error` are met. -/
example : (∀ p h, (Demo.host.package p h).2 = Demo.pkgInfo p) ∧
    route [b! "info", b! "app", b! "lib", b! "lib"] = .sub (b! "info") [b! "app", b! "lib", b! "lib"] ∧
    EachTells (fun a i => Knows Demo.pkgInfo atHome a (.ok i)) (orHere [b! "app", b! "lib", b! "lib"])
      [Demo.info, Demo.libInfo, Demo.libInfo] ∧
    Knows Demo.pkgInfo atHome (b! "nope") (.error (.other 2)) ∧ InfoText Demo.info ∧ InfoText Demo.libInfo ∧
    (program (around (Demo.program []) takeAll) atHome none [b! "info", b! "nope"]).2.status = 1 := by
  refine ⟨fun _ _ => rfl, by decide +kernel, ⟨Or.inl ⟨_, by decide +kernel, rfl⟩, Or.inr ⟨by decide +kernel, rfl⟩,
    Or.inr ⟨by decide +kernel, rfl⟩, trivial⟩, Or.inr ⟨by decide +kernel, rfl⟩, by decide +kernel, by decide +kernel,
    by decide +kernel⟩

/-! ### The program as a whole (C88) -/

/-- **C88** (unknown arguments).  A first argument that is neither an option nor a sub-command ends the program with
status 1; nothing is printed or changed. -/
theorem C88_unknown (A : Around S) (w : Stdos.World S) (old : Option Str) {pre : List Str} {l : List (Str × Val)} {k : Str}
    (hk : k ∉ subNames) (hw : Leads toolOptions pre k l) (hh : ∀ b, (b! "h", Val.bool b) ∉ l) (args : List Str) :
    (program A w old (pre ++ k :: args)).1 = ⟨w, [old], [], [], .err⟩ ∧ (program A w old (pre ++ k :: args)).2.status = 1 := by
  obtain ⟨text, h1, _⟩ := C52_unknown hk hw hh args
  have hrun : run A w old (pre ++ k :: args) = ⟨w, [old], [], [], .err⟩ := by simp only [run, h1]
  have := (C76_tidy_partial (ε := Unit) [()] (fin := .err) (by intro s; simp)).2.2 (by simp)
  simp only [program, hrun, Go.Ran.status]
  rw [this]
  simp

/-- **C88** (options that are not understood).  They end the program with the status of the flag package; nothing is
changed. -/
theorem C88_options (A : Around S) (w : Stdos.World S) (old : Option Str) {args : List Str}
    (h : ∀ l rest, ¬ Given toolOptions args l rest) :
    (program A w old args).1 = ⟨w, [old], [], [], .exit A.status⟩ ∧ (program A w old args).2.status = A.status := by
  have hp : parse toolOptions args = .exit := by
    cases hp : parse toolOptions args with
    | exit => rfl
    | done l rest => exact absurd ((C66_options toolOptions args l rest).mp hp) (h l rest)
  have hrun : run A w old args = ⟨w, [old], [], [], .exit A.status⟩ := by
    have : route args = .exit := by simp only [route, packFlags_eq, hp]
    simp only [run, this]
  simp only [program, hrun]
  rw [C76_exit]
  exact ⟨trivial, rfl⟩

/-- **C88** (help).  Whoever asks for help gets the whole usage, or that of the sub-command, with status 0, and nothing
else happens. -/
theorem C88_help (A : Around S) (w : Stdos.World S) (old : Option Str) :
    (∀ {pre rest : List Str} {l1 l2 : List (Str × Val)}, NoOption rest →
      Writes toolOptions pre (l1 ++ (b! "h", .bool true) :: l2) → (∀ b, (b! "h", Val.bool b) ∉ l2) →
      (program A w old (pre ++ rest)).1 = ⟨w, [old], [], fullUsage, .ok⟩ ∧ (program A w old (pre ++ rest)).2.status = 0) ∧
    (∀ {pre : List Str} {l : List (Str × Val)} {k : Str} {args : List Str}, k ∈ subNames → Leads toolOptions pre k l →
      (∀ b, (b! "h", Val.bool b) ∉ l) → b! "-h" ∈ args →
      (program A w old (pre ++ k :: args)).1 = ⟨w, [old], [], usageText k, .ok⟩ ∧
      (program A w old (pre ++ k :: args)).2.status = 0) := by
  have h0 := ((C76_tidy_partial (ε := Unit) [()] (fin := .ok) (by intro s; simp)).2.1).mpr rfl
  constructor
  · intro pre rest l1 l2 hr hw hh
    have hrun : run A w old (pre ++ rest) = ⟨w, [old], [], fullUsage, .ok⟩ := by
      simp only [run, C66_help hr hw hh]
    simp only [program, hrun]
    exact ⟨trivial, h0⟩
  · intro pre l k args hk hw hh ha
    have hrun : run A w old (pre ++ k :: args) = ⟨w, [old], [], usageText k, .ok⟩ := by
      simp only [run, (C52_sub hk (Or.inr hw) hh args).2 ha]
    simp only [program, hrun]
    exact ⟨trivial, h0⟩

/-- **C88** (the generated file).  Only packing and `list` touch the generated file. -/
theorem C88_untouched (A : Around S) (w : Stdos.World S) (old : Option Str) (args : List Str)
    (h1 : ∀ out incs, route args ≠ .pack out incs) (h2 : ∀ args', route args ≠ .sub (b! "list") args') :
    (run A w old args).states = [old] := by
  unfold run
  cases hr : route args with
  | exit => rfl
  | usage => rfl
  | unknown t => rfl
  | subUsage n => rfl
  | pack out incs => exact absurd hr (h1 out incs)
  | sub name args' =>
    have hne : name ≠ b! "list" := by
      rintro rfl
      exact h2 args' hr
    simp only [execSub, if_neg hne]
    split
    · cases pathCmd A.env w.here args' <;> rfl
    · split
      · cases parseCmd A.env A.tool (A.disk old) args' <;> rfl
      · split
        · rfl
        · split <;> rfl

/-- The options of the tool and of each sub-command, as they are read. -/
def optionsOf (set : Str) : Str → Option Flag.Kind :=
  if set = b! "pkger" then toolOptions else if set = b! "list" then listOptions
  else if set = b! "path" ∨ set = b! "parse" then helpOptions else options []

/-- The statement of **C88** about usage: usage shows, for the tool and for each sub-command, exactly the options there
are. -/
def C88_statement : Prop :=
  ∀ set ∈ b! "pkger" :: subNames, ∀ n, (∃ d ∈ flagDocs set, d.name = n) ↔ (optionsOf set n).isSome

/-- **C88 is false** of `serve`: usage shows an option `-exclude`, but the arguments of `serve` are not read as options. -/
theorem C88_exclude_refuted : ¬ C88_statement := by
  intro h
  have := (h (b! "serve") (by decide) (b! "exclude")).mp ⟨⟨b! "exclude", _, _⟩, List.mem_singleton.mpr rfl, rfl⟩
  revert this
  decide

/-- What happens instead: the option is taken for what is to be served. -/
example : route [b! "serve", b! "-exclude", b! "x", b! "/a"] = .sub (b! "serve") [b! "-exclude", b! "x", b! "/a"] ∧
    (run (around (Demo.program []) takeAll) atHome none [b! "serve", b! "-exclude", b! "x", b! "/a"]).out = [] ∧
    (run (around (Demo.program []) takeAll) atHome none [b! "serve", b! "/-exclude", b! "x", b! "/a"]).out =
      b! "app:/-exclude\n" := by decide +kernel

/-- **C88** (usage; missing: `serve`, see `C88_exclude_refuted`).  Usage shows exactly the options there are, with the values
they have if they are not given. -/
theorem C88_usage_partial (set : Str) (hs : set ∈ b! "pkger" :: subNames) (hne : set ≠ b! "serve") (n : Str) :
    ((∃ d ∈ flagDocs set, d.name = n) ↔ (optionsOf set n).isSome) ∧
    ∀ d ∈ flagDocs set, (optionsOf set d.name = some .bool → d.dflt = b! "false") ∧
      (optionsOf set d.name = some .text → d.dflt = if d.name = b! "o" then [] else b! "[]") := by
  have key : ∀ (table : List (Str × Flag.Kind)) (docs : List FlagDoc), (∀ n, n ∈ docs.map (·.name) ↔ n ∈ table.map (·.1)) →
      ((∃ d ∈ docs, d.name = n) ↔ (options table n).isSome) := by
    intro table docs h
    have h1 : (∃ d ∈ docs, d.name = n) ↔ n ∈ docs.map (·.name) := by simp
    rw [h1, h n]
    unfold options
    rw [Option.isSome_map, List.find?_isSome]
    simp
  simp only [subNames, List.mem_cons, List.not_mem_nil, or_false] at hs
  rcases hs with rfl | rfl | rfl | rfl | rfl | rfl | rfl
  · exact ⟨key _ (flagDocs (b! "pkger")) (by intro n; simp [flagDocs]; constructor <;> (rintro (h | h | h) <;> simp [h])), by decide⟩
  · exact absurd rfl hne
  · exact ⟨key [] (flagDocs (b! "stat")) (by intro n; simp [flagDocs]), by decide⟩
  · exact ⟨key [] (flagDocs (b! "info")) (by intro n; simp [flagDocs]), by decide⟩
  · exact ⟨key _ (flagDocs (b! "path")) (by intro n; simp [flagDocs]), by decide⟩
  · exact ⟨key _ (flagDocs (b! "parse")) (by intro n; simp [flagDocs]), by decide⟩
  · exact ⟨key _ (flagDocs (b! "list")) (by intro n; simp [flagDocs]; constructor <;> (rintro (h | h) <;> simp [h])), by decide⟩

/-- **C88** (usage).  The usage of each sub-command starts with how it is called and has a line for each option shown; the
whole usage contains those of the tool and of every sub-command. -/
theorem C88_shown :
    (∀ k ∈ subNames, b! "pkger " ++ k ++ b! " [flags] [args...]\n" <+: usageText k ∧ usageText k <:+: fullUsage) ∧
    usageText (b! "pkger") <:+: fullUsage ∧
    ∀ set, ∀ d ∈ flagDocs set, b! "\t-" ++ d.name ++ b! "\t" ++ d.usage <:+: usageText set := by
  refine ⟨?_, ?_, ?_⟩
  · intro k hk
    have hne : k ≠ b! "pkger" := by
      rintro rfl
      revert hk
      decide
    refine ⟨?_, ?_⟩
    · unfold usageText
      rw [if_neg hne]
      exact ⟨((flagDocs k).map fun f =>
        b! "\t-" ++ f.name ++ b! "\t" ++ f.usage ++ b! " (\"" ++ f.dflt ++ b! "\")\n").flatten ++ [10],
        by simp only [List.append_assoc]⟩
    · have hk' : k ∈ subs := (mem_sortBy id _ k).mpr hk
      obtain ⟨a, b, e⟩ := List.append_of_mem hk'
      unfold fullUsage
      rw [e, List.map_append, List.map_cons, List.flatten_append, List.flatten_cons]
      exact ⟨b! "Usage:\n\n" ++ usageText (b! "pkger") ++ (a.map usageText).flatten, (b.map usageText).flatten,
        by simp only [List.append_assoc]⟩
  · exact ⟨b! "Usage:\n\n", _, by unfold fullUsage; rfl⟩
  · intro set d hd
    unfold usageText
    obtain ⟨a, b, e⟩ := List.append_of_mem hd
    rw [e, List.map_append, List.map_cons, List.flatten_append, List.flatten_cons]
    refine ⟨(if set = b! "pkger" then [] else b! "pkger ") ++ set ++ b! " [flags] [args...]\n" ++
      (a.map fun f => b! "\t-" ++ f.name ++ b! "\t" ++ f.usage ++ b! " (\"" ++ f.dflt ++ b! "\")\n").flatten,
      b! " (\"" ++ d.dflt ++ b! "\")\n" ++
        (b.map fun f => b! "\t-" ++ f.name ++ b! "\t" ++ f.usage ++ b! " (\"" ++ f.dflt ++ b! "\")\n").flatten ++ [10], ?_⟩
    simp only [List.append_assoc]

/-- The usage of `list`. -/
example : usageText (b! "list") = b! "pkger list [flags] [args...]\n\t-include\tpackages the specified file or directory (\"[]\")\n\t-json\tprints in JSON format (\"false\")\n\n" := by
  decide

/-- The hypotheses of the theorems above are met. -/
example : b! "lst" ∉ subNames ∧ Leads toolOptions [] (b! "lst") [] ∧ Leads toolOptions [] (b! "list") [] ∧
    (∀ l rest, ¬ Given toolOptions [b! "-x"] l rest) ∧
    (∀ out incs, route [b! "stat", b! "/a"] ≠ .pack out incs) ∧
    (∀ args', route [b! "stat", b! "/a"] ≠ .sub (b! "list") args') := by
  have h1 : route [b! "stat", b! "/a"] = .sub (b! "stat") [b! "/a"] := by decide +kernel
  refine ⟨by decide, Or.inl ⟨.nil, by decide⟩, Or.inl ⟨.nil, by decide⟩, ?_, ?_, ?_⟩
  · intro l rest h
    have := (C66_options toolOptions [b! "-x"] l rest).mpr h
    have h2 : parse toolOptions [b! "-x"] = .exit := by decide +kernel
    rw [h2] at this
    cases this
  · intro out incs; rw [h1]; simp
  · intro args'; rw [h1]; simp

/-! ### `serve` (C89) -/

theorem run_serve {A : Around S} {w : Stdos.World S} {old : Option Str} {args0 args : List Str}
    (hr : route args0 = .sub (b! "serve") args) :
    run A w old args0 = match serveCmd A.env A.host A.listen w args with | (w', out, _) => ⟨w', [old], out, [], .err⟩ := by
  rw [run_sub hr]
  unfold execSub
  rw [if_neg (by decide), if_neg (by decide), if_neg (by decide), if_neg (by decide), if_neg (by decide)]

/-- **C89** (serving).  If the first argument names what is on the disk (the package's directory if there is none),
`pkger serve` prints its path and hands the opened entry to the server; when that stops, the file is closed, so that
exactly the files are open that were open before or that the server left open, and the program ends with status 1. -/
theorem C89_serve {A : Around S} (P : Posix A.host I disk) {w : Stdos.World S} (hok : P.ok w.host) (old : Option Str)
    {args0 args : List Str} (hr : route args0 = .sub (b! "serve") args) {k : Node}
    (ha : Finds A.env P w (args.headD (b! ".")) (some k))
    (hlis : ∀ f w1, P.ok w1.host → P.ok (A.listen f w1).1.host ∧ ∀ g, P.holds w1.host g ≠ none →
      P.holds (A.listen f w1).1.host g = P.holds w1.host g) :
    ∃ p f w1, A.env.parse w.here (args.headD (b! ".")) = .ok p ∧ f.path = p ∧ P.holds w.host f.fd = none ∧
      P.holds w1.host f.fd = some (k, 0) ∧ (∀ g, g ≠ f.fd → P.holds w1.host g = P.holds w.host g) ∧
      (run A w old args0).out = p.str ++ [10] ∧ (run A w old args0).states = [old] ∧
      (program A w old args0).2.status = 1 ∧ P.holds (run A w old args0).world.host f.fd = none ∧
      ∀ g, g ≠ f.fd → P.holds (run A w old args0).world.host g = P.holds (A.listen f w1).1.host g := by
  obtain ⟨w1, f, e1, e2, e3, e4, e5, e6, e7, e8, e9⟩ := open_found A.env P hok ha
  obtain ⟨q1, q2⟩ := hlis f w1 e4
  have hh : P.holds (A.listen f w1).1.host f.fd = some (k, 0) := by
    rw [q2 f.fd (by rw [e8]; simp)]
    exact e8
  obtain ⟨h', c1, c2, c3, c4⟩ := P.close (A.listen f w1).1.host f.fd (k, 0) q1 hh
  have hd : (orDot args).headD [] = args.headD (b! ".") := by
    cases args with
    | nil => rfl
    | cons a l => simp [orDot]
  have hrun : run A w old args0 =
      ⟨{ (A.listen f w1).1 with host := h' }, [old], f.path.str ++ [10], [], .err⟩ := by
    rw [run_serve hr]
    unfold serveCmd
    rw [hd, e1]
    simp only [Stdos.closeFile, c1]
  refine ⟨f.path, f, w1, e6, rfl, e7, e8, e9, by rw [hrun], by rw [hrun], ?_, by rw [hrun]; exact c3, ?_⟩
  · have := (C76_tidy_partial (ε := Unit) [()] (fin := .err) (by intro s; simp)).2.2 (by simp)
    simp only [program, hrun, Go.Ran.status]
    rw [this]
  · intro g hg
    rw [hrun]
    exact c4 g hg

/-- **C89** (nothing to serve).  If the first argument names nothing on the disk, nothing is printed, the server is not
started, no file is left open, and the program ends with status 1. -/
theorem C89_missing {A : Around S} (P : Posix A.host I disk) {w : Stdos.World S} (hok : P.ok w.host) (old : Option Str)
    {args0 args : List Str} (hr : route args0 = .sub (b! "serve") args) (ha : Misses A.env P w (args.headD (b! "."))) :
    ∃ w', (∀ listen, run { A with listen := listen } w old args0 = ⟨w', [old], [], [], .err⟩) ∧ P.ok w'.host ∧
      P.holds w'.host = P.holds w.host ∧ (program A w old args0).2.status = 1 := by
  obtain ⟨w', e, e1, e2, e3⟩ := open_missing A.env P hok ha
  have hd : (orDot args).headD [] = args.headD (b! ".") := by
    cases args with
    | nil => rfl
    | cons a l => simp [orDot]
  have hrun : ∀ listen, run { A with listen := listen } w old args0 = ⟨w', [old], [], [], .err⟩ := by
    intro listen
    rw [run_serve (A := { A with listen := listen }) hr]
    unfold serveCmd
    simp only
    rw [hd, e1]
  refine ⟨w', hrun, e2, e3, ?_⟩
  have := (C76_tidy_partial (ε := Unit) [()] (fin := .err) (by intro s; simp)).2.2 (by simp)
  have hr' := hrun A.listen
  simp only [program, hr', Go.Ran.status]
  rw [this]

/-- **C89** (with requests).  If the server answers these requests, one after the other, and then stops, then whatever
`pkger serve` is asked, the answer is as it should be for the files there, and in the end exactly the files are open that
were open before. -/
theorem C89_requests_partial {A : Around S} (P : Posix A.host I disk) {C : Http.Server} (hC : C.Ok) {c : Info} (hl : ParseLaws A.env c)
    {m : List Str} {w : Stdos.World S} (h : DiskClient.Own P c m w) (hok : P.ok w.host) (old : Option Str) {args0 args ds : List Str}
    (hr : route args0 = .sub (b! "serve") args)
    (hp : A.env.parse c (args.headD (b! ".")) = .ok ⟨c.module.path, GoPath.mk ds⟩) (hg : GoPath.Good ds) {site : Node}
    (hsite : disk.find (m ++ ds) = some site) (hw : Disk.Node.WF site) (hn : Site.Named site) {rs : List Http.Request}
    (hrs : ∀ r ∈ rs, Ordered c ds r ∧ ¬ Site.BelowFile disk (m ++ (ds ++ elemsOf r))) {e : Err}
    (hlis : A.listen = fun f w1 => ((DiskClient.serveAll A.env A.host I C .handle [f] rs w1).1, e)) :
    (∃ f w1, (DiskClient.serveAll A.env A.host I C .handle [f] rs w1).2 = rs.map (Site.answer site) ∧
      Stdos.openFile A.env A.host w (args.headD (b! ".")) = (w1, .ok f)) ∧
    (run A w old args0).out = Path.str ⟨c.module.path, GoPath.mk ds⟩ ++ [10] ∧
    P.holds (run A w old args0).world.host = P.holds w.host := by
  obtain ⟨root, hroot, hdir⟩ := h.root
  have hf : Finds A.env P w (args.headD (b! ".")) (some site) :=
    ⟨c.module.path, ds, root, m, by rw [h.here]; exact hp, hg, hroot, hdir, h.good, hsite⟩
  obtain ⟨w1, f, e1, e2, e3, e4, e5, e6, e7, e8, e9⟩ := open_found A.env P hok hf
  have hpath : f.path = ⟨c.module.path, GoPath.mk ds⟩ := by
    rw [h.here, hp] at e6
    exact (Except.ok.inj e6).symm
  obtain ⟨w2, q1, q2⟩ := serveAll_exec A.env P hC hl (src := .handle) (fs := [f]) ⟨f, rfl, by rw [hpath]⟩ hg hsite hw hn rs
    (h.left e2 e3) e4 hrs
  obtain ⟨h', c1, c2, c3, c4⟩ := P.close w2.host f.fd (site, 0) q2.ok (by rw [q2.rest _ (Or.inl rfl)]; exact e8)
  have hd : (orDot args).headD [] = args.headD (b! ".") := by
    cases args with
    | nil => rfl
    | cons a l => simp [orDot]
  have hrun : run A w old args0 = ⟨{ w2 with host := h' }, [old], f.path.str ++ [10], [], .err⟩ := by
    rw [run_serve hr]
    unfold serveCmd
    rw [hd, e1]
    simp only [hlis, q1, Stdos.closeFile, c1]
  refine ⟨⟨f, w1, by rw [q1], e1⟩, by rw [hrun, hpath], ?_⟩
  rw [hrun]
  funext g
  by_cases hgf : g = f.fd
  · subst hgf
    rw [e7]
    exact c3
  · simp only
    rw [c4 g hgf, q2.rest _ (Or.inl rfl), e9 g hgf]

/-- The hypotheses are met: serving `/www` of the demo package, and what is not there. -/
example : route [b! "serve", b! "/www"] = .sub (b! "serve") [b! "/www"] ∧
    Finds Demo.env (Site.posix (siteDisk siteApp)) siteStdos (b! "/www") ((siteDisk siteApp).find [b! "src", b! "app", b! "www"]) ∧
    ((siteDisk siteApp).find [b! "src", b! "app", b! "www"]).isSome = true ∧
    Misses Demo.env (Site.posix (siteDisk siteApp)) siteStdos (b! "/nope") ∧
    (run (siteAround siteApp) siteStdos none [b! "serve", b! "/www"]).out = b! "app:/www\n" ∧
    (run (siteAround siteApp) siteStdos none [b! "serve", b! "/nope"]).out = [] :=
  ⟨by decide +kernel, site_finds (es := [b! "www"]) (by decide +kernel) (by decide) rfl, by decide +kernel,
    Or.inr (Or.inr (site_finds (es := [b! "nope"]) (by decide +kernel) (by decide) rfl)), by decide +kernel, by decide +kernel⟩

end Props
end Verif
