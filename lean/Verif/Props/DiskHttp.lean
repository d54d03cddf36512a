import Verif.Lemmas.DiskHttp
import Verif.Props.Agree
import Verif.Spec.SiteDemo

/-! C82, C83: serving files from the disk, and the same answers from embedded files. -/

namespace Verif
namespace Props

open Spec Site
open Disk (Node)
open Disk.Node (tree WF)
open Http (Server Request Resp Source)
open DiskClient (Io Own Serves)
open Mem Pack Client
open Stdos (Host)

/-- The elements of the path a request asks for. -/
def elemsOf (r : Request) : List Str := GoPath.rootedElems (rootedPath r.path)

/-- The request is for a path below `/d₁/.../dₙ` without special characters; its ranges are ranges of the file. -/
structure Ordered (c : Info) (ds : List Str) (r : Request) : Prop where
  ranges : RequestOk r
  path : Ordinary c (GoPath.mk (ds ++ elemsOf r))
  index : Ordinary c (GoPath.mk (ds ++ (elemsOf r ++ [b! "index.html"])))

variable {S : Type} {O : Host S} {I : Io S} {disk : Node}

/-! ### C82 -/

/-- **C82** (one request).  The operating system shows the files of `disk`; the package, at the root of its module or
below, is in the module at `/m₁/.../mₙ`, as the Pkger remembers or as the Go tool says.  What is in its `/d₁/.../dₙ` is served, through a handle or as `pkger.Dir`.  Every request is answered as
it should be for the files there, whatever the sizes of buffers and however few bytes are read at a time, except that
a path below a regular file is answered with 500.  All files that were open are as before, and no others are open,
except with `pkger.Dir`. -/
theorem C82_request (E : Env) (P : Posix O I disk) {C : Server} (hC : C.Ok) {c : Info} (hl : ParseLaws E c)
    {m : List Str} {w : Stdos.World S} (h : Own P c m w) (hok : P.ok w.host) {src : Source} {fs : List Stdos.File} {ds : List Str}
    (hs : Serves E c fs ds src) (hg : GoPath.Good ds) {site : Node} (hsite : disk.find (m ++ ds) = some site)
    (hw : WF site) (hn : Named site) {r : Request} (hr : Ordered c ds r) :
    ∃ w' fs' resp, DiskClient.exec E O I (Http.serve C src r) w fs = (w', fs', resp) ∧
      (¬ BelowFile disk (m ++ (ds ++ elemsOf r)) → resp = answer site r) ∧
      (BelowFile disk (m ++ (ds ++ elemsOf r)) → Str.hasSuffix (rootedPath r.path) (b! "/index.html") = false →
        resp = .status 500) ∧
      Own P c m w' ∧ P.ok w'.host ∧
      ∀ fd, (src = .handle ∨ P.holds w.host fd ≠ none) → P.holds w'.host fd = P.holds w.host fd := by
  obtain ⟨w', fs', resp, h1, h2, h3, h4⟩ :=
    DiskClient.serve_exec E P hC hr.ranges hl h hok hs hsite hw hn hg hr.path hr.index
  exact ⟨w', fs', resp, h1, h3, h4, h.left h2.here h2.infos, h2.ok, h2.rest⟩

theorem serveAll_exec (E : Env) (P : Posix O I disk) {C : Server} (hC : C.Ok) {c : Info} (hl : ParseLaws E c)
    {m : List Str} {src : Source} {fs : List Stdos.File} {ds : List Str}
    (hs : Serves E c fs ds src) (hg : GoPath.Good ds) {site : Node} (hsite : disk.find (m ++ ds) = some site)
    (hw : WF site) (hn : Named site) : ∀ (rs : List Request) {w : Stdos.World S}, Own P c m w → P.ok w.host →
    (∀ r ∈ rs, Ordered c ds r ∧ ¬ BelowFile disk (m ++ (ds ++ elemsOf r))) →
    ∃ w', DiskClient.serveAll E O I C src fs rs w = (w', rs.map (answer site)) ∧ DiskClient.Left P src w w'
  | [], w, h, hok, _ => ⟨w, rfl, DiskClient.Left.refl hok⟩
  | r :: rs, w, h, hok, hrs => by
    obtain ⟨hr, hb⟩ := hrs r (by simp)
    obtain ⟨w1, fs1, resp, h1, h2, h3, _⟩ :=
      DiskClient.serve_exec E P hC hr.ranges hl h hok hs hsite hw hn hg hr.path hr.index
    obtain ⟨w2, q1, q2⟩ := serveAll_exec E P hC hl hs hg hsite hw hn rs (h.left h2.here h2.infos) h2.ok
      (fun r hr => hrs r (List.mem_cons_of_mem _ hr))
    refine ⟨w2, ?_, h2.trans q2⟩
    simp only [DiskClient.serveAll, h1, q1, List.map_cons]
    rw [h3 hb]

/-- The argument names an entry of the disk, or none: as far as is known, its package's directory is there. -/
def Finds (E : Env) (P : Posix O I disk) (w : Stdos.World S) (a : Str) (k : Option Node) : Prop :=
  ∃ pkg es her m, E.parse w.here a = .ok ⟨pkg, GoPath.mk es⟩ ∧ GoPath.Good es ∧ P.told w pkg = .ok her ∧
    her.dir = GoPath.mk m ∧ GoPath.Good m ∧ disk.find (m ++ es) = k

/-- The argument names nothing: it is no path, nothing is known of its package, or there is no such entry. -/
def Misses (E : Env) (P : Posix O I disk) (w : Stdos.World S) (a : Str) : Prop :=
  (∃ e, E.parse w.here a = .error e) ∨ (∃ p e, E.parse w.here a = .ok p ∧ P.told w p.pkg = .error e) ∨ Finds E P w a none

theorem Finds.keep {E : Env} {P : Posix O I disk} {w w' : Stdos.World S} {a : Str} {k : Option Node} (h : Finds E P w a k)
    (h1 : w'.here = w.here) (h2 : ∀ p, P.told w' p = P.told w p) : Finds E P w' a k := by
  simp only [Finds, h1, h2]
  exact h

theorem Misses.keep {E : Env} {P : Posix O I disk} {w w' : Stdos.World S} {a : Str} (h : Misses E P w a)
    (h1 : w'.here = w.here) (h2 : ∀ p, P.told w' p = P.told w p) : Misses E P w' a := by
  rcases h with h | h | h
  · exact Or.inl (by rw [h1]; exact h)
  · exact Or.inr (Or.inl (by simp only [h1, h2]; exact h))
  · exact Or.inr (Or.inr (h.keep h1 h2))

theorem open_found (E : Env) (P : Posix O I disk) {w : Stdos.World S} (hok : P.ok w.host) {a : Str} {k : Node}
    (h : Finds E P w a (some k)) :
    ∃ w' f, Stdos.openFile E O w a = (w', .ok f) ∧ w'.here = w.here ∧ (∀ p, P.told w' p = P.told w p) ∧ P.ok w'.host ∧
      f.info = some k.details ∧ E.parse w.here a = .ok f.path ∧ P.holds w.host f.fd = none ∧
      P.holds w'.host f.fd = some (k, 0) ∧ ∀ g, g ≠ f.fd → P.holds w'.host g = P.holds w.host g := by
  obtain ⟨pkg, es, her, m, h1, h2, h3, h4, h5, h6⟩ := h
  obtain ⟨w0, i1, i2, i3, i4, i5⟩ := DiskClient.info_told P hok pkg
  rw [h3] at i1
  have hloc : Stdos.locate E O w a = (w0, .ok (⟨pkg, GoPath.mk es⟩, her)) :=
    Stdos.locate_of (pt := ⟨pkg, GoPath.mk es⟩) h1 i1
  have hj : GoPath.join2 her.dir (GoPath.mk es) = GoPath.mk (m ++ es) := by rw [h4]; exact GoPath.join2_mk h5 h2
  obtain ⟨h', fd, e1, e2, e3, e4, e5⟩ := P.openThere w0.host (m ++ es) k i4 (GoPath.good_append.mpr ⟨h5, h2⟩) h6
  obtain ⟨h'', q1, q2, q3⟩ := P.fstat h' fd k 0 e2 e4
  refine ⟨{ w0 with host := h'' }, ⟨fd, some (Mem.newFileInfo k.details), her, ⟨pkg, GoPath.mk es⟩⟩, ?_, i2, i3, q2, rfl, h1,
    by rw [← i5]; exact e3, ?_, ?_⟩
  · simp [Stdos.openFile, hloc, hj, e1, Stdos.wrapFile, q1]
  · simp only [q3]; exact e4
  · intro g hg
    simp only [q3]
    rw [e5 g hg, i5]

theorem open_missing (E : Env) (P : Posix O I disk) {w : Stdos.World S} (hok : P.ok w.host) {a : Str}
    (h : Misses E P w a) :
    ∃ w' e, Stdos.openFile E O w a = (w', .error e) ∧ P.ok w'.host ∧ P.holds w'.host = P.holds w.host := by
  rcases h with ⟨e, h1⟩ | ⟨p, e, h1, h2⟩ | ⟨pkg, es, her, m, h1, h2, h3, h4, h5, h6⟩
  · exact ⟨w, e, by simp [Stdos.openFile, Stdos.locate, Stdos.parse, h1], hok, rfl⟩
  · obtain ⟨w0, i1, i2, i3, i4, i5⟩ := DiskClient.info_told P hok p.pkg
    rw [h2] at i1
    exact ⟨w0, e, by simp [Stdos.openFile, Stdos.locate, Stdos.parse, h1, i1], i4, i5⟩
  obtain ⟨w0, i1, i2, i3, i4, i5⟩ := DiskClient.info_told P hok pkg
  rw [h3] at i1
  have hloc : Stdos.locate E O w a = (w0, .ok (⟨pkg, GoPath.mk es⟩, her)) :=
    Stdos.locate_of (pt := ⟨pkg, GoPath.mk es⟩) h1 i1
  have hj : GoPath.join2 her.dir (GoPath.mk es) = GoPath.mk (m ++ es) := by rw [h4]; exact GoPath.join2_mk h5 h2
  obtain ⟨h', e, e1, e2, e3, _⟩ := P.openAbsent w0.host (m ++ es) i4 (GoPath.good_append.mpr ⟨h5, h2⟩) h6
  exact ⟨{ w0 with host := h' }, e, by simp [Stdos.openFile, hloc, hj, e1], e2, e3.trans i5⟩

/-- The statement of **C82** for `pkger serve`: if the argument names `/d₁/.../dₙ` of a package of which it is known that its
directory is `/p₁/.../pₙ`, all requests, one after the other, are answered as they should be for the files there, and in
the end exactly the files are open that were open before. -/
def C82_statement (E : Env) : Prop :=
  ∀ (S : Type) (O : Host S) (I : Io S) (disk : Node) (P : Posix O I disk) (C : Server) (c : Info) (m : List Str)
    (w : Stdos.World S) (args : List Str) (pkg : Str) (her : Info) (p ds : List Str) (site : Node) (rs : List Request),
    C.Ok → ParseLaws E c → Own P c m w → P.ok w.host → E.parse c (args.headD (b! ".")) = .ok ⟨pkg, GoPath.mk ds⟩ → GoPath.Good ds →
    P.told w pkg = .ok her → her.dir = GoPath.mk p → GoPath.Good p → disk.find (p ++ ds) = some site → WF site → Named site →
    (∀ r ∈ rs, Ordered c ds r ∧ ¬ BelowFile disk (p ++ (ds ++ elemsOf r))) →
    ∃ w', DiskClient.serveCmd E O I C w args rs = (w', .ok (rs.map (answer site))) ∧ P.ok w'.host ∧
      P.holds w'.host = P.holds w.host

/-- **C82** (`pkger serve`, what happens).  If the argument names `/d₁/.../dₙ` of any package, where there is something, all
requests, one after the other, are answered as they should be for the files in `/d₁/.../dₙ` of the *own* module, since a
file forgets its package when it opens another (pkging/stdos/file.go:47-54).  In the end exactly the files are open that were
open before. -/
theorem C82_any_package (E : Env) (P : Posix O I disk) {C : Server} (hC : C.Ok) {c : Info} (hl : ParseLaws E c)
    {m : List Str} {w : Stdos.World S} (h : Own P c m w) (hok : P.ok w.host) {args : List Str} {pkg : Str} {her : Info}
    {p ds : List Str} (hp : E.parse c (args.headD (b! ".")) = .ok ⟨pkg, GoPath.mk ds⟩) (hg : GoPath.Good ds)
    (hher : P.told w pkg = .ok her) (hdir : her.dir = GoPath.mk p) (hgp : GoPath.Good p)
    {there : Node} (hthere : disk.find (p ++ ds) = some there)
    {site : Node} (hsite : disk.find (m ++ ds) = some site) (hw : WF site) (hn : Named site) {rs : List Request}
    (hrs : ∀ r ∈ rs, Ordered c ds r ∧ ¬ BelowFile disk (m ++ (ds ++ elemsOf r))) :
    ∃ w', DiskClient.serveCmd E O I C w args rs = (w', .ok (rs.map (answer site))) ∧ P.ok w'.host ∧
      P.holds w'.host = P.holds w.host := by
  have hf : Finds E P w (args.headD (b! ".")) (some there) :=
    ⟨pkg, ds, her, p, by rw [h.here]; exact hp, hg, hher, hdir, hgp, hthere⟩
  obtain ⟨w1, f, e1, e2, e3, e4, e5, e6, e7, e8, e9⟩ := open_found E P hok hf
  have hpath : f.path = ⟨pkg, GoPath.mk ds⟩ := by
    rw [h.here, hp] at e6
    exact (Except.ok.inj e6).symm
  obtain ⟨w2, q1, q2⟩ := serveAll_exec E P hC hl (src := .handle) (fs := [f]) ⟨f, rfl, by rw [hpath]⟩ hg hsite hw hn rs
    (h.left e2 e3) e4 hrs
  obtain ⟨h', c1, c2, c3, c4⟩ := P.close w2.host f.fd (there, 0) q2.ok (by rw [q2.rest _ (Or.inl rfl)]; exact e8)
  refine ⟨{ w2 with host := h' }, ?_, c2, ?_⟩
  · simp only [DiskClient.serveCmd, e1, q1, Stdos.closeFile, c1]
  · funext g
    by_cases hgf : g = f.fd
    · subst hgf
      rw [e7]
      exact c3
    · simp only
      rw [c4 g hgf, q2.rest _ (Or.inl rfl), e9 g hgf]

/-- **C82** (`pkger serve`; missing: directories of other packages, of which it is false, see `C82_refuted`).  If the argument
names `/d₁/.../dₙ` of the own module, which is there, all requests, one after the other, are answered as they should be, and
in the end exactly the files are open that were open before. -/
theorem C82_serve_partial (E : Env) (P : Posix O I disk) {C : Server} (hC : C.Ok) {c : Info} (hl : ParseLaws E c)
    {m : List Str} {w : Stdos.World S} (h : Own P c m w) (hok : P.ok w.host) {args : List Str} {ds : List Str}
    (hp : E.parse c (args.headD (b! ".")) = .ok ⟨c.module.path, GoPath.mk ds⟩) (hg : GoPath.Good ds)
    {site : Node} (hsite : disk.find (m ++ ds) = some site) (hw : WF site) (hn : Named site) {rs : List Request}
    (hrs : ∀ r ∈ rs, Ordered c ds r ∧ ¬ BelowFile disk (m ++ (ds ++ elemsOf r))) :
    ∃ w', DiskClient.serveCmd E O I C w args rs = (w', .ok (rs.map (answer site))) ∧ P.ok w'.host ∧
      P.holds w'.host = P.holds w.host := by
  obtain ⟨r, h1, h2⟩ := h.root
  exact C82_any_package E P hC hl h hok hp hg h1 h2 h.good hsite hsite hw hn hrs

/-- **C82** (`pkger serve`).  If the argument names nothing, the command fails with the error of opening it. -/
theorem C82_serve_missing (E : Env) (P : Posix O I disk) (C : Server) {w : Stdos.World S} (hok : P.ok w.host) {args : List Str}
    (h : Misses E P w (args.headD (b! "."))) (rs : List Request) :
    ∃ w' e, DiskClient.serveCmd E O I C w args rs = (w', .error e) ∧ (Stdos.openFile E O w (args.headD (b! "."))).2 = .error e ∧
      P.ok w'.host ∧ P.holds w'.host = P.holds w.host := by
  obtain ⟨w1, e, e1, e2, e3⟩ := open_missing E P hok h
  exact ⟨w1, e, by simp only [DiskClient.serveCmd, e1], by rw [e1], e2, e3⟩

/-! ### C83 -/

/-- What an embedded Pkger stores below a declared path. -/
theorem Mirrors.lookup {E : Env} {c : Info} (hl : ParseLaws E c) {root : Node} {rel : List Str} {w : Mem.World}
    (hm : Mirrors E c root rel w) (hgood : ∀ es k, root.find es = some k → GoPath.Good es ∧ Ordinary c (GoPath.mk es))
    {cs : List Str} {k : Node} (hk : root.find (rel ++ cs) = some k) :
    ∃ f, Mem.lookup w ⟨c.module.path, GoPath.mk (rel ++ cs)⟩ = some f ∧ f.info = some k.details ∧ f.bytes = k.data := by
  have h1 := hm.has cs k hk
  obtain ⟨hg, ho⟩ := hgood _ k hk
  rw [openView_eq, hm.start.here, ho.parse hl, GoPath.rootedElems_mk hg] at h1
  simp only at h1
  cases hlk : Mem.lookup w ⟨c.module.path, GoPath.mk (rel ++ cs)⟩ with
  | none => rw [hlk] at h1; cases h1
  | some f =>
    rw [hlk] at h1
    simp only at h1
    cases hi : f.info with
    | none => rw [hi] at h1; cases h1
    | some d =>
      rw [hi] at h1
      simp only [Res.ok.injEq, Prod.mk.injEq] at h1
      exact ⟨f, rfl, by rw [hi, h1.1], h1.2⟩

theorem Mirrors.stored_iff {E : Env} {c : Info} (hl : ParseLaws E c) {root : Node} {rel : List Str} {w : Mem.World}
    (hm : Mirrors E c root rel w) (hgood : ∀ es k, root.find es = some k → GoPath.Good es ∧ Ordinary c (GoPath.mk es))
    {cs : List Str} (hg : GoPath.Good (rel ++ cs)) :
    Stored w ⟨c.module.path, GoPath.mk (rel ++ cs)⟩ ↔ (root.find (rel ++ cs)).isSome := by
  constructor
  · intro hst
    obtain ⟨es, k, h1, h2⟩ := hm.only _ hst
    have := GoPath.mk_injective hg (b := es) (hgood es k h1).1 (congrArg Path.name h2)
    rw [this, h1]
    rfl
  · intro hs
    obtain ⟨k, hk⟩ := Option.isSome_iff_exists.mp hs
    obtain ⟨f, hf, _⟩ := hm.lookup hl hgood hk
    exact stored_iff_lookup.mpr ⟨f, hf⟩

/-- No entry of the module has a path that starts with the same letters as one of the directories at or below `es`
without being below it. -/
def Separate (root : Node) (es : List Str) : Prop :=
  ∀ p k, root.find p = some k → k.isDir = true → es <+: p →
    ∀ q k', root.find q = some k' → GoPath.mk p <+: GoPath.mk q → p <+: q

theorem kid_find {d : Details} {kids : List (Str × Node)} (hw : WF (.dir d kids)) {e : Str × Node} :
    e ∈ kids ↔ (Node.dir d kids).find [e.1] = some e.2 := by
  constructor
  · intro he
    simp only [Node.find]
    cases hf : kids.find? (fun x => x.1 == e.1) with
    | none =>
      have := List.find?_eq_none.mp hf e he
      simp at this
    | some x =>
      have hx := List.mem_of_find?_eq_some hf
      have hxe := List.find?_some hf
      simp only [beq_iff_eq] at hxe
      have := DiskClient.nodup_key (fun x : Str × Node => x.1) hw.1 x hx e he hxe
      subst this
      cases x with
      | mk a b => cases b <;> rfl
  · intro hf
    simp only [Node.find] at hf
    cases hx : kids.find? (fun x => x.1 == e.1) with
    | none => rw [hx] at hf; cases hf
    | some x =>
      rw [hx] at hf
      obtain ⟨a, b⟩ := x
      have hm := List.mem_of_find?_eq_some hx
      have hxe := List.find?_some hx
      simp only [beq_iff_eq] at hxe
      have hbe : b = e.2 := by cases b <;> simpa [Node.find] using hf
      have : e = (a, b) := by rw [hbe]; exact Prod.ext hxe.symm rfl
      rw [this]; exact hm

/-- The children of a directory, as an embedded Pkger stores them. -/
theorem Mirrors.child_iff {E : Env} {c : Info} (hl : ParseLaws E c) {root : Node} (hwr : WF root) {rel : List Str}
    {w : Mem.World} (hm : Mirrors E c root rel w)
    (hgood : ∀ es k, root.find es = some k → GoPath.Good es ∧ Ordinary c (GoPath.mk es)) {cs : List Str} {d : Details}
    {kids : List (Str × Node)} (hk : root.find (rel ++ cs) = some (.dir d kids)) (q : Path) :
    (Stored w q ∧ IsParent ⟨c.module.path, GoPath.mk (rel ++ cs)⟩ q) ↔
      ∃ e ∈ kids, q = ⟨c.module.path, GoPath.mk (rel ++ cs ++ [e.1])⟩ := by
  have hwk : WF (.dir d kids) := Disk.find_wf _ hwr hk
  have hg := (hgood _ _ hk).1
  constructor
  · rintro ⟨hst, hp, xs, x, hx1, hx2, hx3⟩
    obtain ⟨es, k, h1, h2⟩ := hm.only _ hst
    have e1 := GoPath.mk_injective hg (b := xs) (GoPath.good_append.mp hx1).1 hx2
    subst e1
    have e2 := GoPath.mk_injective hx1 (b := es) (hgood es k h1).1 (by rw [← hx3, h2])
    subst e2
    rw [Disk.find_append, hk] at h1
    exact ⟨(x, k), (kid_find hwk).mpr h1, h2⟩
  · rintro ⟨e, he, rfl⟩
    have hf : root.find (rel ++ (cs ++ [e.1])) = some e.2 := by
      rw [← List.append_assoc, Disk.find_append, hk]
      exact (kid_find hwk).mp he
    obtain ⟨f, hf1, _⟩ := hm.lookup hl hgood hf
    refine ⟨stored_iff_lookup.mpr ⟨f, by rw [List.append_assoc]; exact hf1⟩, rfl, rel ++ cs, e.1, ?_, rfl, rfl⟩
    rw [List.append_assoc]
    exact (hgood _ _ hf).1

/-- `Readdir` is right for the directories of an embedded Pkger whose names are far enough apart. -/
theorem Mirrors.listable {E : Env} {c : Info} (hl : ParseLaws E c) (ho : InfoOk c) {root : Node} {rel : List Str}
    {w : Mem.World} (hm : Mirrors E c root rel w)
    (hgood : ∀ es k, root.find es = some k → GoPath.Good es ∧ Ordinary c (GoPath.mk es))
    (hplain : ∀ es k, root.find es = some k → Plain es ∧ Clear c (GoPath.mk es)) {cs : List Str} {k : Node}
    (hkind : ∀ es k, root.find es = some k → k.details.isDir = k.isDir)
    (hk : root.find (rel ++ cs) = some k) (hd : k.isDir = true) (hsep : Separate root (rel ++ cs)) :
    Listable E w ⟨c.module.path, GoPath.mk (rel ++ cs)⟩ := by
  have hback : ∀ es k, root.find es = some k →
      E.parse c (Path.str ⟨c.module.path, GoPath.mk es⟩) = .ok ⟨c.module.path, GoPath.mk es⟩ := by
    intro es k hes
    obtain ⟨h1, h2⟩ := hplain es k hes
    have hpne : c.module.path ≠ [] := by
      intro h
      have := ho.modulePlain.1
      rw [h] at this
      exact this (by decide)
    have := hl.qualified _ _ ho.modulePlain h1 h2
    unfold Path.str
    rw [if_neg hpne, if_neg (by simp [GoPath.mk])]
    exact this
  have hg := (hgood _ _ hk).1
  -- directories on the way
  have hup : ∀ a b n, root.find (a ++ b) = some n → b ≠ [] → ∃ d kids, root.find a = some (.dir d kids) := by
    intro a b n hf hb
    rw [Disk.find_append] at hf
    cases ha : root.find a with
    | none => rw [ha] at hf; cases hf
    | some n =>
      rw [ha] at hf
      cases n with
      | dir d kids => exact ⟨d, kids, rfl⟩
      | file d x =>
        cases b with
        | nil => exact absurd rfl hb
        | cons b bs => simp [Node.find] at hf
  refine ⟨?_, ?_, ?_, ?_, ?_⟩
  · intro q hq _
    obtain ⟨es, k', h1, rfl⟩ := hm.only q hq
    rw [hm.start.here]
    exact hback es k' h1
  · rw [hm.start.here]; exact hback _ _ hk
  · intro q hq _ hpre
    obtain ⟨es, k', h1, rfl⟩ := hm.only q hq
    obtain ⟨t, rfl⟩ := hsep _ _ hk hd (List.prefix_refl _) es k' h1 hpre
    exact ⟨rel ++ cs, t, (hgood _ _ h1).1, rfl, rfl⟩
  · intro xs x ys hx hgx hy hst
    have e1 := GoPath.mk_injective hg (b := xs) (GoPath.good_append.mp hgx).1 hx
    subst e1
    have hst' : Stored w ⟨c.module.path, GoPath.mk (rel ++ (cs ++ x :: ys))⟩ := by rw [← List.append_assoc]; exact hst
    have hgx' : GoPath.Good (rel ++ (cs ++ x :: ys)) := by rw [← List.append_assoc]; exact hgx
    obtain ⟨k', hk'⟩ := Option.isSome_iff_exists.mp ((hm.stored_iff hl hgood hgx').mp hst')
    have hsplit : rel ++ (cs ++ x :: ys) = (rel ++ (cs ++ [x])) ++ ys := by simp
    rw [hsplit] at hk'
    obtain ⟨d', kids', hd'⟩ := hup _ _ _ hk' hy
    obtain ⟨f, hf, hfi, _⟩ := hm.lookup hl hgood hd'
    have hfi' : f.info = some d' := hfi
    refine ⟨d', ⟨f, by rw [List.append_assoc]; exact hf, hfi'⟩, ?_⟩
    exact hkind _ _ hd'
  · rintro a b d' ⟨pa, xs, x, hx1, hx2, hx3⟩ ⟨pb, ys, y, hy1, hy2, hy3⟩ hda hdir hst hpre
    have e1 := GoPath.mk_injective hg (b := xs) (GoPath.good_append.mp hx1).1 hx2
    have e2 := GoPath.mk_injective hg (b := ys) (GoPath.good_append.mp hy1).1 hy2
    subst e1
    subst e2
    have ea : a = ⟨c.module.path, GoPath.mk (rel ++ (cs ++ [x]))⟩ := by
      rw [← List.append_assoc]; cases a; simp only at pa hx3; rw [pa, hx3]
    have eb : b = ⟨c.module.path, GoPath.mk (rel ++ (cs ++ [y]))⟩ := by
      rw [← List.append_assoc]; cases b; simp only at pb hy3; rw [pb, hy3]
    have gx : GoPath.Good (rel ++ (cs ++ [x])) := by rw [← List.append_assoc]; exact hx1
    have gy : GoPath.Good (rel ++ (cs ++ [y])) := by rw [← List.append_assoc]; exact hy1
    obtain ⟨ka, hka⟩ := Option.isSome_iff_exists.mp ((hm.stored_iff hl hgood gx).mp (ea ▸ HasDetails.stored hda))
    obtain ⟨kb, hkb⟩ := Option.isSome_iff_exists.mp ((hm.stored_iff hl hgood gy).mp (eb ▸ hst))
    obtain ⟨f, hf, hfi, _⟩ := hm.lookup hl hgood hka
    have hdk : d' = ka.details := HasDetails.unique hda (ea ▸ ⟨f, hf, hfi⟩)
    rw [hdk, hkind _ _ hka] at hdir
    rw [ea, eb] at hpre
    have hp := hsep _ _ hka hdir (by rw [← List.append_assoc]; exact List.prefix_append _ _) _ _ hkb hpre
    have : rel ++ (cs ++ [x]) = rel ++ (cs ++ [y]) := hp.eq_of_length (by simp)
    rw [ea, eb, this]

/-! #### The same file server on an embedded Pkger -/

theorem mem_serveContent (E : Env) {C : Server} (hC : C.Ok) {r : Request} (hr : RequestOk r) {w : Mem.World} {hs : List Nat}
    {k id : Nat} (hk : hs[k]? = some id) {content : Str} (h : AtPos (w.heap id) content 0) {d : Details}
    (hsize : d.size = content.length) :
    ((Http.serveContent C r k d).exec E w hs).2.2 = fileAnswer r d content := by
  unfold fileAnswer
  cases hcond : r.cond d.modTime with
  | some code => simp [Http.serveContent, hcond]
  | none =>
    cases hrs : r.ranges d.modTime d.size with
    | ok rs =>
      refine serveContent_exec E hC hk h hsize hcond hrs ?_
      have := hr _ _ rs hrs
      rw [hsize] at this
      simpa using this
    | bad =>
      simp only [Http.serveContent, hcond]
      have hbad : ∀ w, ((Http.sendContent C r k d).exec E w hs).2.2 = .status 416 := by
        intro w; simp [Http.sendContent, hrs]
      by_cases ht : C.typed d.name = true
      · rw [if_pos ht]; exact hbad w
      · rw [if_neg ht]
        obtain ⟨w1, b, pos1, e1, e2⟩ := Http.readFull_exec E hk 512 512 h
        obtain ⟨e3, e4⟩ := Http.seek_atPos e2 (Int.le_refl 0) (by omega)
        simp only [Prog.exec_bind, e1, Http.exec_seekStart E hk, e4]
        exact hbad _

/-- The entries of a directory of an embedded Pkger. -/
theorem mem_listing (E : Env) {c : Info} (hl : ParseLaws E c) (ho : InfoOk c) {root : Node}
    (hwr : WF root) {rel : List Str} {w0 w : Mem.World} (hm : Mirrors E c root rel w0)
    (hgood : ∀ es k, root.find es = some k → GoPath.Good es ∧ Ordinary c (GoPath.mk es))
    (hplain : ∀ es k, root.find es = some k → Plain es ∧ Clear c (GoPath.mk es))
    (hnamed : Named root) (hlat : Later E w0 w) {cs : List Str} {d : Details} {kids : List (Str × Node)}
    (hk : root.find (rel ++ cs) = some (.dir d kids)) (hsep : Separate root (rel ++ cs)) {h : Nat}
    (hdh : DirHandle E c w h ⟨c.module.path, GoPath.mk (rel ++ cs)⟩) :
    ∃ infos, Mem.readdir E w h (-1) = .ok infos ∧ infos.Perm (kids.map (·.2.details)) := by
  have hkind : ∀ es k, root.find es = some k → k.details.isDir = k.isDir :=
    fun es k hf => DiskClient.named_isDir (DiskClient.named_find _ hnamed hf)
  have hwf := hm.start.inv.wf
  have hg := (hgood _ _ hk).1
  have hc : CleanNames w0 c.module.path := by
    intro q hq _
    obtain ⟨es, k, h1, rfl⟩ := hm.only q hq
    exact ⟨es, (hgood es k h1).1, rfl⟩
  have hlist := hm.listable hl ho hgood hplain hkind hk rfl hsep
  obtain ⟨qs, infos, p1, p2, p3⟩ := C26_readdir_children_partial E (count := -1) hdh (CleanNames.grow hlat.grows hc)
    ⟨_, hg, rfl⟩ (Listable.grow hlat.grows hwf hlist) (by decide)
  refine ⟨infos, p2, ?_⟩
  have hwk : WF (.dir d kids) := Disk.find_wf _ hwr hk
  -- the stored children are the entries of the directory
  have hqs : qs.Perm (kids.map fun e => (⟨c.module.path, GoPath.mk (rel ++ cs ++ [e.1])⟩ : Path)) := by
    refine (List.perm_ext_iff_of_nodup ?_ ?_).mpr ?_
    · refine p1.order.imp ?_
      intro a b hlt he
      rw [Str.lt_iff, he] at hlt
      exact hlt.2 rfl
    · rw [List.Nodup, List.pairwise_map]
      have := hwk.1
      rw [List.Nodup, List.pairwise_map] at this
      refine List.Pairwise.imp_of_mem ?_ this
      intro a b ha hb hab he
      have gf : ∀ e ∈ kids, GoPath.Good (rel ++ cs ++ [e.1]) := by
        intro e he
        refine (hgood _ e.2 ?_).1
        rw [Disk.find_append, hk]
        exact (kid_find hwk).mp he
      have := GoPath.mk_injective (gf a ha) (b := rel ++ cs ++ [b.1]) (gf b hb) (congrArg Path.name he)
      have := List.append_cancel_left this
      exact hab (by simpa using this)
    · intro q
      rw [p1.mem q, hlat.grows.stored, hm.child_iff hl hwr hgood hk q, List.mem_map]
      exact ⟨fun ⟨e, h1, h2⟩ => ⟨e, h1, h2.symm⟩, fun ⟨e, h1, h2⟩ => ⟨e, h1, h2.symm⟩⟩
  have hent : ∀ e ∈ kids, entry w ⟨c.module.path, GoPath.mk (rel ++ cs ++ [e.1])⟩ = some e.2.details := by
    intro e he
    have hf : root.find (rel ++ (cs ++ [e.1])) = some e.2 := by
      rw [← List.append_assoc, Disk.find_append, hk]
      exact (kid_find hwk).mp he
    obtain ⟨f, hf1, hf2, _⟩ := hm.lookup hl hgood hf
    unfold entry
    rw [hlat.grows.lookup hwf, List.append_assoc, hf1]
    exact hf2
  have h1 : (infos.map some).Perm ((kids.map (·.2.details)).map some) := by
    rw [p3]
    refine (hqs.map (entry w)).trans ?_
    rw [List.map_map, List.map_map]
    have : kids.map (entry w ∘ fun e => (⟨c.module.path, GoPath.mk (rel ++ cs ++ [e.1])⟩ : Path)) =
        kids.map (some ∘ fun e => e.2.details) := List.map_congr_left hent
    rw [this]
  have h2 := h1.filterMap id
  simpa [List.filterMap_map, Function.comp_def] using h2

theorem mem_page (E : Env) {C : Server} {r : Request} {c : Info} (hl : ParseLaws E c) (ho : InfoOk c) {root : Node}
    (hwr : WF root) {rel : List Str} {w0 w : Mem.World} (hm : Mirrors E c root rel w0)
    (hgood : ∀ es k, root.find es = some k → GoPath.Good es ∧ Ordinary c (GoPath.mk es))
    (hplain : ∀ es k, root.find es = some k → Plain es ∧ Clear c (GoPath.mk es))
    (hnamed : Named root) (hlat : Later E w0 w) {cs : List Str} {d : Details} {kids : List (Str × Node)}
    (hk : root.find (rel ++ cs) = some (.dir d kids)) (hsep : Separate root (rel ++ cs)) {hs : List Nat} {j h : Nat}
    (hj : hs[j]? = some h) (hdh : DirHandle E c w h ⟨c.module.path, GoPath.mk (rel ++ cs)⟩) :
    ((Http.finish C r j d).exec E w hs).2.2 = pageAnswer r d kids := by
  have hnk := DiskClient.named_find _ hnamed hk
  have hdir : d.isDir = true := DiskClient.named_isDir hnk
  unfold Http.finish pageAnswer
  rw [if_pos hdir]
  cases hcond : r.cond d.modTime with
  | some code => rfl
  | none =>
    obtain ⟨infos, p2, p3⟩ := mem_listing E hl ho hwr hm hgood hplain hnamed hlat hk hsep hdh
    simp only [Http.dirList, Prog.exec_bind, Http.exec_readdir E hj, p2, Prog.exec_pure]
    exact congrArg Resp.page (DiskClient.links_eq hnk (Disk.find_wf _ hwr hk).1 p3)

/-- The answer of the file server on an embedded Pkger. -/
theorem mem_answer (E : Env) {C : Server} (hC : C.Ok) {r : Request} (hr : RequestOk r) {c : Info} (hl : ParseLaws E c)
    (ho : InfoOk c) {root : Node} (hwr : WF root) {rel : List Str} {w0 w : Mem.World} (hm : Mirrors E c root rel w0)
    (hlat : Later E w0 w)
    (hgood : ∀ es k, root.find es = some k → GoPath.Good es ∧ Ordinary c (GoPath.mk es))
    (hplain : ∀ es k, root.find es = some k → Plain es ∧ Clear c (GoPath.mk es)) (hnamed : Named root)
    {ds : List Str} {site : Node} (hsite : root.find (rel ++ ds) = some site) (hsep : Separate root (rel ++ ds))
    {hs : List Nat} {hi : Info} {src : Source} (hsv : Serving E c w hs c.module.path (rel ++ ds) hi src)
    (hw : Wanted c hi (rel ++ ds) (elemsOf r)) (hw' : Wanted c hi (rel ++ ds) (elemsOf r ++ [b! "index.html"])) :
    ((Http.serve C src r).exec E w hs).2.2 = answer site r := by
  have hfind : ∀ cs, root.find (rel ++ (ds ++ cs)) = site.find cs := by
    intro cs; rw [← List.append_assoc, Disk.find_append, hsite]
  have hgd := (hgood _ _ hsite).1
  have hwf0 : Mem.WF w0 := hm.start.inv.wf
  unfold answer
  by_cases hsuf : Str.hasSuffix (rootedPath r.path) (b! "/index.html") = true
  · rw [exec_serve]
    have : Str.hasSuffix (rootedPath r.path) Http.indexPage = true := hsuf
    simp [Http.serveFile, this, hsuf]
  have hidx : Str.hasSuffix (rootedPath r.path) Http.indexPage = false := Bool.eq_false_iff.mpr hsuf
  simp only [hsuf]
  unfold elemsOf at hw hw'
  cases hf : site.find (GoPath.rootedElems (rootedPath r.path)) with
  | none =>
    refine serve_missing E hsv hw hidx ?_
    rw [hlat.grows.stored, List.append_assoc, hm.stored_iff hl hgood (by
      rw [← List.append_assoc]; exact GoPath.good_append.mpr ⟨hgd, GoPath.good_rootedElems _⟩), hfind, hf]
    simp
  | some k =>
    have hfk : root.find (rel ++ (ds ++ GoPath.rootedElems (rootedPath r.path))) = some k := (hfind _).trans hf
    obtain ⟨f, hlk, hfi, hfb⟩ := hm.lookup hl hgood hfk
    rw [← List.append_assoc, ← hlat.grows.lookup hwf0] at hlk
    have hnk := DiskClient.named_find _ hnamed hfk
    have hkind := DiskClient.named_isDir hnk
    cases k with
    | file d b =>
      cases hnk with
      | file _ _ h1 h2 =>
        have hdir : d.isDir = false := h1
        obtain ⟨w1, hs1, r1, e1, _, _, _, e5⟩ := openBy_spec E hsv hw
        obtain ⟨j, h, rfl, hop⟩ := e5 f d hlk hfi
        rw [exec_serve]
        unfold Http.serveFile
        simp only [hidx, Bool.false_eq_true, if_false, Prog.exec_bind, e1, Http.exec_stat E hop.at_ hop.info, Prog.exec_pure]
        unfold Http.serveOpened
        by_cases hsl : (rootedPath r.path).getLast? = some Str.slash
        · simp [hdir, hsl]
        · simp only [hdir, Bool.false_eq_true, false_and, true_and, if_false, if_neg hsl]
          unfold Http.finish
          simp only [hdir, Bool.false_eq_true, if_false]
          have hat := hop.file hdir
          have hfb' : f.bytes = b := hfb
          rw [hfb'] at hat
          exact mem_serveContent E hC hr hop.at_ hat h2
    | dir d kids =>
      have hdir : d.isDir = true := hkind
      by_cases hsl : (rootedPath r.path).getLast? = some Str.slash
      · simp only [if_pos hsl]
        obtain ⟨w1, hs1, j, h, e1, e2, e3, e4, e5, e⟩ := serve_dir_open E (S := C) hsv hw hidx hlk hfi hdir
        rw [e]
        obtain ⟨w2, hs2, r2, q1, q2, q3, q4, q5⟩ := openBy_spec E e2 hw'
        unfold Http.serveOpened
        rw [index_name hw.plain.good]
        simp only [Node.details, hdir, hsl, ne_eq, not_true_eq_false, and_false, if_false, Bool.true_eq_false, false_and, if_true,
          Prog.exec_bind, q1]
        have hix : root.find (rel ++ (ds ++ (GoPath.rootedElems (rootedPath r.path) ++ [b! "index.html"]))) =
            (Node.dir d kids).find [b! "index.html"] := by
          rw [hfind, Disk.find_append, hf]
        cases hx : (Node.dir d kids).find [b! "index.html"] with
        | none =>
          have hns : ¬ Stored w1 ⟨c.module.path, GoPath.mk (rel ++ ds ++ (GoPath.rootedElems (rootedPath r.path) ++
              [b! "index.html"]))⟩ := by
            rw [(hlat.trans e1).grows.stored, List.append_assoc, hm.stored_iff hl hgood (by
              rw [← List.append_assoc]; exact GoPath.good_append.mpr ⟨hgd, hw'.plain.good⟩), hix, hx]
            simp
          have := q4 hns
          subst this
          simp only
          have hdh : DirHandle E c w2 h ⟨c.module.path, GoPath.mk (rel ++ (ds ++ GoPath.rootedElems (rootedPath r.path)))⟩ := by
            rw [← List.append_assoc]
            exact Http.DirHandle.grow e5 q2.grows (q2.held e5.held)
          exact mem_page E hl ho hwr hm hgood hplain hnamed ((hlat.trans e1).trans q2) hfk
            (fun p k h1 h2 h3 => hsep p k h1 h2 (by
              rw [← List.append_assoc] at h3; exact (List.prefix_append _ _).trans h3)) (q3 j h e3) hdh
        | some n =>
          rw [hx] at hix
          obtain ⟨f2, hlk2, hfi2, hfb2⟩ := hm.lookup hl hgood hix
          rw [← List.append_assoc, ← (hlat.trans e1).grows.lookup hwf0] at hlk2
          obtain ⟨j2, h2, rfl, hop⟩ := q5 f2 n.details hlk2 hfi2
          simp only [Prog.exec_bind, Http.exec_stat E hop.at_ hop.info]
          have hnn := DiskClient.named_find _ hnamed hix
          cases n with
          | file d2 b2 =>
            cases hnn with
            | file _ _ g1 g2 =>
              have hat := hop.file g1
              have hfb' : f2.bytes = b2 := hfb2
              rw [hfb'] at hat
              have := mem_serveContent E hC hr hop.at_ hat g2
              unfold Http.finish
              have g1' : (Node.file d2 b2).details.isDir = false := g1
              simp only [g1', Bool.false_eq_true, if_false, found, Prog.exec_pure]
              exact this
          | dir d2 kids2 =>
            have g1 : d2.isDir = true := DiskClient.named_isDir hnn
            have hdh := hop.dir g1
            rw [List.append_assoc] at hdh
            have := mem_page E (C := C) (r := r) hl ho hwr hm hgood hplain hnamed ((hlat.trans e1).trans q2) hix
              (fun p k h1 h2 h3 => hsep p k h1 h2 (by
                rw [← List.append_assoc] at h3; exact (List.prefix_append _ _).trans h3)) hop.at_ hdh
            simp only [found, Bool.false_eq_true, if_false, Prog.exec_pure]
            exact this
      · simp only [if_neg hsl]
        exact C74_redirect_partial E hsv hw hidx ⟨f, hlk, hfi⟩ hdir hsl

/-- Both Pkgers of a package that is the root of its module, in `/m₁/.../mₙ`: `u` on the disk, and `v`, a later state of
the one that was loaded from the embedded files of `rel` and below.  Both serve the directory `/d₁/.../dₙ`. -/
structure Twins (E : Env) (P : Posix O I disk) (c : Info) (m : List Str) (root : Node) (rel : List Str) (hi : Info)
    (ds : List Str) (src : Source) (u : Stdos.World S) (fs : List Stdos.File) (v : Mem.World) (hs : List Nat) : Prop where
  laws : ParseLaws E c
  infoOk : InfoOk c
  wf : WF root
  named : Named root
  names : ∀ es k, root.find es = some k → Plain es ∧ Clear c (GoPath.mk es)
  found : disk.find m = some root
  own : Own P c m u
  ok : P.ok u.host
  serves : Serves E c fs ds src
  loaded : ∃ v0, Mirrors E c root rel v0 ∧ Later E v0 v
  serving : Serving E c v hs c.module.path ds hi src

/-- The request is for a path that both kinds of Pkger treat alike. -/
structure Fair (c hi : Info) (root : Node) (ds : List Str) (r : Request) : Prop where
  ranges : RequestOk r
  path : Wanted c hi ds (elemsOf r)
  index : Wanted c hi ds (elemsOf r ++ [b! "index.html"])
  notBelow : ¬ BelowFile root (ds ++ elemsOf r)

theorem belowFile_root {disk root : Node} {m es : List Str} (hr : disk.find m = some root) (hd : root.isDir = true) :
    BelowFile disk (m ++ es) → BelowFile root es := by
  rintro ⟨a, b, n, h1, h2, h3, h4⟩
  rcases List.append_eq_append_iff.mp h1 with ⟨a', h5, h6⟩ | ⟨a', h5, h6⟩
  · subst h5
    rw [Disk.find_append, hr] at h3
    exact ⟨a', b, n, h6, h2, h3, h4⟩
  · subst h5
    rw [Disk.find_append, h3] at hr
    cases n with
    | dir d kids => simp [Node.isDir] at h4
    | file d data =>
      cases a' with
      | nil =>
        simp only [Node.find, Option.some.injEq] at hr
        rw [← hr] at hd
        cases hd
      | cons x xs => simp [Node.find] at hr

theorem find_isDir {root : Node} {es : List Str} {k : Node} (h : root.find es = some k) (hd : k.isDir = true) :
    root.isDir = true := by
  cases root with
  | dir d kids => rfl
  | file d b =>
    cases es with
    | nil => simp only [Node.find, Option.some.injEq] at h; rw [← h] at hd; exact hd
    | cons x xs => simp [Node.find] at h

theorem Twins.ordered {E : Env} {P : Posix O I disk} {c : Info} {m : List Str} {root : Node} {rel : List Str} {hi : Info}
    {ds : List Str} {src : Source} {u : Stdos.World S} {fs : List Stdos.File} {v : Mem.World} {hs : List Nat}
    (_h : Twins E P c m root rel hi ds src u fs v hs) (hp : Plain ds) {r : Request} (hr : Fair c hi root ds r) :
    Ordered c ds r := by
  refine ⟨hr.ranges, ordinary_mk (plain_append.mpr ⟨hp, hr.path.plain⟩).ord hr.path.clear,
    ordinary_mk (plain_append.mpr ⟨hp, hr.index.plain⟩).ord hr.index.clear⟩

/-- **C83** (one request, what holds).  Both Pkgers serve the same directory.  Every request, except for what is below a
regular file and for the directory's own path, gets from both the answer it should get, provided that no name in the
module starts with the letters of a served directory's path without being below it.  (Missing: these cases, for which it
is false, see the theorems below.) -/
theorem C83_request_partial {E : Env} {P : Posix O I disk} {C : Server} (hC : C.Ok) {c : Info} {m : List Str} {root : Node}
    {rel : List Str} {hi : Info} {ds : List Str} {src : Source} {u : Stdos.World S} {fs : List Stdos.File}
    {v : Mem.World} {hs : List Nat} (h : Twins E P c m root rel hi (rel ++ ds) src u fs v hs)
    {site : Node} (hsite : root.find (rel ++ ds) = some site) (hd : site.isDir = true)
    (hsep : Separate root (rel ++ ds)) {r : Request} (hr : Fair c hi root (rel ++ ds) r) :
    (DiskClient.exec E O I (Http.serve C src r) u fs).2.2 = answer site r ∧
    ((Http.serve C src r).exec E v hs).2.2 = answer site r := by
  obtain ⟨v0, hm, hlat⟩ := h.loaded
  have hgood : ∀ es k, root.find es = some k → GoPath.Good es ∧ Ordinary c (GoPath.mk es) := fun es k hf =>
    ⟨(h.names es k hf).1.good, ordinary_mk (h.names es k hf).1.ord (h.names es k hf).2⟩
  have hpl := (h.names _ _ hsite).1
  refine ⟨?_, mem_answer E hC hr.ranges h.laws h.infoOk h.wf hm hlat hgood h.names h.named hsite hsep h.serving hr.path
    hr.index⟩
  obtain ⟨w', fs', resp, e1, e2, _⟩ := C82_request E P hC h.laws h.own h.ok h.serves hpl.good
    (by rw [Disk.find_append, h.found]; exact hsite) (Disk.find_wf _ h.wf hsite) (DiskClient.named_find _ h.named hsite)
    (h.ordered hpl hr)
  rw [e1]
  exact e2 fun hb => hr.notBelow (belowFile_root h.found (find_isDir hsite hd) hb)

/-- A handle of a directory that can be served as `pkger.Dir` can be served. -/
theorem serving_opened (E : Env) {i : Info} {w : Mem.World} {hs : List Nat} {m : Str} {ds : List Str} {hi : Info} {name : Str}
    (hsv : Serving E i w hs m ds hi (.dir name)) :
    ∃ w1 h, Mem.openFile E w name = (w1, .ok h) ∧ Later E w w1 ∧ Serving E i w1 [h] m ds hi .handle := by
  obtain ⟨hr, hp, hpl, hpk, hl, hl', hm, f0, d0, hf0, hd0, hdir0, hh0⟩ := hsv
  have hwf := hr.inv.wf
  have hhere := hr.here
  subst hhere
  obtain ⟨w1, h, ho, hobj⟩ := openFile_of_lookup hp hf0 hd0
  have hlat : Later E w w1 := by have := later_openFile E w name; rw [ho] at this; exact this
  obtain ⟨pt, i0, dd, q1, q2, q3, q4, q5⟩ := openFile_ok ho
  have hpath : f0.path = ⟨m, GoPath.mk ds⟩ := by
    unfold Mem.lookup at hf0
    cases hg : AMap.get w.files ⟨m, GoPath.mk ds⟩ with
    | none => rw [hg] at hf0; cases hf0
    | some j =>
      rw [hg] at hf0
      simp only [Option.map_some, Option.some.injEq] at hf0
      rw [← hf0]
      exact (hwf.bound _ j hg).2.1
  have hlook : Mem.lookup w1 ⟨m, GoPath.mk ds⟩ = some f0 := by rw [hlat.grows.lookup hwf]; exact hf0
  have hstep : step E w (.openFile name) = w1 := by simp [step, ho]
  have hheld : Held E w.here w1 h := by
    rw [← hstep]
    refine hr.held (o := .openFile name) trivial (by rw [q4]; exact Nat.le_refl _) ?_
    rw [hstep, q5, q4]
    simp [alloc]
  refine ⟨w1, h, ho, hlat, h, rfl, by rw [hobj]; exact hh0, ⟨hheld, by rw [hobj]; exact hpath, Or.inr ?_⟩,
    by rw [hobj]; simpa [openedObj, hh0] using hm,
    ⟨d0, by rw [hobj]; rfl, ⟨f0, hlook, hd0⟩, hdir0⟩, hpl, hpk, hl, by rw [hobj]; simpa [openedObj, hh0] using hl'⟩
  rw [hobj]
  simp [openedObj, Path.zero, GoPath.mk]

/-- **C83** (a packaged program, what holds).  The program is packaged as in C79 and loaded.  It serves a directory at
or below a path it declares, as `pkger.Dir` or through a handle.  Every such request gets the answer it should get, from
any operating system that shows the files that were packaged and from the embedded files, whatever has been opened
before.  (Missing: the cases of `C83_request_partial` and those of C79.) -/
theorem C83_program_partial {E : Env} (hs : NoSkip E) (hz : GzipLaw E) {G : Parser.GoTool} {T : Setup} (hsort : Sorts T.sort)
    (hH : Serial.HereLaw T.here id) {ord : AMap Str Serial.EFile → List (Str × Serial.EFile)}
    (hord : Serial.Visits ord) (now : Int) {c : Info} (hl : ParseLaws E c) (ho : InfoOk c) (hw : T.disk.WF)
    (hnode : NodeOk T.disk) {m : List Str} {root : Node} (hmod : OwnModule E c T.disk m root) (hnamed : Named root)
    (htext : ∀ cs k, (cs, k) ∈ root.tree → Serial.DetailsOk T.zone k.details ∧ Utf8.Valid (GoPath.mk cs))
    (hc : Serial.InfoText c) (htool : ∀ her, FromTool E her → Serial.InfoText her)
    {includes : List Str} {decls : List Parser.Decl} (hds : Parser.decls E G T.disk c includes = .ok decls)
    (hown : ∀ d ∈ decls, Names d → ∃ rel, OwnDecl E c m d rel ∧
      ((d.kind ≠ .walk ∧ Creates decls d.value) ∨ (root.find rel).isSome))
    (hnil0 : ¬ Creates decls []) {hi : Info} (hpi : E.pkgInfo c.module.path = .ok hi) (hli : ParseLaws E hi)
    (hmi : hi.module.path = c.module.path) :
    ∃ b w, blob E T c decls = .ok b ∧ Serial.unmarshalEmbed E T.here ord now b = .ok w ∧ Start c w ∧
      ∀ d ∈ decls, Names d → ¬ Creates decls d.value → Kept d.file → ∀ rel, d.value = GoPath.mk rel → Plain rel →
      ∀ name ds site, E.parse c name = .ok ⟨c.module.path, GoPath.mk (rel ++ ds)⟩ → root.find (rel ++ ds) = some site →
        site.isDir = true → Separate root (rel ++ ds) →
      ∀ (C : Server), C.Ok → ∀ (r : Request), Fair c hi root (rel ++ ds) r →
        (∀ (S : Type) (O : Host S) (I : Io S) (P : Posix O I T.disk) (u : Stdos.World S) (fs : List Stdos.File),
          Own P c m u → P.ok u.host →
          (DiskClient.exec E O I (Http.serve C (.dir name) r) u fs).2.2 = answer site r ∧
          ∃ u1 f, Stdos.openFile E O u name = (u1, .ok f) ∧
            (DiskClient.exec E O I (Http.serve C .handle r) u1 [f]).2.2 = answer site r) ∧
        (∀ v hs, Later E w v →
          ((Http.serve C (.dir name) r).exec E v hs).2.2 = answer site r ∧
          ∃ v1 id, Mem.openFile E v name = (v1, .ok id) ∧
            ((Http.serve C .handle r).exec E v1 [id]).2.2 = answer site r) := by
  obtain ⟨b, w, h1, h2, h3, h4, h5, h6⟩ := C79_program_partial hs hz hsort hH hord now hl ho hw hnode hmod htext hc htool hds
    hown hnil0
  have hwr : WF root := Disk.find_wf _ hw hmod.found
  have hgood := hmod.named hwr
  have hplain : ∀ es k, root.find es = some k → Plain es ∧ Clear c (GoPath.mk es) := by
    intro es k hk
    have ht := (Disk.mem_tree_iff _ _ _ hwr).mpr hk
    exact ⟨by simpa using hmod.one.plain es k ht, hmod.clear es k ht⟩
  refine ⟨b, w, h1, h2, h3, ?_⟩
  intro d hd hn hcr hk rel hv hp name ds site hname hsite hdir hsep C hC r hr
  have hmir : Mirrors E c root rel w := ⟨h3, fun cs k hf => h4 d hd hn hcr hk rel hv hp cs k hf, by
    intro q hq
    obtain ⟨d', _, _, rel', cs', k', _, e1, e2⟩ := h5 q hq
    exact ⟨rel' ++ cs', k', e1, e2⟩⟩
  have hpl := (hplain _ _ hsite).1
  have hfound : T.disk.find (m ++ (rel ++ ds)) = some site := by rw [Disk.find_append, hmod.found]; exact hsite
  have hws := Disk.find_wf _ hwr hsite
  have hns := DiskClient.named_find _ hnamed hsite
  have hord : Ordered c (rel ++ ds) r := ⟨hr.ranges, ordinary_mk (plain_append.mpr ⟨hpl, hr.path.plain⟩).ord hr.path.clear,
    ordinary_mk (plain_append.mpr ⟨hpl, hr.index.plain⟩).ord hr.index.clear⟩
  have hnb : ¬ BelowFile T.disk (m ++ (rel ++ ds ++ elemsOf r)) := fun hb => hr.notBelow (belowFile_root hmod.found hmod.isDir hb)
  constructor
  · intro S O I P u fs hu hok
    constructor
    · obtain ⟨w', fs', resp, e1, e2, _⟩ := C82_request E P hC hl hu hok (src := .dir name) (fs := fs) hname hpl.good hfound hws hns hord
      rw [e1]
      exact e2 hnb
    · obtain ⟨u1, f, e1, e2, e3, e4, e5⟩ := (DiskClient.openFile_exec E P .handle hu hok hname hpl.good).2 site hfound
      obtain ⟨w', fs', resp, q1, q2, _⟩ := C82_request E P hC hl (hu.left e2.here e2.infos) e2.ok (src := .handle) (fs := [f])
        ⟨f, rfl, e4⟩ hpl.good hfound hws hns hord
      refine ⟨u1, f, e1, ?_⟩
      rw [q1]
      exact q2 hnb
  · intro v hsv hlat
    obtain ⟨f, hf, hfi, _⟩ := hmir.lookup hl hgood hsite
    have hsd : site.details.isDir = true := by rw [DiskClient.named_isDir hns]; exact hdir
    have hhere : f.here = hi := by
      have := h6 _ f _ hf hfi hsd
      simp only at this
      rw [hpi] at this
      injection this with this
      exact this.symm
    have hserv : Serving E c v hsv c.module.path (rel ++ ds) hi (.dir name) :=
      ⟨hlat.reached ⟨w, [], h3, by simp, rfl⟩, hname, hpl, ho.modulePlain, hl, hli, hmi,
        f, site.details, by rw [hlat.grows.lookup h3.inv.wf]; exact hf, hfi, hsd, hhere⟩
    refine ⟨mem_answer E hC hr.ranges hl ho hwr hmir hlat hgood hplain hnamed hsite hsep hserv hr.path hr.index, ?_⟩
    obtain ⟨v1, id, e1, e2, e3⟩ := serving_opened E hserv
    exact ⟨v1, id, e1, mem_answer E hC hr.ranges hl ho hwr hmir (hlat.trans e2) hgood hplain hnamed hsite hsep e3 hr.path
      hr.index⟩

/-! ### A site -/

/-- A module with a directory to serve: a file, a directory with an index page, one with an empty file, and a file that
has the directory's own name. -/
def siteApp : Str × Node :=
  Demo.dirNode (b! "app") [Demo.dirNode (b! "www")
      [Demo.fileNode (b! "a.txt") (b! "hello"), Demo.dirNode (b! "doc") [Demo.fileNode (b! "index.html") (b! "<p>")],
        Demo.dirNode (b! "img") [Demo.fileNode (b! "empty") []], Demo.fileNode (b! "www") (b! "inner")],
    Demo.fileNode (b! "main.go") (b! "package main")]

/-- A module with a directory to serve in which the name of a directory is the start of another name. -/
def prefixApp : Str × Node :=
  Demo.dirNode (b! "app") [Demo.dirNode (b! "www")
    [Demo.dirNode (b! "img") [Demo.fileNode (b! "empty") []], Demo.fileNode (b! "img2") (b! "x")]]

/-- The disk with the module. -/
def siteDisk (app : Str × Node) : Node := Demo.disk [Demo.dirNode (b! "src") [app]]

/-- A Pkger with all entries of the module, as one gets it from embedded files. -/
def siteMem (app : Str × Node) : Mem.World :=
  { here := Demo.info, infos := AMap.set [] Demo.info.importPath Demo.info,
    files := app.2.tree.zipIdx.map fun e => (⟨b! "app", GoPath.mk e.1.1⟩, e.2),
    heap := fun n => match app.2.tree[n]? with
      | some e => addedObj Demo.info ⟨b! "app", GoPath.mk e.1⟩ e.2
      | none => FileObj.zero,
    next := app.2.tree.length, now := 1000 }

theorem siteMem_mirrors {app : Str × Node} (hw : WF app.2) (hn : NodeOk app.2)
    (h1 : AMap.Nodup (siteMem app).files)
    (h2 : ∀ e ∈ app.2.tree, openView Demo.env (siteMem app) (GoPath.mk e.1) = .ok (e.2.details, e.2.data)) :
    Mirrors Demo.env Demo.info app.2 [] (siteMem app) where
  start := by
    have hin : ∀ q id, AMap.get (siteMem app).files q = some id →
        ∃ e, app.2.tree[id]? = some e ∧ q = ⟨b! "app", GoPath.mk e.1⟩ := by
      intro q id hg
      have := AMap.get_mem hg
      simp only [siteMem, List.mem_map, Prod.mk.injEq] at this
      obtain ⟨⟨e, k⟩, hm, rfl, rfl⟩ := this
      exact ⟨e, List.mem_zipIdx_iff_getElem?.mp hm, rfl⟩
    refine ⟨rfl, ?_, ?_, h1, ?_, ?_⟩
    · exact (Start.new Demo.info 0).infos
    · exact (Start.new Demo.info 0).infosNodup
    · intro q id hg
      obtain ⟨e, he, rfl⟩ := hin q id hg
      refine ⟨(List.getElem?_eq_some_iff.mp he).1, ?_, ?_⟩
      · simp only [siteMem, he, addedObj]
      · exact ⟨newFileInfo e.2.details, by simp only [siteMem, he, addedObj]⟩
    · intro id
      simp only [siteMem]
      cases he : app.2.tree[id]? with
      | none => exact ⟨by intro d h; simp [FileObj.zero] at h, rfl, rfl⟩
      | some e =>
        refine ⟨?_, rfl, rfl⟩
        have hf := fresh_added (nodeOk_find e.1 hn ((Disk.mem_tree_iff e.1 app.2 e.2 hw).mp
          (List.mem_of_getElem? he))) Demo.info ⟨b! "app", GoPath.mk e.1⟩
        exact hf.ok.1
  has := fun cs k hf => h2 (cs, k) ((Disk.mem_tree_iff _ _ _ hw).mpr hf)
  only := by
    rintro q ⟨id, hg⟩
    have := AMap.get_mem hg
    simp only [siteMem, List.mem_map, Prod.mk.injEq] at this
    obtain ⟨⟨e, k⟩, hm, rfl, rfl⟩ := this
    refine ⟨e.1, e.2, (Disk.mem_tree_iff _ _ _ hw).mp ?_, rfl⟩
    exact List.mem_of_getElem? (List.mem_zipIdx_iff_getElem?.mp hm)

/-- The program on the disk, before it opens anything. -/
def siteStdos : Stdos.World Table := Stdos.new Demo.info Table.empty

theorem site_own (disk : Node) : Own (posix disk) Demo.info [b! "src", b! "app"] siteStdos := ⟨rfl, ⟨Demo.info, rfl, rfl⟩, by decide⟩

/-- What has to be checked of a module to serve `/www` both ways. -/
structure SiteOk (app : Str × Node) : Prop where
  wf : WF app.2
  named : Named app.2
  nodeOk : NodeOk app.2
  nodup : AMap.Nodup (siteMem app).files
  view : ∀ e ∈ app.2.tree, openView Demo.env (siteMem app) (GoPath.mk e.1) = .ok (e.2.details, e.2.data)
  plain : ∀ e ∈ app.2.tree, Plain e.1 ∧ Clear Demo.info (GoPath.mk e.1)
  found : (siteDisk app).find [b! "src", b! "app"] = some app.2
  www : ((lookup (siteMem app) ⟨b! "app", b! "/www"⟩).map fun f => (f.info.map (·.isDir), f.here)) =
    some (some true, Demo.info)

theorem site_twins {app : Str × Node} (h : SiteOk app) :
    Twins Demo.env (posix (siteDisk app)) Demo.info [b! "src", b! "app"] app.2 [] Demo.info [b! "www"]
      (.dir (b! "/www")) siteStdos [] (siteMem app) [] where
  laws := Demo.laws
  infoOk := Demo.info_ok
  wf := h.wf
  named := h.named
  names := fun es k hf => h.plain (es, k) ((Disk.mem_tree_iff _ _ _ h.wf).mpr hf)
  found := h.found
  own := site_own _
  ok := fun _ _ => rfl
  serves := by show Demo.env.parse Demo.info (b! "/www") = _; decide +kernel
  loaded := ⟨_, siteMem_mirrors h.wf h.nodeOk h.nodup h.view, Later.refl _ _⟩
  serving := by
    have hm := siteMem_mirrors h.wf h.nodeOk h.nodup h.view
    obtain ⟨f, hf, hfd⟩ := Option.map_eq_some_iff.mp h.www
    simp only [Prod.mk.injEq] at hfd
    obtain ⟨d, hd, hdir⟩ := Option.map_eq_some_iff.mp hfd.1
    exact ⟨⟨_, [], hm.start, by simp, rfl⟩, by decide +kernel, by decide, by decide, Demo.laws, Demo.laws, by decide,
      f, d, hf, hd, hdir, hfd.2⟩

theorem siteApp_ok : SiteOk siteApp where
  wf := by decide +kernel
  named := by
    unfold siteApp Demo.dirNode Demo.fileNode
    repeat' first
      | exact .file _ _ rfl rfl
      | (refine .dir _ _ rfl ?_ ?_ <;> intro e he <;> simp only [List.mem_cons, List.not_mem_nil, or_false] at he)
      | (rcases he with rfl | rfl | rfl | rfl)
      | (rcases he with rfl | rfl)
      | subst he
      | rfl
  nodeOk := by
    unfold siteApp Demo.dirNode Demo.fileNode
    repeat' first
      | exact .file _ _ rfl rfl
      | (refine .dir _ _ rfl ?_; intro e he; simp only [List.mem_cons, List.not_mem_nil, or_false] at he)
      | (rcases he with rfl | rfl | rfl | rfl)
      | (rcases he with rfl | rfl)
      | subst he
  nodup := by unfold AMap.Nodup; decide +kernel
  view := by decide +kernel
  plain := by decide +kernel
  found := rfl
  www := by decide +kernel

theorem prefixApp_ok : SiteOk prefixApp where
  wf := by decide +kernel
  named := by
    unfold prefixApp Demo.dirNode Demo.fileNode
    repeat' first
      | exact .file _ _ rfl rfl
      | (refine .dir _ _ rfl ?_ ?_ <;> intro e he <;> simp only [List.mem_cons, List.not_mem_nil, or_false] at he)
      | (rcases he with rfl | rfl)
      | subst he
      | rfl
  nodeOk := by
    unfold prefixApp Demo.dirNode Demo.fileNode
    repeat' first
      | exact .file _ _ rfl rfl
      | (refine .dir _ _ rfl ?_; intro e he; simp only [List.mem_cons, List.not_mem_nil, or_false] at he)
      | (rcases he with rfl | rfl)
      | subst he
  nodup := by unfold AMap.Nodup; decide +kernel
  view := by decide +kernel
  plain := by decide +kernel
  found := rfl
  www := by decide +kernel

/-- The names of the site are far enough apart. -/
theorem site_separate : Separate siteApp.2 [b! "www"] := by
  intro p k hp hd hpre q k' hq
  have : ∀ e ∈ siteApp.2.tree, e.2.isDir = true → [b! "www"] <+: e.1 → ∀ e' ∈ siteApp.2.tree,
      GoPath.mk e.1 <+: GoPath.mk e'.1 → e.1 <+: e'.1 := by decide +kernel
  exact this (p, k) ((Disk.mem_tree_iff _ _ _ siteApp_ok.wf).mpr hp) hd hpre (q, k')
    ((Disk.mem_tree_iff _ _ _ siteApp_ok.wf).mpr hq)

/-- A request without ranges. -/
theorem getReq_ok (p : Str) : RequestOk (getReq p) := by
  intro t n rs h
  cases h
  intro r hr
  cases hr

/-- **C83** in full: whatever the names of the files and of what is asked for, the file server answers alike on the
disk and on the embedded files. -/
def C83_statement : Prop :=
  ∀ (S : Type) (O : Host S) (I : Io S) (disk : Node) (E : Env) (P : Posix O I disk) (C : Server) (c : Info) (m : List Str)
    (root : Node) (rel : List Str) (hi : Info) (ds : List Str) (src : Source) (u : Stdos.World S) (fs : List Stdos.File)
    (v : Mem.World) (hs : List Nat) (site : Node) (r : Request), C.Ok →
    Twins E P c m root rel hi (rel ++ ds) src u fs v hs → root.find (rel ++ ds) = some site → site.isDir = true →
    RequestOk r → Plain (elemsOf r) → Clear c (GoPath.mk (rel ++ ds ++ elemsOf r)) → Clear hi (GoPath.mk (elemsOf r)) →
    (DiskClient.exec E O I (Http.serve C src r) u fs).2.2 = ((Http.serve C src r).exec E v hs).2.2

/-- What a request for `p` gets from the disk, and from the embedded files. -/
def diskGets (app : Str × Node) (p : Str) : Resp :=
  (DiskClient.exec Demo.env (host (siteDisk app)) io (Http.serve demoServer (.dir (b! "/www")) (getReq p)) siteStdos []).2.2

@[inherit_doc diskGets] def memGets (app : Str × Node) (p : Str) : Resp :=
  ((Http.serve demoServer (.dir (b! "/www")) (getReq p)).exec Demo.env (siteMem app) []).2.2

/-- Two different answers refute the statement. -/
theorem not_C83_of {app : Str × Node} (h : SiteOk app) {site : Node} (hsite : app.2.find [b! "www"] = some site)
    (hd : site.isDir = true) {p : Str} (hp : Plain (elemsOf (getReq p)))
    (hc : Clear Demo.info (GoPath.mk ([b! "www"] ++ elemsOf (getReq p))))
    (hc' : Clear Demo.info (GoPath.mk (elemsOf (getReq p)))) (hne : diskGets app p ≠ memGets app p) : ¬ C83_statement := by
  intro hs
  exact hne (hs Table (host (siteDisk app)) io (siteDisk app) Demo.env (posix (siteDisk app)) demoServer Demo.info
    [b! "src", b! "app"] app.2 [] Demo.info [b! "www"] (.dir (b! "/www")) siteStdos [] (siteMem app) [] site (getReq p)
    demoServer_ok (site_twins h) hsite hd (getReq_ok p) hp hc hc')

/-- **C83 is false** for what is below a regular file: the disk says that there is no directory (500), the embedded files
say that there is nothing (404). -/
theorem C83_below_file_refuted : diskGets siteApp (b! "/a.txt/x") = .status 500 ∧
    memGets siteApp (b! "/a.txt/x") = .status 404 ∧ ¬ C83_statement := by
  have h1 : diskGets siteApp (b! "/a.txt/x") = .status 500 := by decide +kernel
  have h2 : memGets siteApp (b! "/a.txt/x") = .status 404 := by decide +kernel
  refine ⟨h1, h2, not_C83_of siteApp_ok (p := b! "/a.txt/x") rfl rfl (by decide) (by decide) (by decide) ?_⟩
  rw [h1, h2]
  decide

/-- **C83 is false** for the served directory's own path: the disk gives the file `/www/www`, the embedded files give the
directory again (pkging/mem/file.go:176-178). -/
theorem C83_own_path_refuted : diskGets siteApp (b! "/www") = .content 200 5 none (b! "inner") ∧
    memGets siteApp (b! "/www") = .redirect (b! "www/") ∧ ¬ C83_statement := by
  have h1 : diskGets siteApp (b! "/www") = .content 200 5 none (b! "inner") := by decide +kernel
  have h2 : memGets siteApp (b! "/www") = .redirect (b! "www/") := by decide +kernel
  refine ⟨h1, h2, not_C83_of siteApp_ok (p := b! "/www") rfl rfl (by decide) (by decide) (by decide) ?_⟩
  rw [h1, h2]
  decide

/-- **C83 is false** for directories with a name that another name starts with: the embedded files list less. -/
theorem C83_sibling_refuted : diskGets prefixApp (b! "/") = .page [b! "img/", b! "img2"] ∧
    memGets prefixApp (b! "/") = .page [b! "img/"] ∧ ¬ C83_statement := by
  have h1 : diskGets prefixApp (b! "/") = .page [b! "img/", b! "img2"] := by decide +kernel
  have h2 : memGets prefixApp (b! "/") = .page [b! "img/"] := by decide +kernel
  refine ⟨h1, h2, not_C83_of prefixApp_ok (p := b! "/") rfl rfl (by decide) (by decide) (by decide) ?_⟩
  rw [h1, h2]
  decide

/-- The requests of the examples. -/
theorem site_fair : ∀ p ∈ [b! "/", b! "/a.txt", b! "x/..//./doc/", b! "/doc", b! "/img/", b! "/nope/", b! "/a.txt/"],
    Fair Demo.info Demo.info siteApp.2 [b! "www"] (getReq p) := by
  intro p hp
  have h : ∀ p ∈ [b! "/", b! "/a.txt", b! "x/..//./doc/", b! "/doc", b! "/img/", b! "/nope/", b! "/a.txt/"],
      (Plain (elemsOf (getReq p)) ∧ Clear Demo.info (GoPath.mk ([b! "www"] ++ elemsOf (getReq p))) ∧
        Clear Demo.info (GoPath.mk (elemsOf (getReq p))) ∧ (elemsOf (getReq p) = [] ∨ elemsOf (getReq p) ≠ [b! "www"])) ∧
      (Plain (elemsOf (getReq p) ++ [b! "index.html"]) ∧
        Clear Demo.info (GoPath.mk ([b! "www"] ++ (elemsOf (getReq p) ++ [b! "index.html"]))) ∧
        Clear Demo.info (GoPath.mk (elemsOf (getReq p) ++ [b! "index.html"])) ∧
        (elemsOf (getReq p) ++ [b! "index.html"] = [] ∨ elemsOf (getReq p) ++ [b! "index.html"] ≠ [b! "www"])) ∧
      belowFile siteApp.2 ([b! "www"] ++ elemsOf (getReq p)) = false := by decide +kernel
  obtain ⟨⟨a1, a2, a3, a4⟩, ⟨b1, b2, b3, b4⟩, h3⟩ := h p hp
  exact ⟨getReq_ok p, ⟨a1, a2, a3, a4⟩, ⟨b1, b2, b3, b4⟩, by rw [← belowFile_iff, h3]; decide⟩

/-- Cases of `C82_request` and `C83_request_partial`: the answers from the disk and from the embedded files, and what they
are. -/
example :
    (∀ p ∈ [b! "/", b! "/a.txt", b! "x/..//./doc/", b! "/doc", b! "/img/", b! "/nope/", b! "/a.txt/"],
      diskGets siteApp p = memGets siteApp p) ∧
    diskGets siteApp (b! "/") = .page [b! "a.txt", b! "doc/", b! "img/", b! "www"] ∧
    diskGets siteApp (b! "/a.txt") = .content 200 5 none (b! "hello") ∧
    diskGets siteApp (b! "x/..//./doc/") = .content 200 3 none (b! "<p>") ∧
    diskGets siteApp (b! "/doc") = .redirect (b! "doc/") ∧
    diskGets siteApp (b! "/nope/") = .status 404 ∧
    diskGets siteApp (b! "/a.txt/") = .redirect (b! "../a.txt") := by
  refine ⟨?_, by decide +kernel, by decide +kernel, by decide +kernel, by decide +kernel, by decide +kernel, by decide +kernel⟩
  intro p hp
  obtain ⟨h1, h2⟩ := C83_request_partial demoServer_ok (rel := []) (ds := [b! "www"]) (site_twins siteApp_ok) rfl rfl
    site_separate (site_fair p hp)
  exact h1.trans h2.symm

/-- A case of `C82_serve_partial`: `pkger serve /www`, two requests. -/
example : ∃ w', DiskClient.serveCmd Demo.env (host (siteDisk siteApp)) io demoServer siteStdos [b! "/www"]
      [getReq (b! "/a.txt"), getReq (b! "/doc/")] =
        (w', .ok [.content 200 5 none (b! "hello"), .content 200 3 none (b! "<p>")]) ∧
    w'.host.at_ = fun _ => none := by
  have hf : ∀ r ∈ [getReq (b! "/a.txt"), getReq (b! "/doc/")], Ordered Demo.info [b! "www"] r ∧
      ¬ BelowFile (siteDisk siteApp) ([b! "src", b! "app"] ++ ([b! "www"] ++ elemsOf r)) := by
    intro r hr
    simp only [List.mem_cons, List.not_mem_nil, or_false] at hr
    rcases hr with rfl | rfl
    · exact ⟨⟨getReq_ok _, by decide +kernel, by decide +kernel⟩, by rw [← belowFile_iff]; decide +kernel⟩
    · exact ⟨⟨getReq_ok _, by decide +kernel, by decide +kernel⟩, by rw [← belowFile_iff]; decide +kernel⟩
  obtain ⟨w', h1, _, h2⟩ := C82_serve_partial Demo.env (posix (siteDisk siteApp)) demoServer_ok Demo.laws (w := siteStdos) (site_own _)
    (fun _ _ => rfl) (args := [b! "/www"]) (ds := [b! "www"]) (by decide +kernel) (by decide)
    (site := (siteApp.2.find [b! "www"]).get rfl) rfl (by decide +kernel)
    (DiskClient.named_find [b! "www"] siteApp_ok.named rfl) hf
  refine ⟨w', ?_, h2⟩
  rw [h1]
  refine congrArg (fun l => (w', Except.ok l)) ?_
  decide +kernel

theorem cmdInfo_ok : InfoOk cmdInfo where
  modulePlain := by decide
  dirOk := Or.inr ⟨[b! "src", b! "app", b! "cmd"], by decide, by decide, by decide⟩

/-- A case of `C82_serve_partial` in a package below the root of its module: the Go tool says where the root is. -/
example : ∃ w', DiskClient.serveCmd Demo.env (host (siteDisk siteApp) Demo.pkgInfo) io demoServer (Stdos.new cmdInfo Table.empty)
      [b! "/www"] [getReq (b! "/a.txt")] = (w', .ok [.content 200 5 none (b! "hello")]) ∧ w'.host.at_ = fun _ => none := by
  have hf : ∀ r ∈ [getReq (b! "/a.txt")], Ordered cmdInfo [b! "www"] r ∧
      ¬ BelowFile (siteDisk siteApp) ([b! "src", b! "app"] ++ ([b! "www"] ++ elemsOf r)) := by
    intro r hr
    rw [List.mem_singleton] at hr
    subst hr
    exact ⟨⟨getReq_ok _, by decide +kernel, by decide +kernel⟩, by rw [← belowFile_iff]; decide +kernel⟩
  obtain ⟨w', h1, _, h2⟩ := C82_serve_partial Demo.env (posix (siteDisk siteApp) Demo.pkgInfo) demoServer_ok
    (HereParse.lawful cmdInfo_ok _ _ _ _) (w := Stdos.new cmdInfo Table.empty) (m := [b! "src", b! "app"])
    ⟨rfl, ⟨Demo.info, rfl, rfl⟩, by decide⟩
    (fun _ _ => rfl) (args := [b! "/www"]) (ds := [b! "www"]) (by decide +kernel) (by decide)
    (site := (siteApp.2.find [b! "www"]).get rfl) rfl (by decide +kernel)
    (DiskClient.named_find [b! "www"] siteApp_ok.named rfl) hf
  refine ⟨w', ?_, h2⟩
  rw [h1]
  refine congrArg (fun l => (w', Except.ok l)) ?_
  decide +kernel

/-- A disk where two modules have a directory `/www`. -/
def twoSites : Node := (Demo.dirNode (b! "/") [Demo.dirNode (b! "src")
  [Demo.dirNode (b! "app") [Demo.dirNode (b! "www") [Demo.fileNode (b! "a") (b! "of app")]],
   Demo.dirNode (b! "lib") [Demo.dirNode (b! "www") [Demo.fileNode (b! "a") (b! "of lib")]]]]).2

/-- **C82 is false** of directories of other packages: `pkger serve lib:/www` serves the files of the own `/www`. -/
theorem C82_refuted : ¬ C82_statement Demo.env := by
  intro hs
  obtain ⟨w', h1, _⟩ := hs Table (host twoSites Demo.pkgInfo) io twoSites (posix twoSites Demo.pkgInfo) demoServer Demo.info
    [b! "src", b! "app"] siteStdos [b! "lib:/www"] (b! "lib") Demo.libInfo [b! "src", b! "lib"] [b! "www"]
    (Demo.dirNode (b! "www") [Demo.fileNode (b! "a") (b! "of lib")]).2 [getReq (b! "/a")] demoServer_ok Demo.laws
    ⟨rfl, ⟨Demo.info, rfl, rfl⟩, by decide⟩ (fun _ _ => rfl) (by decide +kernel) (by decide) rfl rfl (by decide) rfl
    (by decide +kernel) (by
      unfold Demo.dirNode Demo.fileNode
      repeat' first
        | exact .file _ _ rfl rfl
        | (refine .dir _ _ rfl ?_ ?_ <;> intro e he <;> simp only [List.mem_cons, List.not_mem_nil, or_false] at he)
        | subst he
        | rfl) (by
      intro r hr
      rw [List.mem_singleton] at hr
      subst hr
      exact ⟨⟨getReq_ok _, by decide +kernel, by decide +kernel⟩, by rw [← belowFile_iff]; decide +kernel⟩)
  have h2 : (DiskClient.serveCmd Demo.env (host twoSites Demo.pkgInfo) io demoServer siteStdos [b! "lib:/www"] [getReq (b! "/a")]).2 =
      .ok [.content 200 6 none (b! "of lib")] := by
    rw [h1]
    simp only
    decide +kernel
  have h3 : (DiskClient.serveCmd Demo.env (host twoSites Demo.pkgInfo) io demoServer siteStdos [b! "lib:/www"] [getReq (b! "/a")]).2 =
      .ok [.content 200 6 none (b! "of app")] := by decide +kernel
  rw [h3] at h2
  revert h2
  decide

/-- A case of `C82_serve_missing`. -/
example : ∃ w' e, DiskClient.serveCmd Demo.env (host (siteDisk siteApp)) io demoServer siteStdos [b! "/nope"] [] =
    (w', .error e) ∧ w'.host.at_ = fun _ => none := by
  obtain ⟨w', e, h1, _, _, h2⟩ := C82_serve_missing Demo.env (posix (siteDisk siteApp)) demoServer (w := siteStdos) (fun _ _ => rfl)
    (args := [b! "/nope"]) (Or.inr (Or.inr ⟨b! "app", [b! "nope"], Demo.info, [b! "src", b! "app"], by decide +kernel, by decide,
      rfl, rfl, by decide, rfl⟩)) []
  exact ⟨w', e, h1, h2⟩

/-- The program that serves `/www`. -/
def siteProg : Parser.Ast := Demo.program [Demo.callLit (b! "Dir") (b! "\"/www\"")]

def siteDecls : List Parser.Decl :=
  [⟨.dir, ⟨b! "/src/app/www", ⟨b! "app", b! "/www"⟩, Demo.info⟩, b! "/www"⟩]

theorem siteDecls_found : Parser.decls Demo.env (Demo.tool siteProg) (siteDisk siteApp) Demo.info [] = .ok siteDecls := by
  decide +kernel

theorem site_nodeOk : NodeOk (siteDisk siteApp) := by
  unfold siteDisk Demo.disk Demo.dirNode
  refine .dir _ _ rfl ?_
  intro e he
  simp only [List.mem_singleton] at he
  subst he
  refine .dir _ _ rfl ?_
  intro e he
  simp only [List.mem_singleton] at he
  subst he
  exact siteApp_ok.nodeOk

theorem site_ownModule : OwnModule Demo.env Demo.info (siteDisk siteApp) [b! "src", b! "app"] siteApp.2 where
  mne := by decide
  plain := by decide +kernel
  dir := by decide +kernel
  moduleDir := by decide +kernel
  found := rfl
  isDir := rfl
  one := ⟨by
    intro cs k hck hk
    refine ⟨Demo.info, ?_, rfl, Demo.laws, ?_⟩
    · have : ∀ e ∈ siteApp.2.tree, e.2.isDir = true →
          Demo.env.dirInfo (GoPath.mk ([b! "src", b! "app"] ++ [] ++ e.1)) = .ok Demo.info := by decide +kernel
      exact this (cs, k) hck hk
    · intro cs' k' hck'
      have : ∀ e ∈ siteApp.2.tree, Clear Demo.info (GoPath.mk ([] ++ e.1)) := by decide +kernel
      exact this (cs', k') hck', by
    intro cs k hck
    have : ∀ e ∈ siteApp.2.tree, Plain ([] ++ e.1) := by decide +kernel
    exact this (cs, k) hck⟩
  clear := by
    intro cs k hck
    exact (siteApp_ok.plain (cs, k) hck).2
  pkg := ⟨Demo.info, by decide +kernel⟩

/-- A case of `C83_program_partial`: the program is packaged and loaded, and answers as from the disk. -/
example : ∃ b w, blob Demo.env (demoSetup (siteDisk siteApp)) Demo.info siteDecls = .ok b ∧
    Serial.unmarshalEmbed Demo.env Serial.plainHere id 5 b = .ok w ∧
    ∀ p ∈ [b! "/", b! "/a.txt", b! "x/..//./doc/", b! "/doc", b! "/img/", b! "/nope/", b! "/a.txt/"],
      ((Http.serve demoServer (.dir (b! "/www")) (getReq p)).exec Demo.env w []).2.2 = diskGets siteApp p := by
  obtain ⟨b, w, h1, h2, h3, h4⟩ := C83_program_partial demo_noSkip Demo.gzipLaw (T := demoSetup (siteDisk siteApp))
    Demo.sortFiles_sorts plainHere_law visits_id 5 Demo.laws Demo.info_ok (by decide +kernel) site_nodeOk
    site_ownModule siteApp_ok.named (by
      intro cs k hck
      have : ∀ e ∈ siteApp.2.tree, Serial.DetailsOk utc e.2.details ∧ Utf8.Valid (GoPath.mk e.1) := by decide +kernel
      exact this (cs, k) hck) (by decide +kernel) demo_tool_text siteDecls_found (by
      intro d hd hn
      simp only [siteDecls, List.mem_singleton] at hd
      subst hd
      exact ⟨[b! "www"], ⟨by decide, by decide +kernel, by decide +kernel, rfl, by decide, by decide,
          by decide +kernel⟩, Or.inr (by decide +kernel)⟩) (by
      rintro ⟨d, hd, hk, hv⟩
      have : ∀ d ∈ siteDecls, d.value ≠ [] := by decide
      exact this d hd hv) (hi := Demo.info) (by decide +kernel) Demo.laws rfl
  refine ⟨b, w, h1, h2, ?_⟩
  intro p hp
  obtain ⟨hd, hm⟩ := h4 _ (List.mem_singleton.mpr rfl) (by unfold Names; decide) (by
      rintro ⟨d, hd, hk, hv⟩
      have : ∀ d ∈ siteDecls, ¬ (d.kind = .mkdirAll ∨ d.kind = .create) := by decide
      exact this d hd hk) (by decide +kernel) [b! "www"] (by decide) (by decide +kernel) (b! "/www") []
    ((siteApp.2.find [b! "www"]).get rfl) (by decide +kernel) rfl rfl site_separate demoServer demoServer_ok (getReq p)
    (site_fair p hp)
  rw [(hm w [] (Later.refl _ _)).1]
  exact (hd Table _ io (posix (siteDisk siteApp)) siteStdos [] (site_own _) (fun _ _ => rfl)).1.symm

end Props
end Verif
