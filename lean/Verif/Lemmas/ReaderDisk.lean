import Verif.Spec.Reader

/-! Programs that only read, on the disk. -/

namespace Verif
namespace Reader

open Mem (Details)
open Client (Prog)
open Disk (Node)
open Disk.Node (tree WF)
open Stdos (Host World File)
open DiskClient (Io Own Apart exec exec_bind exec_pure)
open Site (Posix BelowFile)
open Props (Wanted belowFile_root find_isDir)

variable {S : Type} {O : Host S} {I : Io S} {disk : Node}

/-- What holds of a package, its module `root` in `/m₁/.../mₙ` of the disk, whatever the program does. -/
structure Place (E : Env) (disk : Node) (c : Info) (m : List Str) (root : Node) : Prop where
  laws : ParseLaws E c
  infoOk : InfoOk c
  wf : WF root
  named : Site.Named root
  names : ∀ es k, root.find es = some k → Plain es ∧ Clear c (GoPath.mk es)
  found : disk.find m = some root
  isDir : root.isDir = true
  plain : Plain m
  ne : m ≠ []

/-- An open file of the program on the disk is what it should be. -/
structure DiskHandle (P : Posix O I disk) (c : Info) (root : Node) (u : World S) (f : File) (h : Handle) (n : Node) : Prop where
  place : root.find h.place = some n
  path : f.path = ⟨c.module.path, GoPath.mk h.place⟩
  info : f.info = some n.details
  isOpen : h.isOpen = true → ∃ p, P.holds u.host f.fd = some (n, p) ∧ (n.isDir = false → p = h.pos) ∧
    (n.isDir = true → h.listed = false → p = 0)

/-- The program's files on the disk. -/
structure OnDisk (P : Posix O I disk) (c : Info) (m : List Str) (root : Node) (u : World S) (fs : List File)
    (hs : List Handle) : Prop where
  own : Own P c m u
  ok : P.ok u.host
  length : fs.length = hs.length
  each : ∀ (k : Nat) (h : Handle), hs[k]? = some h → ∃ f n, fs[k]? = some f ∧ DiskHandle P c root u f h n
  apart : ∀ (j k : Nat) (hj hk : Handle) (fj fk : File), hs[j]? = some hj → hs[k]? = some hk → fs[j]? = some fj → fs[k]? = some fk →
    hj.isOpen = true → hk.isOpen = true → fj.fd = fk.fd → j = k

theorem getElem?_set_some {α : Type} {l : List α} {k j : Nat} {a b : α} (h : (l.set k a)[j]? = some b) :
    (j = k ∧ b = a) ∨ (j ≠ k ∧ l[j]? = some b) := by
  rw [List.getElem?_set] at h
  by_cases hk : k = j
  · rw [if_pos hk] at h
    split at h
    · exact Or.inl ⟨hk.symm, (Option.some.inj h).symm⟩
    · cases h
  · rw [if_neg hk] at h
    exact Or.inr ⟨fun h => hk h.symm, h⟩

/-- Use of one open file. -/
theorem OnDisk.move {P : Posix O I disk} {c : Info} {m : List Str} {root : Node} {u u' : World S} {fs : List File}
    {hs : List Handle} (h : OnDisk P c m root u fs hs) {k : Nat} {x x' : Handle} {f : File} (hk : hs[k]? = some x)
    (hf : fs[k]? = some f) (ho : x.isOpen = true) (ha : Apart P f.fd u u') {n : Node} (hn : DiskHandle P c root u' f x' n) :
    OnDisk P c m root u' fs (hs.set k x') := by
  refine ⟨h.own.left ha.here ha.infos, ha.ok, by simp [h.length], ?_, ?_⟩
  · intro j y hj
    rcases getElem?_set_some hj with ⟨rfl, rfl⟩ | ⟨hne, hj⟩
    · exact ⟨f, n, hf, hn⟩
    · obtain ⟨g, k', h1, h2⟩ := h.each j y hj
      refine ⟨g, k', h1, h2.place, h2.path, h2.info, ?_⟩
      intro hy
      have : g.fd ≠ f.fd := fun he => hne (h.apart j k y x g f hj hk h1 hf hy ho he)
      rw [ha.rest _ this]
      exact h2.isOpen hy
  · intro i j a b fa fb hi hj h1 h2 h3 h4 h5
    have old : ∀ (i : Nat) (a : Handle), (hs.set k x')[i]? = some a → a.isOpen = true → ∃ a' : Handle, hs[i]? = some a' ∧ a'.isOpen = true := by
      intro i a hi ha
      rcases getElem?_set_some hi with ⟨rfl, rfl⟩ | ⟨_, hi⟩
      · exact ⟨x, hk, ho⟩
      · exact ⟨a, hi, ha⟩
    obtain ⟨a', q1, q2⟩ := old i a hi h3
    obtain ⟨b', q3, q4⟩ := old j b hj h4
    exact h.apart i j a' b' fa fb q1 q3 h1 h2 q2 q4 h5

/-- No use of an open file. -/
theorem OnDisk.rest {P : Posix O I disk} {c : Info} {m : List Str} {root : Node} {u u' : World S} {fs : List File}
    {hs : List Handle} (h : OnDisk P c m root u fs hs) (h1 : u'.here = u.here) (h2 : ∀ p, P.told u' p = P.told u p)
    (h3 : P.ok u'.host) (h4 : P.holds u'.host = P.holds u.host) : OnDisk P c m root u' fs hs := by
  refine ⟨h.own.left h1 h2, h3, h.length, ?_, h.apart⟩
  intro k y hk
  obtain ⟨f, n, e1, e2⟩ := h.each k y hk
  exact ⟨f, n, e1, e2.place, e2.path, e2.info, by rw [h4]; exact e2.isOpen⟩

/-- `Open`, from the disk. -/
theorem disk_open {E : Env} {P : Posix O I disk} {c : Info} {m : List Str} {root : Node} (hp : Place E disk c m root)
    {u : World S} {fs : List File} {hs : List Handle} (h : OnDisk P c m root u fs hs) {name : Str} {es : List Str}
    (hn : E.parse c name = .ok ⟨c.module.path, GoPath.mk es⟩) (hg : GoPath.Good es) (hb : ¬ BelowFile root es) :
    (root.find es = none ∧ ∃ u' e, Stdos.openFile E O u name = (u', .error e) ∧ e.isNotExist = true ∧
      OnDisk P c m root u' fs hs) ∨
    (∃ n, root.find es = some n ∧ ∃ u' f, Stdos.openFile E O u name = (u', .ok f) ∧
      OnDisk P c m root u' (fs ++ [f]) (hs ++ [.new es])) := by
  obtain ⟨w0, r, h1, h2, h3, h4, h5, h6⟩ := h.own.locate h.ok E hn hg
  have hgm : GoPath.Good (m ++ es) := GoPath.good_append.mpr ⟨h.own.good, hg⟩
  have hfind : disk.find (m ++ es) = root.find es := by rw [Disk.find_append, hp.found]
  cases hf : root.find es with
  | none =>
    left
    obtain ⟨h', e, e1, e2, e3, e4⟩ := P.openAbsent w0.host (m ++ es) h5 hgm (hfind.trans hf)
    refine ⟨rfl, { w0 with host := h' }, e, by simp [Stdos.openFile, h1, h2, e1], e4.mpr ?_, h.rest h3 h4 e2 (e3.trans h6)⟩
    exact fun hx => hb (belowFile_root hp.found hp.isDir hx)
  | some n =>
    right
    obtain ⟨h', fd, e1, e2, e3, e4, e5⟩ := P.openThere w0.host (m ++ es) n h5 hgm (hfind.trans hf)
    obtain ⟨h'', q1, q2, q3⟩ := P.fstat h' fd n 0 e2 e4
    refine ⟨n, rfl, { w0 with host := h'' }, ⟨fd, some (Mem.newFileInfo n.details), r, ⟨c.module.path, GoPath.mk es⟩⟩,
      by simp [Stdos.openFile, h1, h2, e1, Stdos.wrapFile, q1], ?_⟩
    rw [h6] at e3 e5
    have hrest : ∀ g, g ≠ fd → P.holds h'' g = P.holds u.host g := fun g hg => by rw [q3]; exact e5 g hg
    -- the new file is none of the open ones
    have hold : ∀ (k : Nat) (y : Handle) (f : File), hs[k]? = some y → fs[k]? = some f → y.isOpen = true → f.fd ≠ fd := by
      intro k y f hk hfk hy he
      obtain ⟨f', n', a1, a2⟩ := h.each k y hk
      rw [a1] at hfk
      cases hfk
      obtain ⟨p, b1, _⟩ := a2.isOpen hy
      rw [he, e3] at b1
      cases b1
    refine ⟨h.own.left h3 h4, q2, by simp [h.length], ?_, ?_⟩
    · intro k y hk
      rcases Client.getElem?_snoc.mp hk with hk | ⟨rfl, rfl⟩
      · obtain ⟨f, n', a1, a2⟩ := h.each k y hk
        refine ⟨f, n', DiskClient.snoc_keep a1, a2.place, a2.path, a2.info, ?_⟩
        intro hy
        have := hrest f.fd (hold k y f hk a1 hy)
        simp only [this]
        exact a2.isOpen hy
      · refine ⟨_, n, by rw [← h.length]; exact DiskClient.snoc_last _ _, hf, rfl, rfl, ?_⟩
        intro _
        exact ⟨0, by simp only [q3]; exact e4, fun _ => rfl, fun _ _ => rfl⟩
    · intro i j a b fa fb hi hj h1 h2 h3 h4 h5
      rcases Client.getElem?_snoc.mp hi with hi | ⟨rfl, rfl⟩ <;>
        rcases Client.getElem?_snoc.mp hj with hj | ⟨rfl, rfl⟩
      · rcases Client.getElem?_snoc.mp h1 with h1 | ⟨hx, rfl⟩
        · rcases Client.getElem?_snoc.mp h2 with h2 | ⟨hx, rfl⟩
          · exact h.apart i j a b fa fb hi hj h1 h2 h3 h4 h5
          · have := (List.getElem?_eq_some_iff.mp hj).1
            rw [← h.length] at this; omega
        · have := (List.getElem?_eq_some_iff.mp hi).1
          rw [← h.length] at this; omega
      · rcases Client.getElem?_snoc.mp h1 with h1 | ⟨hx, rfl⟩
        · rcases Client.getElem?_snoc.mp h2 with h2 | ⟨hx, rfl⟩
          · have := (List.getElem?_eq_some_iff.mp h2).1
            rw [← h.length] at this; omega
          · exact absurd h5 (hold i a fa hi h1 h3)
        · have := (List.getElem?_eq_some_iff.mp hi).1
          rw [← h.length] at this; omega
      · rcases Client.getElem?_snoc.mp h2 with h2 | ⟨hx, rfl⟩
        · rcases Client.getElem?_snoc.mp h1 with h1 | ⟨hx, rfl⟩
          · have := (List.getElem?_eq_some_iff.mp h1).1
            rw [← h.length] at this; omega
          · exact absurd h5.symm (hold j b fb hj h2 h4)
        · have := (List.getElem?_eq_some_iff.mp hj).1
          rw [← h.length] at this; omega
      · rfl

/-- Reading, from the disk. -/
theorem fill_disk (E : Env) (P : Posix O I disk) {fs : List File} {k : Nat} {f : File} (hk : fs[k]? = some f)
    {d : Details} {b : Str} : ∀ (fuel n : Nat) {w : World S} {p : Nat}, P.ok w.host →
      P.holds w.host f.fd = some (.file d b, p) → n ≤ fuel →
      ∃ w', exec E O I (fill k fuel n) w fs = (w', fs, ((b.drop p).take n, true)) ∧ Apart P f.fd w w' ∧
        P.holds w'.host f.fd = some (.file d b, p + ((b.drop p).take n).length)
  | 0, n, w, p, hok, h, hf => by
    have : n = 0 := by omega
    subst this
    exact ⟨w, by simp [fill], Apart.refl hok, by simpa using h⟩
  | fuel + 1, n, w, p, hok, h, hf => by
    unfold fill
    by_cases hn : n = 0
    · subst hn; rw [if_pos rfl]; exact ⟨w, by simp, Apart.refl hok, by simpa using h⟩
    · rw [if_neg hn, exec_bind, DiskClient.exec_read E O I hk]
      by_cases hp : p < b.length
      · obtain ⟨h', l, e1, e2, e3, e4, e5, e6, e7⟩ := P.read w.host f.fd d b p n hok h (by omega) hp
        simp only [e1]
        have hlen : ((b.drop p).take l).length = l := by rw [List.length_take, List.length_drop]; omega
        rw [hlen]
        obtain ⟨w2, q1, q2, q3⟩ := fill_disk E P hk fuel (n - l) (w := { w with host := h' }) e5 e6 (by omega)
        have hcut : (b.drop p).take l ++ (b.drop (p + l)).take (n - l) = (b.drop p).take n := by
          have : n = l + (n - l) := by omega
          rw [← List.drop_drop]
          conv => rhs; rw [this, List.take_add]
        refine ⟨w2, ?_, Apart.trans (w' := { w with host := h' }) ⟨rfl, fun _ => rfl, e5, e7⟩ q2, ?_⟩
        · rw [exec_bind, q1]
          simp only [exec_pure, hcut]
        · rw [q3, ← hcut, List.length_append, hlen, Nat.add_assoc]
      · obtain ⟨h', e1, e2, e3⟩ := P.readEnd w.host f.fd d b p n hok h (by omega) hp
        simp only [e1]
        have hnil : b.drop p = [] := List.drop_eq_nil_of_le (by omega)
        refine ⟨{ w with host := h' }, by rw [hnil]; simp, ⟨rfl, fun _ => rfl, e2, fun g _ => by rw [e3]⟩, ?_⟩
        simp only [e3, hnil]
        simpa using h

/-- The entries of a directory, sorted. -/
theorem entries_eq {d : Details} {kids : List (Str × Node)} (hn : Site.Named (.dir d kids)) (hw : (kids.map (·.1)).Nodup)
    {l : List Details} (hp : l.Perm (kids.map (·.2.details))) :
    sortBy (·.name) l = (sortBy (·.1) kids).map (·.2.details) := by
  cases hn with
  | dir _ _ h1 h2 h3 =>
    have hnames : (kids.map (·.2.details)).map (·.name) = kids.map (·.1) := by
      rw [List.map_map]
      exact List.map_congr_left h2
    have hinj : ∀ x ∈ kids.map (·.2.details), ∀ y ∈ kids.map (·.2.details), x.name = y.name → x = y := by
      refine DiskClient.nodup_key (fun x : Details => x.name) ?_
      rw [hnames]
      exact hw
    rw [sortBy_unique (fun x : Details => x.name) hinj (sortBy_sorted _ l) ((sortBy_perm _ l).trans hp), DiskClient.sortBy_map]
    have hkey : sortBy (fun x : Str × Node => x.2.details.name) kids = sortBy (·.1) kids := by
      refine sortBy_unique (fun x : Str × Node => x.1) (DiskClient.nodup_key (fun x : Str × Node => x.1) hw) ?_ (sortBy_perm _ _)
      refine List.Pairwise.imp_of_mem ?_ (sortBy_sorted (fun x : Str × Node => x.2.details.name) kids)
      intro a b ha hb hab
      rw [h2 a ((mem_sortBy _ _ _).mp ha), h2 b ((mem_sortBy _ _ _).mp hb)] at hab
      exact hab
    rw [hkey]

/-- Every question that fits is answered from the disk as it should be. -/
theorem disk_step {E : Env} {P : Posix O I disk} (hL : Looks P) {c hi : Info} {R : List Str → Prop} {m : List Str}
    {root : Node} (hp : Place E disk c m root) {u : World S} {fs : List File} {hs : List Handle}
    (h : OnDisk P c m root u fs hs) {q : Ask} (hq : Fits c hi R root hs q) :
    ∃ u' fs', exec E O I q.prog u fs = (u', fs', (step c.module.path root hs q).2) ∧
      OnDisk P c m root u' fs' (step c.module.path root hs q).1 := by
  cases q with
  | openFile name =>
    obtain ⟨hn, _, hb⟩ := hq
    simp only [Ask.prog, exec_bind, DiskClient.exec_openFile, step, opening]
    rcases disk_open hp h (hn.parse hp.laws) (GoPath.good_rootedElems _) hb with ⟨h1, u', e, h2, h3, h4⟩ | ⟨n, h1, u', f, h2, h3⟩
    · simp only [h1, h2, exec_pure, failed, h3, if_true]
      exact ⟨u', fs, rfl, h4⟩
    · simp only [h1, h2, exec_pure, h.length]
      exact ⟨u', fs ++ [f], rfl, h3⟩
  | openIn k cs =>
    obtain ⟨x, d, kids, hk, hf, hw, _, hb⟩ := hq
    obtain ⟨f, n, hfk, hdh⟩ := h.each k x hk
    have hpl := (hp.names _ _ hf).1
    have hg : GoPath.Good (x.place ++ cs) := GoPath.good_append.mpr ⟨hpl.good, hw.plain.good⟩
    have hparse : E.parse c (GoPath.join2 f.path.name (GoPath.mk cs)) = .ok ⟨c.module.path, GoPath.mk (x.place ++ cs)⟩ := by
      rw [hdh.path]
      simp only [GoPath.join2_mk hpl.good hw.plain.good]
      have := (ordinary_mk (plain_append.mpr ⟨hpl, hw.plain⟩).ord hw.clear).parse hp.laws
      rw [GoPath.rootedElems_mk hg] at this
      exact this
    simp only [Ask.prog, exec_bind, DiskClient.exec_openIn E O I hfk, step, at_, hk, opening, Stdos.fileOpen]
    rcases disk_open hp h hparse hg hb with ⟨h1, u', e, h2, h3, h4⟩ | ⟨n, h1, u', f, h2, h3⟩
    · simp only [h1, h2, exec_pure, failed, h3, if_true]
      exact ⟨u', fs, rfl, h4⟩
    · simp only [h1, h2, exec_pure, h.length]
      exact ⟨u', fs ++ [f], rfl, h3⟩
  | stat name =>
    obtain ⟨hn, _, hsome⟩ := hq
    obtain ⟨n, hf⟩ := Option.isSome_iff_exists.mp hsome
    have hg := GoPath.good_rootedElems name
    obtain ⟨w0, r, h1, h2, h3, h4, h5, h6⟩ := h.own.locate h.ok E (hn.parse hp.laws) hg
    obtain ⟨h', e1, e2, e3⟩ := hL.statThere w0.host (m ++ GoPath.rootedElems name) n h5
      (GoPath.good_append.mpr ⟨h.own.good, hg⟩) (by rw [Disk.find_append, hp.found]; exact hf)
    have hst : Stdos.stat E O u name = ({ w0 with host := h' }, .ok n.details) := by
      simp only [Stdos.stat, h1, h2, e1]
      rfl
    refine ⟨{ w0 with host := h' }, fs, ?_, h.rest h3 h4 e2 (e3.trans h6)⟩
    simp only [Ask.prog, exec, DiskClient.call, hst, DiskClient.res, step, hf]
  | has name =>
    obtain ⟨hn, _⟩ := hq
    have hg := GoPath.good_rootedElems name
    obtain ⟨w0, r, h1, h2, h3, h4, h5, h6⟩ := h.own.locate h.ok E (hn.parse hp.laws) hg
    have hfind : disk.find (m ++ GoPath.rootedElems name) = root.find (GoPath.rootedElems name) := by
      rw [Disk.find_append, hp.found]
    cases hf : root.find (GoPath.rootedElems name) with
    | some n =>
      obtain ⟨h', e1, e2, e3⟩ := hL.statThere w0.host (m ++ GoPath.rootedElems name) n h5
        (GoPath.good_append.mpr ⟨h.own.good, hg⟩) (hfind.trans hf)
      have hst : Stdos.stat E O u name = ({ w0 with host := h' }, .ok n.details) := by
        simp only [Stdos.stat, h1, h2, e1]
        rfl
      refine ⟨{ w0 with host := h' }, fs, ?_, h.rest h3 h4 e2 (e3.trans h6)⟩
      simp only [Ask.prog, exec, DiskClient.call, hst, DiskClient.res, step, hf, Option.isSome_some]
    | none =>
      obtain ⟨h', e, e1, e2, e3⟩ := hL.statAbsent w0.host (m ++ GoPath.rootedElems name) h5
        (GoPath.good_append.mpr ⟨h.own.good, hg⟩) (hfind.trans hf)
      have hst : Stdos.stat E O u name = ({ w0 with host := h' }, .error e) := by
        simp only [Stdos.stat, h1, h2, e1]
      refine ⟨{ w0 with host := h' }, fs, ?_, h.rest h3 h4 e2 (e3.trans h6)⟩
      simp only [Ask.prog, exec, DiskClient.call, hst, DiskClient.res, step, hf, Option.isSome_none]
  | fileStat k =>
    obtain ⟨x, hk⟩ := hq
    obtain ⟨f, n, hfk, hdh⟩ := h.each k x hk
    have hst : Stdos.fileStat O u f = (u, f, .ok n.details) := by simp only [Stdos.fileStat, hdh.info]
    refine ⟨u, fs, ?_, ?_⟩
    · simp only [Ask.prog, Client.stat, exec_bind, exec, DiskClient.call, DiskClient.withFile, hfk, hst, DiskClient.res,
        exec_pure, step, at_, hk, hdh.place, DiskClient.set_same hfk]
    · simp only [step, at_, hk]
      exact h
  | fileName k =>
    obtain ⟨x, hk⟩ := hq
    obtain ⟨f, n, hfk, hdh⟩ := h.each k x hk
    refine ⟨u, fs, ?_, ?_⟩
    · simp only [Ask.prog, exec, DiskClient.call, DiskClient.withFile, hfk, Stdos.fileName, hdh.path, step, at_, hk]
    · simp only [step, at_, hk]
      exact h
  | list k =>
    obtain ⟨x, d, kids, hk, ho, hli, hf, _⟩ := hq
    obtain ⟨f, n, hfk, hdh⟩ := h.each k x hk
    have hn : n = .dir d kids := by
      have := hdh.place
      rw [hf] at this
      exact (Option.some.inj this).symm
    subst hn
    obtain ⟨p, a1, a2, a3⟩ := hdh.isOpen ho
    rw [a3 rfl hli] at a1
    obtain ⟨h', l, p', e1, e2, e3, e4, e5⟩ := P.readdir u.host f.fd d kids (-1) h.ok a1 (by decide)
    have hrd : Stdos.fileReaddir O u f (-1) = ({ u with host := h' }, .ok l) := by simp [Stdos.fileReaddir, e1]
    refine ⟨{ u with host := h' }, fs, ?_, ?_⟩
    · simp only [Ask.prog, exec_bind, DiskClient.exec_readdir E O I hfk, hrd, DiskClient.res, exec_pure, step, at_, hk, hf]
      rw [entries_eq (DiskClient.named_find _ hp.named hf) (Disk.find_wf _ hp.wf hf).1 e2]
    · simp only [step, at_, hk, hf]
      refine h.move hk hfk ho ⟨rfl, fun _ => rfl, e3, e5⟩ ⟨hf, hdh.path, hdh.info, ?_⟩
      intro _
      exact ⟨p', e4, fun hx => (by cases hx), fun _ hx => (by cases hx)⟩
  | read k n =>
    obtain ⟨x, d, b, hk, ho, hf, hne⟩ := hq
    obtain ⟨f, n', hfk, hdh⟩ := h.each k x hk
    have hn : n' = .file d b := by
      have := hdh.place
      rw [hf] at this
      exact (Option.some.inj this).symm
    subst hn
    obtain ⟨p, a1, a2, _⟩ := hdh.isOpen ho
    rw [a2 rfl] at a1
    obtain ⟨w', e1, e2, e3⟩ := fill_disk E P hfk n n h.ok a1 (Nat.le_refl _)
    refine ⟨w', fs, ?_, ?_⟩
    · simp only [Ask.prog, exec_bind, e1, exec_pure, if_true, step, at_, hk, hf]
    · simp only [step, at_, hk, hf]
      exact h.move hk hfk ho e2 ⟨hf, hdh.path, hdh.info, fun _ => ⟨_, e3, fun _ => rfl, fun hx => (by cases hx)⟩⟩
  | seek k off =>
    obtain ⟨x, d, b, hk, ho, hf, hne⟩ := hq
    obtain ⟨f, n', hfk, hdh⟩ := h.each k x hk
    have hn : n' = .file d b := by
      have := hdh.place
      rw [hf] at this
      exact (Option.some.inj this).symm
    subst hn
    obtain ⟨p, a1, a2, _⟩ := hdh.isOpen ho
    obtain ⟨h', e1, e2, e3, e4⟩ := P.seek u.host f.fd d b p off h.ok a1 (Int.natCast_nonneg _)
    refine ⟨{ u with host := h' }, fs, ?_, ?_⟩
    · simp only [Ask.prog, exec, DiskClient.call, DiskClient.withFile, hfk, e1, step, at_, hk]
    · simp only [step, at_, hk]
      exact h.move hk hfk ho ⟨rfl, fun _ => rfl, e2, e4⟩
        ⟨hf, hdh.path, hdh.info, fun _ => ⟨_, e3, fun _ => by simp, fun hx => (by cases hx)⟩⟩
  | close k =>
    obtain ⟨x, hk, ho⟩ := hq
    obtain ⟨f, n, hfk, hdh⟩ := h.each k x hk
    obtain ⟨p, a1, _⟩ := hdh.isOpen ho
    obtain ⟨h', e1, e2, e3, e4⟩ := P.close u.host f.fd _ h.ok a1
    have hcl : Stdos.closeFile O u f = ({ u with host := h' }, none) := by simp only [Stdos.closeFile, e1]
    refine ⟨{ u with host := h' }, fs, ?_, ?_⟩
    · simp only [Ask.prog, exec, DiskClient.call, DiskClient.withFile, hfk, hcl, step, at_, hk]
    · simp only [step, at_, hk]
      exact h.move hk hfk ho ⟨rfl, fun _ => rfl, e2, e4⟩ ⟨hdh.place, hdh.path, hdh.info, fun hx => (by cases hx)⟩
  | walk name =>
    obtain ⟨hn, _, n, hf, _, _⟩ := hq
    have hg := GoPath.good_rootedElems name
    obtain ⟨r, h1, h2⟩ := h.own.root
    obtain ⟨w0, e1, e2, e3, e4, e5⟩ := DiskClient.info_told P h.ok c.module.path
    rw [h1] at e1
    have hloc : Stdos.locate E O u name = (w0, .ok (⟨c.module.path, GoPath.mk (GoPath.rootedElems name)⟩, r)) :=
      Stdos.locate_of (pt := ⟨c.module.path, GoPath.mk (GoPath.rootedElems name)⟩)
        (by rw [h.own.here]; exact hn.parse hp.laws) e1
    obtain ⟨h', t1, t2, t3⟩ := hL.treeThere w0.host (m ++ GoPath.rootedElems name) n e4
      (GoPath.good_append.mpr ⟨h.own.good, hg⟩) (by rw [Disk.find_append, hp.found]; exact hf)
    have hplain : ∀ e ∈ tree n, Plain (m ++ GoPath.rootedElems name ++ e.1) := by
      intro e he
      rw [List.append_assoc]
      refine plain_append.mpr ⟨hp.plain, (hp.names _ e.2 ?_).1⟩
      rw [Disk.find_append, hf]
      exact (Disk.mem_tree_iff _ _ _ (Disk.find_wf _ hp.wf hf)).mp he
    have hwalk : Stdos.walk E O u name DiskClient.note [] = _ :=
      Props.walk_reports E O (w := u) (w1 := w0) (name := name) (ds := m) (cs := GoPath.rootedElems name)
        (by rw [h.own.here]; exact hp.laws) hloc hp.infoOk.modulePlain hp.ne h2 rfl hplain t1
    refine ⟨{ w0 with host := h' }, fs, ?_, h.rest e2 e3 t2 (t3.trans e5)⟩
    simp only [Ask.prog, exec, DiskClient.call, hwalk, step, hf]
    rfl

/-- A program all of whose questions fit gets from the disk what it should get. -/
theorem disk_runs {E : Env} {P : Posix O I disk} (hL : Looks P) {c hi : Info} {R : List Str → Prop} {m : List Str}
    {root : Node} (hp : Place E disk c m root) {α : Type} : ∀ (p : Plan α) {u : World S} {fs : List File} {hs : List Handle},
    OnDisk P c m root u fs hs → p.Fits c hi R root hs →
      (exec E O I p.prog u fs).2.2 = p.run c.module.path root hs
  | .ret a, u, fs, hs, _, _ => rfl
  | .ask q k, u, fs, hs, h, ⟨h1, h2⟩ => by
    obtain ⟨u', fs', e1, e2⟩ := disk_step hL hp h h1
    simp only [Plan.prog, exec_bind, e1, Plan.run]
    exact disk_runs hL hp _ e2 h2

end Reader
end Verif
