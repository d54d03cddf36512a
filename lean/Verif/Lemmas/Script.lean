import Verif.Spec.FileSys
import Verif.Lemmas.Mkdir
import Verif.Lemmas.Stdos

/-! Programs that change files, on the disk. -/

namespace Verif
namespace Script

open FileSys
open Mem (Details)
open Stdos (Host World File)
open DiskClient (Io res)

/-! ### Listings -/

theorem eq_of_first {l : List (Str × Bool)} (h : l.Pairwise fun a b => a.1 ≠ b.1) : ∀ x ∈ l, ∀ y ∈ l, x.1 = y.1 → x = y := by
  induction h with
  | nil => intro x hx; cases hx
  | cons h1 _ ih =>
    intro x hx y hy he
    rcases List.mem_cons.mp hx with hx | hx <;> rcases List.mem_cons.mp hy with hy | hy
    · rw [hx, hy]
    · exact absurd (hx ▸ he) (h1 y hy)
    · exact absurd (hy ▸ he).symm (h1 x hx)
    · exact ih x hx y hy he

theorem names_listing {fs : Fs} {es : List Str} {l : List Details} (hn : (l.map (·.name)).Nodup)
    (hm : ∀ x b, (∃ d ∈ l, d.name = x ∧ d.isDir = b) ↔ ∃ e, fs (es ++ [x]) = some e ∧ e.isDir = b) :
    Listing fs es (names l) := by
  unfold names
  have hn' : (l.map fun d => (d.name, d.isDir)).Pairwise fun a b => a.1 ≠ b.1 := by
    rw [List.pairwise_map]
    rw [List.Nodup, List.pairwise_map] at hn
    exact hn
  refine ⟨?_, ?_⟩
  · exact sortBy_strict _ (eq_of_first hn') (hn'.imp fun h he => h (by rw [he]))
  · intro x b
    rw [mem_sortBy, List.mem_map, ← hm]
    constructor
    · rintro ⟨d, h1, h2⟩
      exact ⟨d, h1, congrArg Prod.fst h2, congrArg Prod.snd h2⟩
    · rintro ⟨d, h1, h2, h3⟩
      exact ⟨d, h1, by rw [h2, h3]⟩

theorem lt_ne {a b : Str} (h : Str.lt a b = true) : a ≠ b := by
  rw [Str.lt_iff] at h
  exact h.2

theorem listing_unique {fs : Fs} {es : List Str} {l l' : List (Str × Bool)} (h : Listing fs es l) (h' : Listing fs es l') :
    l = l' := by
  have hnd : ∀ {l : List (Str × Bool)}, l.Pairwise (fun a b => Str.lt a.1 b.1 = true) → l.Nodup :=
    fun {l} hp => List.Pairwise.imp (S := fun a b : Str × Bool => a ≠ b) (fun h he => lt_ne h (congrArg Prod.fst he)) hp
  have hp : l.Perm l' := (List.perm_ext_iff_of_nodup (hnd h.1) (hnd h'.1)).mpr fun a => by
    rw [h.2 a.1 a.2, h'.2 a.1 a.2]
  exact sorted_perm_unique (·.1) (eq_of_first (h.1.imp fun h => lt_ne h)) (h.1.imp fun h => ((Str.lt_iff _ _).mp h).1)
    (h'.1.imp fun h => ((Str.lt_iff _ _).mp h).1) hp

/-! ### Trees -/

theorem _root_.Verif.FileSys.Tree.above {fs : Fs} (ht : Tree fs) {a : List Str} : ∀ {b : List Str}, b ≠ [] → fs (a ++ b) ≠ none → fs a = some .dir := by
  intro b
  induction h : b.length generalizing b with
  | zero => intro hb _; exact absurd (List.eq_nil_of_length_eq_zero h) hb
  | succ n ih =>
    intro hb hf
    obtain ⟨c, x, rfl⟩ : ∃ c x, b = c ++ [x] := ⟨b.dropLast, b.getLast hb, (List.dropLast_concat_getLast hb).symm⟩
    rw [← List.append_assoc] at hf
    have h1 := ht.up _ _ hf
    by_cases hc : c = []
    · subst hc; simpa using h1
    · exact ih (by simpa using h) hc (by rw [h1]; simp)

theorem _root_.Verif.FileSys.Tree.below_dir {fs : Fs} (ht : Tree fs) {m a : List Str} (hm : fs m = some .dir) (ha : a <+: m) : fs a = some .dir := by
  obtain ⟨b, rfl⟩ := ha
  by_cases hb : b = []
  · subst hb; simpa using hm
  · exact ht.above hb (by rw [hm]; simp)

theorem _root_.Verif.FileSys.Tree.sub {fs : Fs} (ht : Tree fs) {m : List Str} (hm : fs m = some .dir) : Tree (fs.sub m) where
  root := by simpa [Fs.sub] using hm
  up := by
    intro es x h
    simp only [Fs.sub] at h ⊢
    rw [← List.append_assoc] at h
    exact ht.up _ _ h
  good := by
    intro es h
    exact (GoPath.good_append.mp (ht.good _ h)).2

theorem prefix_cases {a m es : List Str} (h : a <+: m ++ es) : a <+: m ∨ ∃ b, a = m ++ b ∧ b <+: es := by
  rcases List.prefix_or_prefix_of_prefix h (List.prefix_append m es) with h' | ⟨b, rfl⟩
  · exact Or.inl h'
  · exact Or.inr ⟨b, rfl, (List.prefix_append_right_inj m).mp h⟩

theorem overFile_sub {fs : Fs} (ht : Tree fs) {m es : List Str} (hm : fs m = some .dir) :
    OverFile fs (m ++ es) ↔ OverFile (fs.sub m) es := by
  constructor
  · rintro ⟨a, b, h1, h2⟩
    rcases prefix_cases h1 with h | ⟨c, rfl, hc⟩
    · rw [ht.below_dir hm h] at h2; cases h2
    · exact ⟨c, b, hc, h2⟩
  · rintro ⟨a, b, h1, h2⟩
    exact ⟨m ++ a, b, (List.prefix_append_right_inj m).mpr h1, h2⟩

theorem belowFile_sub {fs : Fs} (ht : Tree fs) {m es : List Str} (hm : fs m = some .dir) :
    BelowFile fs (m ++ es) ↔ BelowFile (fs.sub m) es := by
  constructor
  · rintro ⟨a, b, h1, h3, h2⟩
    rcases prefix_cases h1 with h | ⟨c, rfl, hc⟩
    · rw [ht.below_dir hm h] at h2; cases h2
    · exact ⟨c, b, hc, fun h => h3 (by rw [h]), h2⟩
  · rintro ⟨a, b, h1, h3, h2⟩
    exact ⟨m ++ a, b, (List.prefix_append_right_inj m).mpr h1, fun h => h3 (List.append_cancel_left h), h2⟩

theorem full_sub {fs : Fs} {m es : List Str} : Full fs (m ++ es) ↔ Full (fs.sub m) es := by
  simp [Full, Fs.sub, List.append_assoc]

theorem set_sub (fs : Fs) (m es : List Str) (e : Entry) : (fs.set (m ++ es) e).sub m = (fs.sub m).set es e := by
  funext q
  simp [Fs.sub, Fs.set]

theorem unset_sub (fs : Fs) (m es : List Str) : (fs.unset (m ++ es)).sub m = (fs.sub m).unset es := by
  funext q
  simp [Fs.sub, Fs.unset]

theorem mkdirs_sub (fs : Fs) (m es : List Str) : (fs.mkdirs (m ++ es)).sub m = (fs.sub m).mkdirs es := by
  funext q
  simp [Fs.sub, Fs.mkdirs, List.prefix_append_right_inj]

theorem prune_sub (fs : Fs) (m es : List Str) : (fs.prune (m ++ es)).sub m = (fs.sub m).prune es := by
  funext q
  simp [Fs.sub, Fs.prune, List.prefix_append_right_inj]

theorem dropLast_sub {m es : List Str} (h : es ≠ []) : (m ++ es).dropLast = m ++ es.dropLast := List.dropLast_append_of_ne_nil h

theorem set_set (fs : Fs) (es : List Str) (e e' : Entry) : (fs.set es e).set es e' = fs.set es e' := by
  funext q
  simp only [Fs.set]
  split <;> rfl

/-- Nothing is at a path below a place that is not a directory. -/
theorem _root_.Verif.FileSys.Tree.nothing {fs : Fs} (ht : Tree fs) {es b : List Str} (h : fs es ≠ some .dir) (hb : b ≠ []) : fs (es ++ b) = none := by
  cases hf : fs (es ++ b) with
  | none => rfl
  | some e => exact absurd (ht.above hb (by rw [hf]; simp)) h

/-- What is done keeps it a tree. -/
theorem _root_.Verif.FileSys.Does.tree {fs fs' : Fs} {a : Act} {o : Out} (hd : Does fs a fs' o) (ht : Tree fs) (hne : a.elems ≠ [])
    (hg : GoPath.Good a.elems) : Tree fs' := by
  cases hd with
  | put es chunks h1 h2 =>
    simp only [Act.elems] at hne hg
    refine ⟨by simp [Fs.set, Ne.symm hne, ht.root], ?_, ?_⟩
    · intro q x h
      simp only [Fs.set] at h ⊢
      by_cases hq : q = es
      · subst hq
        rw [if_neg (by simp)] at h
        exact absurd (ht.nothing h2 (by simp)) h
      · rw [if_neg hq]
        by_cases hx : q ++ [x] = es
        · subst hx; simpa using h1
        · rw [if_neg hx] at h; exact ht.up _ _ h
    · intro q h
      simp only [Fs.set] at h
      by_cases hq : q = es
      · subst hq; exact hg
      · rw [if_neg hq] at h; exact ht.good q h
  | mkdirAll es perm h1 =>
    simp only [Act.elems] at hne hg
    refine ⟨by simp [Fs.mkdirs], ?_, ?_⟩
    · intro q x h
      simp only [Fs.mkdirs] at h ⊢
      by_cases hx : q ++ [x] <+: es
      · rw [if_pos ((List.prefix_append q [x]).trans hx)]
      · rw [if_neg hx] at h
        rw [ht.up _ _ h]
        split <;> rfl
    · intro q h
      simp only [Fs.mkdirs] at h
      by_cases hq : q <+: es
      · obtain ⟨b, rfl⟩ := hq; exact (GoPath.good_append.mp hg).1
      · rw [if_neg hq] at h; exact ht.good q h
  | remove es h1 h2 =>
    simp only [Act.elems] at hne hg
    refine ⟨by simp [Fs.unset, Ne.symm hne, ht.root], ?_, ?_⟩
    · intro q x h
      simp only [Fs.unset] at h ⊢
      by_cases hx : q ++ [x] = es
      · simp [hx] at h
      · rw [if_neg hx] at h
        by_cases hq : q = es
        · subst hq; exact absurd ⟨x, h⟩ h2
        · rw [if_neg hq]; exact ht.up _ _ h
    · intro q h
      simp only [Fs.unset] at h
      by_cases hq : q = es
      · simp [hq] at h
      · rw [if_neg hq] at h; exact ht.good q h
  | removeAll es h1 =>
    simp only [Act.elems] at hne hg
    refine ⟨by simp [Fs.prune, hne, ht.root], ?_, ?_⟩
    · intro q x h
      simp only [Fs.prune] at h ⊢
      by_cases hx : es <+: q ++ [x]
      · simp [hx] at h
      · rw [if_neg hx] at h
        rw [if_neg (fun h' => hx (h'.trans (List.prefix_append _ _)))]
        exact ht.up _ _ h
    · intro q h
      simp only [Fs.prune] at h
      by_cases hq : es <+: q
      · simp [hq] at h
      · rw [if_neg hq] at h; exact ht.good q h
  | _ => exact ht

/-! ### The names a program uses -/

/-- A name of the own module. -/
structure Named (c : Info) (a : Act) : Prop where
  ne : a.elems ≠ []
  plain : Plain a.elems
  clear : Clear c (GoPath.mk a.elems)

/-- Enough buffers to read the file to its end. -/
def Sized (fs : Fs) : Act → Prop
  | .get es sizes => (∀ n ∈ sizes, 0 < n) ∧ ∀ b, fs es = some (.file b) → b.length < sizes.length
  | _ => True

/-! ### On the disk -/

variable {S : Type} {O : Host S} {I : Io S} {W : Writes S}

/-- The Pkger on the disk works for the root package of the module `c`, which is at `m`, and there the files are `fs`. -/
structure OnDisk (U : Unix O I W) (c : Info) (m : List Str) (fs : Fs) (w : World S) : Prop where
  here : w.here = c
  knows : AMap.get w.infos c.module.path = some c
  ok : U.ok w.host
  root : U.fs w.host m = some .dir
  files : (U.fs w.host).sub m = fs

theorem OnDisk.tree {U : Unix O I W} {c : Info} {m : List Str} {fs : Fs} {w : World S} (h : OnDisk U c m fs w) : Tree fs := by
  rw [← h.files]
  exact (U.tree _ h.ok).sub h.root

theorem OnDisk.host {U : Unix O I W} {c : Info} {m : List Str} {fs : Fs} {w : World S} (h : OnDisk U c m fs w) {h' : S}
    (h1 : U.ok h') (h2 : U.fs h' = U.fs w.host) : OnDisk U c m fs { w with host := h' } :=
  ⟨h.here, h.knows, h1, by show U.fs h' m = _; rw [h2]; exact h.root, by show (U.fs h').sub m = _; rw [h2]; exact h.files⟩

theorem OnDisk.locate {E : Env} {U : Unix O I W} {c : Info} (hl : ParseLaws E c) {m : List Str} {fs : Fs} {w : World S}
    (h : OnDisk U c m fs w) {es : List Str} (hp : Plain es) (hc : Clear c (GoPath.mk es)) :
    Stdos.locate E O w (GoPath.mk es) = (w, .ok (⟨c.module.path, GoPath.mk es⟩, c)) := by
  refine Stdos.locate_of (pt := ⟨c.module.path, GoPath.mk es⟩) ?_ ?_
  · rw [h.here, (ordinary_mk hp.ord hc).parse hl, GoPath.rootedElems_mk hp.good]
  · simp only [Stdos.info, h.knows]

theorem writeAll_disk {E : Env} {U : Unix O I W} {es : List Str} {k fd : Nat} {f : File} {fl : List File} (hk : fl[k]? = some f)
    (hf : f.fd = fd) : ∀ (chunks : List Str) (w : World S) (b : Str), U.ok w.host → U.out w.host fd = some es →
      U.fs w.host es = some (.file b) →
      ∃ h', disk E O I W (writeAll k chunks) w fl = ({ w with host := h' }, fl, true) ∧ U.ok h' ∧ U.out h' fd = some es ∧
        U.fs h' = (U.fs w.host).set es (.file (b ++ chunks.flatten)) := by
  intro chunks
  induction chunks with
  | nil =>
    intro w b h1 h2 h3
    refine ⟨w.host, rfl, h1, h2, ?_⟩
    funext q
    simp only [Fs.set, List.flatten_nil, List.append_nil]
    by_cases hq : q = es
    · subst hq; rw [if_pos rfl, h3]
    · rw [if_neg hq]
  | cons c cs ih =>
    intro w b h1 h2 h3
    obtain ⟨h', e1, e2, e3, e4⟩ := U.write _ _ _ _ c h1 h2 h3
    obtain ⟨h'', g1, g2, g3, g4⟩ := ih { w with host := h' } (b ++ c) e2 e4 (by
      show U.fs h' es = _; rw [e3]; simp [Fs.set])
    refine ⟨h'', ?_, g2, g3, ?_⟩
    · simp only [writeAll, disk, diskCall, withDisk, hk, hf, e1]
      exact g1
    · rw [g4]
      show (U.fs h').set es _ = _
      rw [e3, set_set]
      simp

theorem readAll_disk {E : Env} {U : Unix O I W} {es : List Str} {k fd : Nat} {f : File} {fl : List File} (hk : fl[k]? = some f)
    (hf : f.fd = fd) {b : Str} : ∀ (sizes : List Nat) (w : World S) (p : Nat), (∀ n ∈ sizes, 0 < n) → U.ok w.host →
      U.inp w.host fd = some (es, p) → U.fs w.host es = some (.file b) → p ≤ b.length → b.length - p < sizes.length →
      ∃ h' p', disk E O I W (readAll k sizes (b.take p)) w fl = ({ w with host := h' }, fl, some b) ∧ U.ok h' ∧
        U.inp h' fd = some (es, p') ∧ U.fs h' = U.fs w.host := by
  intro sizes
  induction sizes with
  | nil => intro w p _ _ _ _ _ h; simp at h
  | cons n ns ih =>
    intro w p hn h1 h2 h3 hp hlen
    by_cases hlt : p < b.length
    · obtain ⟨h', j, e1, e2, e3, e4, e5, e6, e7⟩ := U.read _ _ _ _ _ n h1 h2 h3 (hn n (by simp)) hlt
      obtain ⟨h'', p', g1, g2, g3, g4⟩ := ih { w with host := h' } (p + j) (fun n' hn' => hn n' (by simp [hn'])) e5 e7
        (by show U.fs h' es = _; rw [e6]; exact h3) e4 (by simp only [List.length_cons] at hlen; omega)
      refine ⟨h'', p', ?_, g2, g3, g4.trans e6⟩
      simp only [readAll, disk, diskCall, withDisk, hk, hf, e1]
      rw [← List.take_add]
      exact g1
    · obtain ⟨h', e1, e2, e3, e4⟩ := U.readEnd _ _ _ _ _ n h1 h2 h3 (hn n (by simp)) hlt
      refine ⟨h', p, ?_, e2, e4, e3⟩
      simp only [readAll, disk, diskCall, withDisk, hk, hf, e1, disk_pure, List.append_nil]
      rw [List.take_of_length_le (by omega)]

theorem readAll_disk_dir {E : Env} {U : Unix O I W} {es : List Str} {k fd : Nat} {f : File} {fl : List File} (hk : fl[k]? = some f)
    (hf : f.fd = fd) (sizes : List Nat) (w : World S) (p : Nat) (acc : Str) (hn : ∀ n ∈ sizes, 0 < n) (h1 : U.ok w.host)
    (h2 : U.inp w.host fd = some (es, p)) (h3 : U.fs w.host es = some .dir) :
    ∃ h', disk E O I W (readAll k sizes acc) w fl = ({ w with host := h' }, fl, none) ∧ U.ok h' ∧
        U.inp h' fd = some (es, p) ∧ U.fs h' = U.fs w.host := by
  cases sizes with
  | nil => exact ⟨w.host, rfl, h1, h2, rfl⟩
  | cons n ns =>
    obtain ⟨h', e, e1, e2, e3, e4, e5⟩ := U.readDir _ _ _ _ n h1 h2 h3 (hn n (by simp))
    refine ⟨h', ?_, e3, e5, e4⟩
    simp only [readAll, disk, diskCall, withDisk, hk, hf, e1]
    cases e <;> first | rfl | exact absurd rfl e2

/-- Opening a file that is there, for reading. -/
theorem open_disk {E : Env} {U : Unix O I W} {c : Info} (hl : ParseLaws E c) {m : List Str} (hgm : GoPath.Good m)
    (hdir : c.dir = GoPath.mk m) {fs : Fs} {w : World S} (h : OnDisk U c m fs w) {es : List Str} (hp : Plain es)
    (hc : Clear c (GoPath.mk es)) {e : Entry} (he : fs es = some e) (fl : List File) :
    ∃ h' f, diskCall E O I W w fl (.openFile (GoPath.mk es)) = ({ w with host := h' }, fl ++ [f], .opened (.ok fl.length)) ∧
      U.ok h' ∧ U.fs h' = U.fs w.host ∧ U.inp h' f.fd = some (m ++ es, 0) := by
  have hj : GoPath.join2 c.dir (GoPath.mk es) = GoPath.mk (m ++ es) := by rw [hdir]; exact GoPath.join2_mk hgm hp.good
  have hg : GoPath.Good (m ++ es) := GoPath.good_append.mpr ⟨hgm, hp.good⟩
  have he' : U.fs w.host (m ++ es) = some e := by rw [← h.files] at he; exact he
  obtain ⟨h1, fd, e1, e2, e3, e4⟩ := U.openThere _ _ _ h.ok hg he'
  obtain ⟨h2, d, g1, g2, g3, g4, g5⟩ := U.fstatIn h1 fd _ _ e e2 e4 (by rw [e3]; exact he')
  refine ⟨h2, ⟨fd, some (Mem.newFileInfo d), c, ⟨c.module.path, GoPath.mk es⟩⟩, ?_, g3, g4.trans e3, g5⟩
  simp only [diskCall, Stdos.openFile, h.locate hl hp hc, hj, e1, Stdos.wrapFile, g1, gotDisk]

theorem open_disk_absent {E : Env} {U : Unix O I W} {c : Info} (hl : ParseLaws E c) {m : List Str} (hgm : GoPath.Good m)
    (hdir : c.dir = GoPath.mk m) {fs : Fs} {w : World S} (h : OnDisk U c m fs w) {es : List Str} (hp : Plain es)
    (hc : Clear c (GoPath.mk es)) (he : fs es = none) (fl : List File) :
    ∃ h' e, diskCall E O I W w fl (.openFile (GoPath.mk es)) = ({ w with host := h' }, fl, .opened (.err e)) ∧
      U.ok h' ∧ U.fs h' = U.fs w.host := by
  have hj : GoPath.join2 c.dir (GoPath.mk es) = GoPath.mk (m ++ es) := by rw [hdir]; exact GoPath.join2_mk hgm hp.good
  have hg : GoPath.Good (m ++ es) := GoPath.good_append.mpr ⟨hgm, hp.good⟩
  have he' : U.fs w.host (m ++ es) = none := by rw [← h.files] at he; exact he
  obtain ⟨h1, e, e1, e2, e3⟩ := U.openAbsent _ _ h.ok hg he'
  refine ⟨h1, e, ?_, e2, e3⟩
  simp only [diskCall, Stdos.openFile, h.locate hl hp hc, hj, e1, gotDisk]

theorem isDir_newFileInfo (d : Details) : (Mem.newFileInfo d).isDir = d.isDir ∧ (Mem.newFileInfo d).size = d.size := by
  simp [Mem.newFileInfo]

theorem told_about {d : Details} {e : Entry} (h : Told d e) : about (Mem.newFileInfo d) = e.about := by
  unfold about Entry.about
  rw [(isDir_newFileInfo d).1, (isDir_newFileInfo d).2, h.1]
  cases e with
  | dir => rfl
  | file b => simp [Entry.isDir, h.2 b rfl]

theorem getElem?_snoc {α : Type} (l : List α) (a : α) : (l ++ [a])[l.length]? = some a := by simp

/-- On the disk, what should be done is done. -/
theorem act_disk {E : Env} {U : Unix O I W} {c : Info} (hl : ParseLaws E c) {m : List Str} (hgm : GoPath.Good m)
    (hdir : c.dir = GoPath.mk m) {fs : Fs} {w : World S} (h : OnDisk U c m fs w) {a : Act} (hn : Named c a) (hs : Sized fs a)
    (fl : List File) :
    ∃ w' fl' fs' o, disk E O I W a.prog w fl = (w', fl', o) ∧ Does fs a fs' o ∧ OnDisk U c m fs' w' := by
  have hp := hn.plain
  have hc := hn.clear
  have hne := hn.ne
  have hj : GoPath.join2 c.dir (GoPath.mk a.elems) = GoPath.mk (m ++ a.elems) := by
    rw [hdir]; exact GoPath.join2_mk hgm hp.good
  have hg : GoPath.Good (m ++ a.elems) := GoPath.good_append.mpr ⟨hgm, hp.good⟩
  have hne' : m ++ a.elems ≠ [] := by simp [hne]
  have ht := U.tree _ h.ok
  have hfs : ∀ q, U.fs w.host (m ++ q) = fs q := by intro q; rw [← h.files]; rfl
  have hloc := h.locate hl hp hc
  -- a state with other files
  have other : ∀ (h' : S) (fs' : Fs), U.ok h' → (U.fs h').sub m = fs' → fs' [] = some .dir →
      OnDisk U c m fs' { w with host := h' } := by
    intro h' fs' h1 h2 h3
    refine ⟨h.here, h.knows, h1, ?_, h2⟩
    show U.fs h' m = _
    rw [← h2] at h3
    simpa [Fs.sub] using h3
  have hroot := h.tree.root
  cases a with
  | put es chunks =>
    simp only [Act.elems] at hp hc hne hj hg hne' hloc
    by_cases hw : fs es.dropLast = some .dir ∧ fs es ≠ some .dir
    · obtain ⟨h1, fd, e1, e2, e3, e4⟩ := U.create w.host (m ++ es) h.ok hg hne'
        (by rw [dropLast_sub hne, hfs]; exact hw.1) (by rw [hfs]; exact hw.2)
      obtain ⟨h2, d, g1, g2, g3, g4⟩ := U.fstatOut _ _ _ e2 e4
      obtain ⟨h3, k1, k2, k3, k4⟩ := writeAll_disk (E := E) (U := U) (es := m ++ es) (k := fl.length) (fd := fd)
        (f := ⟨fd, some (Mem.newFileInfo d), c, ⟨c.module.path, GoPath.mk es⟩⟩) (fl := fl ++ [_]) (getElem?_snoc _ _) rfl
        chunks { w with host := h2 } [] g2 g4 (by show U.fs h2 _ = _; rw [g3, e3]; simp [Fs.set])
      obtain ⟨h4, l1, l2, l3⟩ := U.close h3 fd k2 (Or.inr (by rw [k3]; simp))
      have hfin : (U.fs h4).sub m = fs.set es (.file chunks.flatten) := by
        rw [l3, k4]
        show ((U.fs h2).set _ _).sub m = _
        rw [g3, e3, set_set, set_sub, h.files, List.nil_append]
      refine ⟨{ w with host := h4 }, fl ++ [⟨fd, some (Mem.newFileInfo d), c, ⟨c.module.path, GoPath.mk es⟩⟩], _, _, ?_,
        .put es chunks hw.1 hw.2, other h4 _ l2 hfin (by simp [Fs.set, Ne.symm hne, hroot])⟩
      · simp only [Act.prog, disk, diskCall, Stdos.create, hloc, hj, e1, Stdos.wrapFile, g1, gotDisk, disk_bind, k1, withDisk,
          getElem?_snoc, Stdos.closeFile, l1, disk_pure, unit, Ans.good, Bool.and_self]
    · have hw' : fs es.dropLast ≠ some .dir ∨ fs es = some .dir := by
        by_cases h1 : fs es.dropLast = some .dir
        · right
          by_cases h2 : fs es = some .dir
          · exact h2
          · exact absurd ⟨h1, h2⟩ hw
        · exact Or.inl h1
      obtain ⟨h1, e, e1, e2, e3⟩ := U.createFails w.host (m ++ es) h.ok hg hne'
        (by rw [dropLast_sub hne, hfs, hfs]; exact hw')
      refine ⟨{ w with host := h1 }, fl, _, _, ?_, .putFails es chunks hw', h.host e2 e3⟩
      simp only [Act.prog, disk, diskCall, Stdos.create, hloc, hj, e1, gotDisk, disk_pure]
  | get es sizes =>
    simp only [Act.elems] at hp hc hne hj hg hne' hloc
    cases he : fs es with
    | none =>
      obtain ⟨h1, e, e1, e2, e3⟩ := open_disk_absent (E := E) (W := W) hl hgm hdir h hp hc he fl
      refine ⟨_, fl, _, _, ?_, .getFails es sizes (by rw [he]; intro b hb; cases hb), h.host e2 e3⟩
      simp only [Act.prog, disk, e1, disk_pure]
    | some e =>
      obtain ⟨h1, f, e1, e2, e3, e4⟩ := open_disk (E := E) (W := W) hl hgm hdir h hp hc he fl
      have hat : U.fs h1 (m ++ es) = some e := by rw [e3, hfs]; exact he
      cases e with
      | dir =>
        obtain ⟨h2, g1, g2, g3, g4⟩ := readAll_disk_dir (E := E) (U := U) (getElem?_snoc fl f) rfl sizes { w with host := h1 } 0 []
          hs.1 e2 e4 hat
        obtain ⟨h3, l1, l2, l3⟩ := U.close h2 f.fd g2 (Or.inl (by rw [g3]; simp))
        refine ⟨{ w with host := h3 }, fl ++ [f], _, _, ?_, .getFails es sizes (by rw [he]; intro b hb; cases hb),
          h.host l2 (l3.trans (g4.trans e3))⟩
        simp only [Act.prog, disk, e1, disk_bind, g1]
        simp only [diskCall, withDisk, getElem?_snoc, Stdos.closeFile, l1, disk_pure]
      | file b =>
        obtain ⟨h2, p, g1, g2, g3, g4⟩ := readAll_disk (E := E) (U := U) (getElem?_snoc fl f) rfl sizes { w with host := h1 } 0
          hs.1 e2 e4 hat (Nat.zero_le _) (by simpa using hs.2 b he)
        obtain ⟨h3, l1, l2, l3⟩ := U.close h2 f.fd g2 (Or.inl (by rw [g3]; simp))
        refine ⟨{ w with host := h3 }, fl ++ [f], _, _, ?_, .get es sizes b he, h.host l2 (l3.trans (g4.trans e3))⟩
        rw [List.take_zero] at g1
        simp only [Act.prog, disk, e1, disk_bind, g1]
        simp only [diskCall, withDisk, getElem?_snoc, Stdos.closeFile, l1, disk_pure]
  | mkdirAll es perm =>
    simp only [Act.elems] at hp hc hne hj hg hne' hloc
    by_cases ho : OverFile fs es
    · obtain ⟨h1, e, e1, e2, e3⟩ := U.mkdirAllFails w.host (m ++ es) perm h.ok hg (by
        rw [overFile_sub ht h.root, h.files]; exact ho)
      refine ⟨{ w with host := h1 }, fl, _, _, ?_, .mkdirAllFails es perm ho, h.host e2 e3⟩
      simp only [Act.prog, disk, diskCall, Stdos.mkdirAll, hloc, hj, e1, disk_pure, unit, Ans.good]
    · obtain ⟨h1, e1, e2, e3⟩ := U.mkdirAll w.host (m ++ es) perm h.ok hg (by
        rw [overFile_sub ht h.root, h.files]; exact ho)
      refine ⟨{ w with host := h1 }, fl, _, _, ?_, .mkdirAll es perm ho, other h1 _ e2 (by rw [e3, mkdirs_sub, h.files]) (by simp [Fs.mkdirs])⟩
      simp only [Act.prog, disk, diskCall, Stdos.mkdirAll, hloc, hj, e1, disk_pure, unit, Ans.good]
  | stat es =>
    simp only [Act.elems] at hp hc hne hj hg hne' hloc
    have key := Does.stat (fs := fs) es
    cases he : fs es with
    | none =>
      obtain ⟨h1, e, e1, e2, e3⟩ := U.statFails w.host (m ++ es) h.ok hg (by rw [hfs]; exact he)
      rw [he] at key
      refine ⟨{ w with host := h1 }, fl, _, _, ?_, key, h.host e2 e3⟩
      simp only [Act.prog, disk, diskCall, Stdos.stat, hloc, hj, e1, disk_pure, res, Option.map_none]
    | some e =>
      obtain ⟨h1, d, e1, e4, e2, e3⟩ := U.stat w.host (m ++ es) e h.ok hg (by rw [hfs]; exact he)
      rw [he] at key
      refine ⟨{ w with host := h1 }, fl, _, _, ?_, key, h.host e2 e3⟩
      simp only [Act.prog, disk, diskCall, Stdos.stat, hloc, hj, e1, disk_pure, res, Option.map_some, told_about e4]
  | list es =>
    simp only [Act.elems] at hp hc hne hj hg hne' hloc
    cases he : fs es with
    | none =>
      obtain ⟨h1, e, e1, e2, e3⟩ := open_disk_absent (E := E) (W := W) hl hgm hdir h hp hc he fl
      refine ⟨_, fl, _, _, ?_, .listFails es (by rw [he]; simp), h.host e2 e3⟩
      simp only [Act.prog, disk, e1, disk_pure]
    | some e =>
      obtain ⟨h1, f, e1, e2, e3, e4⟩ := open_disk (E := E) (W := W) hl hgm hdir h hp hc he fl
      have hat : U.fs h1 (m ++ es) = some e := by rw [e3, hfs]; exact he
      cases e with
      | file b =>
        obtain ⟨h2, e, p, g1, g2, g3, g4⟩ := U.readdirFails _ _ _ _ e2 e4 hat
        obtain ⟨h3, l1, l2, l3⟩ := U.close h2 f.fd g2 (Or.inl (by rw [g4]; simp))
        refine ⟨{ w with host := h3 }, fl ++ [f], _, _, ?_, .listFails es (by rw [he]; simp), h.host l2 (l3.trans (g3.trans e3))⟩
        simp only [Act.prog, disk, e1]
        simp only [diskCall, withDisk, getElem?_snoc, Stdos.fileReaddir, g1, res, Stdos.closeFile, l1, disk_pure]
      | dir =>
        obtain ⟨h2, l, p, g1, g5, g6, g2, g3, g4⟩ := U.readdir _ _ _ e2 e4 hat
        obtain ⟨h3, l1, l2, l3⟩ := U.close h2 f.fd g2 (Or.inl (by rw [g4]; simp))
        refine ⟨{ w with host := h3 }, fl ++ [f], _, _, ?_, .list es (names l) he (names_listing g5 ?_), h.host l2 (l3.trans (g3.trans e3))⟩
        · simp only [Act.prog, disk, e1]
          simp only [diskCall, withDisk, getElem?_snoc, Stdos.fileReaddir, g1, res, Stdos.closeFile, l1, disk_pure]
        · intro x b
          rw [g6 x b, e3, List.append_assoc, hfs]
  | remove es =>
    simp only [Act.elems] at hp hc hne hj hg hne' hloc
    by_cases ho : fs es ≠ none ∧ ¬ Full fs es
    · obtain ⟨h1, e1, e2, e3⟩ := U.remove w.host (m ++ es) h.ok hg hne' (by rw [hfs]; exact ho.1) (by
        rw [full_sub, h.files]; exact ho.2)
      refine ⟨{ w with host := h1 }, fl, _, _, ?_, .remove es ho.1 ho.2, other h1 _ e2 (by rw [e3, unset_sub, h.files])
        (by simp [Fs.unset, Ne.symm hne, hroot])⟩
      simp only [Act.prog, disk, diskCall, Stdos.remove, hloc, hj, e1, disk_pure, unit, Ans.good]
    · have ho' : fs es = none ∨ Full fs es := by
        by_cases h1 : fs es = none
        · exact Or.inl h1
        · right
          by_cases h2 : Full fs es
          · exact h2
          · exact absurd ⟨h1, h2⟩ ho
      obtain ⟨h1, e, e1, e2, e3⟩ := U.removeFails w.host (m ++ es) h.ok hg hne' (by rw [full_sub, h.files, hfs]; exact ho')
      refine ⟨{ w with host := h1 }, fl, _, _, ?_, .removeFails es ho', h.host e2 e3⟩
      simp only [Act.prog, disk, diskCall, Stdos.remove, hloc, hj, e1, disk_pure, unit, Ans.good]
  | removeAll es =>
    simp only [Act.elems] at hp hc hne hj hg hne' hloc
    by_cases ho : BelowFile fs es
    · obtain ⟨h1, e, e1, e2, e3⟩ := U.removeAllFails w.host (m ++ es) h.ok hg hne' (by
        rw [belowFile_sub ht h.root, h.files]; exact ho)
      refine ⟨{ w with host := h1 }, fl, _, _, ?_, .removeAllFails es ho, h.host e2 e3⟩
      simp only [Act.prog, disk, diskCall, Stdos.removeAll, hloc, hj, e1, disk_pure, unit, Ans.good]
    · obtain ⟨h1, e1, e2, e3⟩ := U.removeAll w.host (m ++ es) h.ok hg hne' (by
        rw [belowFile_sub ht h.root, h.files]; exact ho)
      refine ⟨{ w with host := h1 }, fl, _, _, ?_, .removeAll es ho, other h1 _ e2 (by rw [e3, prune_sub, h.files])
        (by simp [Fs.prune, hne, hroot])⟩
      simp only [Act.prog, disk, diskCall, Stdos.removeAll, hloc, hj, e1, disk_pure, unit, Ans.good]

end Script
end Verif
