import Verif.Lemmas.LinksOS
import Verif.Props.Stuff

/-! C103: packaging files that are reached through symbolic links. -/

namespace Verif
namespace Props

open Mem Links
open Disk (Node)
open Parser (File Decl)

/-- An entry at `rel` in the package `c`, with details `d`: the name has no special meaning to `Parse`, and name and
details can be expressed in JSON. -/
def Fits (Z : Int → Int) (c : Info) (rel : List Str) (d : Details) : Prop :=
  Plain rel ∧ Clear c (GoPath.mk rel) ∧ Serial.DetailsOk Z d ∧ Utf8.Valid (GoPath.mk rel)

/-- The listed file is in the directory of the package `c`, under the name its package path says, with ordinary names
and details at it and below it, and the Go tool knows its package. -/
structure Linked (E : Env) (c : Info) (O : OS) (Z : Int → Int) (f : File) (rel : List Str) : Prop where
  path : f.path = ⟨c.module.path, GoPath.mk rel⟩
  name : f.abs = GoPath.join2 c.dir (GoPath.mk rel)
  dir : c.dir ≠ []
  pkg : ∃ j, E.pkgInfo c.module.path = .ok j
  plain : Plain rel
  own : ∀ t, O.stat f.abs = .ok t → (∃ j, E.dirInfo (if t.isDir then f.abs else GoPath.dir f.abs) = .ok j) ∧
    Fits Z c rel t.details
  below : ∀ n, O.lstat f.abs = .ok n → n.WF ∧ ∀ cs m, n.find cs = some m → Fits Z c (rel ++ cs) m.details

/-- The listed file can be opened; if it is a directory then it is not a link to one, and every entry below it can be
opened, the links among them leading to regular files. -/
def Leading (O : OS) (f : File) : Prop :=
  ∃ t, O.stat f.abs = .ok t ∧ (t.isDir = true → ∃ n, O.lstat f.abs = .ok n ∧ n.isDir = true ∧
    ∀ cs m, n.find cs = some m → ∃ t', O.stat (Disk.joinAll f.abs cs) = .ok t' ∧ (m.isDir = false → t'.isDir = false))

/-- **C103** in full: if everything listed exists, and everything below listed directories, links followed, then
packaging succeeds, and what is embedded shows for every entry the details and the bytes that `os.Stat` and `os.Open`
show of it. -/
def C103_statement : Prop :=
  ∀ (E : Env) (S : Links.Setup) (c : Info) (ds : List Decl) (fs : List File)
    (ord : AMap Str Serial.EFile → List (Str × Serial.EFile)) (now : Int),
    NoSkip E → GzipLaw E → Serial.HereLaw S.here id → Serial.Visits ord → ParseLaws E c → InfoOk c →
    Coherent S.os → Spec.Sorts S.sort → Serial.InfoText c → (∀ her, FromTool E her → Serial.InfoText her) →
    Links.files E S.os S.sort ds = .ok fs → (∀ f ∈ fs, Kept f → ∃ rel, Linked E c S.os S.zone f rel) →
    (∀ f ∈ fs, Kept f → (∃ t, S.os.stat f.abs = .ok t) ∧ ∀ n, S.os.lstat f.abs = .ok n → ∀ cs m, n.find cs = some m →
      ∃ t, S.os.stat (Disk.joinAll f.abs cs) = .ok t) →
    ∃ b w, Links.blob E S c ds = .ok b ∧ Serial.unmarshalEmbed E S.here ord now b = .ok w ∧
      ∀ f ∈ fs, Kept f → ∀ rel, Linked E c S.os S.zone f rel → ∀ n, S.os.lstat f.abs = .ok n →
        ∀ cs m t, n.find cs = some m → S.os.stat (Disk.joinAll f.abs cs) = .ok t →
          openView E w (GoPath.mk (rel ++ cs)) = .ok (t.details, t.data)

/-! ### No links -/

/-- **C103** (no links): where there are no symbolic links, packaging as modelled here does what packaging as modelled
without links does: it lists the same files, fails in the same cases, and writes the same bytes. -/
theorem C103_conservative {E : Env} {disk : Node} (hw : disk.WF) (k : Nat) (sort : List File → List File)
    (hsort : Spec.Sorts sort) (H : Serial.HereJson) (Z : Int → Int) (now : Int) (c : Info) {ds : List Decl}
    (hd : ∀ d ∈ ds, Rooted d) :
    Links.files E (Links.os (LNode.up disk) k) sort ds = Parser.files E disk sort ds ∧
    Links.blob E ⟨Links.os (LNode.up disk) k, sort, H, Z, now⟩ c ds = Pack.blob E ⟨disk, sort, H, Z, now⟩ c ds := by
  have h1 : Links.files E (Links.os (LNode.up disk) k) sort ds = Parser.files E disk sort ds := by
    unfold Links.files Parser.files
    rw [filesLoop_up hd]
    cases Parser.filesLoop E disk ds ⟨[], []⟩ <;> rfl
  refine ⟨h1, ?_⟩
  unfold Links.blob Pack.blob
  have h2 : Links.stuffed E ⟨Links.os (LNode.up disk) k, sort, H, Z, now⟩ c ds = Pack.stuffed E ⟨disk, sort, H, Z, now⟩ c ds := by
    unfold Links.stuffed Pack.stuffed
    simp only [h1]
    cases hf : Parser.files E disk sort ds with
    | error e => rfl
    | ok fs =>
      have hclean : ∀ f ∈ fs, ∃ es, GoPath.Good es ∧ f.abs = GoPath.mk es := by
        unfold Parser.files at hf
        cases hl : Parser.filesLoop E disk ds ⟨[], []⟩ with
        | error e => rw [hl] at hf; cases hf
        | ok s =>
          rw [hl] at hf
          injection hf with hf
          intro f hff
          rw [← hf, (hsort _).1.mem_iff] at hff
          obtain ⟨e, he, rfl⟩ := List.mem_map.mp hff
          exact filesLoop_clean hd (by intro e he; cases he) hl e he
      simp only [stuffLoop_up hw hclean]
      generalize Pack.stuffLoop E disk fs (Mem.new c now) = m
      obtain ⟨w, r⟩ := m
      cases r <;> rfl
  rw [h2]
  cases Pack.stuffed E ⟨disk, sort, H, Z, now⟩ c ds <;> rfl

/-! ### What is stored -/

theorem shown_unique {O : OS} {name : Str} {v v' : Node} (h : Shown O name v) (h' : Shown O name v') : v = v' := by
  cases h with
  | file h1 h2 =>
    cases h' with
    | file h3 h4 => rw [h1] at h3; injection h3
    | dir h3 h4 _ _ _ => rw [h1] at h3; injection h3 with h3; rw [h3, h4] at h2; cases h2
  | dir h1 h2 h3 h4 h5 =>
    cases h' with
    | file h6 h7 => rw [h1] at h6; injection h6 with h6; rw [h6, h7] at h2; cases h2
    | dir h6 h7 h8 h9 h10 => rw [h3] at h8; injection h8 with h8; rw [h8]

/-- The package directory of a linked file. -/
theorem Linked.base {E : Env} {c : Info} (ho : InfoOk c) {O : OS} {Z : Int → Int} {f : File} {rel : List Str}
    (h : Linked E c O Z f rel) : ∃ D, GoPath.Good D ∧ c.dir = GoPath.mk D ∧ f.abs = GoPath.mk (D ++ rel) := by
  rcases ho.dirOk with hd | ⟨D, _, hp, he⟩
  · exact absurd hd h.dir
  · exact ⟨D, hp.good, he, by rw [h.name, he, GoPath.join2_mk hp.good h.plain.good]⟩

/-- What is added for a linked file. -/
structure Taken (E : Env) (c : Info) (O : OS) (Z : Int → Int) (f : File) (rel : List Str) (t v : Node) : Prop where
  stat : O.stat f.abs = .ok t
  shown : Shown O f.abs v
  inside : Inside E c rel ⟨f.abs, v⟩
  text : Pack.TextTree Z rel v
  details : v.details = t.details
  data : v.data = t.data
  file : t.isDir = false → v = t
  dir : t.isDir = true → O.lstat f.abs = .ok t ∧ v = mark O f.abs t

theorem Linked.taken {E : Env} {c : Info} (ho : InfoOk c) {O : OS} (hco : Coherent O) {Z : Int → Int} {f : File}
    {rel : List Str} (h : Linked E c O Z f rel) (hlead : Leading O f) : ∃ t v, Taken E c O Z f rel t v := by
  obtain ⟨D, hD, hdir, habs⟩ := h.base ho
  obtain ⟨t, ht, hd⟩ := hlead
  obtain ⟨⟨j, hj⟩, hfit⟩ := h.own t ht
  cases hdt : t.isDir with
  | false =>
    have hroot : ∀ cs m, t.find cs = some m → cs = [] ∧ m = t := by
      intro cs m hm
      cases t with
      | dir d kids => cases hdt
      | file d b =>
        cases cs with
        | nil => simp only [Node.find, Option.some.injEq] at hm; exact ⟨rfl, hm.symm⟩
        | cons x y => simp [Node.find] at hm
    refine ⟨t, t, ht, .file ht hdt, ⟨h.name, h.dir, ?_, ?_, ?_, h.pkg, ⟨j, hj⟩⟩, ?_, rfl, rfl, fun _ => rfl, ?_⟩
    · cases t with
      | dir d kids => cases hdt
      | file d b => trivial
    · intro cs m hm
      obtain ⟨rfl, rfl⟩ := hroot cs m hm
      rw [List.append_nil]; exact hfit.1
    · intro cs m hm
      obtain ⟨rfl, rfl⟩ := hroot cs m hm
      rw [List.append_nil]; exact hfit.2.1
    · intro cs m hm
      obtain ⟨rfl, rfl⟩ := hroot cs m hm
      rw [List.append_nil]; exact hfit.2.2
    · intro h; rw [hdt] at h; cases h
  | true =>
    obtain ⟨n, hn, hnd, hbelow⟩ := hd hdt
    have htn : t = n := by
      have hg : GoPath.Good (D ++ rel) := GoPath.good_append.mpr ⟨hD, h.plain.good⟩
      rw [habs] at hn ht
      rw [hco.dirs hg hn hnd] at ht
      injection ht with ht
      exact ht.symm
    subst htn
    obtain ⟨hwf, hfits⟩ := h.below t hn
    have hleads : Leads O (Disk.visits (fun _ => false) f.abs t) := by
      rw [Disk.visits_tree]
      intro e he
      obtain ⟨⟨cs, m⟩, h1, rfl⟩ := List.mem_map.mp he
      exact hbelow cs m ((Disk.mem_tree_iff cs t m hwf).mp h1)
    have hback : ∀ cs m, (mark O f.abs t).find cs = some m → ∃ m', t.find cs = some m' ∧ m = mark O (Disk.joinAll f.abs cs) m' := by
      intro cs m hm
      rw [mark_find] at hm
      cases hx : t.find cs with
      | none => rw [hx] at hm; cases hm
      | some m' =>
        rw [hx] at hm
        simp only [Option.map_some, Option.some.injEq] at hm
        exact ⟨m', rfl, hm.symm⟩
    refine ⟨t, mark O f.abs t, ht, .dir ht hdt hn hnd hleads,
      ⟨h.name, h.dir, mark_wf O _ _ hwf, ?_, ?_, h.pkg, ⟨j, by simp only [mark_isDir]; exact hj⟩⟩, ?_, mark_details _ _ _, ?_, ?_, ?_⟩
    · intro cs m hm
      obtain ⟨m', h1, rfl⟩ := hback cs m hm
      exact (hfits cs m' h1).1
    · intro cs m hm
      obtain ⟨m', h1, rfl⟩ := hback cs m hm
      exact (hfits cs m' h1).2.1
    · intro cs m hm
      obtain ⟨m', h1, rfl⟩ := hback cs m hm
      rw [mark_details]
      exact (hfits cs m' h1).2.2
    · rw [mark_data, hdt]
      cases t with
      | dir d kids => rfl
      | file d b => cases hdt
    · intro h; rw [hdt] at h; cases h
    · intro _; exact ⟨hn, rfl⟩

theorem mk_prefix' (a t : List Str) : GoPath.mk a <+: GoPath.mk (a ++ t) := by
  by_cases ht : t = []
  · subst ht; simp
  by_cases ha : a = []
  · subst ha; exact ⟨GoPath.joinSlash t, by simp [GoPath.mk, GoPath.joinSlash]⟩
  · rw [GoPath.mk_append ha ht]; exact List.prefix_append _ _

/-- A directory is listed before what is below it. -/
theorem below_lt {c : Info} (ho : InfoOk c) {a t : List Str} (hg : GoPath.Good (a ++ t)) (ht : t ≠ []) :
    Str.lt (Path.mk c.module.path (GoPath.mk a)).str (Path.mk c.module.path (GoPath.mk (a ++ t))).str = true := by
  rw [qualified_str (q := ⟨c.module.path, GoPath.mk a⟩) (cs := a) ho.modulePlain rfl,
    qualified_str (q := ⟨c.module.path, GoPath.mk (a ++ t)⟩) (cs := a ++ t) ho.modulePlain rfl, Str.lt_iff]
  obtain ⟨s, hs⟩ := mk_prefix' a t
  refine ⟨Str.prefix_le ⟨s, by simp [← hs]⟩, ?_⟩
  intro h
  have h1 := List.append_cancel_left h
  injection h1 with _ h1
  have h2 := GoPath.mk_injective (GoPath.good_append.mp hg).1 hg h1
  have h3 : a ++ [] = a ++ t := by rw [List.append_nil]; exact h2
  exact ht (List.append_cancel_left h3).symm

theorem Linked.rel_unique {E : Env} {c : Info} {O : OS} {Z : Int → Int} {f g : File} {rel rel' : List Str}
    (h : Linked E c O Z f rel) (h' : Linked E c O Z g rel') (hp : f.path = g.path) : rel = rel' := by
  refine GoPath.mk_injective h.plain.good h'.plain.good ?_
  rw [h.path, h'.path] at hp
  injection hp

theorem Taken.find {E : Env} {c : Info} {O : OS} {Z : Int → Int} {f : File} {rel : List Str} {t v : Node}
    (h : Taken E c O Z f rel t v) {cs : List Str} {m : Node} (hm : v.find cs = some m) :
    (cs = [] ∧ m = v) ∨ (cs ≠ [] ∧ ∃ m', O.lstat f.abs = .ok t ∧ t.find cs = some m' ∧
      m = mark O (Disk.joinAll f.abs cs) m') := by
  by_cases hcs : cs = []
  · subst hcs
    have : v.find [] = some v := by cases v <;> rfl
    rw [this] at hm
    injection hm with hm
    exact Or.inl ⟨rfl, hm.symm⟩
  · refine Or.inr ⟨hcs, ?_⟩
    cases hd : t.isDir with
    | false =>
      rw [h.file hd] at hm
      cases t with
      | dir d kids => cases hd
      | file d b =>
        cases cs with
        | nil => exact absurd rfl hcs
        | cons x y => simp [Node.find] at hm
    | true =>
      obtain ⟨h1, h2⟩ := h.dir hd
      rw [h2, mark_find] at hm
      cases hx : t.find cs with
      | none => rw [hx] at hm; cases hm
      | some m' =>
        rw [hx] at hm
        simp only [Option.map_some, Option.some.injEq] at hm
        exact ⟨m', h1, rfl, hm.symm⟩

/-- What packaging stores. -/
theorem links_stored {E : Env} (hs : NoSkip E) {O : OS} {now : Int} {c : Info} (hl : ParseLaws E c) (ho : InfoOk c)
    (hco : Coherent O) {Z : Int → Int} {fs : List File}
    (hsorted : fs.Pairwise fun f g => Str.lt g.path.str f.path.str = false)
    (hlk : ∀ f ∈ fs, Kept f → ∃ rel, Linked E c O Z f rel) (hlead : ∀ f ∈ fs, Kept f → Leading O f) :
    ∃ w l, Links.stuffLoop E O fs (Mem.new c now) = (w, .ok ()) ∧ Added E l (Mem.new c now) w ∧
      (∀ f ∈ fs, Kept f → ∀ rel t, Linked E c O Z f rel → O.stat f.abs = .ok t → ∃ her v,
        Known E c.module.path v her ∧ v.details = t.details ∧ v.data = t.data ∧
        lookup w ⟨c.module.path, GoPath.mk rel⟩ = some (addedObj her ⟨c.module.path, GoPath.mk rel⟩ v)) ∧
      (∀ f ∈ fs, Kept f → ∀ rel n, Linked E c O Z f rel → O.lstat f.abs = .ok n → ∀ cs m, n.find cs = some m →
        (∀ g ∈ fs, Kept g → g.abs ≠ Disk.joinAll f.abs cs) → ∃ her t v, O.stat (Disk.joinAll f.abs cs) = .ok t ∧
        Known E c.module.path v her ∧ v.details = m.details ∧ v.data = t.data ∧
        lookup w ⟨c.module.path, GoPath.mk (rel ++ cs)⟩ = some (addedObj her ⟨c.module.path, GoPath.mk (rel ++ cs)⟩ v)) ∧
      (∀ q o, lookup w q = some o → ∃ f ∈ fs, Kept f ∧ ∃ rel cs v her, Linked E c O Z f rel ∧
        q = ⟨c.module.path, GoPath.mk (rel ++ cs)⟩ ∧ Plain (rel ++ cs) ∧ Clear c (GoPath.mk (rel ++ cs)) ∧
        Serial.DetailsOk Z v.details ∧ Utf8.Valid (GoPath.mk (rel ++ cs)) ∧ FromTool E her ∧ o = addedObj her q v ∧
        (cs = [] ∨ ∃ n m, O.lstat f.abs = .ok n ∧ n.find cs = some m)) := by
  have htake : ∀ f ∈ fs, Kept f → ∃ rel t v, Linked E c O Z f rel ∧ Taken E c O Z f rel t v := by
    intro f hf hk
    obtain ⟨rel, hr⟩ := hlk f hf hk
    obtain ⟨t, v, htv⟩ := hr.taken ho hco (hlead f hf hk)
    exact ⟨rel, t, v, hr, htv⟩
  obtain ⟨os, hos⟩ := sources_exist (O := O) (fs := fs) (by
    intro f hf ht
    obtain ⟨rel, t, v, _, htv⟩ := htake f hf (kept_iff.mpr ht)
    exact ⟨v, htv.shown⟩)
  -- what a source is
  have hin : ∀ {fs' : List File} {os' : List OsFile}, Sources O fs' os' → (∀ f ∈ fs', f ∈ fs) → ∀ o ∈ os',
      ∃ f ∈ fs', Kept f ∧ ∃ rel t, Linked E c O Z f rel ∧ Taken E c O Z f rel t o.node ∧ f.abs = o.name := by
    intro fs' os' hos' hsub o hoo
    obtain ⟨f, h1, h2, h3, h4⟩ := sources_mem hos' o hoo
    obtain ⟨rel, t, v, h5, h6⟩ := htake f (hsub f h1) (kept_iff.mpr h2)
    have := shown_unique h4 h6.shown
    rw [← this] at h6
    exact ⟨f, h1, kept_iff.mpr h2, rel, t, h5, h6, h3⟩
  -- what an entry is
  have hentry : ∀ {fs' : List File} {os' : List OsFile}, Sources O fs' os' → (∀ f ∈ fs', f ∈ fs) → ∀ p m,
      (p, m) ∈ os'.flatMap OsFile.entries → ∃ f ∈ fs', Kept f ∧ ∃ rel t v cs, Linked E c O Z f rel ∧
        Taken E c O Z f rel t v ∧ v.find cs = some m ∧ E.parse c p = .ok ⟨c.module.path, GoPath.mk (rel ++ cs)⟩ := by
    intro fs' os' hos' hsub p m he
    obtain ⟨o, hoo, he⟩ := List.mem_flatMap.mp he
    obtain ⟨f, h1, h2, rel, t, h3, h4, h5⟩ := hin hos' hsub o hoo
    have hi := h4.inside
    rw [h5] at hi
    obtain ⟨cs, h6, rfl⟩ := (mem_entries hi.wf).mp he
    exact ⟨f, h1, h2, rel, t, o.node, cs, h3, h4, h6, hi.parse hl ho h6⟩
  obtain ⟨w, hw⟩ := Pack.add_all hs hl ho (w := Mem.new c now) (os := os) (by
    intro o hoo
    obtain ⟨f, _, _, rel, t, _, h4, h5⟩ := hin hos (fun _ h => h) o hoo
    have := h4.inside
    rw [h5] at this
    exact ⟨rel, this⟩) rfl
  have ha := add_added hs hw
  have hwf : WF (Mem.new c now) := (inv_new c now).wf
  have hlook : ∀ q v, lastFor E c q (os.flatMap OsFile.entries) = some v → ∃ her, Known E q.pkg v her ∧
      lookup w q = some (addedObj her q v) := by
    intro q v hq
    have := ha.lookup hwf q
    change match lastFor E c _ _ with | none => _ | some n => _ at this
    rw [hq] at this
    exact this
  refine ⟨w, _, by rw [stuffLoop_sources hos]; exact hw, ha, ?_, ?_, ?_⟩
  · intro f hff hk rel t hr ht
    obtain ⟨pre, post, hsplit⟩ := List.append_of_mem hff
    rw [hsplit] at hos
    obtain ⟨opre, v, opost, hoseq, _, hv, hopost⟩ := sources_split hos (kept_iff.mp hk)
    obtain ⟨rel', t', v', hr', htv⟩ := htake f hff hk
    obtain rfl := hr.rel_unique hr' rfl
    obtain rfl := shown_unique hv htv.shown
    have htt : t' = t := by
      have := htv.stat
      rw [ht] at this
      injection this with this
      exact this.symm
    subst htt
    have hi := htv.inside
    have hroot : v.find [] = some v := by cases v <;> rfl
    have hself : (f.abs, v) ∈ OsFile.entries ⟨f.abs, v⟩ :=
      (mem_entries (f := ⟨f.abs, v⟩) hi.wf).mpr ⟨[], hroot, rfl⟩
    have hparse : E.parse c f.abs = .ok ⟨c.module.path, GoPath.mk rel⟩ := by
      have := hi.parse hl ho hroot
      rw [List.append_nil] at this
      exact this
    have hlast : lastFor E c ⟨c.module.path, GoPath.mk rel⟩ (os.flatMap OsFile.entries) = some v := by
      rw [hoseq, List.flatMap_append, List.flatMap_cons, lastFor_append]
      have : lastFor E c ⟨c.module.path, GoPath.mk rel⟩ (OsFile.entries ⟨f.abs, v⟩ ++ opost.flatMap OsFile.entries) = some v := by
        refine lastFor_unique (List.mem_append_left _ hself) hparse ?_
        rintro ⟨p, m⟩ he hp
        simp only at hp
        rcases List.mem_append.mp he with he | he
        · obtain ⟨cs, h1, rfl⟩ := (mem_entries (f := ⟨f.abs, v⟩) hi.wf).mp he
          have h2 := hi.parse hl ho h1
          simp only at h2 h1
          rw [h2] at hp
          injection hp with hp
          injection hp with _ hp
          have h3 := GoPath.mk_injective (hi.plain cs m h1).good hr.plain.good hp
          have h4 : cs = [] := List.append_cancel_left (by rw [h3, List.append_nil])
          subst h4
          rw [hroot] at h1
          injection h1 with h1
          exact h1.symm
        · obtain ⟨g, hg, hgk, rel', t', v', cs, h1, h2, h3, h4⟩ := hentry hopost
            (fun x hx => by rw [hsplit]; simp [hx]) p m he
          rw [h4] at hp
          injection hp with hp
          injection hp with _ hp
          have hgood := (h2.inside.plain cs m h3).good
          have h5 := GoPath.mk_injective hgood hr.plain.good hp
          by_cases hcs : cs = []
          · subst hcs
            rw [List.append_nil] at h5
            subst h5
            have habs : g.abs = f.abs := by rw [h1.name, hr.name]
            have h6 := h2.shown
            rw [habs] at h6
            have h7 := shown_unique h6 hv
            subst h7
            rw [hroot] at h3
            injection h3 with h3
            exact h3.symm
          · exfalso
            rw [hsplit] at hsorted
            have h6 := (List.pairwise_cons.mp (List.pairwise_append.mp hsorted).2.1).1 g hg
            have h7 := below_lt ho hgood hcs
            rw [h5, ← h1.path, ← hr.path, h6] at h7
            cases h7
      rw [this]
    obtain ⟨her, h1, h2⟩ := hlook _ _ hlast
    exact ⟨her, v, h1, htv.details, htv.data, h2⟩
  · intro f hff hk rel n hr hn cs m hm hno
    obtain ⟨rel', t, v, hr', htv⟩ := htake f hff hk
    obtain rfl := hr.rel_unique hr' rfl
    have hcs : cs ≠ [] := by
      intro h
      subst h
      exact hno f hff hk rfl
    have hnd : n.isDir = true := by
      cases n with
      | dir d kids => rfl
      | file d b =>
        cases cs with
        | nil => exact absurd rfl hcs
        | cons x y => simp [Node.find] at hm
    obtain ⟨D, hD, hdir, habs⟩ := hr.base ho
    have hgr : GoPath.Good (D ++ rel) := GoPath.good_append.mpr ⟨hD, hr.plain.good⟩
    have htn : t = n := by
      have h1 := htv.stat
      rw [habs] at h1
      rw [hco.dirs hgr (by rw [← habs]; exact hn) hnd] at h1
      injection h1 with h1
      exact h1.symm
    subst htn
    obtain ⟨_, hvm⟩ := htv.dir hnd
    have hplain := ((hr.below t hn).2 cs m hm).1
    have hgcs := (GoPath.good_append.mp hplain.good).2
    have hjoin : Disk.joinAll f.abs cs = GoPath.mk (D ++ (rel ++ cs)) := by
      rw [habs, Disk.joinAll_mk hgr hgcs, List.append_assoc]
    have hlst : O.lstat (GoPath.mk (D ++ (rel ++ cs))) = .ok m := by
      rw [← List.append_assoc]
      exact hco.below (GoPath.good_append.mpr ⟨hgr, hgcs⟩) (by rw [← habs]; exact hn) hm
    obtain ⟨t0, hst, htarget⟩ : ∃ t', O.stat (Disk.joinAll f.abs cs) = .ok t' ∧ (m.isDir = false → t'.isDir = false) := by
      obtain ⟨t', h1, h2⟩ := hlead f hff hk
      rw [htv.stat] at h1
      injection h1 with h1
      subst h1
      obtain ⟨n', h3, _, h4⟩ := h2 hnd
      rw [hn] at h3
      injection h3 with h3
      subst h3
      exact h4 cs m hm
    have hvfind : v.find cs = some (mark O (Disk.joinAll f.abs cs) m) := by rw [hvm, mark_find, hm]; rfl
    have hi := htv.inside
    have hlast : lastFor E c ⟨c.module.path, GoPath.mk (rel ++ cs)⟩ (os.flatMap OsFile.entries) =
        some (mark O (Disk.joinAll f.abs cs) m) := by
      have hmem : (Disk.joinAll f.abs cs, mark O (Disk.joinAll f.abs cs) m) ∈ os.flatMap OsFile.entries := by
        obtain ⟨pre, post, hsplit⟩ := List.append_of_mem hff
        rw [hsplit] at hos
        obtain ⟨opre, v', opost, hoseq, _, hv', _⟩ := sources_split hos (kept_iff.mp hk)
        obtain rfl := shown_unique hv' htv.shown
        refine List.mem_flatMap.mpr ⟨⟨f.abs, v'⟩, by rw [hoseq]; simp, ?_⟩
        exact (mem_entries (f := ⟨f.abs, v'⟩) hi.wf).mpr ⟨cs, hvfind, rfl⟩
      refine lastFor_unique hmem (hi.parse hl ho hvfind) ?_
      rintro ⟨p, m2⟩ he hp
      obtain ⟨g, hg, hgk, rel2, t2, v2, cs2, h1, h2, h3, h4⟩ := hentry hos (fun _ h => h) p m2 he
      simp only at hp
      rw [h4] at hp
      injection hp with hp
      injection hp with _ hp
      have hgood := (h2.inside.plain cs2 m2 h3).good
      have h5 := GoPath.mk_injective hgood hplain.good hp
      obtain ⟨D2, hD2, hdir2, habs2⟩ := h1.base ho
      have hDD : D2 = D := GoPath.mk_injective hD2 hD (by rw [← hdir2, ← hdir])
      subst hDD
      rcases h2.find h3 with ⟨rfl, _⟩ | ⟨hcs2, m', h6, h7, h8⟩
      · exfalso
        rw [List.append_nil] at h5
        exact hno g hg hgk (by rw [habs2, hjoin, h5])
      · have hgr2 : GoPath.Good (D2 ++ rel2) := GoPath.good_append.mpr ⟨hD2, h1.plain.good⟩
        have hgcs2 := (GoPath.good_append.mp hgood).2
        have h9 : O.lstat (GoPath.mk (D2 ++ (rel2 ++ cs2))) = .ok m' := by
          rw [← List.append_assoc]
          exact hco.below (GoPath.good_append.mpr ⟨hgr2, hgcs2⟩) (by rw [← habs2]; exact h6) h7
        rw [h5, hlst] at h9
        injection h9 with h9
        subst h9
        simp only
        rw [h8, hjoin, habs2, Disk.joinAll_mk hgr2 hgcs2, List.append_assoc, h5]
    obtain ⟨her, h1, h2⟩ := hlook _ _ hlast
    refine ⟨her, t0, _, hst, h1, mark_details _ _ _, ?_, h2⟩
    rw [mark_data]
    cases hmd : m.isDir with
    | false => simp [bytesAt, hst]
    | true =>
      rw [hjoin] at hst
      rw [hco.dirs (GoPath.good_append.mpr ⟨hD, hplain.good⟩) hlst hmd] at hst
      injection hst with hst
      subst hst
      cases m with
      | dir d kids => rfl
      | file d b => cases hmd
  · intro q o hq
    have hlk := ha.lookup hwf q
    change match lastFor E c _ _ with | none => _ | some n => _ at hlk
    cases hlast : lastFor E c q (os.flatMap OsFile.entries) with
    | none =>
      rw [hlast] at hlk
      simp only at hlk
      rw [hq] at hlk
      simp [lookup, Mem.new] at hlk
    | some m =>
      rw [hlast] at hlk
      obtain ⟨her, h1, h2⟩ := hlk
      obtain ⟨p, h3, h4⟩ := lastFor_mem hlast
      obtain ⟨f, h5, h6, rel, t, v, cs, h7, h8, h9, h10⟩ := hentry hos (fun _ h => h) p m h3
      rw [h10] at h4
      injection h4 with h4
      rw [hq] at h2
      injection h2 with h2
      obtain ⟨h11, h12⟩ := h8.text cs m h9
      refine ⟨f, h5, h6, rel, cs, m, her, h7, h4.symm, h8.inside.plain cs m h9, h8.inside.clear cs m h9, h11, h12,
        h1.tool, h2, ?_⟩
      rcases h8.find h9 with ⟨h, _⟩ | ⟨_, m', h13, h14, _⟩
      · exact Or.inl h
      · exact Or.inr ⟨t, m', h13, h14⟩

theorem links_files {E : Env} {O : OS} {sort : List File → List File} (hsort : Spec.Sorts sort) {ds : List Decl}
    {fs : List File} (hf : Links.files E O sort ds = .ok fs) :
    fs.Pairwise fun f g => Str.lt g.path.str f.path.str = false := by
  unfold Links.files at hf
  cases hl : Links.filesLoop E O ds ⟨[], []⟩ with
  | error e => rw [hl] at hf; cases hf
  | ok s =>
    rw [hl] at hf
    injection hf with hf
    rw [← hf]
    exact (hsort _).2

/-- **C103** where every listed file can be opened, no listed directory is a link, and the links below listed
directories lead to regular files (missing: links to directories, for which packaging fails, see
`C103_directory_refuted`, and the details of entries that are not listed themselves, see `C103_details_refuted`):
packaging succeeds; what it writes can be read back; every listed file not ending in `.tmp` opens with the details and
bytes `os.Stat` and `os.Open` show of it; every entry below a listed directory that is not listed itself - because its
name ends in `.tmp`, or the program creates it - opens with the bytes the links lead to, but the details of the link
itself; and nothing else is embedded. -/
theorem C103_links_partial {E : Env} (hs : NoSkip E) (hz : GzipLaw E) {S : Links.Setup}
    (hH : Serial.HereLaw S.here id) {ord : AMap Str Serial.EFile → List (Str × Serial.EFile)}
    (hord : Serial.Visits ord) (now : Int) {c : Info} (hl : ParseLaws E c) (ho : InfoOk c) (hco : Coherent S.os)
    (hsort : Spec.Sorts S.sort) (hc : Serial.InfoText c) (htool : ∀ her, FromTool E her → Serial.InfoText her)
    {ds : List Decl} {fs : List File} (hf : Links.files E S.os S.sort ds = .ok fs)
    (hlk : ∀ f ∈ fs, Kept f → ∃ rel, Linked E c S.os S.zone f rel) (hlead : ∀ f ∈ fs, Kept f → Leading S.os f) :
    ∃ b w, Links.blob E S c ds = .ok b ∧ Serial.unmarshalEmbed E S.here ord now b = .ok w ∧
      (∀ f ∈ fs, Kept f → ∀ t, S.os.stat f.abs = .ok t → openView E w f.path.str = .ok (t.details, t.data)) ∧
      (∀ f ∈ fs, Kept f → ∀ rel, Linked E c S.os S.zone f rel → ∀ n, S.os.lstat f.abs = .ok n →
        ∀ cs m, n.find cs = some m → (∀ g ∈ fs, Kept g → g.abs ≠ Disk.joinAll f.abs cs) →
        ∃ t, S.os.stat (Disk.joinAll f.abs cs) = .ok t ∧ openView E w (GoPath.mk (rel ++ cs)) = .ok (m.details, t.data)) ∧
      (∀ q, Stored w q → ∃ f ∈ fs, Kept f ∧ ∃ rel cs, Linked E c S.os S.zone f rel ∧
        q = ⟨c.module.path, GoPath.mk (rel ++ cs)⟩ ∧ (cs = [] ∨ ∃ n m, S.os.lstat f.abs = .ok n ∧ n.find cs = some m)) := by
  obtain ⟨w0, l, h1, ha, h2, h3, h4⟩ := links_stored hs (now := S.now) hl ho hco (links_files hsort hf) hlk hlead
  have hwf : WF w0 := ha.wf (inv_new c S.now).wf
  have hhere : w0.here = c := ha.here
  have hport : Serial.Portable E id S.zone w0 := by
    refine ⟨hwf.nodup, ?_, ?_, ?_, by rw [hhere]; exact hc⟩
    · rw [ha.infos]
      exact (Start.new c S.now).infosNodup
    · intro q id hq
      obtain ⟨f, _, _, rel, cs, v, her, _, rfl, h5, h6, h7, h8, h9, h10, _⟩ := h4 q (w0.heap id) (by simp [lookup, hq])
      have hstr := qualified_str (q := ⟨c.module.path, GoPath.mk (rel ++ cs)⟩) (cs := rel ++ cs) ho.modulePlain rfl
      refine ⟨?_, ?_, ?_⟩
      · rw [hstr]
        exact Utf8.valid_append hc.2.2.2.1 (Utf8.valid_append (a := [Str.colon]) (by decide +kernel) h8)
      · rw [hstr, hhere]
        exact hl.qualified _ _ ho.modulePlain h5 h6
      · rw [h10]
        refine ⟨?_, htool her h9, ⟨hc.2.2.2.1, h8⟩, (show Serial.PathText Path.zero by decide +kernel)⟩
        intro d hd
        simp only [addedObj, newFileInfo, Option.some.injEq] at hd
        rw [← hd]
        exact h7
    · intro k j hk
      rw [ha.infos] at hk
      have := (Start.new c S.now).infos k
      rw [this] at hk
      split at hk
      · rename_i he
        injection hk with hk
        rw [he, ← hk]
        exact ⟨hc.2.1, hc⟩
      · cases hk
  obtain ⟨w, hu, hu2, hu3, hu4, _⟩ := Serial.unmarshal_marshal hH hord hport (Serial.zero now)
  have halike : Alike E w0 w := alike_of_reborn hu2 (by intro k; rw [hu3]; simp) hu4
  refine ⟨_, w, ?_, by rw [unmarshalEmbed_encode hz, hu], ?_, ?_, ?_⟩
  · unfold Links.blob Links.stuffed
    rw [hf]
    simp only [h1]
  · intro f hff hk t ht
    obtain ⟨rel, hr⟩ := hlk f hff hk
    obtain ⟨her, v, _, h5, h6, h7⟩ := h2 f hff hk rel t hr ht
    have hfit := (hr.own t ht).2
    rw [(halike.view _).2, ← h5, ← h6]
    refine (added_views h7 ?_).2
    rw [hhere, hr.path, qualified_str (cs := rel) ho.modulePlain rfl]
    exact hl.qualified _ _ ho.modulePlain hfit.1 hfit.2.1
  · intro f hff hk rel hr n hn cs m hm hno
    obtain ⟨her, t, v, h5, _, h6, h7, h8⟩ := h3 f hff hk rel n hr hn cs m hm hno
    have hfit := (hr.below n hn).2 cs m hm
    refine ⟨t, h5, ?_⟩
    rw [(halike.view _).2, ← h6, ← h7]
    refine (added_views h8 ?_).2
    rw [hhere]
    exact plain_parse hl hfit.1 hfit.2.1
  · intro q hq
    rw [halike.paths, stored_iff_lookup] at hq
    cases hlk : lookup w0 q with
    | none => rw [hlk] at hq; simp at hq
    | some o =>
      obtain ⟨f, h5, h6, rel, cs, v, her, h7, h8, _, _, _, _, _, _, h9⟩ := h4 q o hlk
      exact ⟨f, h5, h6, rel, cs, h7, h8, h9⟩

/-! ### When packaging fails -/

/-- Opening a file does not answer with the error `filepath.SkipDir`. -/
def QuietOS (O : OS) : Prop := ∀ p, O.stat p ≠ .error .skipDir

theorem addWalkFn_ok_links {E : Env} {O : OS} {p : Str} {n : Node} {w w' : World}
    (h : Links.addWalkFn E O p n w = (w', none)) : ∃ t, O.stat p = .ok t ∧ (n.isDir = false → t.isDir = false) := by
  unfold Links.addWalkFn at h
  cases hst : O.stat p with
  | error e => rw [hst] at h; simp at h
  | ok t =>
    rw [hst] at h
    simp only at h
    refine ⟨t, rfl, ?_⟩
    intro hn
    cases htd : t.isDir with
    | false => rfl
    | true =>
      cases hp : Mem.parse E w p with
      | error e => rw [hp] at h; simp at h
      | ok pt =>
        rw [hp] at h
        simp only at h
        cases hk : E.pkgInfo pt.pkg with
        | error e => rw [hk] at h; simp at h
        | ok her => rw [hk] at h; simp [hn, htd] at h

theorem addWalkFn_quiet {E : Env} (hs : NoSkip E) {O : OS} (hq : QuietOS O) (p : Str) (n : Node) (w : World) :
    (Links.addWalkFn E O p n w).2 ≠ some .skipDir := by
  unfold Links.addWalkFn
  cases hst : O.stat p with
  | error e =>
    simp only
    intro h
    injection h with h
    rw [h] at hst
    exact hq p hst
  | ok t =>
    simp only
    cases hp : Mem.parse E w p with
    | error e =>
      simp only
      intro h
      injection h with h
      rw [h] at hp
      exact hs.parse _ _ hp
    | ok pt =>
      simp only
      cases hk : E.pkgInfo pt.pkg with
      | error e =>
        simp only
        intro h
        injection h with h
        rw [h] at hk
        exact hs.pkgInfo _ hk
      | ok her =>
        simp only
        split
        · simp
        · split
          · simp [isDirectory]
          · simp

theorem steps_leads {E : Env} (hs : NoSkip E) {O : OS} (hq : QuietOS O) {l : List (Str × Node)} {w w' : World}
    (h : Disk.Steps (Links.addWalkFn E O) l w w') : Leads O l := by
  induction h with
  | nil s => intro e he; cases he
  | @cons p n l s s' s'' r h1 h2 _ ih =>
    intro e he
    rcases List.mem_cons.mp he with rfl | he
    · have hr : r = none := by
        rcases h2 with h2 | h2
        · exact h2
        · exact absurd (by rw [h1]; exact h2) (addWalkFn_quiet hs hq p n s)
      subst hr
      exact addWalkFn_ok_links h1
    · exact ih e he

theorem stuffLoop_leading {E : Env} (hs : NoSkip E) {O : OS} (hq : QuietOS O) : ∀ {fs : List File} {w w' : World},
    Links.stuffLoop E O fs w = (w', .ok ()) → (∀ f ∈ fs, Kept f → ∀ n, O.lstat f.abs = .ok n → n.WF) →
    ∀ f ∈ fs, Kept f → Leading O f := by
  intro fs
  induction fs with
  | nil => intro w w' _ _ f hf; cases hf
  | cons f fs ih =>
    intro w w' h hwf g hg hk
    simp only [Links.stuffLoop] at h
    cases htmp : Str.hasSuffix f.abs Pack.tmp with
    | true =>
      rw [if_pos htmp] at h
      rcases List.mem_cons.mp hg with rfl | hg
      · rw [kept_iff.mp hk] at htmp; cases htmp
      · exact ih h (fun x hx => hwf x (by simp [hx])) g hg hk
    | false =>
      rw [if_neg (by simp [htmp])] at h
      cases hst : O.stat f.abs with
      | error e => rw [hst] at h; simp at h
      | ok t =>
        rw [hst] at h
        simp only at h
        generalize hm : Links.addOne E O w f.abs t = m at h
        obtain ⟨w1, r⟩ := m
        cases r with
        | err e => simp at h
        | panic => simp at h
        | ok u =>
          rcases List.mem_cons.mp hg with rfl | hg
          · refine ⟨t, hst, ?_⟩
            intro htd
            unfold Links.addOne at hm
            simp only [htd, if_true] at hm
            cases hp : Mem.parse E w g.abs with
            | error e => rw [hp] at hm; simp at hm
            | ok pt =>
              rw [hp] at hm
              simp only at hm
              cases hdi : E.dirInfo g.abs with
              | error e => rw [hdi] at hm; simp at hm
              | ok her =>
                rw [hdi] at hm
                simp only at hm
                cases hls : O.lstat g.abs with
                | error e => rw [hls] at hm; simp at hm
                | ok n =>
                  rw [hls] at hm
                  simp only at hm
                  generalize hwk : Disk.walk (Links.addWalkFn E O) g.abs n w = m2 at hm
                  obtain ⟨w2, r2⟩ := m2
                  cases r2 with
                  | some e => simp at hm
                  | none =>
                    have hst2 := Disk.walk_steps (skip := fun _ => false)
                      (fun p n s => by simp [addWalkFn_quiet hs hq p n s]) hwk
                    have hleads := steps_leads hs hq hst2
                    have hw := hwf g (by simp) hk n hls
                    have hfind : ∀ cs m, n.find cs = some m → ∃ t', O.stat (Disk.joinAll g.abs cs) = .ok t' ∧
                        (m.isDir = false → t'.isDir = false) := by
                      intro cs m hcm
                      rw [Disk.visits_tree] at hleads
                      exact hleads (Disk.joinAll g.abs cs, m)
                        (List.mem_map.mpr ⟨(cs, m), (Disk.mem_tree_iff cs n m hw).mpr hcm, rfl⟩)
                    refine ⟨n, rfl, ?_, hfind⟩
                    cases hnd : n.isDir with
                    | true => rfl
                    | false =>
                      obtain ⟨t', h1, h2⟩ := hfind [] n (by cases n <;> rfl)
                      have h3 : Disk.joinAll g.abs [] = g.abs := rfl
                      rw [h3, hst] at h1
                      injection h1 with h1
                      rw [← h1, htd] at h2
                      exact (h2 hnd).symm
          · exact ih h (fun x hx => hwf x (by simp [hx])) g hg hk

/-- **C103** (when packaging fails): for files of the own package, packaging succeeds exactly if every listed file not
ending in `.tmp` can be opened, none of them is a link to a directory, and every link below a listed directory leads to
a regular file (missing: files of other modules, and names with a special meaning). -/
theorem C103_iff_partial {E : Env} (hs : NoSkip E) {S : Links.Setup} (hq : QuietOS S.os) {c : Info} (hl : ParseLaws E c)
    (ho : InfoOk c) (hco : Coherent S.os) (hsort : Spec.Sorts S.sort) {ds : List Decl} {fs : List File}
    (hf : Links.files E S.os S.sort ds = .ok fs) (hlk : ∀ f ∈ fs, Kept f → ∃ rel, Linked E c S.os S.zone f rel) :
    (∃ b, Links.blob E S c ds = .ok b) ↔ ∀ f ∈ fs, Kept f → Leading S.os f := by
  constructor
  · rintro ⟨b, hb⟩
    unfold Links.blob Links.stuffed at hb
    rw [hf] at hb
    simp only at hb
    generalize hm : Links.stuffLoop E S.os fs (Mem.new c S.now) = m at hb
    obtain ⟨w, r⟩ := m
    cases r with
    | err e => cases hb
    | panic => cases hb
    | ok u =>
      refine stuffLoop_leading hs hq hm ?_
      intro f hff hk n hn
      obtain ⟨rel, hr⟩ := hlk f hff hk
      exact (hr.below n hn).1
  · intro hlead
    obtain ⟨w, l, h1, _⟩ := links_stored hs (now := S.now) hl ho hco (links_files hsort hf) hlk hlead
    refine ⟨Embed.encode E (Serial.marshal S.here S.zone w), ?_⟩
    unfold Links.blob Links.stuffed
    rw [hf]
    simp only [h1]

/-! ### The demo module with links -/

/-- A regular file. -/
def fileL (name data : Str) : Str × LNode := (name, .file ⟨name, data.length, 420, 0, false⟩ data)

/-- A symbolic link: its size is the length of its text, its mode `os.ModeSymlink | 0777`. -/
def linkL (name target : Str) : Str × LNode := (name, .link ⟨name, target.length, 134218239, 7, false⟩ target)

/-- A directory. -/
def dirL (name : Str) (kids : List (Str × LNode)) : Str × LNode := (name, .dir ⟨name, 4096, 2147484141, 0, true⟩ kids)

/-- The demo module, with the given entries in `/src/app/assets`, and a file outside of it. -/
def linkDisk (kids : List (Str × LNode)) : LNode :=
  (dirL (b! "/") [dirL (b! "src") [dirL (b! "app") [dirL (b! "assets") kids, fileL (b! "main.go") (b! "package main")]],
    dirL (b! "srv") [fileL (b! "logo") (b! "LOGO")]]).2

/-- Packaging it. -/
def linkSetup (kids : List (Str × LNode)) : Links.Setup :=
  ⟨Links.os (linkDisk kids) 40, Demo.sortFiles, Serial.plainHere, utc, 1000⟩

/-- The program `pkger.Walk("/assets", …)`. -/
def walkDecls : List Decl := [⟨.walk, ⟨b! "/src/app/assets", ⟨b! "app", b! "/assets"⟩, Demo.info⟩, b! "/assets"⟩]

/-- A listed file of the demo module. -/
def appFile (rel : List Str) : File := ⟨GoPath.mk ([b! "src", b! "app"] ++ rel), ⟨b! "app", GoPath.mk rel⟩, Demo.info⟩

/-- A condition on a successful result. -/
def okAll (P : Node → Bool) : Except Err Node → Bool
  | .ok n => P n
  | .error _ => true

theorem okAll_ok {P : Node → Bool} {r : Except Err Node} (h : okAll P r = true) {n : Node} (hn : r = .ok n) : P n = true := by
  rw [hn] at h; exact h

instance (Z : Int → Int) (c : Info) (rel : List Str) (d : Details) : Decidable (Fits Z c rel d) := by
  unfold Fits; infer_instance

/-- `Linked`, by enumeration. -/
theorem demo_linked {O : OS} {rel : List Str} (h1 : Plain rel)
    (h2 : okAll (fun t => decide (Demo.env.dirInfo (if t.isDir then (appFile rel).abs else GoPath.dir (appFile rel).abs) = .ok Demo.info) &&
      decide (Fits utc Demo.info rel t.details)) (O.stat (appFile rel).abs) = true)
    (h3 : okAll (fun n => decide n.WF && n.tree.all fun e => decide (Fits utc Demo.info (rel ++ e.1) e.2.details))
      (O.lstat (appFile rel).abs) = true) : Linked Demo.env Demo.info O utc (appFile rel) rel where
  path := rfl
  name := by
    have : Demo.info.dir = GoPath.mk [b! "src", b! "app"] := by decide +kernel
    rw [this, GoPath.join2_mk (by decide +kernel) h1.good]
    rfl
  dir := by decide
  pkg := ⟨Demo.info, by decide +kernel⟩
  plain := h1
  own := by
    intro t ht
    have := okAll_ok h2 ht
    simp only [Bool.and_eq_true, decide_eq_true_eq] at this
    exact ⟨⟨_, this.1⟩, this.2⟩
  below := by
    intro n hn
    have := okAll_ok h3 hn
    simp only [Bool.and_eq_true, decide_eq_true_eq, List.all_eq_true] at this
    exact ⟨this.1, fun cs m hm => this.2 (cs, m) ((Disk.mem_tree_iff cs n m this.1).mpr hm)⟩

/-- Whether opening the paths of the tree succeeds, links leading to regular files. -/
def leadingB (O : OS) (f : File) : Bool :=
  match O.stat f.abs with
  | .error _ => false
  | .ok t => !t.isDir ||
    match O.lstat f.abs with
    | .error _ => false
    | .ok n => n.isDir && decide n.WF && n.tree.all fun e =>
      match O.stat (Disk.joinAll f.abs e.1) with
      | .error _ => false
      | .ok t' => e.2.isDir || !t'.isDir

theorem leading_of {O : OS} {f : File} (h : leadingB O f = true) : Leading O f := by
  unfold leadingB at h
  cases hst : O.stat f.abs with
  | error e => rw [hst] at h; cases h
  | ok t =>
    rw [hst] at h
    refine ⟨t, hst, ?_⟩
    intro htd
    simp only [htd, Bool.not_true, Bool.false_or] at h
    cases hls : O.lstat f.abs with
    | error e => rw [hls] at h; cases h
    | ok n =>
      rw [hls] at h
      simp only [Bool.and_eq_true, decide_eq_true_eq, List.all_eq_true] at h
      refine ⟨n, rfl, h.1.1, ?_⟩
      intro cs m hm
      have := h.2 (cs, m) ((Disk.mem_tree_iff cs n m h.1.2).mpr hm)
      simp only at this
      cases hx : O.stat (Disk.joinAll f.abs cs) with
      | error e => rw [hx] at this; cases this
      | ok t' =>
        rw [hx] at this
        refine ⟨t', rfl, ?_⟩
        intro hmd
        simpa [hmd] using this

/-- Assets with links to a file beside them, to a file outside of the module, and over another link; and a link whose
name ends in `.tmp`. -/
def goodKids : List (Str × LNode) :=
  [linkL (b! "alias") (b! "data"), fileL (b! "data") (b! "hello"), linkL (b! "logo") (b! "../../../srv/logo"),
   linkL (b! "old.tmp") (b! "alias"), linkL (b! "root") (b! "/srv/./logo")]

/-- The files it lists. -/
def goodList : List File :=
  [appFile [b! "assets"], appFile [b! "assets", b! "alias"], appFile [b! "assets", b! "data"], appFile [b! "assets", b! "logo"],
   appFile [b! "assets", b! "old.tmp"], appFile [b! "assets", b! "root"]]

theorem goodList_files : Links.files Demo.env (linkSetup goodKids).os Demo.sortFiles walkDecls = .ok goodList := by
  decide +kernel

theorem goodList_linked : ∀ f ∈ goodList, Kept f → ∃ rel, Linked Demo.env Demo.info (linkSetup goodKids).os utc f rel := by
  intro f hf hk
  simp only [goodList, List.mem_cons, List.not_mem_nil, or_false] at hf
  rcases hf with rfl | rfl | rfl | rfl | rfl | rfl
  all_goals exact ⟨_, demo_linked (by decide +kernel) (by decide +kernel) (by decide +kernel)⟩

theorem goodList_leading : ∀ f ∈ goodList, Kept f → Leading (linkSetup goodKids).os f := by
  intro f hf hk
  simp only [goodList, List.mem_cons, List.not_mem_nil, or_false] at hf
  rcases hf with rfl | rfl | rfl | rfl | rfl | rfl
  all_goals exact leading_of (by decide +kernel)

/-- A concrete case: the links are embedded as the files they lead to, except that the one ending in `.tmp` keeps the
details of the link. -/
example : ∃ b w, Links.blob Demo.env (linkSetup goodKids) Demo.info walkDecls = .ok b ∧
    Serial.unmarshalEmbed Demo.env Serial.plainHere id 5 b = .ok w ∧
    openView Demo.env w (b! "app:/assets/alias") = .ok (⟨b! "alias", 5, 420, 0, false⟩, b! "hello") ∧
    openView Demo.env w (b! "app:/assets/logo") = .ok (⟨b! "logo", 4, 420, 0, false⟩, b! "LOGO") ∧
    openView Demo.env w (b! "/assets/old.tmp") = .ok (⟨b! "old.tmp", 5, 134218239, 7, false⟩, b! "hello") := by
  obtain ⟨b, w, h1, h2, h3, h4, _⟩ := C103_links_partial demo_noSkip Demo.gzipLaw (S := linkSetup goodKids)
    plainHere_law visits_id 5 Demo.laws Demo.info_ok (os_coherent _ _) Demo.sortFiles_sorts (by decide +kernel)
    demo_tool_text goodList_files goodList_linked goodList_leading
  have hroot : ∃ n, (linkSetup goodKids).os.lstat (appFile [b! "assets"]).abs = .ok n ∧
      n.find [b! "old.tmp"] = some (.file ⟨b! "old.tmp", 5, 134218239, 7, false⟩ []) := ⟨_, rfl, by rfl⟩
  obtain ⟨n, hn, hm⟩ := hroot
  have hk : Kept (appFile [b! "assets"]) := by decide +kernel
  obtain ⟨t, ht, hv⟩ := h4 (appFile [b! "assets"]) (by simp [goodList]) hk [b! "assets"]
    (demo_linked (by decide +kernel) (by decide +kernel) (by decide +kernel)) n hn [b! "old.tmp"] _ hm (by decide +kernel)
  have htd : t.data = b! "hello" := by
    have : okAll (fun t => t.data == b! "hello") ((linkSetup goodKids).os.stat (Disk.joinAll (appFile [b! "assets"]).abs [b! "old.tmp"])) = true := by
      decide +kernel
    simpa using okAll_ok this ht
  rw [htd] at hv
  exact ⟨b, w, h1, h2, h3 (appFile [b! "assets", b! "alias"]) (by simp [goodList]) (by decide +kernel) _ rfl,
    h3 (appFile [b! "assets", b! "logo"]) (by simp [goodList]) (by decide +kernel) _ rfl, hv⟩

theorem steps_quiet {root : LNode} {last : Bool} {follow : List Str → List Str → Except Err (List Str)}
    (hf : ∀ cur ws, follow cur ws ≠ .error .skipDir) : ∀ (ws cur : List Str), steps root last follow cur ws ≠ .error .skipDir := by
  intro ws
  induction ws with
  | nil => intro cur h; simp [steps] at h
  | cons w ws ih =>
    intro cur h
    rw [steps] at h
    split at h
    · exact ih _ h
    · split at h
      · cases h
      · exact ih _ h
      · split at h <;> cases h
      · split at h
        · cases h
        · split at h
          · cases h
          · exact hf _ _ h

/-- Opening a path on a tree with links never answers with `SkipDir`. -/
theorem os_quiet (root : LNode) (k : Nat) : QuietOS (Links.os root k) := by
  have hr : ∀ (k : Nat) (last : Bool) (cur ws : List Str), resolve root last k cur ws ≠ .error .skipDir := by
    intro k last
    induction k with
    | zero => intro cur ws; exact steps_quiet (by intro _ _ h; cases h) ws cur
    | succ k ih => intro cur ws; exact steps_quiet ih ws cur
  intro p h
  simp only [Links.os] at h
  split at h
  · rename_i e he
    injection h with h
    rw [h] at he
    exact hr k true _ _ he
  · split at h <;> cases h

/-- A concrete case of `C103_iff_partial`: the module above can be packaged. -/
example : ∃ b, Links.blob Demo.env (linkSetup goodKids) Demo.info walkDecls = .ok b :=
  (C103_iff_partial demo_noSkip (S := linkSetup goodKids) (os_quiet _ _) Demo.laws Demo.info_ok (os_coherent _ _)
    Demo.sortFiles_sorts goodList_files goodList_linked).mpr goodList_leading

/-- A concrete case of `C103_conservative`: the demo module without links. -/
example : Links.blob Demo.env ⟨Links.os (LNode.up Demo.disk1) 40, Demo.sortFiles, Serial.plainHere, utc, 1000⟩ Demo.info demoDecls =
    Pack.blob Demo.env (demoSetup Demo.disk1) Demo.info demoDecls :=
  (C103_conservative (by decide +kernel) 40 Demo.sortFiles Demo.sortFiles_sorts Serial.plainHere utc 1000 Demo.info (by
    intro d hd
    have hdir : GoPath.Good [b! "src", b! "app"] ∧ Demo.info.module.dir = GoPath.mk [b! "src", b! "app"] := by decide +kernel
    simp only [demoDecls, List.mem_cons, List.not_mem_nil, or_false] at hd
    rcases hd with rfl | rfl
    · exact ⟨⟨[b! "src", b! "app", b! "assets", b! "b.txt"], by decide +kernel, by decide +kernel⟩, _, hdir.1, hdir.2⟩
    · exact ⟨⟨[b! "src", b! "app", b! "assets"], by decide +kernel, by decide +kernel⟩, _, hdir.1, hdir.2⟩)).2

/-! ### C103 is false -/

theorem exists_of {O : OS} {f : File} (h1 : (match O.stat f.abs with | .ok _ => true | .error _ => false) = true)
    (h2 : okAll (fun n => decide n.WF && n.tree.all fun e =>
      match O.stat (Disk.joinAll f.abs e.1) with | .ok _ => true | .error _ => false) (O.lstat f.abs) = true) :
    (∃ t, O.stat f.abs = .ok t) ∧ ∀ n, O.lstat f.abs = .ok n → ∀ cs m, n.find cs = some m →
      ∃ t, O.stat (Disk.joinAll f.abs cs) = .ok t := by
  constructor
  · split at h1
    · rename_i t ht; exact ⟨t, ht⟩
    · cases h1
  · intro n hn cs m hm
    have := okAll_ok h2 hn
    simp only [Bool.and_eq_true, decide_eq_true_eq, List.all_eq_true] at this
    have := this.2 (cs, m) ((Disk.mem_tree_iff cs n m this.1).mpr hm)
    split at this
    · rename_i t ht; exact ⟨t, ht⟩
    · cases this

/-- Assets with a link to a directory. -/
def dirKids : List (Str × LNode) := [linkL (b! "shared") (b! "/srv")]

/-- The files it lists. -/
def dirList : List File := [appFile [b! "assets"], appFile [b! "assets", b! "shared"]]

/-- **C103** is false: with a link to a directory among the assets, all of which can be opened, packaging fails. -/
theorem C103_directory_refuted : ¬ C103_statement := by
  intro h
  obtain ⟨b, w, h1, _⟩ := h Demo.env (linkSetup dirKids) Demo.info walkDecls dirList id 0 demo_noSkip Demo.gzipLaw
    plainHere_law visits_id Demo.laws Demo.info_ok (os_coherent _ _) Demo.sortFiles_sorts (by decide +kernel)
    demo_tool_text (by decide +kernel) (by
      intro f hf _
      simp only [dirList, List.mem_cons, List.not_mem_nil, or_false] at hf
      rcases hf with rfl | rfl
      all_goals exact ⟨_, demo_linked (by decide +kernel) (by decide +kernel) (by decide +kernel)⟩) (by
      intro f hf _
      simp only [dirList, List.mem_cons, List.not_mem_nil, or_false] at hf
      rcases hf with rfl | rfl
      all_goals exact exists_of (by decide +kernel) (by decide +kernel))
  have h2 : (match Links.blob Demo.env (linkSetup dirKids) Demo.info walkDecls with | .ok _ => false | _ => true) = true := by
    decide +kernel
  rw [h1] at h2
  cases h2

/-- A concrete case of `C103_iff_partial` in the other direction: the link to a directory is no `Leading` file. -/
example : ¬ Leading (linkSetup dirKids).os (appFile [b! "assets", b! "shared"]) := by
  rintro ⟨t, ht, h⟩
  have h1 : okAll (fun t => t.isDir) ((linkSetup dirKids).os.stat (appFile [b! "assets", b! "shared"]).abs) = true := by decide +kernel
  obtain ⟨n, hn, hd, _⟩ := h (okAll_ok h1 ht)
  have h2 : okAll (fun n => !n.isDir) ((linkSetup dirKids).os.lstat (appFile [b! "assets", b! "shared"]).abs) = true := by decide +kernel
  have := okAll_ok h2 hn
  rw [hd] at this
  cases this

/-- **C103** is false: a link ending in `.tmp` in a directory that is embedded shows the details of the link, and among
them a size that is not the number of its bytes. -/
theorem C103_details_refuted : ¬ C103_statement := by
  intro h
  have hl : Linked Demo.env Demo.info (linkSetup goodKids).os utc (appFile [b! "assets"]) [b! "assets"] :=
    demo_linked (by decide +kernel) (by decide +kernel) (by decide +kernel)
  obtain ⟨b, w, h1, h2, h3⟩ := h Demo.env (linkSetup goodKids) Demo.info walkDecls goodList id 5 demo_noSkip Demo.gzipLaw
    plainHere_law visits_id Demo.laws Demo.info_ok (os_coherent _ _) Demo.sortFiles_sorts (by decide +kernel)
    demo_tool_text goodList_files goodList_linked (by
      intro f hf _
      simp only [goodList, List.mem_cons, List.not_mem_nil, or_false] at hf
      rcases hf with rfl | rfl | rfl | rfl | rfl | rfl
      all_goals exact exists_of (by decide +kernel) (by decide +kernel))
  have hroot : ∃ n t, (linkSetup goodKids).os.lstat (appFile [b! "assets"]).abs = .ok n ∧
      n.find [b! "old.tmp"] = some (.file ⟨b! "old.tmp", 5, 134218239, 7, false⟩ []) ∧
      (linkSetup goodKids).os.stat (Disk.joinAll (appFile [b! "assets"]).abs [b! "old.tmp"]) = .ok t ∧ t.details.mode = 420 :=
    ⟨_, _, rfl, by rfl, rfl, by decide +kernel⟩
  obtain ⟨n, t, hn, hm, ht, htm⟩ := hroot
  have h4 := h3 (appFile [b! "assets"]) (by simp [goodList]) (by decide +kernel) [b! "assets"] hl n hn [b! "old.tmp"] _ t hm ht
  obtain ⟨b', w', h5, h6, _, h7, _⟩ := C103_links_partial demo_noSkip Demo.gzipLaw (S := linkSetup goodKids)
    plainHere_law visits_id 5 Demo.laws Demo.info_ok (os_coherent _ _) Demo.sortFiles_sorts (by decide +kernel)
    demo_tool_text goodList_files goodList_linked goodList_leading
  rw [h1] at h5
  injection h5 with h5
  subst h5
  have h2' : Serial.unmarshalEmbed Demo.env (linkSetup goodKids).here id 5 b = .ok w := h2
  rw [h2'] at h6
  injection h6 with h6
  subst h6
  obtain ⟨t', _, h8⟩ := h7 (appFile [b! "assets"]) (by simp [goodList]) (by decide +kernel) [b! "assets"] hl n hn [b! "old.tmp"] _ hm
    (by decide +kernel)
  rw [h4] at h8
  injection h8 with h8
  injection h8 with h8 _
  rw [h8] at htm
  revert htm
  decide +kernel

/-! ### What the links of a tree lead to -/

/-- The file or directory a name leads to over at most `k` links at its end; the texts of the links have no `..`. -/
inductive LeadsTo (root : LNode) : Nat → List Str → LNode → Prop where
  | here {k : Nat} {es : List Str} {n : LNode} : root.find es = some n → (∀ d t, n ≠ .link d t) → LeadsTo root k es n
  | link {k : Nat} {es : List Str} {w : Str} {d : Details} {target : Str} {n : LNode} :
      root.find (es ++ [w]) = some (.link d target) → target ≠ [] → GoPath.dotdotS ∉ GoPath.elems target →
      LeadsTo root k ((if GoPath.rooted target then [] else es) ++ GoPath.elems target) n → LeadsTo root (k + 1) (es ++ [w]) n

theorem lfind_append (b : List Str) : ∀ (a : List Str) (n : LNode), n.find (a ++ b) = (n.find a).bind (·.find b)
  | [], n => by cases n <;> rfl
  | w :: ws, .file d x => rfl
  | w :: ws, .link d x => rfl
  | w :: ws, .dir d kids => by
    simp only [List.cons_append, LNode.find]
    cases kids.find? (fun e => e.1 == w) with
    | none => rfl
    | some e => exact lfind_append b ws e.2

/-- Going along directories. -/
theorem steps_to {root : LNode} {last : Bool} {follow : List Str → List Str → Except Err (List Str)} {n : LNode} :
    ∀ (es cur : List Str), GoPath.dotdotS ∉ es → root.find (cur ++ es) = some n → (∀ d t, n ≠ .link d t) →
    steps root last follow cur es = .ok (cur ++ es)
  | [], cur, _, _, _ => by rw [steps, List.append_nil]
  | w :: ws, cur, hd, hf, hn => by
    have hw : ¬ w = b! ".." := fun h => hd (by rw [h]; exact List.mem_cons_self)
    have hrest : GoPath.dotdotS ∉ ws := fun h => hd (List.mem_cons_of_mem _ h)
    have happ : cur ++ w :: ws = (cur ++ [w]) ++ ws := by simp
    rw [steps, if_neg hw]
    rw [happ] at hf ⊢
    have hx := hf
    rw [lfind_append] at hx
    cases hc : root.find (cur ++ [w]) with
    | none => rw [hc] at hx; cases hx
    | some x =>
      rw [hc] at hx
      simp only [Option.bind_some] at hx
      cases x with
      | dir d kids => exact steps_to ws (cur ++ [w]) hrest hf hn
      | file d b =>
        cases ws with
        | nil => simp
        | cons a r => cases hx
      | link d t =>
        cases ws with
        | nil => simp only [LNode.find] at hx; injection hx with hx; exact absurd hx.symm (hn d t)
        | cons a r => cases hx

/-- Coming to a link at the end. -/
theorem steps_link {root : LNode} {last : Bool} {follow : List Str → List Str → Except Err (List Str)} {w : Str} {d : Details}
    {target : Str} : ∀ (es cur : List Str), GoPath.dotdotS ∉ es ++ [w] → root.find (cur ++ (es ++ [w])) = some (.link d target) →
    steps root last follow cur (es ++ [w]) =
      if last = false then .ok (cur ++ (es ++ [w])) else if target = [] then .error .notExist
      else follow (if GoPath.rooted target then [] else cur ++ es) (GoPath.elems target)
  | [], cur, hd, hf => by
    have hw : ¬ w = b! ".." := fun h => hd (by rw [h]; exact List.mem_cons_self)
    simp only [List.nil_append] at hf ⊢
    rw [steps, if_neg hw, hf]
    cases last <;> simp
  | v :: es, cur, hd, hf => by
    have hv : ¬ v = b! ".." := fun h => hd (by rw [h]; exact List.mem_cons_self)
    have hrest : GoPath.dotdotS ∉ es ++ [w] := fun h => hd (List.mem_cons_of_mem _ h)
    have happ : cur ++ (v :: es ++ [w]) = (cur ++ [v]) ++ (es ++ [w]) := by simp
    rw [happ] at hf ⊢
    rw [List.cons_append, steps, if_neg hv]
    have hx := hf
    rw [lfind_append] at hx
    cases hc : root.find (cur ++ [v]) with
    | none => rw [hc] at hx; cases hx
    | some x =>
      rw [hc] at hx
      simp only [Option.bind_some] at hx
      cases x with
      | dir _ kids =>
        have := steps_link (last := last) (follow := follow) es (cur ++ [v]) hrest hf
        simp only [this, List.append_assoc, List.cons_append, List.nil_append]
      | file _ b => cases es <;> cases hx
      | link _ t => cases es <;> cases hx

theorem lfind_dir {root : LNode} {es : List Str} {w : Str} {n : LNode} (h : root.find (es ++ [w]) = some n) :
    ∃ d kids, root.find es = some (.dir d kids) := by
  rw [lfind_append] at h
  cases hx : root.find es with
  | none => rw [hx] at h; cases h
  | some x =>
    rw [hx] at h
    cases x with
    | dir d kids => exact ⟨d, kids, rfl⟩
    | file d b => cases h
    | link d t => cases h

theorem lfind_root {root : LNode} {es : List Str} {w : Str} {n : LNode} (h : root.find (es ++ [w]) = some n) :
    ∃ d kids, root.find [] = some (.dir d kids) := by
  cases root with
  | dir d kids => exact ⟨d, kids, rfl⟩
  | file d b => cases es <;> cases h
  | link d t => cases es <;> cases h

/-- Path resolution finds what a name leads to. -/
theorem resolve_leads {root : LNode} {n : LNode} {k : Nat} {es : List Str} (h : LeadsTo root k es n) :
    ∀ (k' : Nat), k ≤ k' → ∀ (cur rest : List Str), es = cur ++ rest → GoPath.dotdotS ∉ rest →
    (∃ d kids, root.find cur = some (.dir d kids)) →
    ∃ cs, resolve root true k' cur rest = .ok cs ∧ root.find cs = some n := by
  induction h with
  | @here k es n hf hn =>
    intro k' _ cur rest he hr _
    subst he
    refine ⟨cur ++ rest, ?_, hf⟩
    cases k' with
    | zero => rw [resolve]; exact steps_to rest cur hr hf hn
    | succ k' => rw [resolve]; exact steps_to rest cur hr hf hn
  | @link k es w d target n hf ht hdd hl ih =>
    intro k' hk cur rest he hr hcur
    cases k' with
    | zero => omega
    | succ k' =>
      rcases List.eq_nil_or_concat rest with hnil | ⟨es', v, hrest⟩
      · subst hnil
        rw [List.append_nil] at he
        obtain ⟨d', kids, hc⟩ := hcur
        rw [he, hc] at hf
        cases hf
      · rw [List.concat_eq_append] at hrest
        subst hrest
        rw [← List.append_assoc] at he
        obtain ⟨h1, h2⟩ := List.append_inj' he rfl
        injection h2 with h2
        subst h1; subst h2
        have hf' := hf
        rw [List.append_assoc] at hf'
        rw [resolve, steps_link es' cur hr hf', if_neg (by simp), if_neg ht]
        refine ih k' (by omega) _ _ rfl hdd ?_
        split
        · exact lfind_root hf
        · exact lfind_dir hf

theorem resolve_first {root : LNode} (k : Nat) {es : List Str} {n : LNode} (hd : GoPath.dotdotS ∉ es)
    (hf : root.find es = some n) : resolve root false k [] es = .ok es := by
  have h : ∀ follow, steps root false follow [] es = .ok es := by
    intro follow
    by_cases hn : ∀ d t, n ≠ .link d t
    · exact steps_to es [] hd hf hn
    · cases n with
      | file d b => exact absurd (fun _ _ h => by cases h) hn
      | dir d kids => exact absurd (fun _ _ h => by cases h) hn
      | link d t =>
        rcases List.eq_nil_or_concat es with hnil | ⟨es', v, hes⟩
        · subst hnil; rw [steps]
        · rw [List.concat_eq_append] at hes
          subst hes
          rw [steps_link es' [] hd hf, if_pos rfl]
          rfl
  cases k <;> exact h _

theorem leadsTo_end {root : LNode} {k : Nat} {es : List Str} {n : LNode} (h : LeadsTo root k es n) : ∀ d t, n ≠ .link d t := by
  induction h with
  | here _ h => exact h
  | link _ _ _ _ ih => exact ih

/-- **C103** (the disk).  On a tree with links, a link that leads over others to a file or directory shows its own details
to `os.Lstat`, and to `os.Stat` and `os.Open` the bytes and the details of what it leads to, under its own name. -/
theorem C103_leads {root : LNode} {k : Nat} {es : List Str} {w : Str} {d : Details} {target : Str} {n : LNode}
    (hg : GoPath.Good (es ++ [w])) (hlink : root.find (es ++ [w]) = some (.link d target)) (hl : LeadsTo root k (es ++ [w]) n) :
    (Links.os root k).lstat (GoPath.mk (es ++ [w])) = .ok (.file d []) ∧
    ∃ t, (Links.os root k).stat (GoPath.mk (es ++ [w])) = .ok t ∧ t.details = { n.lower.details with name := w } ∧
      t.data = n.lower.data ∧ t.isDir = n.lower.isDir := by
  have hd : GoPath.dotdotS ∉ es ++ [w] := fun h => (hg _ h).2.2.2 rfl
  have he := GoPath.elems_mk hg
  have hfirst := resolve_first k hd hlink
  obtain ⟨cs, hcs, hn⟩ := resolve_leads hl k (Nat.le_refl _) [] (es ++ [w]) rfl hd (lfind_root hlink)
  have hnl := leadsTo_end hl
  refine ⟨by simp only [Links.os, he, hfirst, hlink, LNode.lower], ?_⟩
  have hne : ¬ resolve root false k [] (es ++ [w]) = .ok cs := by
    rw [hfirst]
    intro h
    injection h with h
    rw [← h, hlink] at hn
    injection hn with hn
    exact hnl _ _ hn.symm
  refine ⟨renamed (GoPath.base (GoPath.mk (es ++ [w]))) n.lower, ?_, ?_⟩
  · simp only [Links.os, he, hcs, hn, if_neg hne]
  · rw [GoPath.base_mk_snoc (hg w (by simp))]
    cases n.lower <;> exact ⟨rfl, rfl, rfl⟩

/-- The link `/src/app/assets/old.tmp` leads over `alias` to the file `data`. -/
example : LeadsTo (linkDisk goodKids) 2 [b! "src", b! "app", b! "assets", b! "old.tmp"] (fileL (b! "data") (b! "hello")).2 := by
  refine .link (es := [b! "src", b! "app", b! "assets"]) (d := ⟨b! "old.tmp", 5, 134218239, 7, false⟩) (target := b! "alias")
    rfl (by decide) (by decide +kernel) ?_
  have h : (if GoPath.rooted (b! "alias") = true then [] else [b! "src", b! "app", b! "assets"]) ++ GoPath.elems (b! "alias") =
      [b! "src", b! "app", b! "assets"] ++ [b! "alias"] := by decide +kernel
  rw [h]
  refine .link (d := ⟨b! "alias", 4, 134218239, 7, false⟩) (target := b! "data") rfl (by decide) (by decide +kernel) ?_
  have h : (if GoPath.rooted (b! "data") = true then [] else [b! "src", b! "app", b! "assets"]) ++ GoPath.elems (b! "data") =
      [b! "src", b! "app", b! "assets", b! "data"] := by decide +kernel
  rw [h]
  exact .here rfl (by intro d t h; cases h)

end Props
end Verif
