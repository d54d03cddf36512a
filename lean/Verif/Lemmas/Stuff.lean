import Verif.Model.Stuff
import Verif.Props.Add
import Verif.Props.Serial
import Verif.Lemmas.DiskSkip

/-! What packaging stores. -/

namespace Verif
namespace Pack

open Mem
open Disk (Node)
open Parser (File Decl)

/-- The opened files handed to `Add`. -/
def sources (disk : Node) (fs : List File) : List OsFile :=
  fs.filterMap fun f =>
    if Str.hasSuffix f.abs tmp then none else (Parser.osStat disk f.abs).map fun n => ⟨f.abs, n⟩

theorem stuffLoop_eq {E : Env} {disk : Node} : ∀ {fs : List File} (w : World),
    (∀ f ∈ fs, Str.hasSuffix f.abs tmp = false → Parser.osStat disk f.abs ≠ none) →
    stuffLoop E disk fs w = add E w (sources disk fs) := by
  intro fs
  induction fs with
  | nil => intro w _; rfl
  | cons f fs ih =>
    intro w h
    simp only [stuffLoop, sources, List.filterMap_cons]
    by_cases ht : Str.hasSuffix f.abs tmp = true
    · rw [if_pos ht, if_pos ht]
      exact ih w fun g hg => h g (by simp [hg])
    · rw [if_neg ht, if_neg ht]
      have := h f (by simp) (Bool.eq_false_iff.mpr ht)
      cases hn : Parser.osStat disk f.abs with
      | none => exact absurd hn this
      | some n =>
        simp only [Option.map_some, add]
        generalize hm : addOne E w ⟨f.abs, n⟩ = m
        obtain ⟨w1, r⟩ := m
        cases r with
        | ok u => exact ih w1 fun g hg => h g (by simp [hg])
        | err e => rfl
        | panic => rfl

theorem stuffLoop_ok {E : Env} {disk : Node} : ∀ {fs : List File} {w w' : World},
    stuffLoop E disk fs w = (w', .ok ()) →
    ∀ f ∈ fs, Str.hasSuffix f.abs tmp = false → Parser.osStat disk f.abs ≠ none := by
  intro fs
  induction fs with
  | nil => intro w w' _ f hf; cases hf
  | cons f fs ih =>
    intro w w' h g hg ht
    simp only [stuffLoop] at h
    by_cases htf : Str.hasSuffix f.abs tmp = true
    · rw [if_pos htf] at h
      rcases List.mem_cons.mp hg with rfl | hg
      · rw [ht] at htf; cases htf
      · exact ih h g hg ht
    · rw [if_neg htf] at h
      cases hn : Parser.osStat disk f.abs with
      | none => rw [hn] at h; simp at h
      | some n =>
        rw [hn] at h
        simp only at h
        rcases List.mem_cons.mp hg with rfl | hg
        · rw [hn]; simp
        · generalize hm : add E w [⟨f.abs, n⟩] = m at h
          obtain ⟨w1, r⟩ := m
          cases r with
          | ok u => exact ih h g hg ht
          | err e => simp at h
          | panic => simp at h

theorem mem_sources {disk : Node} {fs : List File} {o : OsFile} :
    o ∈ sources disk fs ↔ ∃ f ∈ fs, Str.hasSuffix f.abs tmp = false ∧ f.abs = o.name ∧
      Parser.osStat disk f.abs = some o.node := by
  unfold sources
  rw [List.mem_filterMap]
  constructor
  · rintro ⟨f, hf, h⟩
    split at h
    · cases h
    · rename_i ht
      cases hn : Parser.osStat disk f.abs with
      | none => rw [hn] at h; cases h
      | some n =>
        rw [hn] at h
        simp only [Option.map_some, Option.some.injEq] at h
        subst h
        exact ⟨f, hf, Bool.eq_false_iff.mpr ht, rfl, hn⟩
  · rintro ⟨f, hf, h1, h2, h3⟩
    refine ⟨f, hf, ?_⟩
    rw [if_neg (by simp [h1]), h3, h2]
    rfl

theorem stuffed_ok {E : Env} {S : Setup} {c : Info} {ds : List Decl} {w : World} (h : stuffed E S c ds = .ok w) :
    ∃ fs, Parser.files E S.disk S.sort ds = .ok fs ∧ add E (Mem.new c S.now) (sources S.disk fs) = (w, .ok ()) := by
  unfold stuffed at h
  cases hf : Parser.files E S.disk S.sort ds with
  | error e => rw [hf] at h; cases h
  | ok fs =>
    rw [hf] at h
    simp only at h
    refine ⟨fs, rfl, ?_⟩
    generalize hm : stuffLoop E S.disk fs (Mem.new c S.now) = m at h
    obtain ⟨w1, r⟩ := m
    cases r with
    | err e => cases h
    | panic => cases h
    | ok u =>
      injection h with h
      subst h
      rw [← stuffLoop_eq _ (stuffLoop_ok hm), hm]

theorem stuffed_of {E : Env} {S : Setup} {c : Info} {ds : List Decl} {fs : List File} {w : World}
    (hf : Parser.files E S.disk S.sort ds = .ok fs)
    (hex : ∀ f ∈ fs, Str.hasSuffix f.abs tmp = false → Parser.osStat S.disk f.abs ≠ none)
    (h : add E (Mem.new c S.now) (sources S.disk fs) = (w, .ok ())) : stuffed E S c ds = .ok w := by
  unfold stuffed
  rw [hf]
  simp only [stuffLoop_eq _ hex, h]

theorem stuffed_reached {E : Env} {S : Setup} {c : Info} {ds : List Decl} {w : World}
    (hn : ∀ cs n, S.disk.find cs = some n → NodeOk n) (h : stuffed E S c ds = .ok w) : Reached E c w := by
  obtain ⟨fs, _, ha⟩ := stuffed_ok h
  refine ⟨_, [.add (sources S.disk fs)], Start.new c S.now, ?_, ?_⟩
  · intro o ho
    simp only [List.mem_singleton] at ho
    subst ho
    intro f hf
    obtain ⟨g, _, _, _, h4⟩ := mem_sources.mp hf
    exact hn _ _ h4
  · simp [run, step, ha]

/-! ### Files of the own module -/

/-- The listed file is in the directory of the package `c`, under the name its package path says, with ordinary names
below it. -/
def OwnFile (E : Env) (c : Info) (disk : Node) (f : File) (rel : List Str) (n : Node) : Prop :=
  f.path = ⟨c.module.path, GoPath.mk rel⟩ ∧ Parser.osStat disk f.abs = some n ∧ Props.Inside E c rel ⟨f.abs, n⟩

/-- All names and details in the tree can be expressed in JSON. -/
def TextTree (Z : Int → Int) (rel : List Str) (n : Node) : Prop :=
  ∀ cs m, n.find cs = some m → Serial.DetailsOk Z m.details ∧ Utf8.Valid (GoPath.mk (rel ++ cs))

theorem add_all {E : Env} (hs : NoSkip E) {c : Info} (hl : ParseLaws E c) (ho : InfoOk c) : ∀ {os : List OsFile} {w : World},
    (∀ o ∈ os, ∃ rel, Props.Inside E c rel o) → w.here = c → ∃ w', add E w os = (w', .ok ()) := by
  intro os
  induction os with
  | nil => intro w _ _; exact ⟨w, rfl⟩
  | cons o os ih =>
    intro w hi hh
    obtain ⟨rel, hin⟩ := hi o (by simp)
    obtain ⟨w1, h1⟩ := Props.add_inside hl ho hin hh
    have h2 := (add_added hs h1).here
    simp only [add] at h1 ⊢
    generalize hm : addOne E w o = m at h1 ⊢
    obtain ⟨w2, r⟩ := m
    cases r with
    | err e => simp at h1
    | panic => simp at h1
    | ok u =>
      simp only [Prod.mk.injEq, and_true] at h1
      subst h1
      exact ih (fun x hx => hi x (by simp [hx])) (by rw [h2, hh])

/-- An entry below an own file is the entry of the disk at its full name. -/
theorem own_find {E : Env} {c : Info} (ho : InfoOk c) {disk : Node} {f : File} {rel : List Str} {n : Node}
    (h : OwnFile E c disk f rel n) {cs : List Str} {m : Node} (hm : n.find cs = some m) :
    Parser.osStat disk (GoPath.join2 c.dir (GoPath.mk (rel ++ cs))) = some m := by
  obtain ⟨_, h2, h3⟩ := h
  rcases ho.dirOk with hd | ⟨D, hD, hp, he⟩
  · exact absurd hd h3.dir
  · have hg := plain_append.mp (h3.plain cs m hm)
    have hname := h3.name
    simp only at hname
    unfold Parser.osStat at h2 ⊢
    rw [hname, he, GoPath.join2_mk hp.good hg.1.good,
      GoPath.elems_mk (GoPath.good_append.mpr ⟨hp.good, hg.1.good⟩)] at h2
    rw [he, GoPath.join2_mk hp.good (h3.plain cs m hm).good,
      GoPath.elems_mk (GoPath.good_append.mpr ⟨hp.good, (h3.plain cs m hm).good⟩), ← List.append_assoc,
      Disk.find_append, h2]
    exact hm

/-- What is stored if all listed files are own files: exactly the entries of their trees. -/
theorem stuffed_own {E : Env} (hs : NoSkip E) {S : Setup} {c : Info} (hl : ParseLaws E c) (ho : InfoOk c)
    {ds : List Decl} {fs : List File} (hf : Parser.files E S.disk S.sort ds = .ok fs)
    (hown : ∀ f ∈ fs, Str.hasSuffix f.abs tmp = false → ∃ rel n, OwnFile E c S.disk f rel n) :
    ∃ w, stuffed E S c ds = .ok w ∧
      (∀ f ∈ fs, Str.hasSuffix f.abs tmp = false → ∀ rel n, OwnFile E c S.disk f rel n → ∀ cs m, n.find cs = some m →
        ∃ her, Known E c.module.path m her ∧ lookup w ⟨c.module.path, GoPath.mk (rel ++ cs)⟩ =
          some (addedObj her ⟨c.module.path, GoPath.mk (rel ++ cs)⟩ m)) ∧
      (∀ q o, lookup w q = some o → ∃ f ∈ fs, Str.hasSuffix f.abs tmp = false ∧ ∃ rel n, OwnFile E c S.disk f rel n ∧
        ∃ cs m her, n.find cs = some m ∧ Known E c.module.path m her ∧ q = ⟨c.module.path, GoPath.mk (rel ++ cs)⟩ ∧
          o = addedObj her q m) := by
  have hex : ∀ f ∈ fs, Str.hasSuffix f.abs tmp = false → Parser.osStat S.disk f.abs ≠ none := by
    intro f hff ht
    obtain ⟨rel, n, h⟩ := hown f hff ht
    rw [h.2.1]; simp
  have hin : ∀ o ∈ sources S.disk fs, ∃ f ∈ fs, Str.hasSuffix f.abs tmp = false ∧ ∃ rel, OwnFile E c S.disk f rel o.node ∧
      f.abs = o.name := by
    intro o hoo
    obtain ⟨f, h1, h2, h3, h4⟩ := mem_sources.mp hoo
    obtain ⟨rel, n, h5⟩ := hown f h1 h2
    have : n = o.node := by
      have := h5.2.1
      rw [h4] at this
      injection this with this
      exact this.symm
    subst this
    exact ⟨f, h1, h2, rel, h5, h3⟩
  have hin' : ∀ o ∈ sources S.disk fs, ∃ rel, Props.Inside E c rel o := by
    intro o hoo
    obtain ⟨f, _, _, rel, h5, h6⟩ := hin o hoo
    have := h5.2.2
    rw [h6] at this
    exact ⟨rel, this⟩
  obtain ⟨w, hw⟩ := add_all hs hl ho (w := Mem.new c S.now) hin' rfl
  have ha := add_added hs hw
  have hwf : WF (Mem.new c S.now) := (inv_new c S.now).wf
  -- every entry to be stored
  have hentry : ∀ p m, (p, m) ∈ (sources S.disk fs).flatMap OsFile.entries → ∃ f ∈ fs, Str.hasSuffix f.abs tmp = false ∧
      ∃ rel n cs, OwnFile E c S.disk f rel n ∧ n.find cs = some m ∧
        E.parse c p = .ok ⟨c.module.path, GoPath.mk (rel ++ cs)⟩ := by
    intro p m he
    obtain ⟨o, hoo, he⟩ := List.mem_flatMap.mp he
    obtain ⟨f, h1, h2, rel, h5, h6⟩ := hin o hoo
    have hi := h5.2.2
    rw [h6] at hi
    obtain ⟨cs, h7, rfl⟩ := (Props.mem_entries hi.wf).mp he
    exact ⟨f, h1, h2, rel, o.node, cs, h5, h7, hi.parse hl ho h7⟩
  refine ⟨w, stuffed_of hf hex hw, ?_, ?_⟩
  · intro f hff ht rel n hon cs m hm
    have hi := hon.2.2
    have hmem : (Disk.joinAll f.abs cs, m) ∈ (sources S.disk fs).flatMap OsFile.entries := by
      refine List.mem_flatMap.mpr ⟨⟨f.abs, n⟩, mem_sources.mpr ⟨f, hff, ht, rfl, hon.2.1⟩, ?_⟩
      exact (Props.mem_entries (f := ⟨f.abs, n⟩) hi.wf).mpr ⟨cs, hm, rfl⟩
    have hlast := lastFor_unique hmem (hi.parse hl ho hm) (by
      rintro ⟨p, m'⟩ he hp
      obtain ⟨f', _, _, rel', n', cs', h1, h2, h3⟩ := hentry p m' he
      simp only at hp
      rw [h3] at hp
      injection hp with hp
      injection hp with _ hp
      have h4 := GoPath.mk_injective (h1.2.2.plain cs' m' h2).good (hi.plain cs m hm).good hp
      have h5 := own_find ho h1 h2
      have h6 := own_find ho hon hm
      rw [h4, h6] at h5
      injection h5 with h5
      exact h5.symm)
    have := ha.lookup hwf ⟨c.module.path, GoPath.mk (rel ++ cs)⟩
    change match lastFor E c _ _ with | none => _ | some n => _ at this
    rw [hlast] at this
    exact this
  · intro q o hq
    have := ha.lookup hwf q
    change match lastFor E c _ _ with | none => _ | some n => _ at this
    cases hlast : lastFor E c q ((sources S.disk fs).flatMap OsFile.entries) with
    | none =>
      rw [hlast] at this
      simp only at this
      rw [hq] at this
      simp [lookup, Mem.new] at this
    | some m =>
      rw [hlast] at this
      obtain ⟨her, h1, h2⟩ := this
      obtain ⟨p, h3, h4⟩ := lastFor_mem hlast
      obtain ⟨f, h5, h6, rel, n, cs, h7, h8, h9⟩ := hentry p m h3
      rw [h9] at h4
      injection h4 with h4
      rw [hq] at h2
      injection h2 with h2
      exact ⟨f, h5, h6, rel, n, h7, cs, m, her, h8, by rw [← h4] at h1; exact h1, h4.symm, h2⟩

end Pack
end Verif
