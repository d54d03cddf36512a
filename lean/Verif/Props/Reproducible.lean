import Verif.Props.Stuff
import Verif.Props.Files
import Verif.Lemmas.PositionScan

/-! C114: packaging the same files again gives the same bytes. -/

namespace Verif
namespace Props

open Disk (Node)
open Mem (World Reached Stored)
open Parser (File Decl files)
open Pack (Setup blob stuffed stuffLoop)
open Spec (Sorts AnyOrder Contributed)

/-- **C114** in full: what is embedded is determined by the files on the disk; when, where and in which order of maps it is
packaged makes no difference. -/
def C114_statement : Prop :=
  ∀ (E : Env) (G : Parser.GoTool) (disk : Node) (H : Serial.HereJson) (c : Info) (includes : List Str) (ds : List Decl)
    (sort sort' : List File → List File) (zone zone' : Int → Int) (now now' : Int),
    AnyOrder G → Sorts sort → Sorts sort' → Parser.decls E G disk c includes = .ok ds →
    blob E ⟨disk, sort, H, zone, now⟩ c ds = blob E ⟨disk, sort', H, zone', now'⟩ c ds

/-! ### The time of packaging -/

/-- The same Pkger at another time. -/
def atTime (t : Int) (w : World) : World := { w with now := t }

theorem addNode_atTime (t : Int) (w : World) (her : Info) (pt : Path) (n : Node) :
    Mem.addNode (atTime t w) her pt n = atTime t (Mem.addNode w her pt n) := rfl

theorem addWalkFn_atTime (E : Env) (t : Int) (p : Str) (n : Node) (w : World) :
    Mem.addWalkFn E p n (atTime t w) = (atTime t (Mem.addWalkFn E p n w).1, (Mem.addWalkFn E p n w).2) := by
  have hp : Mem.parse E (atTime t w) p = Mem.parse E w p := rfl
  unfold Mem.addWalkFn
  rw [hp]
  cases Mem.parse E w p with
  | error e => rfl
  | ok pt =>
    simp only
    cases E.pkgInfo pt.pkg with
    | error e => rfl
    | ok her => rfl

theorem addOne_atTime (E : Env) (t : Int) (w : World) (f : Mem.OsFile) :
    Mem.addOne E (atTime t w) f = (atTime t (Mem.addOne E w f).1, (Mem.addOne E w f).2) := by
  have hp : Mem.parse E (atTime t w) f.name = Mem.parse E w f.name := rfl
  unfold Mem.addOne
  rw [hp]
  cases Mem.parse E w f.name with
  | error e => rfl
  | ok pt =>
    simp only
    cases E.dirInfo (if f.node.isDir = true then f.name else GoPath.dir f.name) with
    | error e => rfl
    | ok her =>
      simp only
      split
      · rw [Disk.walk_sim (f := atTime t) (fun p n s => addWalkFn_atTime E t p n s)]
        generalize Disk.walk (Mem.addWalkFn E) f.name f.node w = r
        obtain ⟨w', e⟩ := r
        cases e <;> rfl
      · rfl

theorem add_atTime (E : Env) (t : Int) : ∀ (fs : List Mem.OsFile) (w : World),
    Mem.add E (atTime t w) fs = (atTime t (Mem.add E w fs).1, (Mem.add E w fs).2)
  | [], w => rfl
  | f :: fs, w => by
    simp only [Mem.add]
    rw [addOne_atTime]
    generalize Mem.addOne E w f = r
    obtain ⟨w', r⟩ := r
    cases r with
    | ok _ => exact add_atTime E t fs w'
    | err e => rfl
    | panic => rfl

theorem stuffLoop_atTime (E : Env) (disk : Node) (t : Int) : ∀ (fs : List File) (w : World),
    stuffLoop E disk fs (atTime t w) = (atTime t (stuffLoop E disk fs w).1, (stuffLoop E disk fs w).2)
  | [], w => rfl
  | f :: fs, w => by
    simp only [stuffLoop]
    split
    · exact stuffLoop_atTime E disk t fs w
    · cases Parser.osStat disk f.abs with
      | none => rfl
      | some n =>
        simp only
        rw [add_atTime]
        generalize Mem.add E w [⟨f.abs, n⟩] = r
        obtain ⟨w', r⟩ := r
        cases r with
        | ok _ => exact stuffLoop_atTime E disk t fs w'
        | err e => rfl
        | panic => rfl

/-- **C114** (when).  The time of packaging makes no difference. -/
theorem C114_time (E : Env) (S : Setup) (c : Info) (ds : List Decl) (t : Int) :
    blob E { S with now := t } c ds = blob E S c ds := by
  unfold blob stuffed
  simp only
  cases files E S.disk S.sort ds with
  | error e => rfl
  | ok fs =>
    simp only
    have h : Mem.new c t = atTime t (Mem.new c S.now) := rfl
    rw [h, stuffLoop_atTime]
    generalize stuffLoop E S.disk fs (Mem.new c S.now) = r
    obtain ⟨w, r⟩ := r
    cases r <;> rfl

/-- **C114** for one time zone, if different files have different package paths (missing: other time zones, see
`C114_zone_refuted`; files with the same path, see `C39_nested_module_refuted`): neither the time nor the order in which Go
ranges over the map of files makes a difference. -/
theorem C114_same_partial {E : Env} {disk : Node} {H : Serial.HereJson} {sort sort' : List File → List File} (hs : Sorts sort)
    (hs' : Sorts sort') {zone zone' : Int → Int} (hz : ∀ t, zone t = zone' t) (now now' : Int) (c : Info) {ds : List Decl}
    (hd : ∀ cs, Contributed E disk ds [] cs → ∀ f ∈ cs, ∀ g ∈ cs, f.path.str = g.path.str → f.abs = g.abs) :
    blob E ⟨disk, sort, H, zone, now⟩ c ds = blob E ⟨disk, sort', H, zone', now'⟩ c ds := by
  have hz' : zone = zone' := funext hz
  subst hz'
  rw [← C114_time E ⟨disk, sort, H, zone, now⟩ c ds now']
  unfold blob stuffed
  simp only
  rw [C39_map_order_partial hs hs' hd]

/-! ### The order in which MarshalJSON visits the maps -/

/-- Different stored paths have different texts. -/
def DistinctTexts (w : World) : Prop := ∀ q q', Stored w q → Stored w q' → q.str = q'.str → q = q'

theorem encMap_perm {α : Type} (enc : α → Json) {m m' : AMap Str α} (hn : AMap.Nodup m) (hp : m.Perm m') :
    Serial.encMap enc m = Serial.encMap enc m' := by
  unfold Serial.encMap
  rw [sortBy_congr_perm _ ?_ hp]
  intro x hx y hy he
  have h1 := AMap.get_of_mem hn hx
  have h2 := AMap.get_of_mem hn hy
  rw [he, h2] at h1
  injection h1 with h1
  exact Prod.ext he h1.symm

/-- Maps with the same values at all keys are permutations of each other. -/
theorem perm_of_get {α : Type} {m m' : AMap Str α} (hn : AMap.Nodup m) (hn' : AMap.Nodup m')
    (h : ∀ k, AMap.get m k = AMap.get m' k) : m.Perm m' := by
  rw [List.perm_ext_iff_of_nodup (Serial.nodup_entries hn) (Serial.nodup_entries hn')]
  intro e
  constructor
  · intro he
    have := AMap.get_of_mem hn he
    rw [h] at this
    exact AMap.get_mem this
  · intro he
    have := AMap.get_of_mem hn' he
    rw [← h] at this
    exact AMap.get_mem this

/-- **C114** (the order of `Range`).  In whatever order `MarshalJSON` visits the files and the infos of a Pkger, it writes the
same document, if different paths have different texts. -/
theorem C114_range {w : World} (hn : AMap.Nodup w.files) (hni : AMap.Nodup w.infos) (hd : DistinctTexts w)
    {files' : AMap Path Nat} {infos' : AMap Str Info} (hp : w.files.Perm files') (hpi : w.infos.Perm infos')
    (H : Serial.HereJson) (Z : Int → Int) :
    Serial.marshal H Z { w with files := files', infos := infos' } = Serial.marshal H Z w := by
  have hget := AMap.get_perm hp hn
  have hgeti := AMap.get_perm hpi hni
  have hn' : AMap.Nodup files' := (hp.map Prod.fst).nodup_iff.mp hn
  have hni' : AMap.Nodup infos' := (hpi.map Prod.fst).nodup_iff.mp hni
  have hst : ∀ q, Stored { w with files := files', infos := infos' } q ↔ Stored w q := by
    intro q
    simp only [Stored, hget]
  obtain ⟨e1, e2, e3⟩ := Serial.embedData_entries hn hd
  obtain ⟨f1, f2, f3⟩ := Serial.embedData_entries (w := { w with files := files', infos := infos' }) hn'
    (fun q q' h h' => hd q q' ((hst q).mp h) ((hst q').mp h'))
  have hfiles : ∀ k, AMap.get (Serial.embedData { w with files := files', infos := infos' }).files k =
      AMap.get (Serial.embedData w).files k := by
    intro k
    cases hk : AMap.get (Serial.embedData w).files k with
    | some v =>
      obtain ⟨q, id, h1, rfl, rfl⟩ := e3 k v hk
      exact f2 q id (by simpa only [hget] using h1)
    | none =>
      cases hk' : AMap.get (Serial.embedData { w with files := files', infos := infos' }).files k with
      | none => rfl
      | some v =>
        obtain ⟨q, id, h1, rfl, rfl⟩ := f3 k v hk'
        have h1' : AMap.get w.files q = some id := by simpa only [hget] using h1
        rw [e2 q id h1'] at hk
        cases hk
  obtain ⟨i1, i2⟩ := Serial.embedData_infos (w := w) hni
  obtain ⟨j1, j2⟩ := Serial.embedData_infos (w := { w with files := files', infos := infos' }) hni'
  have hinfos : ∀ k, AMap.get (Serial.embedData { w with files := files', infos := infos' }).infos k =
      AMap.get (Serial.embedData w).infos k := by
    intro k
    rw [i2, j2]
    exact (hgeti k).symm
  unfold Serial.marshal Serial.encData
  rw [encMap_perm _ f1 (perm_of_get f1 e1 hfiles), encMap_perm _ j1 (perm_of_get j1 i1 hinfos)]
  rfl

/-- The Pkgers a program reaches with well formed paths meet the conditions of `C114_range`. -/
theorem C114_range_reached {E : Env} {i : Info} {w : World} (hl : ParseLaws E i) (hr : Reached E i w)
    (hw : WellFormedPaths i w) {files' : AMap Path Nat} {infos' : AMap Str Info} (hp : w.files.Perm files')
    (hpi : w.infos.Perm infos') (H : Serial.HereJson) (Z : Int → Int) :
    Serial.marshal H Z { w with files := files', infos := infos' } = Serial.marshal H Z w := by
  refine C114_range hr.inv.wf.nodup hr.infos.1 ?_ hp hpi H Z
  have hparse : ∀ q, Stored w q → E.parse i q.str = .ok q := by
    intro q hq
    obtain ⟨hp, cs, hc1, hc2, hc3⟩ := hw q hq
    rw [qualified_str hp hc2, hl.qualified q.pkg cs hp hc1 (by rw [← hc2]; exact hc3), ← hc2]
  intro q q' hq hq' he
  have h1 := hparse q hq
  rw [he, hparse q' hq'] at h1
  injection h1 with h1
  exact h1.symm

/-- A Pkger with three paths, and another order of them. -/
example : Reached Demo.env Demo.info demoFiles ∧ WellFormedPaths Demo.info demoFiles ∧
    demoFiles.files.length = 3 ∧ demoFiles.files.Perm demoFiles.files.reverse ∧
    Serial.marshal Serial.plainHere utc { demoFiles with files := demoFiles.files.reverse, infos := demoFiles.infos } =
      Serial.marshal Serial.plainHere utc demoFiles :=
  ⟨demoFiles_reached, demoFiles_wellFormed, by decide +kernel, (List.reverse_perm _).symm,
    C114_range_reached Demo.laws demoFiles_reached demoFiles_wellFormed (List.reverse_perm _).symm (List.Perm.refl _) _ _⟩

/-! ### The time zone -/

/-- **C114** in different time zones (missing: equality of the bytes, which is false): what is read back is like the Pkger
that was written, whichever zone the times were written in. -/
theorem C114_zones_partial {E : Env} {H : Serial.HereJson} {i : Info} {w : World} {Z Z' : Int → Int}
    {ord : AMap Str Serial.EFile → List (Str × Serial.EFile)} (now now' : Int) (hl : ParseLaws E i) (hz : GzipLaw E)
    (hH : Serial.HereLaw H id) (ho : Serial.Visits ord) (hr : Reached E i w) (hw : WellFormedPaths i w)
    (hx : Expressible Z i w) (hx' : Expressible Z' i w) :
    ∃ w1 w2, Serial.unmarshalEmbed E H ord now (Embed.encode E (Serial.marshal H Z w)) = .ok w1 ∧
      Serial.unmarshalEmbed E H ord now' (Embed.encode E (Serial.marshal H Z' w)) = .ok w2 ∧ Alike E w w1 ∧ Alike E w w2 := by
  obtain ⟨w1, h1, h2⟩ := C04_round_trip_partial now hl hz hH ho hr hw hx
  obtain ⟨w2, h3, h4⟩ := C04_round_trip_partial now' hl hz hH ho hr hw hx'
  exact ⟨w1, w2, h1, h3, h2, h4⟩

/-- The demo Pkger can be written in both zones below. -/
example : Expressible utc Demo.info demoFiles ∧ Expressible (fun _ => 3600) Demo.info demoFiles := by
  refine ⟨demoFiles_expressible, by decide +kernel, stored_all (P := fun _ f => Serial.ObjText (fun _ => 3600) f) ?_⟩
  intro e he
  apply objText_of
  have : ∀ e ∈ demoFiles.files, (infoSat (fun d => decide (Serial.DetailsOk (fun _ => 3600) d)) (demoFiles.heap e.2) &&
    decide (Serial.InfoText (demoFiles.heap e.2).here) && decide (Serial.PathText (demoFiles.heap e.2).path) &&
    decide (Serial.PathText (demoFiles.heap e.2).parent)) = true := by decide +kernel
  exact this e he

/-- One hour east of Greenwich. -/
def eastern : Int → Int := fun _ => 3600

/-- A program that opens one file. -/
def oneOpen : Parser.Ast := Demo.program [Demo.callLit (b! "Open") (b! "\"/assets/b.txt\"")]

/-- **C114** is false of the code: modification times are written with the offset of the zone of the machine. -/
theorem C114_zone_refuted : ¬ C114_statement := by
  intro h
  have h2 : (match Parser.decls Demo.env (Demo.tool oneOpen) Demo.disk1 Demo.info [] with
      | .ok ds => decide ((blob Demo.env ⟨Demo.disk1, Demo.sortFiles, Serial.plainHere, utc, 0⟩ Demo.info ds).toOption =
        (blob Demo.env ⟨Demo.disk1, Demo.sortFiles, Serial.plainHere, eastern, 0⟩ Demo.info ds).toOption)
      | _ => true) = false := by decide +kernel
  split at h2
  · rename_i ds hds
    exact absurd (congrArg Res.toOption (h _ _ _ Serial.plainHere _ _ ds _ _ utc eastern 0 0 (Demo.tool_anyOrder _)
      Demo.sortFiles_sorts Demo.sortFiles_sorts hds)) (by simpa using h2)
  · cases h2

/-- Packaging the demo module works (that different files have different paths there is shown with C39). -/
example : (blob Demo.env (demoSetup Demo.disk1) Demo.info demoDecls).isOk = true := by decide +kernel

end Props
end Verif
