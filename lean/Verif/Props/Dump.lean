import Verif.Lemmas.JsonIndent
import Verif.Model.Dump
import Verif.Props.Paths

/-! What `Dump` writes (C57). -/

namespace Verif
namespace Props

open Mem Serial

/-- The member of a JSON object with a given name. -/
def member (k : Str) : Json → Option Json
  | .obj ms => (ms.find? fun m => m.1 == k).map (·.2)
  | _ => none

/-- The entries of the `Paths` object of a JSON text. -/
def pathsOf (t : Str) : Option (List (Str × Json)) :=
  match (Json.parse t).bind (member (b! "Paths")) with
  | some (.obj ps) => some ps
  | _ => none

/-- A JSON value tells the details of a file: name, size, mode, directory flag, and time as RFC 3339 text of the
instant. -/
def Tells (Z : Int → Int) (v : Json) (d : Details) : Prop :=
  ∃ j, member (b! "details") v = some j ∧ member (b! "name") j = some (.str d.name) ∧
    member (b! "size") j = some (.num (Decimal.ofInt d.size)) ∧
    member (b! "mode") j = some (.num (Decimal.ofNat d.mode)) ∧
    member (b! "mod_time") j = some (.str (Time.format d.modTime (Z d.modTime))) ∧
    member (b! "is_dir") j = some (.bool d.isDir)

/-- Entry by entry, `ps` are the paths and details of the visits. -/
def Reports (Z : Int → Int) (ps : List (Str × Json)) (vs : List Visit) : Prop :=
  ps.map (·.1) = vs.map (·.path) ∧ ∀ e ∈ ps.zip vs, Tells Z e.1.2 e.2.details

/-- **C57** in full: for every state, `Dump` writes a JSON document whose `Paths` has one entry per visit of
`Walk("/")`. -/
def C57_statement : Prop :=
  ∀ (E : Env) (H : HereJson) (Z : Int → Int) (i : Info) (w : World), ParseLaws E i → HereLaw H id → Reached E i w →
    (∀ q, Stored w q → WellFormed q) → Clear i GoPath.rootS →
    ∃ t ps, Dump.text E H Z w = .ok t ∧ pathsOf t = some ps ∧ Reports Z ps (visits E id nod w GoPath.rootS)

/-- The property fails for names that are not valid UTF-8. -/
theorem C57_refuted : ¬ C57_statement := by
  intro h
  have hr : Reached Demo.env Demo.info twoBad :=
    Reached.ofNew 1000 [.create [47, 0xFE], .create [47, 0xFF]] (by simp [Op.HostOk])
  have hw : ∀ q, Stored twoBad q → WellFormed q := by
    have h1 : ∀ e ∈ twoBad.files, PlainPkg e.1.pkg ∧ Plain (GoPath.rootedElems e.1.name) ∧
        e.1.name = GoPath.mk (GoPath.rootedElems e.1.name) := by decide +kernel
    rintro q ⟨id, hid⟩
    obtain ⟨a, b, c⟩ := h1 (q, id) (AMap.get_mem hid)
    exact ⟨a, _, b, c⟩
  obtain ⟨t, ps, h1, h2, h3, _⟩ := h Demo.env plainHere utc Demo.info twoBad Demo.laws plainHere_law hr hw
    (by decide +kernel)
  have h4 : (match Dump.text Demo.env plainHere utc twoBad with
      | .ok t => (pathsOf t).map fun ps => ps.map (·.1)
      | _ => none) ≠ some ((visits Demo.env id nod twoBad GoPath.rootS).map (·.path)) := by decide +kernel
  apply h4
  rw [h1]
  simp only [h2, Option.map_some, h3]

theorem walkLoop_collect (root : Path) (ks : List Path) : ∀ (skip : Str) (w : World) (m : AMap Str Details)
    (l : List Visit), ∃ vs r,
      walkLoop (fun x : World × List Visit => id x.1) (logged nod) root ks skip (w, l) = ((w, l ++ vs), r) ∧
      walkLoop Prod.fst Dump.collect root ks skip (w, m) =
        ((w, setAll Visit.path Visit.details m vs), r) := by
  induction ks with
  | nil => intro skip w m l; exact ⟨[], .ok (), by simp [walkLoop], by simp [walkLoop, setAll]⟩
  | cons k ks ih =>
    intro skip w m l
    simp only [walkLoop]
    split
    · exact ih _ _ _ _
    split
    · exact ih _ _ _ _
    split
    · exact ih _ _ _ _
    simp only [id_eq]
    cases hg : AMap.get w.files k with
    | none => exact ⟨[], .err .notExist, by simp, by simp [setAll]⟩
    | some i =>
      simp only
      cases hd : (w.heap i).info with
      | none => exact ⟨[], .err .notExist, by simp, by simp [setAll]⟩
      | some d =>
        simp only [logged, nod, Dump.collect]
        obtain ⟨vs, r, h1, h2⟩ := ih skip w (AMap.set m k.str (newFileInfo d)) (l ++ [⟨k.str, newFileInfo d, none⟩])
        refine ⟨⟨k.str, newFileInfo d, none⟩ :: vs, r, ?_, ?_⟩
        · simp only [id_eq] at h1
          rw [h1]; simp
        · rw [h2]; rfl

/-- The paths collected are those visited. -/
theorem walk_collect (E : Env) (w : World) (root : Str) :
    walk E Prod.fst Dump.collect (w, []) root =
      ((w, setAll Visit.path Visit.details [] (visits E id nod w root)), walkResult E id nod w root) := by
  have hl := (walk_logged E id nod w root).2
  unfold visits walkResult
  rw [← hl]
  unfold walk
  simp only [id_eq]
  cases hp : parse E w root with
  | error e => simp [setAll]
  | ok pt =>
    simp only
    obtain ⟨vs, r, h1, h2⟩ := walkLoop_collect pt (keys w.files) skipInit w [] []
    simp only [id_eq] at h1
    rw [h1, h2]
    simp

theorem sane_encFileInfo {Z : Int → Int} {d : Details} : (encFileInfo Z (some d)).sane =
    .obj [(b! "details", (encDetails Z d).sane)] := by
  have e1 : Utf8.sane (b! "details") = b! "details" := by decide +kernel
  simp only [encFileInfo, Json.sane, Json.saneMembers, e1]

theorem tells_enc {Z : Int → Int} {d : Details} (h : Utf8.Valid d.name) : Tells Z (encFileInfo Z (some d)).sane d := by
  refine ⟨(encDetails Z d).sane, ?_, ?_⟩
  · rw [sane_encFileInfo]; rfl
  · rw [sane_encDetails, saneText h]
    exact ⟨rfl, rfl, rfl, rfl, rfl⟩

theorem setAll_perm {α β γ : Type} [DecidableEq β] (key : α → β) (val : α → γ) (l : List α) :
    ∀ m : AMap β γ, (AMap.keys m ++ l.map key).Nodup →
      (setAll key val m l).Perm (m ++ l.map fun e => (key e, val e)) := by
  induction l with
  | nil => intro m _; simp [setAll]
  | cons e l ih =>
    intro m hn
    have hn' : key e ∉ AMap.keys m := by
      rw [List.nodup_append] at hn
      intro h
      exact hn.2.2 _ h (key e) (by simp) rfl
    have he : AMap.set m (key e) (val e) = (key e, val e) :: m := by
      unfold AMap.set AMap.erase
      rw [List.filter_eq_self.mpr]
      intro x hx
      have : x.1 ≠ key e := fun h => hn' (h ▸ List.mem_map_of_mem (f := (·.1)) hx)
      simpa using this
    have h1 := ih (AMap.set m (key e) (val e)) (by
      rw [he]
      refine (List.Perm.nodup_iff ?_).mp hn
      simp only [AMap.keys, List.map_cons, List.cons_append]
      exact List.perm_middle)
    have h2 : setAll key val m (e :: l) = setAll key val (AMap.set m (key e) (val e)) l := rfl
    rw [h2]
    refine h1.trans ?_
    rw [he, List.map_cons, List.cons_append]
    exact List.perm_middle.symm

theorem zip_self {α : Type} (l : List α) : l.zip l = l.map fun v => (v, v) := by
  induction l with
  | nil => rfl
  | cons v l ih => simp [ih]

theorem inj_of_nodup_map {α β : Type} {f : α → β} {l : List α} (h : (l.map f).Nodup) {a b : α} (ha : a ∈ l)
    (hb : b ∈ l) (he : f a = f b) : a = b := by
  induction l with
  | nil => cases ha
  | cons x l ih =>
    rw [List.map_cons, List.nodup_cons] at h
    rcases List.mem_cons.mp ha with rfl | ha
    · rcases List.mem_cons.mp hb with rfl | hb
      · rfl
      · exact absurd (List.mem_map.mpr ⟨b, hb, he.symm⟩) h.1
    · rcases List.mem_cons.mp hb with hbx | hb
      · rw [hbx] at he
        exact absurd (List.mem_map.mpr ⟨a, ha, he⟩) h.1
      · exact ih h.2 ha hb

/-- **C57** where all paths and names are valid UTF-8: `Dump` succeeds, with a JSON document whose `Paths` are, in
order, exactly the visits of `Walk("/")`, one entry each with its details; these are exactly the stored paths of the
module; and `Type` and `Info` are as they should be.  Missing: names that are not valid UTF-8, see `C57_refuted`. -/
theorem C57_dump_partial {E : Env} {H : HereJson} {kept : Info → Info} (hH : HereLaw H kept) (Z : Int → Int) {i : Info}
    {w : World} (hl : ParseLaws E i) (hr : Reached E i w) (hw : ∀ q, Stored w q → WellFormed q)
    (hc : Clear i GoPath.rootS) (hu : ∀ q f d, lookup w q = some f → f.info = some d →
      Utf8.Valid q.str ∧ Utf8.Valid d.name) :
    ∃ t ps, Dump.text E H Z w = .ok t ∧ pathsOf t = some ps ∧
      Reports Z ps (visits E id nod w GoPath.rootS) ∧ (ps.map (·.1)).Nodup ∧
      (∀ s, s ∈ ps.map (·.1) ↔ ∃ q, Stored w q ∧ q.pkg = i.module.path ∧ s = q.str) ∧
      (Json.parse t).bind (member (b! "Type")) = some (.str (b! "*mem.Pkger")) ∧
      (Json.parse t).bind (member (b! "Info")) = some (H.info i).sane := by
  have hroot : E.parse i GoPath.rootS = .ok ⟨i.module.path, GoPath.rootS⟩ := by
    have h1 := hl.rooted GoPath.rootS (by decide) (by decide) (by
      have : GoPath.clean GoPath.rootS = GoPath.rootS := by decide
      rw [this]; exact hc)
    have : GoPath.clean GoPath.rootS = GoPath.rootS := by decide
    rw [h1, this]
  have hcn : CleanNames w i.module.path := by
    intro q hq _
    obtain ⟨_, cs, hcs, hn⟩ := hw q hq
    exact ⟨cs, hcs.good, hn⟩
  obtain ⟨hok, qs, h1, h2, h3, _⟩ := C20_walk_visits_partial E hr hcn hroot
  have hnd : ((visits E id nod w GoPath.rootS).map (·.path)).Nodup := C55_walk_distinct E hr hw _
  have hfacts : ∀ v ∈ visits E id nod w GoPath.rootS, Utf8.Valid v.path ∧ Utf8.Valid v.details.name := by
    obtain ⟨vs, e1, e2⟩ := visits_facts E id nod w (p := GoPath.rootS) (root := ⟨i.module.path, GoPath.rootS⟩)
      (by rw [id_eq, hr.here]; exact hroot)
    intro v hv
    rw [e1] at hv
    obtain ⟨v', hv', rfl⟩ := List.mem_map.mp hv
    obtain ⟨f, hf, hd⟩ := e2.details nod_unchanging v' hv'
    exact hu v'.path f v'.details hf hd
  have hcol := walk_collect E w GoPath.rootS
  generalize hvs : visits E id nod w GoPath.rootS = vs at *
  have hperm := setAll_perm Visit.path Visit.details vs [] (by simpa [AMap.keys] using hnd)
  simp only [List.nil_append] at hperm
  have hsorted : sortBy (·.1) (setAll Visit.path Visit.details [] vs) = vs.map fun v => (v.path, v.details) := by
    symm
    refine sortBy_unique (fun e : Str × Details => e.1) ?_ ?_ hperm.symm
    · intro x hx y hy hxy
      obtain ⟨v, hv, rfl⟩ := List.mem_map.mp (hperm.mem_iff.mp hx)
      obtain ⟨v', hv', rfl⟩ := List.mem_map.mp (hperm.mem_iff.mp hy)
      rw [inj_of_nodup_map hnd hv hv' hxy]
    · rw [List.pairwise_map]
      have : (vs.map (·.path)).Pairwise fun a b => Str.lt a b = true := by
        rw [h1, List.pairwise_map]; exact h2
      rw [List.pairwise_map] at this
      exact this.imp fun h => ((Str.lt_iff _ _).mp h).1
  have e1 : Utf8.sane (b! "Type") = b! "Type" := by decide +kernel
  have e2 : Utf8.sane (b! "Info") = b! "Info" := by decide +kernel
  have e3 : Utf8.sane (b! "Paths") = b! "Paths" := by decide +kernel
  have e4 : Utf8.sane (b! "*mem.Pkger") = b! "*mem.Pkger" := by decide +kernel
  have hints : (Dump.document H Z Dump.typeName i (setAll Visit.path Visit.details [] vs)).Ints :=
    ⟨trivial, hH.infoInts _, intsMembers_map (fun d => encFileInfo Z (some d)) _ fun e _ => ⟨ints_details Z e.2, trivial⟩,
      trivial⟩
  have hparse := Json.parse_pretty (u := [32]) (ws := [10]) (by decide) (by decide) hints
  have hsane : (Dump.document H Z Dump.typeName i (setAll Visit.path Visit.details [] vs)).sane =
      .obj [(b! "Type", .str (b! "*mem.Pkger")), (b! "Info", (H.info i).sane),
        (b! "Paths", .obj (vs.map fun v => (v.path, (encFileInfo Z (some v.details)).sane)))] := by
    have hm : (vs.map fun v => (Utf8.sane v.path, (encFileInfo Z (some v.details)).sane)) =
        vs.map fun v => (v.path, (encFileInfo Z (some v.details)).sane) :=
      List.map_congr_left fun v hv => by rw [saneText (hfacts v hv).1]
    simp only [Dump.document, Json.sane, Json.saneMembers, e1, e2, e3, Dump.typeName, e4, encMap, hsorted]
    rw [saneMembers_map (fun d => encFileInfo Z (some d)), List.map_map, Function.comp_def, hm]
  rw [hsane] at hparse
  have htext : Dump.text E H Z w = .ok (Json.pretty [32] 0 (Dump.document H Z Dump.typeName i
      (setAll Visit.path Visit.details [] vs)) ++ [10]) := by
    unfold Dump.text current
    simp only [hr.here]
    rw [hcol, hok]
  refine ⟨_, vs.map fun v => (v.path, (encFileInfo Z (some v.details)).sane), htext, ?_, ?_, ?_, ?_, ?_, ?_⟩
  · unfold pathsOf
    rw [hparse]
    rfl
  · refine ⟨by simp [Function.comp_def], ?_⟩
    intro e he
    rw [List.zip_map_left, List.mem_map] at he
    obtain ⟨⟨a, b⟩, hab, rfl⟩ := he
    have : a = b ∧ a ∈ vs := by
      rw [zip_self] at hab
      obtain ⟨v, hv, hve⟩ := List.mem_map.mp hab
      cases hve
      exact ⟨rfl, hv⟩
    obtain ⟨rfl, hm⟩ := this
    exact tells_enc (hfacts a hm).2
  · rw [List.map_map]; exact hnd
  · intro s
    have hm : (vs.map fun v => (v.path, (encFileInfo Z (some v.details)).sane)).map (·.1) = qs.map Path.str := by
      rw [List.map_map]; exact h1
    rw [hm, List.mem_map]
    constructor
    · rintro ⟨q, hq, rfl⟩
      obtain ⟨a, b, _⟩ := (h3 q).mp hq
      exact ⟨q, a, b, rfl⟩
    · rintro ⟨q, a, b, rfl⟩
      refine ⟨q, (h3 q).mpr ⟨a, b, ?_⟩, rfl⟩
      obtain ⟨_, cs, hcs, hn⟩ := hw q a
      rw [hn]
      cases cs with
      | nil => exact List.prefix_refl _
      | cons c cs => exact ⟨GoPath.joinSlash (c :: cs), by simp [GoPath.mk, GoPath.rootS]⟩
  · rw [hparse]; rfl
  · rw [hparse]; rfl

/-- `Dump` reports an error of its writer. -/
theorem C57_write_error {E : Env} {H : HereJson} {Z : Int → Int} {w : World} {t : Str}
    (h : Dump.text E H Z w = .ok t) (write : Str → Option Err) :
    Dump.dump E H Z write w = match write t with | some e => .err e | none => .ok () := by
  unfold Dump.dump
  simp only [h]
  cases write t <;> rfl

/-- The hypotheses of `C57_dump_partial` are met, and the text is a JSON document of several lines. -/
example : (∀ q, Stored demoFiles q → WellFormed q) ∧ Clear Demo.info GoPath.rootS ∧
    (∀ q f d, lookup demoFiles q = some f → f.info = some d → Utf8.Valid q.str ∧ Utf8.Valid d.name) ∧
    (match Dump.text Demo.env plainHere utc demoFiles with
      | .ok t => (pathsOf t).map fun ps => ps.map (·.1)
      | _ => none) = some [b! "app:/", b! "app:/d", b! "app:/d/a"] ∧
    (match Dump.text Demo.env plainHere utc demoFiles with
      | .ok t => (b! "{\n \"Type\": \"*mem.Pkger\",\n \"Info\": {\n  \"Dir\": \"/src/app\",").isPrefixOf t
      | _ => false) = true := by
  refine ⟨?_, by decide +kernel, ?_, by decide +kernel, by decide +kernel⟩
  · intro q hq
    obtain ⟨a, cs, b, c, _⟩ := demoFiles_wellFormed q hq
    exact ⟨a, cs, b, c⟩
  · intro q f d hf hd
    have := stored_all (w := demoFiles) (P := fun q f => (decide (Utf8.Valid q.str) &&
      infoSat (fun d => decide (Utf8.Valid d.name)) f) = true) (by decide +kernel) q f hf
    simp only [Bool.and_eq_true, decide_eq_true_eq] at this
    refine ⟨this.1, ?_⟩
    have h2 := this.2
    unfold infoSat at h2
    rw [hd] at h2
    simpa using h2

end Props
end Verif
