import Verif.Props.Walk
import Verif.Props.Serial

/-! The text of a path (C55). -/

namespace Verif
namespace Props

open Mem Serial

/-- A well formed path: a package path and a rooted name of plain elements. -/
def WellFormed (q : Path) : Prop := PlainPkg q.pkg ∧ ∃ cs, Plain cs ∧ q.name = GoPath.mk cs

/-- The names under which files appear in the JSON text of a Pkger, as a reader of the text finds them. -/
def blobNames (text : Str) : List Str :=
  match Json.parse text with
  | some (.obj ms) =>
    match ms.find? fun m => m.1 == b! "files" with
    | some (_, .obj fs) => fs.map (·.1)
    | _ => []
  | _ => []

/-- **C55** in full: for well formed paths, the text determines the path, parsing the text gives it back, and
different stored paths have different names in a Walk and in the embedded text. -/
def C55_statement : Prop :=
  (∀ q q', WellFormed q → WellFormed q' → q.str = q'.str → q = q') ∧
  ∀ (E : Env) (i : Info), ParseLaws E i →
    (∀ q, WellFormed q → E.parse i q.str = .ok q) ∧
    ∀ (w : World), Reached E i w → (∀ q, Stored w q → WellFormed q) →
      (∀ root, ((visits E id nod w root).map (·.path)).Nodup) ∧
      ∀ (H : HereJson) (Z : Int → Int), HereLaw H id →
        (blobNames (marshal H Z w)).Nodup ∧ (blobNames (marshal H Z w)).length = w.files.length

/-- For the reconstructed `here.Info.Parse`, the property fails for names that start with the directory of the module:
that directory is stripped also from a name following a package. -/
theorem C55_directory_refuted : ¬ C55_statement := by
  intro h
  have h1 := (h.2 Demo.env Demo.info Demo.laws).1 ⟨b! "app", b! "/src/app/x"⟩
    ⟨by decide +kernel, [b! "src", b! "app", b! "x"], by decide +kernel, by decide +kernel⟩
  revert h1
  decide +kernel

/-- Two files, named by the bytes 0xFE and 0xFF. -/
def twoBad : World := Demo.after [.create [47, 0xFE], .create [47, 0xFF]]

/-- The property fails for names that are not valid UTF-8: `encoding/json` replaces their bytes, so that two files get
the same name. -/
theorem C55_collision_refuted : ¬ C55_statement := by
  intro h
  have hr : Reached Demo.env Demo.info twoBad :=
    Reached.ofNew 1000 [.create [47, 0xFE], .create [47, 0xFF]] (by simp [Op.HostOk])
  have hw : ∀ q, Stored twoBad q → WellFormed q := by
    have h1 : ∀ e ∈ twoBad.files, PlainPkg e.1.pkg ∧ Plain (GoPath.rootedElems e.1.name) ∧
        e.1.name = GoPath.mk (GoPath.rootedElems e.1.name) := by decide +kernel
    rintro q ⟨id, hid⟩
    obtain ⟨a, b, c⟩ := h1 (q, id) (AMap.get_mem hid)
    exact ⟨a, _, b, c⟩
  have h1 := (((h.2 Demo.env Demo.info Demo.laws).2 twoBad hr hw).2 plainHere utc plainHere_law).1
  revert h1
  decide +kernel

theorem append_colon_inj {a b c d : Str} (ha : Str.colon ∉ a) (hb : Str.colon ∉ b)
    (h : a ++ Str.colon :: c = b ++ Str.colon :: d) : a = b ∧ c = d := by
  induction a generalizing b with
  | nil =>
    cases b with
    | nil => simpa using h
    | cons y b =>
      simp only [List.nil_append, List.cons_append, List.cons.injEq] at h
      exact absurd (List.mem_cons.mpr (Or.inl h.1)) hb
  | cons x a ih =>
    cases b with
    | nil =>
      simp only [List.nil_append, List.cons_append, List.cons.injEq] at h
      exact absurd (List.mem_cons.mpr (Or.inl h.1.symm)) ha
    | cons y b =>
      simp only [List.cons_append, List.cons.injEq] at h
      obtain ⟨h1, h2⟩ := ih (fun hm => ha (List.mem_cons_of_mem _ hm)) (fun hm => hb (List.mem_cons_of_mem _ hm)) h.2
      exact ⟨by rw [h.1, h1], h2⟩

/-- **C55**, formatting: the text of a well formed path determines it. -/
theorem C55_text_determines {q q' : Path} (hq : WellFormed q) (hq' : WellFormed q') (h : q.str = q'.str) : q = q' := by
  obtain ⟨hp, cs, _, hn⟩ := hq
  obtain ⟨hp', cs', _, hn'⟩ := hq'
  rw [qualified_str hp hn, qualified_str hp' hn', ← hn, ← hn'] at h
  obtain ⟨h1, h2⟩ := append_colon_inj (HereParse.plainPkg_facts hp).2.1 (HereParse.plainPkg_facts hp').2.1 h
  cases q; cases q'
  simp only at h1 h2
  rw [h1, h2]

/-- **C55**, parsing: a well formed path not starting with the module's directory is read back from its text, and its
text is read in no other way.  Missing: names that start with the module's directory, see `C55_directory_refuted`. -/
theorem C55_parse_text_partial {E : Env} {i : Info} (hl : ParseLaws E i) {q : Path} (hq : WellFormed q)
    (hc : Clear i q.name) : E.parse i q.str = .ok q := by
  obtain ⟨hp, cs, hcs, hn⟩ := hq
  rw [qualified_str hp hn, hl.qualified q.pkg cs hp hcs (hn ▸ hc), ← hn]

/-- **C55**, Walk: whatever is walked, no two visits have the same path text. -/
theorem C55_walk_distinct (E : Env) {i : Info} {w : World} (hr : Reached E i w) (hw : ∀ q, Stored w q → WellFormed q)
    (root : Str) : ((visits E id nod w root).map (·.path)).Nodup := by
  cases hp : E.parse i root with
  | error e =>
    have : visits E id nod w root = [] := by
      unfold visits walk parse
      simp only [id_eq, hr.here, hp]
    rw [this]
    simp
  | ok pt =>
    have hc : CleanNames w pt.pkg := by
      intro q hq _
      obtain ⟨_, cs, hcs, hn⟩ := hw q hq
      exact ⟨cs, hcs.good, hn⟩
    obtain ⟨_, qs, h1, h2, _⟩ := C20_walk_visits_partial E hr hc hp
    rw [h1]
    unfold List.Nodup
    rw [List.pairwise_map]
    refine h2.imp ?_
    intro a b hlt he
    rw [he, Str.lt_iff] at hlt
    exact hlt.2 rfl

theorem blobNames_marshal {H : HereJson} {kept : Info → Info} (hH : HereLaw H kept) (Z : Int → Int) (w : World) :
    blobNames (marshal H Z w) = (sortBy (·.1) (embedData w).files).map fun e => Utf8.sane e.1 := by
  have e1 : Utf8.sane (b! "infos") = b! "infos" := by decide +kernel
  have e2 : Utf8.sane (b! "files") = b! "files" := by decide +kernel
  have e3 : Utf8.sane (b! "here") = b! "here" := by decide +kernel
  unfold blobNames marshal
  rw [Json.parse_print (ints_data hH Z _)]
  simp only [encData, Json.sane, Json.saneMembers, e1, e2, e3, encMap, saneMembers_map]
  have h1 : (b! "infos" == b! "files") = false := by decide
  have h2 : (b! "files" == b! "files") = true := by decide
  simp only [List.find?_cons, h1, h2, List.map_map, Function.comp_def]

/-- **C55**, embedding: where all paths are well formed and valid UTF-8, the embedded text names every stored path
exactly once, and nothing else.  Missing: paths that are not valid UTF-8, see `C55_collision_refuted`. -/
theorem C55_blob_partial {E : Env} {i : Info} {w : World} (hr : Reached E i w) (hw : ∀ q, Stored w q → WellFormed q)
    (hu : ∀ q, Stored w q → Utf8.Valid q.str) {H : HereJson} {kept : Info → Info} (hH : HereLaw H kept)
    (Z : Int → Int) :
    (blobNames (marshal H Z w)).Nodup ∧ ∀ s, s ∈ blobNames (marshal H Z w) ↔ ∃ q, Stored w q ∧ s = q.str := by
  obtain ⟨n1, g1, g2⟩ := embedData_entries hr.inv.wf.nodup
    (fun q q' hq hq' he => C55_text_determines (hw q hq) (hw q' hq') he)
  have hperm := sortBy_perm (fun e : Str × EFile => e.1) (embedData w).files
  have hmem : ∀ e ∈ (embedData w).files, ∃ q, Stored w q ∧ e.1 = q.str := by
    intro e he
    obtain ⟨q, id, h1, h2, _⟩ := g2 e.1 e.2 (AMap.get_of_mem n1 he)
    exact ⟨q, ⟨id, h1⟩, h2⟩
  have hval : blobNames (marshal H Z w) = (sortBy (·.1) (embedData w).files).map (·.1) := by
    rw [blobNames_marshal hH]
    refine List.map_congr_left ?_
    intro e he
    obtain ⟨q, hq, h2⟩ := hmem e (hperm.mem_iff.mp he)
    rw [h2, saneText (hu q hq)]
  rw [hval]
  refine ⟨(hperm.map _).nodup_iff.mpr n1, ?_⟩
  intro s
  rw [(hperm.map (·.1)).mem_iff, List.mem_map]
  constructor
  · rintro ⟨e, he, rfl⟩
    exact hmem e he
  · rintro ⟨q, ⟨id, hid⟩, rfl⟩
    exact ⟨(q.str, efile (w.heap id)), AMap.get_mem (g1 q id hid), rfl⟩

/-- The hypotheses are met by a Pkger with paths of two packages with the same names. -/
def twoPkgs : World := Demo.after [.create (b! "/a b"), .mkdirAll (b! "lib:/") 0o755, .mkdirAll (b! "lib:/a b") 0o755]

example : (∀ q, Stored twoPkgs q → WellFormed q) ∧ (∀ q, Stored twoPkgs q → Utf8.Valid q.str) ∧
    blobNames (marshal plainHere utc twoPkgs) = [b! "app:/", b! "app:/a b", b! "lib:/", b! "lib:/a b"] := by
  have h1 : ∀ e ∈ twoPkgs.files, PlainPkg e.1.pkg ∧ Plain (GoPath.rootedElems e.1.name) ∧
      e.1.name = GoPath.mk (GoPath.rootedElems e.1.name) ∧ Utf8.Valid e.1.str := by decide +kernel
  refine ⟨?_, ?_, by decide +kernel⟩
  · rintro q ⟨id, hid⟩
    obtain ⟨a, b, c, _⟩ := h1 (q, id) (AMap.get_mem hid)
    exact ⟨a, _, b, c⟩
  · rintro q ⟨id, hid⟩
    exact (h1 (q, id) (AMap.get_mem hid)).2.2.2

end Props
end Verif
