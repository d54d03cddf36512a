import Verif.Lemmas.Serial
import Verif.Props.Codec
import Verif.Spec.Reach

/-! C04, C59 and C61: embedding a Pkger and reading it back. -/

namespace Verif
namespace Props

open Mem Serial

/-- The paths of the Pkger are well formed: a package path, and a rooted path of plain elements which is not mistaken
for a file name on disk. -/
def WellFormedPaths (i : Info) (w : World) : Prop :=
  ∀ q, Stored w q → PlainPkg q.pkg ∧ ∃ cs, Plain cs ∧ q.name = GoPath.mk cs ∧ Clear i q.name

/-- The numbers of the details are values of their Go types, `int64` and `uint32`. -/
def Typed (d : Details) : Prop :=
  (-9223372036854775808 ≤ d.size ∧ d.size < 9223372036854775808) ∧ d.mode < 4294967296

instance (d : Details) : Decidable (Typed d) := by unfold Typed; infer_instance

/-- All stored details are typed. -/
def TypedFiles (w : World) : Prop := ∀ q f d, lookup w q = some f → f.info = some d → Typed d

/-- The two Pkgers cannot be told apart by `Current`, `Info`, the set of paths, `Stat`, and `Open` with any reads. -/
structure Alike (E : Env) (w w' : World) : Prop where
  current : Mem.current w' = Mem.current w
  info : ∀ p, Mem.info w' p = Mem.info w p
  paths : ∀ q, Stored w' q ↔ Stored w q
  view : SameView E w w'
  reads : ∀ name w1 h c, openFile E w name = (w1, .ok h) → Delivers w1 h c →
    ∃ w1' h', openFile E w' name = (w1', .ok h') ∧ Delivers w1' h' c

/-- **C04** in full: embedding any reachable Pkger with well formed paths and reading it back gives a Pkger like it. -/
def C04_statement : Prop :=
  ∀ (E : Env) (H : HereJson) (i : Info) (w : World) (Z : Int → Int) (ord : AMap Str EFile → List (Str × EFile))
    (now : Int), ParseLaws E i → GzipLaw E → HereLaw H id → Visits ord → Reached E i w → WellFormedPaths i w →
    TypedFiles w → ∃ w', unmarshalEmbed E H ord now (Embed.encode E (marshal H Z w)) = .ok w' ∧ Alike E w w'

/-- Everything the Pkger stores can be expressed in JSON and RFC 3339: valid UTF-8, numbers in range, years of four
digits, offsets of whole minutes. -/
structure Expressible (Z : Int → Int) (i : Info) (w : World) : Prop where
  here : InfoText i
  files : ∀ q f, lookup w q = some f → ObjText Z f

theorem qualified_str {q : Path} (hp : PlainPkg q.pkg) {cs : List Str} (hn : q.name = GoPath.mk cs) :
    q.str = q.pkg ++ Str.colon :: GoPath.mk cs := by
  have h1 : q.pkg ≠ [] := by
    intro h
    apply hp.1
    rw [h]
    decide
  have h2 : q.name ≠ [] := by
    rw [hn]
    cases cs <;> simp [GoPath.mk, GoPath.rootS]
  unfold Path.str
  rw [if_neg h1, if_neg h2, hn]

/-- The round trip in terms of what is stored, for any treatment of `here.Info`: what reading an embedded Pkger gives
depends only on what of its infos is kept. -/
theorem portable_of_expressible {E : Env} {kept : Info → Info} {Z : Int → Int} {i : Info} {w : World}
    (hl : ParseLaws E (kept i)) (hr : Reached E i w) (hw : WellFormedPaths (kept i) w) (hx : Expressible Z i w) :
    Portable E kept Z w := by
  have hh := hr.here
  refine ⟨hr.inv.wf.nodup, hr.infos.1, ?_, ?_, by rw [hh]; exact hx.here⟩
  · intro q id hq
    obtain ⟨hp, cs, hc1, hc2, hc3⟩ := hw q ⟨id, hq⟩
    have ho := hx.files q (w.heap id) (by simp [lookup, hq])
    have hpath : (w.heap id).path = q := (hr.inv.wf.bound q id hq).2.1
    have hs := qualified_str hp hc2
    refine ⟨?_, ?_, ho⟩
    · have ht := ho.path
      rw [hpath] at ht
      rw [hs, ← hc2]
      refine Utf8.valid_append ht.1 ?_
      exact Utf8.valid_append (a := [Str.colon]) (by decide +kernel) ht.2
    · rw [hs, hh]
      have := hl.qualified q.pkg cs hp hc1 (by rw [← hc2]; exact hc3)
      rw [this, ← hc2]
  · intro k j hk
    rw [hr.infos.2] at hk
    split at hk
    · rename_i he
      injection hk with hk
      rw [he, ← hk]
      exact ⟨hx.here.2.1, hx.here⟩
    · cases hk

/-- Two Pkgers with the same infos and, up to open handles, the same stored files are alike. -/
theorem alike_of_reborn {E : Env} {w w' : World} (hh : w'.here = w.here)
    (hi : ∀ k, AMap.get w'.infos k = AMap.get w.infos k)
    (hl : ∀ q, lookup w' q = (lookup w q).map (reborn id)) : Alike E w w' := by
  have hview : SameView E w w' := by
    intro name
    unfold SameAt
    rw [statView_eq, statView_eq, openView_eq, openView_eq, hh]
    cases hp : E.parse w.here name with
    | error e => exact ⟨rfl, rfl⟩
    | ok pt =>
      simp only [hl]
      cases lookup w pt with
      | none => exact ⟨rfl, rfl⟩
      | some f => exact ⟨rfl, rfl⟩
  refine ⟨by simp [Mem.current, hh], by intro p; simp only [Mem.info, hi], ?_, hview, ?_⟩
  · intro q
    rw [stored_iff_lookup, stored_iff_lookup, hl]
    cases lookup w q <;> simp
  · intro name w1 h c ho hd
    obtain ⟨pt, i, d, h1, h2, h3, h4⟩ := openFile_obj ho
    obtain ⟨w1', h', h5, h6⟩ := openFile_of_lookup (E := E) (w := w') (name := name) (pt := pt)
      (f := reborn id (w.heap i)) (d := d) (by rw [hh]; exact h1) (by rw [hl]; simp [lookup, h2]) h3
    refine ⟨w1', h', h5, ?_⟩
    have hb : (w1'.heap h').bytes = (w1.heap h).bytes := by rw [h6, h4]; rfl
    have h7 := openFile_delivers h5
    have h8 := openFile_delivers ho
    rw [hb] at h7
    intro ns
    rw [h7 ns, ← h8 ns, hd ns]

theorem unmarshalEmbed_encode {E : Env} (hz : GzipLaw E) (H : HereJson)
    (ord : AMap Str EFile → List (Str × EFile)) (now : Int) (b : Str) :
    unmarshalEmbed E H ord now (Embed.encode E b) =
      match unmarshal E H ord (Serial.zero now) b with
      | (w, .ok _) => .ok w
      | (_, .err e) => .err e
      | (_, .panic) => .panic := by
  unfold unmarshalEmbed
  rw [C01_decode_encode E hz]
  rfl

/-- **C04** for Pkgers whose texts, numbers and times JSON and RFC 3339 can express (missing: other ones, for which
C04 is false, see `C04_invalid_utf8_refuted` and `C04_year_refuted`): reading the embedded Pkger succeeds and gives
one that answers `Current`, `Info`, `Stat`, `Open` and all reads alike, and has the same paths. -/
theorem C04_round_trip_partial {E : Env} {H : HereJson} {i : Info} {w : World} {Z : Int → Int}
    {ord : AMap Str EFile → List (Str × EFile)} (now : Int) (hl : ParseLaws E i) (hz : GzipLaw E)
    (hH : HereLaw H id) (ho : Visits ord) (hr : Reached E i w) (hw : WellFormedPaths i w)
    (hx : Expressible Z i w) :
    ∃ w', unmarshalEmbed E H ord now (Embed.encode E (marshal H Z w)) = .ok w' ∧ Alike E w w' := by
  have hp : Portable E id Z w := portable_of_expressible (kept := id) hl hr hw hx
  obtain ⟨w', h1, h2, h3, h4, _⟩ := unmarshal_marshal hH ho hp (Serial.zero now)
  refine ⟨w', ?_, alike_of_reborn h2 (by intro k; rw [h3]; simp) h4⟩
  rw [unmarshalEmbed_encode hz, h1]

/-- **C04** if writing `here.Info` loses something, e.g. the directory (`kept` says what is left; missing: the equality
of `Current` and `Info`, which cannot hold then): all stored files survive at their paths, with their details and
bytes. -/
theorem C04_files_partial {E : Env} {H : HereJson} {kept : Info → Info} {i : Info} {w : World} {Z : Int → Int}
    {ord : AMap Str EFile → List (Str × EFile)} (now : Int) (hl : ParseLaws E (kept i)) (hz : GzipLaw E)
    (hH : HereLaw H kept) (ho : Visits ord) (hr : Reached E i w) (hw : WellFormedPaths (kept i) w)
    (hx : Expressible Z i w) :
    ∃ w', unmarshalEmbed E H ord now (Embed.encode E (marshal H Z w)) = .ok w' ∧
      Mem.current w' = .ok (kept i) ∧ (∀ q, Stored w' q ↔ Stored w q) ∧
      ∀ q, Stored w q → statView E w' q.str = statView E { w with here := kept i } q.str ∧
        openView E w' q.str = openView E { w with here := kept i } q.str := by
  have hp : Portable E kept Z w := portable_of_expressible hl hr hw hx
  obtain ⟨w', h1, h2, h3, h4, _⟩ := unmarshal_marshal hH ho hp (Serial.zero now)
  rw [hr.here] at h2
  refine ⟨w', ?_, ?_, ?_, ?_⟩
  · rw [unmarshalEmbed_encode hz, h1]
  · simp [Mem.current, h2]
  · intro q
    rw [stored_iff_lookup, stored_iff_lookup, h4]
    cases lookup w q <;> simp
  · intro q _
    rw [statView_eq, statView_eq, openView_eq, openView_eq, h2]
    simp only
    cases E.parse (kept i) q.str with
    | error e => exact ⟨rfl, rfl⟩
    | ok pt =>
      have : lookup { w with here := kept i } pt = lookup w pt := rfl
      simp only [h4, this]
      cases lookup w pt <;> exact ⟨rfl, rfl⟩

/-- **C70**: what a program gets from its embedded blob is a Pkger just like a new one, apart from the files in it:
reading succeeds, and whatever calls follow, the state is one in which all theorems about reached states apply - about
reading, writing, walking, listing and the rest.  Missing: blobs of Pkgers that JSON or RFC 3339 cannot express, see
C04. -/
theorem C70_loaded_partial {E : Env} {H : HereJson} {kept : Info → Info} {i : Info} {w : World} {Z : Int → Int}
    {ord : AMap Str EFile → List (Str × EFile)} (now : Int) (hl : ParseLaws E (kept i)) (hz : GzipLaw E)
    (hH : HereLaw H kept) (hk : (kept i).importPath = i.importPath) (ho : Visits ord) (hr : Reached E i w)
    (hw : WellFormedPaths (kept i) w) (hx : Expressible Z i w) :
    ∃ w', unmarshalEmbed E H ord now (Embed.encode E (marshal H Z w)) = .ok w' ∧ Start (kept i) w' ∧
      ∀ ops, (∀ o ∈ ops, o.HostOk) → Reached E (kept i) (run E w' ops) := by
  have hp : Portable E kept Z w := portable_of_expressible hl hr hw hx
  obtain ⟨w', h1, h2, h3, h4, h5, h6, h7, h8⟩ := unmarshal_marshal hH ho hp (Serial.zero now)
  have hs : Start (kept i) w' := by
    refine ⟨by rw [h2, hr.here], ?_, h5, h6, ?_, ?_⟩
    · intro p
      rw [h3, hr.infos.2, hk]
      split <;> rfl
    · intro q id hq
      have hlk := h4 q
      obtain ⟨j, hj⟩ : ∃ j, AMap.get w.files q = some j := by
        cases hg : AMap.get w.files q with
        | none => simp [lookup, hq, hg] at hlk
        | some j => exact ⟨j, rfl⟩
      simp only [lookup, hq, hj, Option.map_some, Option.some.injEq] at hlk
      obtain ⟨_, b2, b3⟩ := hr.inv.wf.bound q j hj
      exact ⟨h7 q id hq, by rw [hlk]; exact b2, by rw [hlk]; exact b3⟩
    · intro j
      rcases h8 j with h9 | ⟨q, id, _, h9⟩
      · rw [h9]
        exact ⟨by intro d hd; simp [Serial.zero, FileObj.zero] at hd, rfl, rfl⟩
      · rw [h9]
        exact ⟨(hr.inv.heap id).1, rfl, rfl⟩
  refine ⟨w', ?_, hs, fun ops hops => ⟨w', ops, hs, hops, rfl⟩⟩
  rw [unmarshalEmbed_encode hz, h1]

/-- What a loaded Pkger stores. -/
theorem loaded_lookup {E : Env} {H : HereJson} {kept : Info → Info} {i : Info} {w : World} {Z : Int → Int}
    {ord : AMap Str EFile → List (Str × EFile)} (now : Int) (hl : ParseLaws E (kept i)) (hz : GzipLaw E)
    (hH : HereLaw H kept) (ho : Visits ord) (hr : Reached E i w) (hw : WellFormedPaths (kept i) w)
    (hx : Expressible Z i w) :
    ∃ w', unmarshalEmbed E H ord now (Embed.encode E (marshal H Z w)) = .ok w' ∧
      ∀ q, lookup w' q = (lookup w q).map (reborn kept) := by
  have hp : Portable E kept Z w := portable_of_expressible hl hr hw hx
  obtain ⟨w', h1, _, _, h4, _⟩ := unmarshal_marshal hH ho hp (Serial.zero now)
  exact ⟨w', by rw [unmarshalEmbed_encode hz, h1], h4⟩

/-! ### Package here with plain structs -/

theorem plainHere_law : HereLaw plainHere id where
  infoInts := fun _ => ⟨trivial, trivial, trivial, ⟨trivial, trivial, trivial, trivial, trivial, trivial⟩, trivial⟩
  pathInts := fun _ => ⟨trivial, trivial, trivial⟩
  info := by
    intro i h
    have e1 : Utf8.sane (b! "Dir") = b! "Dir" := by decide +kernel
    have e2 : Utf8.sane (b! "ImportPath") = b! "ImportPath" := by decide +kernel
    have e3 : Utf8.sane (b! "Name") = b! "Name" := by decide +kernel
    have e4 : Utf8.sane (b! "Module") = b! "Module" := by decide +kernel
    have e5 : Utf8.sane (b! "Path") = b! "Path" := by decide +kernel
    have e6 : Utf8.sane (b! "Main") = b! "Main" := by decide +kernel
    have e7 : Utf8.sane (b! "GoMod") = b! "GoMod" := by decide +kernel
    have e8 : Utf8.sane (b! "GoVersion") = b! "GoVersion" := by decide +kernel
    obtain ⟨h1, h2, h3, h4, h5, h6, h7⟩ := h
    simp only [plainHere, encInfo, encModule, Json.sane, Json.saneMembers, e1, e2, e3, e4, e5, e6, e7, e8,
      saneText h1, saneText h2, saneText h3, saneText h4, saneText h5, saneText h6, saneText h7]
    rfl
  path := by
    intro p h
    have e1 : Utf8.sane (b! "Pkg") = b! "Pkg" := by decide +kernel
    have e2 : Utf8.sane (b! "Name") = b! "Name" := by decide +kernel
    simp only [plainHere, encPath, Json.sane, Json.saneMembers, e1, e2, saneText h.1, saneText h.2]
    rfl

/-- UTC everywhere. -/
def utc : Int → Int := fun _ => 0

/-- A map visited in the order of its list. -/
theorem visits_id : Visits id := fun _ => List.Perm.refl _

/-- The demo Pkger with a directory and a file holding `hi`. -/
def demoFiles : World :=
  Demo.after [.tick 1584266400123000000, .mkdirAll (b! "/d") 0o755, .create (b! "/d/a"), .write 2 (b! "hi"), .close 2]

theorem demoFiles_reached : Reached Demo.env Demo.info demoFiles :=
  Reached.ofNew 1000
    [.tick 1584266400123000000, .mkdirAll (b! "/d") 0o755, .create (b! "/d/a"), .write 2 (b! "hi"), .close 2]
    (by intro o ho; simp at ho; rcases ho with rfl | rfl | rfl | rfl | rfl <;> simp [Op.HostOk])

/-- A property of all stored objects, by enumeration of the table. -/
theorem stored_all {w : World} {P : Path → FileObj → Prop} (h : ∀ e ∈ w.files, P e.1 (w.heap e.2)) :
    ∀ q f, lookup w q = some f → P q f := by
  intro q f hl
  unfold lookup at hl
  cases hg : AMap.get w.files q with
  | none => simp [hg] at hl
  | some id =>
    rw [hg] at hl
    simp only [Option.map_some, Option.some.injEq] at hl
    rw [← hl]
    exact h (q, id) (AMap.get_mem hg)

instance (Z : Int → Int) (t : Int) : Decidable (TimeOk Z t) :=
  decidable_of_iff (Z t % 60 = 0 ∧ (Z t).natAbs < 360000 ∧ (0 ≤ Time.yearOf t (Z t) ∧ Time.yearOf t (Z t) < 10000))
    ⟨fun h => ⟨h.1, h.2.1, h.2.2⟩, fun h => ⟨h.1, h.2, h.3⟩⟩

instance (Z : Int → Int) (d : Details) : Decidable (DetailsOk Z d) :=
  decidable_of_iff (Utf8.Valid d.name ∧ (-9223372036854775808 ≤ d.size ∧ d.size < 9223372036854775808) ∧
      d.mode < 4294967296 ∧ TimeOk Z d.modTime)
    ⟨fun h => ⟨h.1, h.2.1, h.2.2.1, h.2.2.2⟩, fun h => ⟨h.1, h.2, h.3, h.4⟩⟩

/-- The details of a file object satisfy a condition. -/
def infoSat (P : Details → Bool) (f : FileObj) : Bool :=
  match f.info with
  | some d => P d
  | none => true

theorem objText_of {Z : Int → Int} {f : FileObj}
    (h : (infoSat (fun d => decide (DetailsOk Z d)) f && decide (InfoText f.here) && decide (PathText f.path) &&
      decide (PathText f.parent)) = true) : ObjText Z f := by
  simp only [Bool.and_eq_true, decide_eq_true_eq] at h
  refine ⟨?_, h.1.1.2, h.1.2, h.2⟩
  intro d hd
  have := h.1.1.1
  unfold infoSat at this
  rw [hd] at this
  simpa using this

theorem demoFiles_expressible : Expressible utc Demo.info demoFiles where
  here := by decide +kernel
  files := by
    refine stored_all (P := fun _ f => ObjText utc f) ?_
    intro e he
    apply objText_of
    have : ∀ e ∈ demoFiles.files, (infoSat (fun d => decide (DetailsOk utc d)) (demoFiles.heap e.2) &&
      decide (InfoText (demoFiles.heap e.2).here) && decide (PathText (demoFiles.heap e.2).path) &&
      decide (PathText (demoFiles.heap e.2).parent)) = true := by decide +kernel
    exact this e he

/-- Well formed paths, by enumeration of the table. -/
theorem wellFormed_of {i : Info} {w : World} (h : ∀ e ∈ w.files, PlainPkg e.1.pkg ∧
    Plain (GoPath.rootedElems e.1.name) ∧ e.1.name = GoPath.mk (GoPath.rootedElems e.1.name) ∧ Clear i e.1.name) :
    WellFormedPaths i w := by
  rintro q ⟨id, hid⟩
  obtain ⟨h1, h2, h3, h4⟩ := h (q, id) (AMap.get_mem hid)
  exact ⟨h1, _, h2, h3, h4⟩

theorem demoFiles_wellFormed : WellFormedPaths Demo.info demoFiles := wellFormed_of (by decide +kernel)

/-- A concrete case: the hypotheses of `C04_round_trip_partial` hold of the demo Pkger, which holds a file `/d/a`
with the bytes `hi`. -/
example : (∃ w', unmarshalEmbed Demo.env plainHere id 5 (Embed.encode Demo.env (marshal plainHere utc demoFiles)) =
      .ok w' ∧ Alike Demo.env demoFiles w') ∧
    (match openView Demo.env demoFiles (b! "/d/a") with | .ok (_, b) => b == b! "hi" | _ => false) = true :=
  ⟨C04_round_trip_partial 5 Demo.laws Demo.gzipLaw plainHere_law visits_id demoFiles_reached demoFiles_wellFormed
    demoFiles_expressible, by decide +kernel⟩

/-- Package here if it leaves out the directory. -/
def noDir (i : Info) : Info := { i with dir := [] }

/-- Its JSON form. -/
def noDirHere : HereJson := { plainHere with info := fun i => encInfo (noDir i) }

theorem noDirHere_law : HereLaw noDirHere noDir where
  infoInts := fun i => plainHere_law.infoInts (noDir i)
  pathInts := plainHere_law.pathInts
  info := by
    intro i h
    refine plainHere_law.info (noDir i) ?_
    obtain ⟨h1, h2, h3, h4, h5, h6, h7⟩ := h
    exact ⟨(by decide +kernel : Utf8.Valid []), h2, h3, h4, h5, h6, h7⟩
  path := plainHere_law.path

theorem noDir_laws : ParseLaws Demo.env (noDir Demo.info) :=
  HereParse.lawful (i := noDir Demo.info) { Demo.info_ok with dirOk := Or.inl rfl } _ _ _ _

/-- A concrete case: the hypotheses of `C04_files_partial` hold of the demo Pkger also if package here leaves out the
directory, and the file is read back. -/
example : ∃ w', unmarshalEmbed Demo.env noDirHere id 5 (Embed.encode Demo.env (marshal noDirHere utc demoFiles)) = .ok w' ∧
    Mem.current w' = .ok (noDir Demo.info) ∧ noDir Demo.info ≠ Demo.info ∧ Stored w' ⟨b! "app", b! "/d/a"⟩ := by
  obtain ⟨w', h1, h2, h3, _⟩ := C04_files_partial 5 noDir_laws Demo.gzipLaw noDirHere_law visits_id demoFiles_reached
    (wellFormed_of (by decide +kernel)) demoFiles_expressible
  refine ⟨w', h1, h2, by decide +kernel, (h3 _).mpr ?_⟩
  exact Mem.stored_iff_lookup.mpr (Option.isSome_iff_exists.mp (by decide +kernel))

/-- A concrete case of C70: the same Pkger is embedded, loaded, and used further: its file is read, a new one is made
beside it. -/
example : (∃ w', unmarshalEmbed Demo.env plainHere id 5 (Embed.encode Demo.env (marshal plainHere utc demoFiles)) =
      .ok w' ∧ Start Demo.info w' ∧ ∀ ops, (∀ o ∈ ops, o.HostOk) → Reached Demo.env Demo.info (run Demo.env w' ops)) ∧
    (match unmarshalEmbed Demo.env plainHere id 5 (Embed.encode Demo.env (marshal plainHere utc demoFiles)) with
      | .ok w' =>
        match openView Demo.env (run Demo.env w' [.create (b! "/d/b"), .removeAll (b! "/d/c")]) (b! "/d/a"),
            openView Demo.env (run Demo.env w' [.create (b! "/d/b"), .removeAll (b! "/d/c")]) (b! "/d/b") with
        | .ok (_, x), .ok (_, y) => x == b! "hi" && y == []
        | _, _ => false
      | _ => false) = true :=
  ⟨C70_loaded_partial 5 Demo.laws Demo.gzipLaw plainHere_law rfl visits_id demoFiles_reached demoFiles_wellFormed
    demoFiles_expressible, by decide +kernel⟩

/-- A Pkger with a file named by the byte 0xFF, which is not valid UTF-8. -/
def badName : World := Demo.after [.create [47, 0xFF]]

theorem badName_reached : Reached Demo.env Demo.info badName :=
  Reached.ofNew 1000 [.create [47, 0xFF]] (by intro o ho; simp at ho; subst ho; simp [Op.HostOk])

theorem typedFiles_of {w : World} (h : ∀ e ∈ w.files, infoSat (fun d => decide (Typed d)) (w.heap e.2) = true) :
    TypedFiles w := by
  intro q f d hl hd
  have := stored_all (P := fun _ f => infoSat (fun d => decide (Typed d)) f = true) h q f hl
  unfold infoSat at this
  rw [hd] at this
  simpa using this

/-- **C04** is false of the code: a file whose name is not valid UTF-8 is no longer found under its path (the path is
written with the replacement character U+FFFD). -/
theorem C04_invalid_utf8_refuted : ¬ C04_statement := by
  intro h
  obtain ⟨w', h1, h2⟩ := h Demo.env plainHere Demo.info badName utc id 5 Demo.laws Demo.gzipLaw plainHere_law visits_id
    badName_reached (wellFormed_of (by decide +kernel)) (typedFiles_of (by decide +kernel))
  have h3 : Stored badName ⟨b! "app", [47, 0xFF]⟩ := ⟨1, by decide +kernel⟩
  obtain ⟨id', h4⟩ := (h2.paths _).mpr h3
  have h5 : (match unmarshalEmbed Demo.env plainHere id 5 (Embed.encode Demo.env (marshal plainHere utc badName)) with
    | .ok w => (AMap.get w.files ⟨b! "app", [47, 0xFF]⟩).isNone
    | _ => false) = true := by decide +kernel
  rw [h1] at h5
  simp [h4] at h5

/-- A Pkger with a file modified in the year 10000. -/
def farFuture : World := Demo.after [.tick 253402300800000000000, .create (b! "/a")]

theorem farFuture_reached : Reached Demo.env Demo.info farFuture :=
  Reached.ofNew 1000 [.tick 253402300800000000000, .create (b! "/a")]
    (by intro o ho; simp at ho; rcases ho with rfl | rfl <;> simp [Op.HostOk])

/-- **C04** is false of the code: one file with a modification time after the year 9999 makes the whole blob
unreadable. -/
theorem C04_year_refuted : ¬ C04_statement := by
  intro h
  obtain ⟨w', h1, h2⟩ := h Demo.env plainHere Demo.info farFuture utc id 5 Demo.laws Demo.gzipLaw plainHere_law visits_id
    farFuture_reached (wellFormed_of (by decide +kernel)) (typedFiles_of (by decide +kernel))
  have h5 : (match unmarshalEmbed Demo.env plainHere id 5 (Embed.encode Demo.env (marshal plainHere utc farFuture)) with
    | .err .codec => true
    | _ => false) = true := by decide +kernel
  rw [h1] at h5
  cases h5

/-- **C70** in full: reading the embedded form of any reachable Pkger with well formed paths gives a Pkger as good as a
new one. -/
def C70_statement : Prop :=
  ∀ (E : Env) (H : HereJson) (i : Info) (w : World) (Z : Int → Int) (ord : AMap Str EFile → List (Str × EFile))
    (now : Int), ParseLaws E i → GzipLaw E → HereLaw H id → Visits ord → Reached E i w → WellFormedPaths i w →
    TypedFiles w → ∃ w', unmarshalEmbed E H ord now (Embed.encode E (marshal H Z w)) = .ok w' ∧ Start i w'

/-- **C70** is false of the code: for a Pkger with a file from after the year 9999 there is nothing to work with. -/
theorem C70_refuted : ¬ C70_statement := by
  intro h
  obtain ⟨w', h1, _⟩ := h Demo.env plainHere Demo.info farFuture utc id 5 Demo.laws Demo.gzipLaw plainHere_law visits_id
    farFuture_reached (wellFormed_of (by decide +kernel)) (typedFiles_of (by decide +kernel))
  have h5 : (match unmarshalEmbed Demo.env plainHere id 5 (Embed.encode Demo.env (marshal plainHere utc farFuture)) with
    | .err .codec => true
    | _ => false) = true := by decide +kernel
  rw [h1] at h5
  cases h5

/-! ### C59 -/

/-- The details read back after writing them (`json.Marshal` and `json.Unmarshal` of a `*pkging.FileInfo`). -/
def reread (Z : Int → Int) (d : Details) : Option (Option Details) :=
  (Json.parse (encFileInfo Z (some d)).print).bind (decFileInfo none)

/-- **C59** in full: details survive, whatever their values. -/
def C59_statement : Prop := ∀ (Z : Int → Int) (d : Details), Typed d → reread Z d = some (some d)

theorem reread_eq (Z : Int → Int) (d : Details) : reread Z d = decFileInfo none (encFileInfo Z (some d)).sane := by
  unfold reread
  rw [Json.parse_print (j := encFileInfo Z (some d)) ⟨ints_details Z d, trivial⟩]
  rfl

/-- Exactly what is read back: the name with invalid bytes replaced, size, mode and directory flag unchanged, and the
time as RFC 3339 has it. -/
theorem C59_exact {Z : Int → Int} {d : Details} (ht : Typed d) :
    reread Z d = (Time.parse (Time.format d.modTime (Z d.modTime))).map fun t =>
      some { d with name := Utf8.sane d.name, modTime := t } := by
  rw [reread_eq]
  have e1 : Utf8.sane (b! "details") = b! "details" := by decide +kernel
  simp only [encFileInfo, Json.sane, Json.saneMembers, e1, decFileInfo, struct, Option.getD_none]
  rw [members_cons (by rfl)]
  simp only [sane_encDetails, struct]
  rw [members_cons (by rfl)]
  simp only [decStr, Option.map_some, Option.bind_some]
  rw [members_cons (by rfl)]
  simp only [decInt64, Decimal.toInt_ofInt, if_pos ht.1, Option.map_some, Option.bind_some]
  rw [members_cons (by rfl)]
  simp only [decUint32, Decimal.toNat_ofNat, if_pos ht.2, Option.map_some, Option.bind_some]
  rw [members_cons (by rfl)]
  simp only [decTime]
  cases Time.parse (Time.format d.modTime (Z d.modTime)) with
  | none => rfl
  | some t => rfl

/-- **C59** (missing: the cases this theorem shows to fail): typed details are read back unchanged exactly if the name
is kept by UTF-8 cleaning, the offset is whole minutes and the year has four digits. -/
theorem C59_iff_partial {Z : Int → Int} {d : Details} (ht : Typed d) (hb : (Z d.modTime).natAbs < 360000) :
    reread Z d = some (some d) ↔
      Utf8.sane d.name = d.name ∧ Z d.modTime % 60 = 0 ∧ 0 ≤ Time.yearOf d.modTime (Z d.modTime) ∧
        Time.yearOf d.modTime (Z d.modTime) < 10000 := by
  rw [C59_exact ht, ← Time.parse_format_iff hb]
  cases hp : Time.parse (Time.format d.modTime (Z d.modTime)) with
  | none => simp
  | some t =>
    obtain ⟨n, s, m, mt, dir⟩ := d
    simp only [Option.map_some, Option.some.injEq, Details.mk.injEq, true_and, and_true]

example : reread utc ⟨b! "a.txt", 3, 420, 1584266400123000000, false⟩ =
    some (some ⟨b! "a.txt", 3, 420, 1584266400123000000, false⟩) :=
  (C59_iff_partial (by decide) (by decide)).mpr (by decide +kernel)

/-- **C59** is false of the code: a modification time after the year 9999 cannot be read back. -/
theorem C59_year_refuted : ¬ C59_statement := by
  intro h
  have h1 := h utc ⟨b! "a", 0, 420, 253402300800000000000, false⟩ (by decide)
  rw [C59_iff_partial (by decide) (by decide)] at h1
  exact absurd h1 (by decide +kernel)

/-- **C59** is false of the code: a name that is not valid UTF-8 changes. -/
theorem C59_name_refuted : ¬ C59_statement := by
  intro h
  have h1 := h utc ⟨[0xFF], 0, 420, 0, false⟩ (by decide)
  rw [C59_iff_partial (by decide) (by decide)] at h1
  exact absurd h1 (by decide +kernel)

/-! ### C61 -/

/-- **C61** in full: whatever bytes it is given, `UnmarshalEmbed` returns a Pkger or an error. -/
def C61_statement : Prop :=
  ∀ (E : Env) (H : HereJson) (ord : AMap Str EFile → List (Str × EFile)) (now : Int) (inp : Str), GzipLaw E →
    unmarshalEmbed E H ord now inp ≠ .panic

theorem loadFiles_no_panic (E : Env) : ∀ (l : List (Str × EFile)) (w : World), (loadFiles E w l).2 ≠ .panic
  | [], w => by simp [loadFiles]
  | (k, v) :: l, w => by
    unfold loadFiles
    cases Mem.parse E w k with
    | error e => simp
    | ok pt => exact loadFiles_no_panic E l _

/-- **C61** (missing: the one case this theorem shows to fail): `UnmarshalEmbed` panics exactly on the payload `null`,
possibly with white space around it. -/
theorem C61_iff_partial (E : Env) (H : HereJson) (ord : AMap Str EFile → List (Str × EFile)) (now : Int) (inp : Str) :
    unmarshalEmbed E H ord now inp = .panic ↔ ∃ b, Embed.decode E inp = .ok b ∧ Json.parse b = some .null := by
  unfold unmarshalEmbed
  cases hd : Embed.decode E inp with
  | error e => simp
  | ok b =>
    simp only [Except.ok.injEq, exists_eq_left']
    unfold unmarshal
    cases hp : Json.parse b with
    | none => simp
    | some j =>
      cases j with
      | null => simp
      | _ =>
        simp only [Option.some.injEq, reduceCtorEq, iff_false]
        generalize struct (dataFields H) ⟨[], [], infoZero⟩ _ = y
        cases y with
        | none => simp
        | some y =>
          simp only
          have := loadFiles_no_panic E (ord y.files) { Serial.zero now with here := y.here, infos := y.infos, files := [] }
          generalize loadFiles E _ (ord y.files) = r at this ⊢
          obtain ⟨w, r⟩ := r
          cases r <;> simp at this ⊢

/-- A concrete case of no panic: the empty object is read. -/
example : (match unmarshalEmbed Demo.env plainHere id 5 (Embed.encode Demo.env (b! "{}")) with
    | .ok w => w.files.isEmpty | _ => false) = true := by decide +kernel

/-- **C61** is false of the code: the blob of `null` makes `UnmarshalEmbed` dereference a nil pointer. -/
theorem C61_refuted : ¬ C61_statement := by
  intro h
  refine h Demo.env plainHere id 5 (Embed.encode Demo.env (b! "null")) Demo.gzipLaw ?_
  rw [C61_iff_partial]
  exact ⟨b! "null", C01_decode_encode _ Demo.gzipLaw _, by rfl⟩

end Props
end Verif
