import Verif.Lemmas.PositionScan
import Verif.Props.Show
import Verif.Spec.ParserDemo

/-! Positions through the whole scan, and in what `pkger parse` prints (C111). -/

namespace Verif
namespace Props

open Parser
open Token (Position Right)
open Disk (Node)

/-! ### Specification -/

/-- The offsets `go/parser` reports are where the texts of literals and identifiers are. -/
def Places (G : PGoTool) : Prop :=
  ∀ name text tree objs, G.parse name text = .ok (tree, objs) → Placed text tree

/-- The position is in a `.go` file of the disk below the directory `m`, at the first byte of the argument of a call of the
function the declaration stands for; line and column count lines and bytes; and if a literal is written there, it is a
literal of the value of the declaration. -/
def PointsInto (G : PGoTool) (disk : Node) (m : List Str) (d : Decl) (pos : Position) : Prop :=
  ∃ es fd text tree objs name a t, pos.filename = GoPath.mk (m ++ es) ∧ disk.find (m ++ es) = some (.file fd text) ∧
    b! ".go" <:+ pos.filename ∧ G.parse pos.filename text = .ok (tree, objs) ∧ HasCall tree name a ∧
    kindOf name = some d.kind ∧ Written a t ∧ t ≠ [] ∧ t <+: text.drop pos.offset ∧
    Right text pos.offset pos.line pos.column ∧ (a = .lit pos.offset t → Unquote.unquote t = .ok d.value)

/-! ### C111 -/

/-- **C111** (positions change nothing).  The scan with positions finds what the scan finds, in the same order, and fails
when and as it does. -/
theorem C111_same (E : Env) (G : PGoTool) (disk : Node) (her : Info) (includes : List Str) :
    decls E G.erase disk her includes = onOk (List.map (·.1)) (pdeclsAll E G disk her includes) :=
  pdeclsAll_erase E G disk her includes

theorem pdecls_kind {E : Env} {depth : Nat} {p : PSource} {mm : PDeclMap} {r : Option Err}
    (h : pdecls E depth p = .ok (mm, r)) {k : Parser.Kind} {e : Decl × Position} (he : e ∈ mm k) : e.1.kind = k := by
  have hs := C107_same E depth p
  rw [h] at hs
  exact kindsOk_declsMap hs k e.1 (List.mem_map.mpr ⟨e, he, rfl⟩)

/-- What is known about the declarations found so far. -/
def Known (E : Env) (G : PGoTool) (disk : Node) (m : List Str) (her : Info) (includes : List Str) (s : PScan) : Prop :=
  ∀ k e, e ∈ s.decls k → (e.1.kind = .include ∧ e.2 = noPosition ∧ ∃ inc ∈ includes, newInclude E her inc = .ok e.1) ∨
    PointsInto G disk m e.1 e.2

/-- **C111** (where declarations stand).  In the scan of a module each declaration either is an include given on the
command line, with no position, or its position leads to the argument of the call in a `.go` file of the module. -/
theorem C111_at {E : Env} {G : PGoTool} (hG : Places G) {disk : Node} (hw : disk.WF) {her : Info} {m : List Str}
    (hm : GoPath.Good m) (hdir : her.dir = GoPath.mk m) {includes : List Str} {l : List (Decl × Position)}
    (h : pdeclsAll E G disk her includes = .ok l) {d : Decl} {pos : Position} (hd : (d, pos) ∈ l) :
    (d.kind = .include ∧ pos = noPosition ∧ ∃ inc ∈ includes, newInclude E her inc = .ok d) ∨
    PointsInto G disk m d pos := by
  unfold pdeclsAll at h
  cases hp : pparse E G disk her includes with
  | err e => rw [hp] at h; cases h
  | panic => rw [hp] at h; cases h
  | ok pm =>
    rw [hp] at h
    cases h
    obtain ⟨k, _, hk⟩ := List.mem_flatMap.mp hd
    unfold pparse at hp
    cases hi : pparseIncludes E her includes (fun _ => []) with
    | error e => rw [hi] at hp; cases hp
    | ok m0 =>
      rw [hi] at hp
      simp only at hp
      cases ho : osStat disk her.dir with
      | none => rw [ho] at hp; cases hp
      | some n =>
        rw [ho] at hp
        cases n with
        | file fd b => cases hp
        | dir dd kids =>
          simp only at hp
          have hf : disk.find m = some (.dir dd kids) := by
            rw [← ho, osStat, hdir, GoPath.elems_mk hm]
          have h0 : Known E G disk m her includes ⟨m0, false⟩ := by
            intro k e he
            rcases pparseIncludes_mem hi k e he with h1 | ⟨_, h2, inc, h3, h4⟩
            · cases h1
            · refine .inl ⟨?_, h2, inc, h3, h4⟩
              unfold newInclude at h4
              split at h4
              · cases h4
              · split at h4
                · split at h4
                  · cases h4
                  · injection h4 with h4; rw [← h4]
                · injection h4 with h4; rw [← h4]
          have hstep : ∀ e ∈ Disk.visits (fun _ => false) (GoPath.mk m) (.dir dd kids), ∀ s,
              Known E G disk m her includes s → Known E G disk m her includes (scanFn (pvisitDir E G) e.1 e.2 s).1 := by
            intro e he s hs
            obtain ⟨p, n⟩ := e
            rw [Disk.visits_tree] at he
            obtain ⟨⟨es, n'⟩, hes, hee⟩ := List.mem_map.mp he
            cases hee
            have hwf := Disk.find_wf m hw hf
            have hes' := (Disk.mem_tree_iff es _ _ hwf).mp hes
            have hge := Disk.tree_good _ hwf _ hes
            simp only at hge
            have hfe : disk.find (m ++ es) = some n' := by rw [Disk.find_append, hf]; exact hes'
            have hgm : GoPath.Good (m ++ es) := (GoPath.good_append).mpr ⟨hm, hge⟩
            simp only
            rw [Disk.joinAll_mk hm hge]
            unfold scanFn
            split
            · exact hs
            · split
              · exact hs
              · cases n' with
                | file fd b => exact hs
                | dir d2 kids2 =>
                  simp only [pvisitDir]
                  cases hpd : pparseDir E G (GoPath.mk (m ++ es)) kids2 with
                  | error e => exact hs
                  | ok srcs =>
                    simp only
                    cases hadd : paddSources E G.depth srcs s.decls with
                    | err e => exact hs
                    | panic => exact hs
                    | ok mm =>
                      intro k e he
                      rcases paddSources_mem hadd k e he with h1 | ⟨p, hpm, mm', h2, h3⟩
                      · exact hs k e h1
                      · right
                        obtain ⟨name, fd, data, pt, her', tree, objs, before, after, q1, q2, q3, rfl⟩ :=
                          pparseDir_from hpd p hpm
                        have hkind := pdecls_kind h2 h3
                        obtain ⟨e1, e2⟩ := e
                        obtain ⟨nm, a, t, r1, r2, r3, r4, r5, r6, r7, r8⟩ := C107_at (hG _ _ _ _ q3) h2 h3
                        have hw2 := Disk.find_wf _ hw hfe
                        have hgn := (Disk.wfKids_mem hw2.2 q1).1
                        have hj : GoPath.join2 (GoPath.mk (m ++ es)) name = GoPath.mk (m ++ (es ++ [name])) := by
                          have := Disk.joinAll_mk hgm (cs := [name]) (GoPath.good_cons.mpr ⟨hgn, GoPath.good_nil⟩)
                          rw [← List.append_assoc]
                          exact this
                        have hff : disk.find (m ++ (es ++ [name])) = some (.file fd data) := by
                          rw [← List.append_assoc, Disk.find_append, hfe]
                          simp only [Option.bind_some, Node.find]
                          rw [Disk.find_kid hw2.1 q1]
                        simp only at hkind
                        refine ⟨es ++ [name], fd, data, tree, objs, nm, a, t, by rw [r6, hj], hff, ?_, by rw [r6]; exact q3, r1,
                          by rw [hkind]; exact r2, r3, r4, r5, r7, r8⟩
                        rw [r6, hj, ← List.append_assoc]
                        have hs1 : b! ".go" <:+ name := (Str.hasSuffix_iff _ _).mp q2
                        rw [GoPath.mk_snoc]
                        exact hs1.trans (List.suffix_append _ _)
          have := Disk.walk_keeps (cb := scanFn (pvisitDir E G)) her.dir (.dir dd kids) (⟨m0, false⟩ : PScan) (by rw [hdir]; exact hstep) h0
          generalize Disk.walk (scanFn (pvisitDir E G)) her.dir (.dir dd kids) ⟨m0, false⟩ = r at this hp
          obtain ⟨s, e⟩ := r
          cases e with
          | none => cases hp; exact this k (d, pos) hk
          | some e =>
            simp only at hp
            split at hp <;> cases hp

/-! ### What `pkger parse` prints -/

open Flag Cmd Main Serial Spec

variable {S : Type}

/-- A JSON value tells a position. -/
def TellsPosition (j : Json) (pos : Token.Position) : Prop :=
  get (b! "Filename") j = some (.str pos.filename) ∧
  get (b! "Offset") j = some (.num (Decimal.ofNat pos.offset)) ∧
  get (b! "Line") j = some (.num (Decimal.ofNat pos.line)) ∧
  get (b! "Column") j = some (.num (Decimal.ofNat pos.column))

/-- The argument stands for a package with these declarations at these positions. -/
def Found (E : Env) (G : PGoTool) (disk : Node) (a : Str) (l : List (Decl × Token.Position)) : Prop :=
  ∃ info, (a = b! "." ∧ E.dirInfo a = .ok info ∨ a ≠ b! "." ∧ E.pkgInfo a = .ok info) ∧
    pdeclsAll E G disk info [] = .ok l

theorem found_declared {E : Env} {G : PGoTool} {disk : Node} {a : Str} {l : List (Decl × Token.Position)}
    (h : Found E G disk a l) : Declared E G.erase disk a (l.map (·.1)) := by
  obtain ⟨info, h1, h2⟩ := h
  refine ⟨info, h1, ?_⟩
  rw [C111_same, h2]
  rfl

theorem tells_position {pos : Token.Position} (h : Utf8.Valid pos.filename) : TellsPosition (encPosition pos).sane pos := by
  have e1 : Utf8.sane (b! "Filename") = b! "Filename" := by decide +kernel
  have e2 : Utf8.sane (b! "Offset") = b! "Offset" := by decide +kernel
  have e3 : Utf8.sane (b! "Line") = b! "Line" := by decide +kernel
  have e4 : Utf8.sane (b! "Column") = b! "Column" := by decide +kernel
  simp only [encPosition, Json.sane, Json.saneMembers, e1, e2, e3, e4, saneText h]
  exact ⟨rfl, rfl, rfl, rfl⟩

theorem get_pos (H : HereJson) (d : Decl) (pos : Token.Position) :
    get (b! "pos") (encDecl H (d, pos)).sane = some (encPosition pos).sane := by
  have e1 : Utf8.sane (b! "file") = b! "file" := by decide +kernel
  have e2 : Utf8.sane (b! "pos") = b! "pos" := by decide +kernel
  have e3 : Utf8.sane (b! "type") = b! "type" := by decide +kernel
  have e4 : Utf8.sane (b! "value") = b! "value" := by decide +kernel
  simp only [encDecl, Json.sane, Json.saneMembers, e1, e2, e3, e4]
  rfl

/-- **C111** (what is printed; missing: texts that are not valid UTF-8, see `C85_refuted`).  `pkger parse` prints for each
package named a list of its declarations, each with its position in the source. -/
theorem C111_printed_partial {A : Around S} {G : PGoTool} (hT : A.tool = G.erase) {kept : Info → Info}
    (hH : HereLaw A.setup.here kept) (w : Stdos.World S) (old : Option Str)
    {args0 args rest : List Str}
    (hpos : ∀ a ∈ (if rest = [] then [b! "."] else rest), ∀ l, Found A.env G (A.disk old) a l →
      ∀ k e, l[k]? = some e → A.pos a k = e.2)
    {l : List (Str × Val)} (hr : route args0 = .sub (b! "parse") args)
    (hg : Given helpOptions args l rest) (hh : ∀ b, (b! "h", Val.bool b) ∉ l)
    (hok : ∀ a ∈ (if rest = [] then [b! "."] else rest), Utf8.Valid a ∧ ∃ ds, Found A.env G (A.disk old) a ds ∧
      ∀ e ∈ ds, FileText e.1.file ∧ Utf8.Valid e.1.value ∧ Utf8.Valid e.2.filename) :
    (run A w old args0).fin = .ok ∧
    DocOf (run A w old args0).out (if rest = [] then [b! "."] else rest) fun a j =>
      ∃ ds, Found A.env G (A.disk old) a ds ∧ ListOf (fun j e => TellsDecl A.setup.here kept j e.1 ∧
        ∃ p, get (b! "pos") j = some p ∧ TellsPosition p e.2) j ds := by
  obtain ⟨m, h1, h2, h3⟩ := parseLoop_ok (E := A.env) (G := A.tool) (disk := A.disk old)
    (if rest = [] then [b! "."] else rest) (m := []) (by simp [AMap.Nodup, AMap.keys])
    fun a ha => by
      obtain ⟨ds, h, _⟩ := (hok a ha).2
      exact ⟨ds.map (·.1), by rw [hT]; exact found_declared h⟩
  have h3' : ∀ a ds, AMap.get m a = some ds ↔ a ∈ (if rest = [] then [b! "."] else rest) ∧
      Declared A.env A.tool (A.disk old) a ds := by
    intro a ds
    rw [h3]
    simp
  have hrun : run A w old args0 = ⟨w, [old], parseOutput A.setup.here A.pos m, [], .ok⟩ := by
    rw [run_sub hr]
    unfold execSub
    rw [if_neg (by decide), if_neg (by decide), if_pos rfl, parseCmd_given hg hh, h1]
    rfl
  rw [hrun]
  refine ⟨rfl, ?_⟩
  obtain ⟨ms, q1, q2, q3, q4⟩ := docOf_map
    (fun k ds => encSlice (encDecl A.setup.here) (ds.zipIdx.map fun d => (d.1, A.pos k d.2))) h2
    (fun _ _ _ => ints_slice _ _ fun d _ => ints_decl hH d) (by
      intro k ds hk
      exact (hok k ((h3' k ds).mp hk).1).1)
  refine ⟨ms, q1, q2, ?_, ?_⟩
  · intro k
    rw [q3, AMap.mem_keys_iff]
    constructor
    · rintro ⟨p, hp⟩
      exact ((h3' k p).mp hp).1
    · intro hk
      obtain ⟨_, ds, hp, _⟩ := hok k hk
      exact ⟨ds.map (·.1), (h3' k _).mpr ⟨hk, by rw [hT]; exact found_declared hp⟩⟩
  · intro k j hkj
    obtain ⟨ds, hp, rfl⟩ := q4 k j hkj
    obtain ⟨hk, hp⟩ := (h3' k ds).mp hp
    obtain ⟨_, es, hp', ht⟩ := hok k hk
    have hd := found_declared hp'
    rw [← hT] at hd
    have := declared_unique hp hd
    subst this
    refine ⟨es, hp', _, elements_slice _ _, ?_⟩
    have e : ((es.map (·.1)).zipIdx.map fun d => (d.1, A.pos k d.2)) = es := by
      apply List.ext_getElem?
      intro i
      rw [List.getElem?_map, List.getElem?_zipIdx, List.getElem?_map]
      cases hi : es[i]? with
      | none => rfl
      | some e =>
        have := hpos k hk es hp' i e hi
        simp only [Option.map_some, Nat.zero_add, this]
    rw [e]
    have := eachTells_map (T := fun j (e : Decl × Token.Position) => TellsDecl A.setup.here kept j e.1 ∧
        ∃ p, get (b! "pos") j = some p ∧ TellsPosition p e.2) (fun e => (encDecl A.setup.here e).sane) (fun e => e) es ?_
    · rw [List.map_id'] at this
      exact this
    · intro e he
      obtain ⟨a1, a2, a3⟩ := ht e he
      exact ⟨tells_decl hH e.2 a1 a2, _, get_pos _ _ _, tells_position a3⟩

/-! ### A case -/

/-- A tool that knows the text of C107 and takes any other file for empty; Go ranges over the files in reverse. -/
def posTool : PGoTool :=
  ⟨fun _ text => .ok (if text = posText then posTree else .other 0 [], fun _ => ⟨false, none⟩),
    fun l => (List.range l.length).reverse, 100⟩

/-- A module with three source files, of which two contain that text, and one in a directory that is not scanned. -/
def posDisk : Node :=
  Demo.disk [Demo.dirNode (b! "src") [Demo.dirNode (b! "app")
    [Demo.fileNode (b! "a.go") (b! "package app\n"), Demo.fileNode (b! "main.go") posText, Demo.fileNode (b! "readme") posText,
     Demo.dirNode (b! "testdata") [Demo.fileNode (b! "x.go") posText], Demo.fileNode (b! "z.go") posText]]]

theorem posTool_places : Places posTool := by
  intro name text tree objs h
  simp only [posTool, Except.ok.injEq, Prod.mk.injEq] at h
  rw [← h.1]
  split
  · rename_i ht; rw [ht]; exact posTree_placed
  · simp [Placed, PlacedAll]

/-- What is found there, with an include. -/
def posFound : List (Decl × Token.Position) :=
  match pdeclsAll Demo.env posTool posDisk Demo.info [b! "/readme"] with
  | .ok l => l
  | _ => []

/-- The hypotheses of `C111_at` are met by a scan that finds five declarations. -/
example : Places posTool ∧ posDisk.WF ∧ GoPath.Good [b! "src", b! "app"] ∧
    Demo.info.dir = GoPath.mk [b! "src", b! "app"] ∧
    pdeclsAll Demo.env posTool posDisk Demo.info [b! "/readme"] = .ok posFound ∧
    posFound.map (fun e => (e.1.value, e.2)) =
      [(b! "/readme", ⟨[], 0, 0, 0⟩), (b! "/readme", ⟨b! "/src/app/z.go", 31, 2, 20⟩),
       (b! "/x", ⟨b! "/src/app/z.go", 64, 4, 3⟩), (b! "/readme", ⟨b! "/src/app/main.go", 31, 2, 20⟩),
       (b! "/x", ⟨b! "/src/app/main.go", 64, 4, 3⟩)] :=
  ⟨posTool_places, by decide +kernel, by decide, by decide +kernel, by decide +kernel, by decide +kernel⟩

/-- What is found without an include. -/
def posPlain : List (Decl × Token.Position) :=
  match pdeclsAll Demo.env posTool posDisk Demo.info [] with
  | .ok l => l
  | _ => []

/-- The program run on that disk. -/
def posAround : Around Unit :=
  { around (Demo.program []) takeAll with
    tool := posTool.erase
    disk := fun _ => posDisk
    pos := fun _ k => (posPlain.map (·.2))[k]?.getD noPosition }

/-- The hypotheses of `C111_printed_partial` are met when `pkger parse app` is run there. -/
example : posAround.tool = posTool.erase ∧
    (∀ l, Found posAround.env posTool (posAround.disk none) (b! "app") l →
      ∀ k e, l[k]? = some e → posAround.pos (b! "app") k = e.2) ∧
    route [b! "parse", b! "app"] = .sub (b! "parse") [b! "app"] ∧ Given helpOptions [b! "app"] [] [b! "app"] ∧
    Found posAround.env posTool (posAround.disk none) (b! "app") posPlain ∧ posPlain.length = 4 ∧
    (∀ e ∈ posPlain, FileText e.1.file ∧ Utf8.Valid e.1.value ∧ Utf8.Valid e.2.filename) ∧
    (run posAround atHome none [b! "parse", b! "app"]).fin = .ok := by
  have hf : Found posAround.env posTool (posAround.disk none) (b! "app") posPlain :=
    ⟨Demo.info, .inr ⟨by decide, by decide +kernel⟩, by decide +kernel⟩
  refine ⟨rfl, ?_, by decide +kernel, ⟨[], .nil, Or.inl ⟨rfl, by decide⟩⟩, hf, by decide +kernel, by decide +kernel,
    by decide +kernel⟩
  rintro l ⟨info, h1 | ⟨_, h1⟩, h2⟩ k e hk
  · exact absurd h1.1 (by decide)
  · have hi : posAround.env.pkgInfo (b! "app") = .ok Demo.info := by decide +kernel
    rw [hi] at h1
    cases h1
    have hp : pdeclsAll posAround.env posTool (posAround.disk none) Demo.info [] = .ok posPlain := by decide +kernel
    rw [hp] at h2
    cases h2
    show (posPlain.map (·.2))[k]?.getD noPosition = e.2
    rw [List.getElem?_map, hk]
    rfl

end Props
end Verif
