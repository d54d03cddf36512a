import Verif.Model.PositionScan
import Verif.Lemmas.Positions
import Verif.Lemmas.Parser
import Verif.Lemmas.Disk
import Verif.Lemmas.DiskSkip
import Verif.Props.Positions

/-! Lemmas about the scan with positions. -/

namespace Verif
namespace Disk

mutual
/-- Two walks with callbacks that do the same up to a function on states. -/
theorem walkNode_sim {S T : Type} {cb : WalkFn S} {cb' : WalkFn T} {f : S → T}
    (h : ∀ p n s, cb' p n (f s) = (f (cb p n s).1, (cb p n s).2)) (path : Str) : ∀ (n : Node) (s : S),
    walkNode cb' path n (f s) = (f (walkNode cb path n s).1, (walkNode cb path n s).2)
  | .file d b, s => by simp only [walkNode]; exact h _ _ _
  | .dir d kids, s => by
    simp only [walkNode]
    rw [h]
    generalize cb path (.dir d kids) s = r
    obtain ⟨s', e⟩ := r
    cases e with
    | some e => rfl
    | none => exact walkKids_sim h path kids s'

theorem walkKids_sim {S T : Type} {cb : WalkFn S} {cb' : WalkFn T} {f : S → T}
    (h : ∀ p n s, cb' p n (f s) = (f (cb p n s).1, (cb p n s).2)) (path : Str) : ∀ (kids : List (Str × Node)) (s : S),
    walkKids cb' path kids (f s) = (f (walkKids cb path kids s).1, (walkKids cb path kids s).2)
  | [], s => by simp only [walkKids]
  | (name, n) :: rest, s => by
    simp only [walkKids]
    rw [walkNode_sim h (GoPath.join2 path name) n s]
    generalize walkNode cb (GoPath.join2 path name) n s = r
    obtain ⟨s', e⟩ := r
    cases e with
    | none => exact walkKids_sim h path rest s'
    | some e =>
      simp only
      split
      · exact walkKids_sim h path rest s'
      · rfl
end

theorem walk_sim {S T : Type} {cb : WalkFn S} {cb' : WalkFn T} {f : S → T}
    (h : ∀ p n s, cb' p n (f s) = (f (cb p n s).1, (cb p n s).2)) (path : Str) (n : Node) (s : S) :
    walk cb' path n (f s) = (f (walk cb path n s).1, (walk cb path n s).2) := by
  unfold walk
  rw [walkNode_sim h path n s]
  generalize walkNode cb path n s = r
  obtain ⟨s', e⟩ := r
  cases e with
  | none => rfl
  | some e => cases e <;> rfl

mutual
/-- What the callback preserves at the entries of the tree, the walk preserves. -/
theorem walkNode_keeps {S : Type} {cb : WalkFn S} {I : S → Prop} (path : Str) : ∀ (n : Node) (s : S),
    (∀ e ∈ visits (fun _ => false) path n, ∀ s, I s → I (cb e.1 e.2 s).1) → I s → I (walkNode cb path n s).1
  | .file d b, s, hcb, h => by
    simp only [walkNode]
    exact hcb (path, .file d b) (by simp [visits]) s h
  | .dir d kids, s, hcb, h => by
    simp only [walkNode]
    have := hcb (path, .dir d kids) (by simp [visits]) s h
    simp only at this
    generalize cb path (.dir d kids) s = r at this
    obtain ⟨s', e⟩ := r
    cases e with
    | some e => exact this
    | none => exact walkKids_keeps path kids s' (fun e he => hcb e (by simp [visits, he])) this

theorem walkKids_keeps {S : Type} {cb : WalkFn S} {I : S → Prop} (path : Str) : ∀ (kids : List (Str × Node)) (s : S),
    (∀ e ∈ visitsKids (fun _ => false) path kids, ∀ s, I s → I (cb e.1 e.2 s).1) → I s → I (walkKids cb path kids s).1
  | [], s, _, h => by simp only [walkKids]; exact h
  | (name, n) :: rest, s, hcb, h => by
    simp only [walkKids]
    have h1 := walkNode_keeps (cb := cb) (I := I) (GoPath.join2 path name) n s
      (fun e he => hcb e (by simp [visitsKids, he])) h
    have h2 : ∀ e ∈ visitsKids (fun _ => false) path rest, ∀ s, I s → I (cb e.1 e.2 s).1 :=
      fun e he => hcb e (by simp [visitsKids, he])
    generalize walkNode cb (GoPath.join2 path name) n s = r at h1
    obtain ⟨s', e⟩ := r
    cases e with
    | none => exact walkKids_keeps path rest s' h2 h1
    | some e =>
      simp only
      split
      · exact walkKids_keeps path rest s' h2 h1
      · exact h1
end

theorem walk_keeps {S : Type} {cb : WalkFn S} {I : S → Prop} (path : Str) (n : Node) (s : S)
    (hcb : ∀ e ∈ visits (fun _ => false) path n, ∀ s, I s → I (cb e.1 e.2 s).1) (h : I s) : I (walk cb path n s).1 := by
  unfold walk
  have := walkNode_keeps path n s hcb h
  generalize walkNode cb path n s = r at this
  obtain ⟨s', e⟩ := r
  split
  · rename_i h; cases h; exact this
  · exact this

end Disk

namespace Parser

open Token (Position FileSet)
open Disk (Node)

/-- The declarations without their positions. -/
def PDeclMap.erase (m : PDeclMap) : DeclMap := fun k => (m k).map (·.1)

theorem arrange_map {α β : Type} (f : α → β) (is : List Nat) (l : List α) :
    arrange is (l.map f) = (arrange is l).map f := by
  unfold arrange
  rw [List.map_filterMap]
  congr 1
  funext i
  simp

theorem mem_arrange {α : Type} {is : List Nat} {l : List α} {x : α} (h : x ∈ arrange is l) : x ∈ l := by
  unfold arrange at h
  obtain ⟨i, _, hi⟩ := List.mem_filterMap.mp h
  exact List.mem_of_getElem? hi

theorem pparseFiles_erase (G : PGoTool) (abs : Str) (pt : Path) (her : Info) : ∀ (kids : List (Str × Node))
    (before : List (Str × Str)), parseFiles G.erase abs pt her kids =
      match pparseFiles G abs pt her before kids with
      | .error e => .error e
      | .ok l => .ok (l.map PSource.erase) := by
  intro kids
  induction kids with
  | nil => intro before; rfl
  | cons e rest ih =>
    intro before
    obtain ⟨name, n⟩ := e
    cases n with
    | dir d k => simp only [parseFiles, pparseFiles]; exact ih before
    | file d data =>
      simp only [parseFiles, pparseFiles]
      by_cases hg : Str.hasSuffix name (b! ".go") = true
      · rw [if_pos hg, if_pos hg]
        have hp : G.erase.parse (GoPath.join2 abs name) data =
            match G.parse (GoPath.join2 abs name) data with
            | .error e => .error e
            | .ok (tree, objs) => .ok (tree.erase, objs) := rfl
        rw [hp]
        cases G.parse (GoPath.join2 abs name) data with
        | error e => rfl
        | ok r =>
          obtain ⟨tree, objs⟩ := r
          simp only
          rw [ih (before ++ [(GoPath.join2 abs name, data)])]
          cases pparseFiles G abs pt her (before ++ [(GoPath.join2 abs name, data)]) rest <;> rfl
      · rw [if_neg hg, if_neg hg]; exact ih before

theorem pparseDir_erase (E : Env) (G : PGoTool) (abs : Str) (kids : List (Str × Node)) :
    parseDir E G.erase abs kids =
      match pparseDir E G abs kids with
      | .error e => .error e
      | .ok l => .ok (l.map PSource.erase) := by
  unfold parseDir pparseDir
  cases E.dirInfo abs with
  | error e => rfl
  | ok her =>
    simp only
    cases E.parse her (Str.trimPrefix abs (GoPath.dir abs)) with
    | error e => rfl
    | ok pt =>
      simp only
      rw [pparseFiles_erase G abs pt her kids []]
      cases pparseFiles G abs pt her [] kids with
      | error e => rfl
      | ok l =>
        simp only [PGoTool.erase, List.map_map]
        rw [← arrange_map]
        rfl

theorem paddSources_erase (E : Env) (depth : Nat) : ∀ (l : List PSource) (m : PDeclMap),
    addSources E depth (l.map PSource.erase) m.erase = onOk PDeclMap.erase (paddSources E depth l m) := by
  intro l
  induction l with
  | nil => intro m; rfl
  | cons p l ih =>
    intro m
    simp only [List.map_cons, addSources, paddSources]
    rw [Props.C107_same]
    cases hp : pdecls E depth p with
    | panic => rfl
    | err e => rfl
    | ok r =>
      obtain ⟨mm, x⟩ := r
      cases x with
      | some e => rfl
      | none =>
        have hj : joinMaps m.erase (fun k => (mm k).map (·.1)) = PDeclMap.erase fun k => m k ++ mm k := by
          funext k
          simp [joinMaps, PDeclMap.erase]
        have := ih fun k => m k ++ mm k
        rw [← hj] at this
        exact this

/-- The state without positions. -/
def PScan.erase (s : PScan) : Scan := ⟨s.decls.erase, s.panicked⟩

theorem pvisitDir_erase (E : Env) (G : PGoTool) (path : Str) (n : Node) (s : PScan) :
    scanFn (visitDir E G.erase) path n s.erase =
      ((scanFn (pvisitDir E G) path n s).1.erase, (scanFn (pvisitDir E G) path n s).2) := by
  unfold scanFn
  split
  · rfl
  · split
    · rfl
    · cases n with
      | file d b => rfl
      | dir d kids =>
        simp only [visitDir, pvisitDir]
        rw [pparseDir_erase]
        cases pparseDir E G path kids with
        | error e => rfl
        | ok srcs =>
          simp only
          have h : G.erase.depth = G.depth := rfl
          rw [h, show s.erase.decls = s.decls.erase from rfl, paddSources_erase]
          cases paddSources E G.depth srcs s.decls <;> rfl

theorem pparseIncludes_erase (E : Env) (her : Info) : ∀ (incs : List Str) (m : PDeclMap),
    parseIncludes E her incs m.erase =
      match pparseIncludes E her incs m with
      | .error e => .error e
      | .ok m => .ok m.erase := by
  intro incs
  induction incs with
  | nil => intro m; rfl
  | cons i is ih =>
    intro m
    simp only [parseIncludes, pparseIncludes]
    cases newInclude E her i with
    | error e => rfl
    | ok d =>
      simp only
      rw [← ih]
      congr 1
      funext k
      by_cases hk : k = .include
      · subst hk; simp [DeclMap.append, PDeclMap.erase]
      · simp [DeclMap.append, PDeclMap.erase, hk]

theorem pparse_erase (E : Env) (G : PGoTool) (disk : Node) (her : Info) (incs : List Str) :
    parse E G.erase disk her incs = onOk PDeclMap.erase (pparse E G disk her incs) := by
  unfold parse pparse
  rw [show DeclMap.empty = PDeclMap.erase (fun _ => []) from rfl, pparseIncludes_erase]
  cases pparseIncludes E her incs (fun _ => []) with
  | error e => rfl
  | ok m =>
    simp only
    cases osStat disk her.dir with
    | none => rfl
    | some n =>
      cases n with
      | file d b => rfl
      | dir d kids =>
        simp only
        rw [show (⟨m.erase, false⟩ : Scan) = PScan.erase ⟨m, false⟩ from rfl,
          Disk.walk_sim (f := PScan.erase) (cb := scanFn (pvisitDir E G)) (pvisitDir_erase E G)]
        generalize Disk.walk (scanFn (pvisitDir E G)) her.dir (.dir d kids) ⟨m, false⟩ = r
        obtain ⟨s, e⟩ := r
        cases e with
        | none => rfl
        | some e =>
          show (if s.panicked = true then Res.panic else Res.err e) =
            onOk PDeclMap.erase (if s.panicked = true then Res.panic else Res.err e)
          by_cases hp : s.panicked = true
          · simp only [if_pos hp, onOk]
          · simp only [if_neg hp, onOk]

theorem pdeclsAll_erase (E : Env) (G : PGoTool) (disk : Node) (her : Info) (incs : List Str) :
    decls E G.erase disk her incs = onOk (List.map (·.1)) (pdeclsAll E G disk her incs) := by
  unfold decls pdeclsAll
  rw [pparse_erase]
  cases pparse E G disk her incs with
  | err e => rfl
  | panic => rfl
  | ok m =>
    simp only [onOk, ordered]
    rw [List.map_flatMap]
    rfl

/-! ### Where a source comes from -/

/-- A source made from a `.go` file of the directory. -/
def FromDir (G : PGoTool) (abs : Str) (kids : List (Str × Node)) (p : PSource) : Prop :=
  ∃ name d data pt her tree objs before after, (name, Node.file d data) ∈ kids ∧ Str.hasSuffix name (b! ".go") = true ∧
    G.parse (GoPath.join2 abs name) data = .ok (tree, objs) ∧
    p = inSet (GoPath.join2 abs name) pt her tree objs data before after

theorem pparseFiles_from {G : PGoTool} {abs : Str} {pt : Path} {her : Info} : ∀ {kids : List (Str × Node)}
    {before : List (Str × Str)} {l : List PSource}, pparseFiles G abs pt her before kids = .ok l →
    ∀ p ∈ l, FromDir G abs kids p := by
  intro kids
  induction kids with
  | nil => intro before l h p hp; cases h; cases hp
  | cons e rest ih =>
    intro before l h p hp
    obtain ⟨name, n⟩ := e
    have lift : FromDir G abs rest p → FromDir G abs ((name, n) :: rest) p := by
      rintro ⟨name', d, data, pt, her, tree, objs, b, a, h1, h2⟩
      exact ⟨name', d, data, pt, her, tree, objs, b, a, List.mem_cons_of_mem _ h1, h2⟩
    cases n with
    | dir d k => simp only [pparseFiles] at h; exact lift (ih h p hp)
    | file d data =>
      simp only [pparseFiles] at h
      by_cases hg : Str.hasSuffix name (b! ".go") = true
      · rw [if_pos hg] at h
        cases hq : G.parse (GoPath.join2 abs name) data with
        | error e => rw [hq] at h; cases h
        | ok r =>
          obtain ⟨tree, objs⟩ := r
          rw [hq] at h
          simp only at h
          cases hr : pparseFiles G abs pt her (before ++ [(GoPath.join2 abs name, data)]) rest with
          | error e => rw [hr] at h; cases h
          | ok srcs =>
            rw [hr] at h
            cases h
            rcases List.mem_cons.mp hp with rfl | hp
            · exact ⟨name, d, data, pt, her, tree, objs, before, setFiles abs rest, List.mem_cons_self, hg, hq, rfl⟩
            · exact lift (ih hr p hp)
      · rw [if_neg hg] at h; exact lift (ih h p hp)

theorem pparseDir_from {E : Env} {G : PGoTool} {abs : Str} {kids : List (Str × Node)} {l : List PSource}
    (h : pparseDir E G abs kids = .ok l) : ∀ p ∈ l, FromDir G abs kids p := by
  unfold pparseDir at h
  cases hi : E.dirInfo abs with
  | error e => rw [hi] at h; cases h
  | ok her =>
    rw [hi] at h
    simp only at h
    cases hp : E.parse her (Str.trimPrefix abs (GoPath.dir abs)) with
    | error e => rw [hp] at h; cases h
    | ok pt =>
      rw [hp] at h
      simp only at h
      cases hf : pparseFiles G abs pt her [] kids with
      | error e => rw [hf] at h; cases h
      | ok srcs =>
        rw [hf] at h
        cases h
        intro p hp
        exact pparseFiles_from hf p (mem_arrange hp)

theorem paddSources_mem {E : Env} {depth : Nat} : ∀ {l : List PSource} {m m' : PDeclMap},
    paddSources E depth l m = .ok m' → ∀ k e, e ∈ m' k → e ∈ m k ∨ ∃ p ∈ l, ∃ mm, pdecls E depth p = .ok (mm, none) ∧ e ∈ mm k := by
  intro l
  induction l with
  | nil => intro m m' h k e he; cases h; exact .inl he
  | cons p l ih =>
    intro m m' h k e he
    simp only [paddSources] at h
    cases hp : pdecls E depth p with
    | panic => rw [hp] at h; cases h
    | err x => rw [hp] at h; cases h
    | ok r =>
      obtain ⟨mm, x⟩ := r
      rw [hp] at h
      cases x with
      | some x => cases h
      | none =>
        rcases ih h k e he with h1 | ⟨q, hq, mm', h2⟩
        · rcases List.mem_append.mp h1 with h1 | h1
          · exact .inl h1
          · exact .inr ⟨p, List.mem_cons_self, mm, hp, h1⟩
        · exact .inr ⟨q, List.mem_cons_of_mem _ hq, mm', h2⟩

theorem pparseIncludes_mem {E : Env} {her : Info} : ∀ {incs : List Str} {m m' : PDeclMap},
    pparseIncludes E her incs m = .ok m' → ∀ k e, e ∈ m' k → e ∈ m k ∨
      k = .include ∧ e.2 = noPosition ∧ ∃ inc ∈ incs, newInclude E her inc = .ok e.1 := by
  intro incs
  induction incs with
  | nil => intro m m' h k e he; cases h; exact .inl he
  | cons i is ih =>
    intro m m' h k e he
    simp only [pparseIncludes] at h
    cases hn : newInclude E her i with
    | error x => rw [hn] at h; cases h
    | ok d =>
      rw [hn] at h
      rcases ih h k e he with h1 | ⟨h1, h2, inc, h3, h4⟩
      · by_cases hk : k = .include
        · subst hk
          rw [if_pos rfl] at h1
          rcases List.mem_append.mp h1 with h1 | h1
          · exact .inl h1
          · have := List.mem_singleton.mp h1
            subst this
            exact .inr ⟨rfl, rfl, i, List.mem_cons_self, hn⟩
        · rw [if_neg hk] at h1; exact .inl h1
      · exact .inr ⟨h1, h2, inc, List.mem_cons_of_mem _ h3, h4⟩

end Parser
end Verif
