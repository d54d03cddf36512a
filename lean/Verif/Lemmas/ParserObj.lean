import Verif.Model.ParserObj
import Verif.Lemmas.Disk

/-! `parseTo` ends as `Parser.parse` does, and what a source yields does not depend on its recorded path. -/

namespace Verif
namespace Parser

open Disk (Node)

/-- How `parse` ends, without the map a failing call leaves. -/
def outcome : DeclMap × Option Stop → Res DeclMap
  | (m, none) => .ok m
  | (_, some (.err e)) => .err e
  | (_, some .panic) => .panic

theorem addSourcesTo_outcome (E : Env) (depth : Nat) : ∀ (l : List Source) (m : DeclMap),
    outcome (addSourcesTo E depth l m) = addSources E depth l m
  | [], m => rfl
  | src :: rest, m => by
    rw [addSourcesTo, addSources]
    cases h : declsMap E depth src with
    | panic => rfl
    | err e => rfl
    | ok p =>
      obtain ⟨mm, e⟩ := p
      cases e with
      | some e => rfl
      | none => exact addSourcesTo_outcome E depth rest _

theorem parseIncludesTo_outcome (E : Env) (her : Info) : ∀ (l : List Str) (m : DeclMap),
    parseIncludes E her l m =
      match parseIncludesTo E her l m with
      | (m, none) => .ok m
      | (_, some e) => .error e
  | [], m => rfl
  | i :: is, m => by
    rw [parseIncludesTo, parseIncludes]
    cases h : newInclude E her i with
    | error e => rfl
    | ok d => exact parseIncludesTo_outcome E her is _

/-- Two scans that end the same way, and in the same state unless with a real error. -/
def Alike (a b : Scan × Option Err) : Prop :=
  a.2 = b.2 ∧ a.1.panicked = b.1.panicked ∧ (a.2 = none ∨ a.2 = some .skipDir → a.1 = b.1)

theorem scanFn_alike (E : Env) (G : GoTool) (path : Str) (n : Node) (s : Scan) :
    Alike (scanFn (visitDirTo E G) path n s) (scanFn (visitDir E G) path n s) := by
  unfold scanFn
  split
  · exact ⟨rfl, rfl, fun _ => rfl⟩
  split
  · exact ⟨rfl, rfl, fun _ => rfl⟩
  cases n with
  | file d b => exact ⟨rfl, rfl, fun _ => rfl⟩
  | dir d kids =>
    simp only [visitDirTo, visitDir]
    cases parseDir E G path kids with
    | error e => exact ⟨rfl, rfl, fun _ => rfl⟩
    | ok srcs =>
      simp only
      rw [← addSourcesTo_outcome]
      cases h : addSourcesTo E G.depth srcs s.decls with
      | mk m r =>
        cases r with
        | none => exact ⟨rfl, rfl, fun _ => rfl⟩
        | some st =>
          cases st with
          | err e => exact ⟨rfl, rfl, fun h => by simp at h⟩
          | panic => exact ⟨rfl, rfl, fun h => by simp at h⟩

mutual
theorem walkNode_alike (E : Env) (G : GoTool) (path : Str) : ∀ (n : Node) (s : Scan),
    Alike (Disk.walkNode (scanFn (visitDirTo E G)) path n s) (Disk.walkNode (scanFn (visitDir E G)) path n s)
  | .file d b, s => by
    rw [Disk.walkNode, Disk.walkNode]
    exact scanFn_alike E G path _ s
  | .dir d kids, s => by
    rw [Disk.walkNode, Disk.walkNode]
    have h := scanFn_alike E G path (.dir d kids) s
    revert h
    cases scanFn (visitDirTo E G) path (.dir d kids) s with
    | mk a ra =>
      cases scanFn (visitDir E G) path (.dir d kids) s with
      | mk b rb =>
        intro h
        obtain ⟨h1, h2, h3⟩ := h
        simp only at h1 h2 h3
        subst h1
        cases ra with
        | some e => exact ⟨rfl, h2, h3⟩
        | none =>
          have := h3 (Or.inl rfl)
          subst this
          exact walkKids_alike E G path kids a

theorem walkKids_alike (E : Env) (G : GoTool) (path : Str) : ∀ (kids : List (Str × Node)) (s : Scan),
    Alike (Disk.walkKids (scanFn (visitDirTo E G)) path kids s) (Disk.walkKids (scanFn (visitDir E G)) path kids s)
  | [], s => by
    rw [Disk.walkKids, Disk.walkKids]
    exact ⟨rfl, rfl, fun _ => rfl⟩
  | (name, n) :: rest, s => by
    rw [Disk.walkKids, Disk.walkKids]
    have h := walkNode_alike E G (GoPath.join2 path name) n s
    revert h
    cases Disk.walkNode (scanFn (visitDirTo E G)) (GoPath.join2 path name) n s with
    | mk a ra =>
      cases Disk.walkNode (scanFn (visitDir E G)) (GoPath.join2 path name) n s with
      | mk b rb =>
        intro h
        obtain ⟨h1, h2, h3⟩ := h
        simp only at h1 h2 h3
        subst h1
        cases ra with
        | none =>
          have := h3 (Or.inl rfl)
          subst this
          exact walkKids_alike E G path rest a
        | some e =>
          simp only
          split
          · rename_i he
            have := h3 (Or.inr (by rw [he.2]))
            subst this
            exact walkKids_alike E G path rest a
          · exact ⟨rfl, h2, h3⟩
end

/-- One parse of the disk, in the model with the map that is left and in the model without. -/
theorem parseTo_outcome (E : Env) (G : GoTool) (disk : Node) (her : Info) (includes : List Str) :
    outcome (parseTo E G disk her includes) = parse E G disk her includes := by
  unfold parseTo parse
  rw [parseIncludesTo_outcome]
  cases parseIncludesTo E her includes DeclMap.empty with
  | mk m r =>
    cases r with
    | some e => rfl
    | none =>
      simp only
      cases osStat disk her.dir with
      | none => rfl
      | some n =>
        cases n with
        | file d b => rfl
        | dir d kids =>
          simp only [Disk.walk]
          have h := walkNode_alike E G her.dir (.dir d kids) ⟨m, false⟩
          revert h
          cases Disk.walkNode (scanFn (visitDirTo E G)) her.dir (.dir d kids) ⟨m, false⟩ with
          | mk a ra =>
            cases Disk.walkNode (scanFn (visitDir E G)) her.dir (.dir d kids) ⟨m, false⟩ with
            | mk b rb =>
              intro h
              obtain ⟨h1, h2, h3⟩ := h
              simp only at h1 h2 h3
              subst h1
              cases ra with
              | none =>
                have := h3 (Or.inl rfl)
                subst this
                rfl
              | some e =>
                by_cases hs : e = .skipDir
                · subst hs
                  have := h3 (Or.inr rfl)
                  subst this
                  rfl
                · cases e <;> first
                    | exact absurd rfl hs
                    | (simp only [← h2]; cases a.panicked <;> rfl)

/-! ### What a source yields -/

/-- Two sources with the same name and syntax tree; their recorded paths and packages may differ. -/
structure SameText (a b : Source) : Prop where
  abs : a.abs = b.abs
  ast : a.ast = b.ast
  objs : a.objs = b.objs

theorem enter_sameText {a b : Source} (h : SameText a b) (E : Env) (depth : Nat) (n : Ast) (s : PState) :
    enter E depth a n s = enter E depth b n s := by
  unfold enter value
  rw [h.abs, h.objs]

mutual
theorem walkAst_sameText {a b : Source} (h : SameText a b) (E : Env) (depth : Nat) : ∀ (n : Ast) (s : PState),
    walkAst E depth a n s = walkAst E depth b n s
  | .ident x o, s => by rw [walkAst, walkAst, enter_sameText h]
  | .lit t, s => by rw [walkAst, walkAst, enter_sameText h]
  | .sel x n, s => by
    rw [walkAst, walkAst, enter_sameText h]
    cases enter E depth b (.sel x n) s with
    | ok p =>
      obtain ⟨s, d⟩ := p
      cases d
      · rfl
      · exact walkAst_sameText h E depth x s
    | err e => rfl
    | panic => rfl
  | .call f args, s => by
    rw [walkAst, walkAst, enter_sameText h]
    cases enter E depth b (.call f args) s with
    | ok p =>
      obtain ⟨s, d⟩ := p
      cases d
      · rfl
      · simp only
        rw [walkAst_sameText h E depth f s]
        cases walkAst E depth b f s with
        | ok s => exact walkAsts_sameText h E depth args s
        | err e => rfl
        | panic => rfl
    | err e => rfl
    | panic => rfl
  | .other kids, s => by
    rw [walkAst, walkAst, enter_sameText h]
    cases enter E depth b (.other kids) s with
    | ok p =>
      obtain ⟨s, d⟩ := p
      cases d
      · rfl
      · exact walkAsts_sameText h E depth kids s
    | err e => rfl
    | panic => rfl

theorem walkAsts_sameText {a b : Source} (h : SameText a b) (E : Env) (depth : Nat) :
    ∀ (l : List Ast) (s : PState), walkAsts E depth a l s = walkAsts E depth b l s
  | [], s => by rw [walkAsts, walkAsts]
  | n :: l, s => by
    rw [walkAsts, walkAsts, walkAst_sameText h E depth n s]
    cases walkAst E depth b n s with
    | ok s => exact walkAsts_sameText h E depth l s
    | err e => rfl
    | panic => rfl
end

theorem declsMap_sameText {a b : Source} (h : SameText a b) (E : Env) (depth : Nat) :
    declsMap E depth a = declsMap E depth b := by
  unfold declsMap runParse parseSource
  rw [h.ast, walkAst_sameText h]

/-- Each `.go` file of a directory that could be parsed is among its sources. -/
theorem parseFiles_mem {G : GoTool} {abs : Str} {pt : Path} {her : Info} {name : Str} {d : Mem.Details} {data : Str} :
    ∀ {kids : List (Str × Node)} {srcs : List Source}, parseFiles G abs pt her kids = .ok srcs →
      (name, Node.file d data) ∈ kids → Str.hasSuffix name (b! ".go") = true →
      ∃ ast objs, G.parse (GoPath.join2 abs name) data = .ok (ast, objs) ∧
        (⟨GoPath.join2 abs name, pt, her, ast, objs⟩ : Source) ∈ srcs
  | [], _, _, hm, _ => by cases hm
  | (x, .dir d' k) :: rest, srcs, h, hm, hs => by
    rw [parseFiles] at h
    rcases List.mem_cons.mp hm with h' | h'
    · cases h'
    · exact parseFiles_mem h h' hs
  | (x, .file d' b) :: rest, srcs, h, hm, hs => by
    rw [parseFiles] at h
    split at h
    · cases hp : G.parse (GoPath.join2 abs x) b with
      | error e => rw [hp] at h; cases h
      | ok p =>
        obtain ⟨ast, objs⟩ := p
        rw [hp] at h
        simp only at h
        cases hr : parseFiles G abs pt her rest with
        | error e => rw [hr] at h; cases h
        | ok l =>
          rw [hr] at h
          simp only at h
          cases h
          rcases List.mem_cons.mp hm with h' | h'
          · cases h'
            exact ⟨ast, objs, hp, List.mem_cons_self⟩
          · obtain ⟨a, o, h1, h2⟩ := parseFiles_mem hr h' hs
            exact ⟨a, o, h1, List.mem_cons_of_mem _ h2⟩
    · rename_i hn
      rcases List.mem_cons.mp hm with h' | h'
      · cases h'
        exact absurd hs hn
      · exact parseFiles_mem h h' hs

end Parser
end Verif
