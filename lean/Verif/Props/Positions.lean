import Verif.Lemmas.Positions
import Verif.Spec.ParserDemo

/-! C107: where declarations stand in their source. -/

namespace Verif
namespace Props

open Parser
open Token (Position FileSet Right)

/-- **C107** (the same declarations).  Following positions changes nothing else. -/
theorem C107_same (E : Env) (depth : Nat) (p : PSource) :
    declsMap E depth p.erase = onOk (fun r => (fun k => (r.1 k).map (·.1), r.2)) (pdecls E depth p) := by
  have h := pwalk_erase E depth p p.tree ⟨fun _ => [], none⟩
  have h0 : (⟨fun _ => [], none⟩ : PPState).erase = ⟨DeclMap.empty, none⟩ := rfl
  rw [h0] at h
  simp only [declsMap, runParse, parseSource, pdecls]
  have e : p.erase.ast = p.tree.erase := rfl
  rw [e, h]
  cases pwalk E depth p p.tree ⟨fun _ => [], none⟩ with
  | ok s => rfl
  | err e => rfl
  | panic => rfl

/-- **C107**.  The position of a declaration is that of the first argument of a call of the function it is of: the file,
the offset at which the argument is written, and its line and column; whatever other files are parsed into the same
set. If the argument is a literal, the text there is that literal, and its value is the declaration's. -/
theorem C107_at {E : Env} {depth : Nat} {abs : Str} {path : Path} {here : Info} {tree : PAst} {objs : Nat → Obj}
    {text : Str} {before after : List (Str × Str)} (hp : Placed text tree)
    {m : Kind → List (Decl × Position)} {r : Option Err}
    (h : pdecls E depth (inSet abs path here tree objs text before after) = .ok (m, r)) {k : Kind} {d : Decl}
    {pos : Position} (hd : (d, pos) ∈ m k) :
    ∃ name a t, HasCall tree name a ∧ kindOf name = some k ∧ Written a t ∧ t ≠ [] ∧ t <+: text.drop pos.offset ∧
      pos.filename = abs ∧ Right text pos.offset pos.line pos.column ∧
      (a = .lit pos.offset t → Unquote.unquote t = .ok d.value) := by
  unfold pdecls at h
  cases hw : pwalk E depth (inSet abs path here tree objs text before after) tree ⟨fun _ => [], none⟩ with
  | ok s =>
    simp only [inSet] at h hw
    rw [hw] at h
    cases h
    rcases pwalk_from _ _ _ hw k _ hd with h0 | ⟨name, a, hc, hk, hv, hpos⟩
    · cases h0
    · obtain ⟨t, ht⟩ := written_of_value hv
      obtain ⟨h1, h2, h3⟩ := placed_written ht (placed_arg hc hp)
      have hin := Token.position_in (Token.below_addAll before Token.below_new) abs text after (Nat.le_of_lt h3)
      obtain ⟨line, col, hpr, hr⟩ := Token.position_right abs text (FileSet.new.addAll before).base h3
      simp only at hpos
      rw [hin, hpr] at hpos
      subst hpos
      refine ⟨name, a, t, hc, hk, ht, h1, h2, rfl, hr, fun ha => ?_⟩
      rw [ha] at hv
      cases depth with
      | zero => simp [value, valueNode] at hv
      | succ depth =>
        simp only [value, valueNode, PAst.erase] at hv
        cases hu : Unquote.unquote t with
        | ok v => rw [hu] at hv; cases hv; rfl
        | error e => rw [hu] at hv; cases hv
  | err e => simp only [inSet] at h hw; rw [hw] at h; cases h
  | panic => simp only [inSet] at h hw; rw [hw] at h; cases h

/-- **C107** (order).  The declarations of one function in a file are in the order in which they stand there. -/
theorem C107_order {E : Env} {depth : Nat} {abs : Str} {path : Path} {here : Info} {tree : PAst} {objs : Nat → Obj}
    {text : Str} {before after : List (Str × Str)} (hs : Spans tree 0 text.length)
    {m : Kind → List (Decl × Position)} {r : Option Err}
    (h : pdecls E depth (inSet abs path here tree objs text before after) = .ok (m, r)) (k : Kind) :
    (m k).Pairwise fun x y => x.2.offset < y.2.offset := by
  have ho : Offsets (inSet abs path here tree objs text before after) text.length := by
    intro off hoff
    have hin := Token.position_in (Token.below_addAll before Token.below_new) abs text after (Nat.le_of_lt hoff)
    obtain ⟨line, col, hpr, _⟩ := Token.position_right abs text (FileSet.new.addAll before).base hoff
    simp only [inSet]
    rw [hin, hpr]
  unfold pdecls at h
  cases hw : pwalk E depth (inSet abs path here tree objs text before after) tree ⟨fun _ => [], none⟩ with
  | ok s =>
    have := pwalk_order ho tree _ s 0 text.length hw hs (Nat.le_refl _) (by intro k; simp)
    simp only [inSet] at h hw
    rw [hw] at h
    cases h
    exact (this k).1
  | err e => simp only [inSet] at h hw; rw [hw] at h; cases h
  | panic => simp only [inSet] at h hw; rw [hw] at h; cases h

/-! ### Examples -/

/-- A source with two declarations, on lines 2 and 3. -/
def posText : Str := b! "package app\nvar a = pkger.Open(\"/readme\")\nvar b = pkger.Open(\n  `/x`)\n"

/-- Its syntax tree, as far as it matters. -/
def posTree : PAst :=
  .other 0 [.ident 8 (b! "app") none,
    .call (.sel (.ident 20 (b! "pkger") none) (b! "Open")) [.lit 31 (b! "\"/readme\"")],
    .call (.sel (.ident 50 (b! "pkger") none) (b! "Open")) [.lit 64 (b! "`/x`")]]

theorem posTree_placed : Placed posText posTree := by
  simp only [posTree, Placed, PlacedAll]
  decide +kernel

theorem posTree_spans : Spans posTree 0 posText.length := by
  simp only [posTree, Spans, SpansAll]
  exact ⟨by decide, by decide +kernel, 9, by decide, 41, ⟨26, by decide, 41, by decide, by decide⟩, 69,
    ⟨60, by decide, 69, by decide, by decide⟩, by decide +kernel⟩

/-- Parsed together with another file before and one after. -/
def posSource : PSource :=
  inSet (b! "/src/app/main.go") ⟨b! "app", b! "/"⟩ Demo.info posTree (fun _ => ⟨false, none⟩) posText
    [(b! "/src/app/a.go", b! "package app\n\n")] [(b! "/src/app/z.go", b! "package app")]

/-- The positions of the two. -/
example : (match pdecls Demo.env 5 posSource with
    | .ok (m, _) => (m .open).map fun e => (e.1.value, e.2)
    | _ => []) =
    [(b! "/readme", ⟨b! "/src/app/main.go", 31, 2, 20⟩), (b! "/x", ⟨b! "/src/app/main.go", 64, 4, 3⟩)] := by
  decide +kernel

end Props
end Verif
