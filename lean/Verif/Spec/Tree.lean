import Verif.Model.Here

/-! The tree structure of names and paths, element by element. -/

namespace Verif
namespace Spec

/-- `name` is `root` itself or lies below it: its elements extend those of `root`. -/
def IsUnder (root name : Str) : Prop :=
  ∃ cs ds, GoPath.Good (cs ++ ds) ∧ root = GoPath.mk cs ∧ name = GoPath.mk (cs ++ ds)

/-- `q` belongs to the tree rooted at `root`: same package, same or deeper name. -/
def InTree (root q : Path) : Prop := q.pkg = root.pkg ∧ IsUnder root.name q.name

/-- `parent` is the directory `q` is listed in. -/
def IsParent (parent q : Path) : Prop :=
  parent.pkg = q.pkg ∧
    ∃ cs c, GoPath.Good (cs ++ [c]) ∧ parent.name = GoPath.mk cs ∧ q.name = GoPath.mk (cs ++ [c])

theorem IsUnder.prefix {root name : Str} (h : IsUnder root name) : root <+: name := by
  obtain ⟨cs, ds, _, rfl, rfl⟩ := h
  by_cases hd : ds = []
  · subst hd; simp
  · by_cases hc : cs = []
    · subst hc
      exact ⟨GoPath.joinSlash ds, by simp [GoPath.mk, GoPath.joinSlash]⟩
    · rw [GoPath.mk_append hc hd]; exact List.prefix_append _ _

theorem IsUnder.refl {cs : List Str} (h : GoPath.Good cs) : IsUnder (GoPath.mk cs) (GoPath.mk cs) :=
  ⟨cs, [], by simpa using h, rfl, by simp⟩

end Spec
end Verif
