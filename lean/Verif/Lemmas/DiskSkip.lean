import Verif.Lemmas.Disk

/-! Walking a tree with pruned directories. -/

namespace Verif
namespace Disk

open Node

/-- No directory on the way to `cs` (excluding its end) is skipped. -/
def openTo (skip : Str → Bool) (path : Str) : List Str → Bool
  | [] => true
  | c :: cs => !skip path && openTo skip (GoPath.join2 path c) cs

mutual
theorem visits_open (skip : Str → Bool) (path : Str) : ∀ n : Node,
    visits skip path n = ((tree n).filter fun e => openTo skip path e.1).map fun e => (joinAll path e.1, e.2)
  | .file d b => by simp [visits, tree, joinAll, openTo, List.filter_cons]
  | .dir d kids => by
    simp only [visits, tree, List.filter_cons, openTo, if_true, List.map_cons, joinAll, List.foldl_nil]
    congr 1
    cases hs : skip path with
    | true =>
      simp only [if_true]
      symm
      rw [List.map_eq_nil_iff, List.filter_eq_nil_iff]
      intro e he
      obtain ⟨_, _, _, _, _, rfl⟩ := mem_treeKids.mp he
      simp [openTo, hs]
    | false =>
      simp only [Bool.false_eq_true, if_false]
      exact visitsKids_open skip path hs kids
theorem visitsKids_open (skip : Str → Bool) (path : Str) (hs : skip path = false) : ∀ kids : List (Str × Node),
    visitsKids skip path kids =
      ((treeKids kids).filter fun e => openTo skip path e.1).map fun e => (joinAll path e.1, e.2)
  | [] => by simp [visitsKids, treeKids]
  | (name, n) :: rest => by
    simp only [visitsKids, treeKids, List.filter_append, List.map_append]
    rw [visits_open skip (GoPath.join2 path name) n, visitsKids_open skip path hs rest, List.filter_map, List.map_map]
    simp [Function.comp_def, openTo, hs, joinAll]
end

/-- The same, in terms of the names of the directories on the way. -/
theorem openTo_mk {skip : Str → Bool} {ds : List Str} (hd : GoPath.Good ds) {cs : List Str} (hc : GoPath.Good cs) :
    openTo skip (GoPath.mk ds) cs = true ↔ ∀ es, es <+: cs → es ≠ cs → skip (GoPath.mk (ds ++ es)) = false := by
  induction cs generalizing ds with
  | nil =>
    simp only [openTo, true_iff]
    intro es he hne
    exact absurd (List.prefix_nil.mp he) hne
  | cons c cs ih =>
    rw [GoPath.good_cons] at hc
    have hj : GoPath.join2 (GoPath.mk ds) c = GoPath.mk (ds ++ [c]) := by
      have := joinAll_mk hd (cs := [c]) (by simp [GoPath.Good, hc.1])
      simpa [joinAll] using this
    have hd' : GoPath.Good (ds ++ [c]) := GoPath.good_append.mpr ⟨hd, by simp [GoPath.Good, hc.1]⟩
    simp only [openTo, Bool.and_eq_true, Bool.not_eq_true', hj, ih hd' hc.2]
    constructor
    · rintro ⟨h1, h2⟩ es he hne
      cases es with
      | nil => simpa using h1
      | cons e es =>
        rw [List.cons_prefix_cons] at he
        obtain ⟨rfl, he⟩ := he
        have := h2 es he (by rintro rfl; exact hne rfl)
        simpa using this
    · intro h
      refine ⟨by simpa using h [] (List.nil_prefix) (by simp), ?_⟩
      intro es he hne
      have := h (c :: es) (List.cons_prefix_cons.mpr ⟨rfl, he⟩) (by simpa using hne)
      simpa using this

theorem find_wf : ∀ (cs : List Str) {n m : Node}, WF n → n.find cs = some m → WF m := by
  intro cs
  induction cs with
  | nil => intro n m h hf; cases n <;> (simp only [find] at hf; cases hf; exact h)
  | cons c cs ih =>
    intro n m h hf
    cases n with
    | file d b => simp [find] at hf
    | dir d kids =>
      simp only [find] at hf
      cases hk : kids.find? (fun e => e.1 == c) with
      | none => rw [hk] at hf; cases hf
      | some e =>
        rw [hk] at hf
        exact ih (wfKids_mem h.2 (List.mem_of_find?_eq_some hk)).2 hf

theorem find_append : ∀ (cs ds : List Str) (n : Node), n.find (cs ++ ds) =
    match n.find cs with
    | some m => m.find ds
    | none => none := by
  intro cs
  induction cs with
  | nil => intro ds n; cases n <;> rfl
  | cons c cs ih =>
    intro ds n
    cases n with
    | file d b => rfl
    | dir d kids =>
      simp only [List.cons_append, find]
      cases kids.find? (fun e => e.1 == c) with
      | none => rfl
      | some e => exact ih ds e.2

/-- Directories on the way to an entry of the tree are entries of the tree. -/
theorem tree_prefix {n : Node} (h : WF n) {cs ds : List Str} {m : Node} (hm : (cs ++ ds, m) ∈ tree n) :
    ∃ k, (cs, k) ∈ tree n := by
  rw [mem_tree_iff _ _ _ h, find_append] at hm
  cases hf : n.find cs with
  | none => rw [hf] at hm; cases hm
  | some k => exact ⟨k, (mem_tree_iff _ _ _ h).mpr hf⟩

end Disk
end Verif
