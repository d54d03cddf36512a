import Verif.Spec.DiskTree
import Verif.Go.Sort

/-! `filepath.Walk` visits the tree in order; descending along elements. -/

namespace Verif
namespace Disk

open Node

mutual
/-- What `filepath.Walk` visits if exactly the directories satisfying `skip` are pruned. -/
def visits (skip : Str → Bool) (path : Str) : Node → List (Str × Node)
  | .file d b => [(path, .file d b)]
  | .dir d kids => (path, .dir d kids) :: (if skip path then [] else visitsKids skip path kids)

def visitsKids (skip : Str → Bool) (path : Str) : List (Str × Node) → List (Str × Node)
  | [] => []
  | (name, n) :: rest => visits skip (GoPath.join2 path name) n ++ visitsKids skip path rest
end

/-- Running a callback over a list of visits, ignoring its errors. -/
def runCb {S : Type} (cb : WalkFn S) (l : List (Str × Node)) (s : S) : S := l.foldl (fun s e => (cb e.1 e.2 s).1) s

theorem runCb_append {S : Type} (cb : WalkFn S) (l l' : List (Str × Node)) (s : S) :
    runCb cb (l ++ l') s = runCb cb l' (runCb cb l s) := by simp [runCb, List.foldl_append]

/-- The callback answers `SkipDir` on skipped directories and nothing elsewhere, as long as its state satisfies
`I` and the visited entry is in `V`. -/
structure Behaves {S : Type} (cb : WalkFn S) (skip : Str → Bool) (I : S → Prop) (V : Str × Node → Prop) : Prop where
  res : ∀ p n s, I s → V (p, n) → (cb p n s).2 = if n.isDir = true ∧ skip p = true then some .skipDir else none
  inv : ∀ p n s, I s → V (p, n) → I (cb p n s).1

theorem runCb_inv {S : Type} {cb : WalkFn S} {skip : Str → Bool} {I : S → Prop} {V : Str × Node → Prop}
    (hb : Behaves cb skip I V) : ∀ (l : List (Str × Node)) (s : S), I s → (∀ e ∈ l, V e) → I (runCb cb l s) := by
  intro l
  induction l with
  | nil => intro s h _; exact h
  | cons e l ih =>
    intro s h hv
    exact ih _ (hb.inv e.1 e.2 s h (hv e (by simp))) (fun x hx => hv x (by simp [hx]))

mutual
theorem walkNode_visits {S : Type} {cb : WalkFn S} {skip : Str → Bool} {I : S → Prop} {V : Str × Node → Prop}
    (hb : Behaves cb skip I V) (path : Str) : ∀ (n : Node) (s : S), I s → (∀ e ∈ visits skip path n, V e) →
      walkNode cb path n s = (runCb cb (visits skip path n) s,
        if n.isDir = true ∧ skip path = true then some .skipDir else none)
  | .file d b, s, hs, hv => by
    have := hb.res path (.file d b) s hs (hv _ (by simp [visits]))
    simp only [walkNode, visits, runCb, List.foldl_cons, List.foldl_nil, isDir, Bool.false_eq_true, false_and, if_false] at this ⊢
    rw [← this]
  | .dir d kids, s, hs, hv => by
    have hV := hv (path, .dir d kids) (by simp [visits])
    have hres := hb.res path (.dir d kids) s hs hV
    have hinv := hb.inv path (.dir d kids) s hs hV
    simp only [walkNode, visits]
    by_cases hk : skip path = true
    · simp only [isDir, hk, true_and, if_true] at hres ⊢
      generalize hcb : cb path (.dir d kids) s = m at hres
      obtain ⟨s', r⟩ := m
      simp only at hres
      subst hres
      simp [runCb, hcb]
    · have hk' : skip path = false := by simpa using hk
      simp only [isDir, hk', Bool.false_eq_true, and_false, if_false] at hres ⊢
      generalize hcb : cb path (.dir d kids) s = m at hres hinv
      obtain ⟨s', r⟩ := m
      simp only at hres hinv
      subst hres
      simp only
      rw [walkKids_visits hb path kids s' hinv (fun e he => hv e (by simp [visits, hk, he]))]
      simp [runCb, hcb]
theorem walkKids_visits {S : Type} {cb : WalkFn S} {skip : Str → Bool} {I : S → Prop} {V : Str × Node → Prop}
    (hb : Behaves cb skip I V) (path : Str) : ∀ (kids : List (Str × Node)) (s : S), I s →
      (∀ e ∈ visitsKids skip path kids, V e) →
      walkKids cb path kids s = (runCb cb (visitsKids skip path kids) s, none)
  | [], s, _, _ => by simp [walkKids, visitsKids, runCb]
  | (name, n) :: rest, s, hs, hv => by
    simp only [walkKids, visitsKids]
    have hv1 : ∀ e ∈ visits skip (GoPath.join2 path name) n, V e := fun e he => hv e (by simp [visitsKids, he])
    have hv2 : ∀ e ∈ visitsKids skip path rest, V e := fun e he => hv e (by simp [visitsKids, he])
    rw [walkNode_visits hb (GoPath.join2 path name) n s hs hv1]
    have hI := runCb_inv hb _ s hs hv1
    rw [runCb_append]
    by_cases hk : n.isDir = true ∧ skip (GoPath.join2 path name) = true
    · simp only [hk, and_self, if_true]
      exact walkKids_visits hb path rest _ hI hv2
    · simp only [hk, if_false]
      exact walkKids_visits hb path rest _ hI hv2
end

/-- `filepath.Walk` with such a callback runs it over the visits, and ends without error. -/
theorem walk_visits {S : Type} {cb : WalkFn S} {skip : Str → Bool} {I : S → Prop} {V : Str × Node → Prop}
    (hb : Behaves cb skip I V) (root : Str) (n : Node) (s : S) (hs : I s) (hv : ∀ e ∈ visits skip root n, V e) :
    walk cb root n s = (runCb cb (visits skip root n) s, none) := by
  unfold walk
  rw [walkNode_visits hb root n s hs hv]
  by_cases hk : n.isDir = true ∧ skip root = true
  · simp [hk]
  · simp [hk]

/-- Without skipping, the visits are the entries of the tree. -/
def joinAll (path : Str) (cs : List Str) : Str := cs.foldl GoPath.join2 path

mutual
theorem visits_tree (path : Str) : ∀ n : Node,
    visits (fun _ => false) path n = (tree n).map fun e => (joinAll path e.1, e.2)
  | .file d b => by simp [visits, tree, joinAll]
  | .dir d kids => by
    simp only [visits, tree, List.map_cons, joinAll, List.foldl_nil, Bool.false_eq_true, if_false]
    rw [visitsKids_tree path kids]
    rfl
theorem visitsKids_tree (path : Str) : ∀ kids : List (Str × Node),
    visitsKids (fun _ => false) path kids = (treeKids kids).map fun e => (joinAll path e.1, e.2)
  | [] => by simp [visitsKids, treeKids]
  | (name, n) :: rest => by
    simp only [visitsKids, treeKids, List.map_append, List.map_map]
    rw [visits_tree (GoPath.join2 path name) n, visitsKids_tree path rest]
    rfl
end

theorem joinAll_mk {ds : List Str} (hd : GoPath.Good ds) : ∀ {cs : List Str}, GoPath.Good cs →
    joinAll (GoPath.mk ds) cs = GoPath.mk (ds ++ cs) := by
  intro cs
  induction cs generalizing ds with
  | nil => intro _; simp [joinAll]
  | cons c cs ih =>
    intro h
    rw [GoPath.good_cons] at h
    have hj : GoPath.join2 (GoPath.mk ds) c = GoPath.mk (ds ++ [c]) := by
      have hne : c ≠ [] := h.1.1
      have : GoPath.join2 (GoPath.mk ds) c = GoPath.join2 (GoPath.mk ds) (GoPath.mk [c]) := by
        have hm : GoPath.mk [c] = Str.slash :: c := by simp [GoPath.mk, GoPath.joinSlash]
        unfold GoPath.join2
        rw [hm]
        simp [hne, GoPath.mk, GoPath.clean, GoPath.rooted, GoPath.rootedElems, GoPath.elems_append_slash, GoPath.elems_slash]
      rw [this]
      exact GoPath.join2_mk hd (by simp [GoPath.Good, h.1])
    show joinAll (GoPath.join2 (GoPath.mk ds) c) cs = _
    rw [hj, ih (ds := ds ++ [c]) (by rw [GoPath.good_append]; exact ⟨hd, by simp [GoPath.Good, h.1]⟩) h.2]
    simp

mutual
theorem tree_good : ∀ n : Node, WF n → ∀ e ∈ tree n, GoPath.Good e.1
  | .file d b, _, e, he => by simp [tree] at he; subst he; exact GoPath.good_nil
  | .dir d kids, h, e, he => by
    simp only [tree, List.mem_cons] at he
    rcases he with rfl | he
    · exact GoPath.good_nil
    · exact treeKids_good kids h.2 e he
theorem treeKids_good : ∀ kids : List (Str × Node), WFKids kids → ∀ e ∈ treeKids kids, GoPath.Good e.1
  | [], _, e, he => by simp [treeKids] at he
  | (name, n) :: rest, h, e, he => by
    simp only [treeKids, List.mem_append, List.mem_map] at he
    rcases he with ⟨x, hx, rfl⟩ | he
    · exact GoPath.good_cons.mpr ⟨h.1, tree_good n h.2.1 x hx⟩
    · exact treeKids_good rest h.2.2 e he
end

theorem mem_treeKids {kids : List (Str × Node)} {e : List Str × Node} :
    e ∈ treeKids kids ↔ ∃ name n x, (name, n) ∈ kids ∧ x ∈ tree n ∧ e = (name :: x.1, x.2) := by
  induction kids with
  | nil => simp [treeKids]
  | cons k rest ih =>
    obtain ⟨name, n⟩ := k
    simp only [treeKids, List.mem_append, List.mem_map, ih, List.mem_cons]
    constructor
    · rintro (⟨x, hx, rfl⟩ | ⟨a, b, x, h1, h2, rfl⟩)
      · exact ⟨name, n, x, Or.inl rfl, hx, rfl⟩
      · exact ⟨a, b, x, Or.inr h1, h2, rfl⟩
    · rintro ⟨a, b, x, h1 | h1, h2, rfl⟩
      · cases h1; exact Or.inl ⟨x, h2, rfl⟩
      · exact Or.inr ⟨a, b, x, h1, h2, rfl⟩

theorem wfKids_mem {kids : List (Str × Node)} (h : WFKids kids) {name : Str} {n : Node} (hm : (name, n) ∈ kids) :
    GoPath.GoodElem name ∧ WF n := by
  induction kids with
  | nil => cases hm
  | cons k rest ih =>
    obtain ⟨a, b⟩ := k
    rcases List.mem_cons.mp hm with hm | hm
    · cases hm; exact ⟨h.1, h.2.1⟩
    · exact ih h.2.2 hm

theorem find_kid {kids : List (Str × Node)} (hn : (kids.map (·.1)).Nodup) {name : Str} {n : Node}
    (hm : (name, n) ∈ kids) : kids.find? (fun e => e.1 == name) = some (name, n) := by
  induction kids with
  | nil => cases hm
  | cons k rest ih =>
    obtain ⟨a, b⟩ := k
    simp only [List.map_cons, List.nodup_cons] at hn
    rcases List.mem_cons.mp hm with hm | hm
    · cases hm; simp
    · have : a ≠ name := by
        rintro rfl
        exact hn.1 (List.mem_map.mpr ⟨_, hm, rfl⟩)
      simp [this, ih hn.2 hm]

/-- The entries of the tree are what `find` finds. -/
theorem mem_tree_iff : ∀ (cs : List Str) (n m : Node), WF n → ((cs, m) ∈ tree n ↔ n.find cs = some m) := by
  intro cs
  induction cs with
  | nil =>
    intro n m h
    cases n with
    | file d b => simp [tree, find, eq_comm]
    | dir d kids =>
      simp only [tree, List.mem_cons, find]
      constructor
      · rintro (h1 | h1)
        · cases h1; rfl
        · obtain ⟨_, _, _, _, _, he⟩ := mem_treeKids.mp h1; cases he
      · intro h1; cases h1; exact Or.inl rfl
  | cons c cs ih =>
    intro n m h
    cases n with
    | file d b => simp [tree, find]
    | dir d kids =>
      simp only [tree, List.mem_cons, find]
      constructor
      · rintro (h1 | h1)
        · cases h1
        · obtain ⟨name, k, x, h2, h3, he⟩ := mem_treeKids.mp h1
          injection he with h4 h5
          injection h4 with h6 h7
          subst h6
          rw [find_kid h.1 h2]
          simp only
          refine (ih k m (wfKids_mem h.2 h2).2).mp ?_
          rw [h7, h5]
          exact h3
      · intro h1
        right
        cases hf : kids.find? (fun e => e.1 == c) with
        | none => rw [hf] at h1; cases h1
        | some e =>
          obtain ⟨a, k⟩ := e
          rw [hf] at h1
          simp only at h1
          have ha : a = c := by have := List.find?_some hf; simpa using this
          have hm := List.mem_of_find?_eq_some hf
          subst ha
          exact mem_treeKids.mpr ⟨a, k, (cs, m), hm, (ih k m (wfKids_mem h.2 hm).2).mpr h1, rfl⟩

mutual
/-- Each entry occurs once. -/
theorem tree_nodup : ∀ n : Node, WF n → ((tree n).map (·.1)).Nodup
  | .file d b, _ => by simp [tree]
  | .dir d kids, h => by
    simp only [tree, List.map_cons, List.nodup_cons]
    refine ⟨?_, treeKids_nodup kids h.1 h.2⟩
    intro hm
    obtain ⟨e, he, h0⟩ := List.mem_map.mp hm
    obtain ⟨_, _, _, _, _, rfl⟩ := mem_treeKids.mp he
    cases h0
theorem treeKids_nodup : ∀ kids : List (Str × Node), (kids.map (·.1)).Nodup → WFKids kids →
    ((treeKids kids).map (·.1)).Nodup
  | [], _, _ => by simp [treeKids]
  | (name, n) :: rest, hn, h => by
    simp only [List.map_cons, List.nodup_cons] at hn
    simp only [treeKids, List.map_append, List.map_map]
    rw [List.nodup_append]
    refine ⟨?_, treeKids_nodup rest hn.2 h.2.2, ?_⟩
    · have := tree_nodup n h.2.1
      have h2 := List.Pairwise.map (S := (· ≠ ·)) (fun x => name :: x) (fun a b hab hc => hab (by injection hc)) this
      simpa [List.Nodup, List.map_map, Function.comp_def] using h2
    · intro a ha b hb hab
      obtain ⟨x, _, rfl⟩ := List.mem_map.mp ha
      obtain ⟨y, hy, rfl⟩ := List.mem_map.mp hb
      obtain ⟨name', n', z, h1, _, rfl⟩ := mem_treeKids.mp hy
      simp at hab
      exact hn.1 (List.mem_map.mpr ⟨_, h1, hab.1.symm⟩)
end

end Disk
end Verif
