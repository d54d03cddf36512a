import Verif.Lemmas.Links

/-! Path resolution: how the two views of a disk fit together, and what remains without symbolic links. -/

namespace Verif
namespace Links

open Disk (Node)
open Mem
open Parser (File Decl)

namespace LNode

theorem find_append : ∀ (cs ds : List Str) (n : LNode), n.find (cs ++ ds) =
    match n.find cs with
    | some m => m.find ds
    | none => none := by
  intro cs
  induction cs with
  | nil => intro ds n; cases n <;> simp [find]
  | cons c cs ih =>
    intro ds n
    cases n with
    | file d b => simp [find]
    | link d t => simp [find]
    | dir d kids =>
      simp only [List.cons_append, find]
      cases kids.find? (fun e => e.1 == c) with
      | none => rfl
      | some e => exact ih ds e.2

theorem lowerKids_find (w : Str) : ∀ kids : List (Str × LNode),
    (lowerKids kids).find? (fun e => e.1 == w) = (kids.find? (fun e => e.1 == w)).map fun e => (e.1, e.2.lower)
  | [] => by simp [lowerKids]
  | (name, n) :: rest => by
    simp only [lowerKids, List.find?_cons]
    cases name == w with
    | true => simp
    | false => simpa using lowerKids_find w rest

theorem lower_find : ∀ (cs : List Str) (n : LNode), n.lower.find cs = (n.find cs).map lower := by
  intro cs
  induction cs with
  | nil => intro n; cases n <;> simp [find, lower, Node.find]
  | cons c cs ih =>
    intro n
    cases n with
    | file d b => simp [find, lower, Node.find]
    | link d t => simp [find, lower, Node.find]
    | dir d kids =>
      simp only [lower, Node.find, find, lowerKids_find]
      cases h : kids.find? (fun e => e.1 == c) with
      | none => simp
      | some e => simp [ih]

theorem upKids_find (w : Str) : ∀ kids : List (Str × Node),
    (upKids kids).find? (fun e => e.1 == w) = (kids.find? (fun e => e.1 == w)).map fun e => (e.1, up e.2)
  | [] => by simp [upKids]
  | (name, n) :: rest => by
    simp only [upKids, List.find?_cons]
    cases name == w with
    | true => simp
    | false => simpa using upKids_find w rest

theorem up_find : ∀ (cs : List Str) (n : Node), (up n).find cs = (n.find cs).map up := by
  intro cs
  induction cs with
  | nil => intro n; cases n <;> simp [find, up, Node.find]
  | cons c cs ih =>
    intro n
    cases n with
    | file d b => simp [find, up, Node.find]
    | dir d kids =>
      simp only [up, Node.find, find, upKids_find]
      cases h : kids.find? (fun e => e.1 == c) with
      | none => simp
      | some e => simp [ih]

mutual
theorem lower_up : ∀ n : Node, (up n).lower = n
  | .file d b => by simp [up, lower]
  | .dir d kids => by simp [up, lower, lowerKids_upKids kids]
theorem lowerKids_upKids : ∀ kids : List (Str × Node), lowerKids (upKids kids) = kids
  | [] => by simp [upKids, lowerKids]
  | (name, n) :: rest => by simp [upKids, lowerKids, lower_up n, lowerKids_upKids rest]
end

theorem lower_dir {n : LNode} (h : n.lower.isDir = true) : ∃ d kids, n = dir d kids := by
  cases n with
  | file d b => simp [lower, Node.isDir] at h
  | link d t => simp [lower, Node.isDir] at h
  | dir d kids => exact ⟨d, kids, rfl⟩

end LNode

/-! ### The two views -/

/-- What holds of the two views of a disk, for paths without `..`: a directory that is no link is shown alike by both;
and the entries of a directory are what `Lstat` shows of their paths. -/
structure Coherent (O : OS) : Prop where
  dirs : ∀ {ds n}, GoPath.Good ds → O.lstat (GoPath.mk ds) = .ok n → n.isDir = true → O.stat (GoPath.mk ds) = .ok n
  below : ∀ {ds cs n m}, GoPath.Good (ds ++ cs) → O.lstat (GoPath.mk ds) = .ok n → n.find cs = some m →
    O.lstat (GoPath.mk (ds ++ cs)) = .ok m

theorem dotdot_ne {w : Str} (h : GoPath.GoodElem w) : w ≠ b! ".." := h.2.2.2

/-- From a directory along entries that exist, no link is met before the end. -/
theorem steps_plain {root : LNode} {follow : List Str → List Str → Except Err (List Str)} : ∀ (cs cur : List Str) (n m : LNode),
    GoPath.Good cs → root.find cur = some n → n.find cs = some m → steps root false follow cur cs = .ok (cur ++ cs) := by
  intro cs
  induction cs with
  | nil => intro cur n m _ _ _; simp [steps]
  | cons c cs ih =>
    intro cur n m hg hn hm
    rw [GoPath.good_cons] at hg
    have hfull : n.find [c] ≠ none := by
      intro h
      have := LNode.find_append [c] cs n
      rw [h] at this
      simp only [List.cons_append, List.nil_append] at this
      rw [hm] at this
      cases this
    obtain ⟨k, hk⟩ := Option.ne_none_iff_exists'.mp hfull
    have h1 : root.find (cur ++ [c]) = some k := by rw [LNode.find_append, hn]; exact hk
    have h2 : k.find cs = some m := by
      have := LNode.find_append [c] cs n
      rw [hk] at this
      simp only [List.cons_append, List.nil_append] at this
      rw [hm] at this
      exact this.symm
    rw [steps, if_neg (dotdot_ne hg.1), h1]
    cases k with
    | dir d kids =>
      simp only
      rw [ih (cur ++ [c]) _ m hg.2 h1 h2]
      simp
    | file d b =>
      cases cs with
      | nil => simp
      | cons x y => simp [LNode.find] at h2
    | link d t =>
      cases cs with
      | nil => simp
      | cons x y => simp [LNode.find] at h2

theorem steps_append {root : LNode} {follow : List Str → List Str → Except Err (List Str)} {cs res : List Str}
    {d : Details} {kids : List (Str × LNode)} {m : LNode} (hg : GoPath.Good cs) (hne : cs ≠ [])
    (hd : root.find res = some (.dir d kids)) (hm : (LNode.dir d kids).find cs = some m)
    (hfol : ∀ cur ws, follow cur ws = .ok res → follow cur (ws ++ cs) = .ok (res ++ cs)) :
    ∀ (ws cur : List Str), steps root false follow cur ws = .ok res →
      steps root false follow cur (ws ++ cs) = .ok (res ++ cs) := by
  intro ws
  induction ws with
  | nil =>
    intro cur h
    simp only [steps, Except.ok.injEq] at h
    subst h
    exact steps_plain cs cur _ m hg hd hm
  | cons w ws ih =>
    intro cur h
    simp only [List.cons_append]
    rw [steps] at h ⊢
    by_cases hw : w = b! ".."
    · rw [if_pos hw] at h ⊢
      exact ih _ h
    · rw [if_neg hw] at h ⊢
      cases hk : root.find (cur ++ [w]) with
      | none => rw [hk] at h; cases h
      | some k =>
        rw [hk] at h
        cases k with
        | dir d' kids' => exact ih _ h
        | file d' b =>
          simp only at h
          by_cases hws : ws = []
          · rw [if_pos hws] at h
            injection h with h
            rw [h, hd] at hk
            cases hk
          · rw [if_neg hws] at h; cases h
        | link d' t =>
          simp only at h ⊢
          by_cases hws : ws = []
          · rw [if_pos ⟨hws, trivial⟩] at h
            injection h with h
            rw [h, hd] at hk
            cases hk
          · have h1 : ¬ (ws = [] ∧ True) := fun h => hws h.1
            have h2 : ¬ (ws ++ cs = [] ∧ True) := by simp [hne]
            rw [if_neg h1] at h
            rw [if_neg h2]
            by_cases ht : t = []
            · rw [if_pos ht] at h; cases h
            · rw [if_neg ht] at h ⊢
              rw [← List.append_assoc]
              exact hfol _ _ h

theorem resolve_append {root : LNode} {cs res : List Str} {d : Details} {kids : List (Str × LNode)} {m : LNode}
    (hg : GoPath.Good cs) (hne : cs ≠ []) (hd : root.find res = some (.dir d kids))
    (hm : (LNode.dir d kids).find cs = some m) : ∀ (k : Nat) (cur ws : List Str), resolve root false k cur ws = .ok res →
      resolve root false k cur (ws ++ cs) = .ok (res ++ cs) := by
  intro k
  induction k with
  | zero => intro cur ws h; exact steps_append hg hne hd hm (by intro _ _ h; cases h) ws cur h
  | succ k ih => intro cur ws h; exact steps_append hg hne hd hm ih ws cur h

theorem steps_last {root : LNode} {fol fol' : List Str → List Str → Except Err (List Str)} {res : List Str}
    {d : Details} {kids : List (Str × LNode)} (hd : root.find res = some (.dir d kids))
    (hfol : ∀ cur ws, fol cur ws = .ok res → fol' cur ws = .ok res) :
    ∀ (ws cur : List Str), steps root false fol cur ws = .ok res → steps root true fol' cur ws = .ok res := by
  intro ws
  induction ws with
  | nil => intro cur h; simpa [steps] using h
  | cons w ws ih =>
    intro cur h
    rw [steps] at h ⊢
    by_cases hw : w = b! ".."
    · rw [if_pos hw] at h ⊢
      exact ih _ h
    · rw [if_neg hw] at h ⊢
      cases hk : root.find (cur ++ [w]) with
      | none => rw [hk] at h; cases h
      | some k =>
        rw [hk] at h
        cases k with
        | dir d' kids' => exact ih _ h
        | file d' b => exact h
        | link d' t =>
          simp only at h ⊢
          by_cases hws : ws = []
          · rw [if_pos ⟨hws, trivial⟩] at h
            injection h with h
            rw [h, hd] at hk
            cases hk
          · have h1 : ¬ (ws = [] ∧ True) := fun h => hws h.1
            rw [if_neg h1] at h
            rw [if_neg (by simp)]
            by_cases ht : t = []
            · rw [if_pos ht] at h; cases h
            · rw [if_neg ht] at h ⊢
              exact hfol _ _ h

theorem resolve_last {root : LNode} {res : List Str} {d : Details} {kids : List (Str × LNode)}
    (hd : root.find res = some (.dir d kids)) : ∀ (k : Nat) (cur ws : List Str), resolve root false k cur ws = .ok res →
      resolve root true k cur ws = .ok res := by
  intro k
  induction k with
  | zero => intro cur ws h; exact steps_last hd (by intro _ _ h; cases h) ws cur h
  | succ k ih => intro cur ws h; exact steps_last hd ih ws cur h

theorem lstat_ok {root : LNode} {k : Nat} {p : Str} {n : Node} (h : (os root k).lstat p = .ok n) :
    ∃ res x, resolve root false k [] (GoPath.elems p) = .ok res ∧ root.find res = some x ∧ n = x.lower := by
  simp only [os] at h
  cases hr : resolve root false k [] (GoPath.elems p) with
  | error e => rw [hr] at h; cases h
  | ok res =>
    rw [hr] at h
    simp only at h
    cases hf : root.find res with
    | none => rw [hf] at h; cases h
    | some x =>
      rw [hf] at h
      injection h with h
      exact ⟨res, x, rfl, hf, h.symm⟩

/-- A tree with links is shown coherently. -/
theorem os_coherent (root : LNode) (k : Nat) : Coherent (os root k) where
  dirs := by
    intro ds n _ h hd
    obtain ⟨res, x, h1, h2, rfl⟩ := lstat_ok h
    obtain ⟨d, kids, rfl⟩ := LNode.lower_dir hd
    simp only [os, resolve_last h2 k _ _ h1, h2, h1, if_true]
  below := by
    intro ds cs n m hg h hm
    obtain ⟨res, x, h1, h2, rfl⟩ := lstat_ok h
    rw [GoPath.elems_mk (GoPath.good_append.mp hg).1] at h1
    rw [LNode.lower_find] at hm
    cases hx : x.find cs with
    | none => rw [hx] at hm; cases hm
    | some y =>
      rw [hx] at hm
      simp only [Option.map_some, Option.some.injEq] at hm
      subst hm
      cases cs with
      | nil =>
        have hy : x = y := by cases x <;> simpa [LNode.find] using hx
        subst hy
        rw [List.append_nil]
        exact h
      | cons c cs =>
        have hdir : ∃ d kids, x = .dir d kids := by
          cases x with
          | file d b => simp [LNode.find] at hx
          | link d b => simp [LNode.find] at hx
          | dir d kids => exact ⟨d, kids, rfl⟩
        obtain ⟨d, kids, rfl⟩ := hdir
        have h3 := resolve_append (GoPath.good_append.mp hg).2 (by simp) h2 hx k [] ds h1
        simp only [os, GoPath.elems_mk hg, h3, LNode.find_append, h2, hx]

/-! ### Without links -/

/-- On a tree without links the path elements are followed one by one. -/
theorem steps_up {disk : Node} {last : Bool} {follow : List Str → List Str → Except Err (List Str)} :
    ∀ (cs cur : List Str) (n : Node), GoPath.Good cs → disk.find cur = some n →
      steps (LNode.up disk) last follow cur cs = (match n.find cs with | some _ => .ok (cur ++ cs) | none => .error .notExist) := by
  intro cs
  induction cs with
  | nil => intro cur n _ _; cases n <;> simp [steps, Node.find]
  | cons c cs ih =>
    intro cur n hg hn
    rw [GoPath.good_cons] at hg
    have h1 : (LNode.up disk).find (cur ++ [c]) = (n.find [c]).map LNode.up := by
      rw [LNode.up_find, Disk.find_append, hn]
    have h2 : n.find (c :: cs) = match n.find [c] with | some k => k.find cs | none => none := Disk.find_append [c] cs n
    rw [steps, if_neg (dotdot_ne hg.1), h1, h2]
    cases hk : n.find [c] with
    | none => rfl
    | some k =>
      cases k with
      | file d b =>
        simp only [Option.map_some, LNode.up]
        cases cs with
        | nil => simp [Node.find]
        | cons x y => simp [Node.find]
      | dir d kids =>
        simp only [Option.map_some, LNode.up]
        rw [ih (cur ++ [c]) (.dir d kids) hg.2 (by rw [Disk.find_append, hn]; exact hk)]
        simp

theorem resolve_up {disk : Node} {last : Bool} {k : Nat} {cs : List Str} (hg : GoPath.Good cs) :
    resolve (LNode.up disk) last k [] cs = (match disk.find cs with | some _ => .ok cs | none => .error .notExist) := by
  have h : disk.find [] = some disk := by cases disk <;> rfl
  cases k with
  | zero => exact steps_up cs [] disk hg h
  | succ k => exact steps_up cs [] disk hg h

/-- The node of a tree without links, or that it does not exist. -/
def found : Option Node → Except Err Node
  | some n => .ok n
  | none => .error .notExist

theorem os_up {disk : Node} {k : Nat} {cs : List Str} (hg : GoPath.Good cs) :
    (os (LNode.up disk) k).lstat (GoPath.mk cs) = found (Parser.osStat disk (GoPath.mk cs)) ∧
    (os (LNode.up disk) k).stat (GoPath.mk cs) = found (Parser.osStat disk (GoPath.mk cs)) := by
  simp only [os, Parser.osStat, GoPath.elems_mk hg, resolve_up hg]
  cases h : disk.find cs with
  | none => exact ⟨rfl, rfl⟩
  | some n => simp [LNode.up_find, h, LNode.lower_up, found]

mutual
theorem mark_id {O : OS} : ∀ (path : Str) (n : Node), (∀ e ∈ Disk.visits (fun _ => false) path n, O.stat e.1 = .ok e.2) →
    mark O path n = n
  | path, .file d b, h => by
    have := h (path, .file d b) (by simp [Disk.visits])
    simp only at this
    simp [mark, bytesAt, this, Node.data]
  | path, .dir d kids, h => by
    simp only [mark]
    rw [markKids_id path kids (fun e he => h e (by simp [Disk.visits, he]))]
theorem markKids_id {O : OS} : ∀ (path : Str) (kids : List (Str × Node)),
    (∀ e ∈ Disk.visitsKids (fun _ => false) path kids, O.stat e.1 = .ok e.2) → markKids O path kids = kids
  | path, [], _ => by simp [markKids]
  | path, (name, n) :: rest, h => by
    simp only [markKids]
    rw [mark_id (GoPath.join2 path name) n (fun e he => h e (by simp [Disk.visitsKids, he])),
      markKids_id path rest (fun e he => h e (by simp [Disk.visitsKids, he]))]
end

theorem wf_good : ∀ (cs : List Str) {n m : Node}, n.WF → n.find cs = some m → GoPath.Good cs := by
  intro cs
  induction cs with
  | nil => intro n m _ _; exact GoPath.good_nil
  | cons c cs ih =>
    intro n m hw hf
    cases n with
    | file d b => simp [Node.find] at hf
    | dir d kids =>
      simp only [Node.find] at hf
      cases hk : kids.find? (fun e => e.1 == c) with
      | none => rw [hk] at hf; cases hf
      | some e =>
        obtain ⟨a, k⟩ := e
        rw [hk] at hf
        have ha : a = c := by have := List.find?_some hk; simpa using this
        have hmem := List.mem_of_find?_eq_some hk
        have hkw : ∀ (l : List (Str × Node)), Node.WFKids l → ∀ e ∈ l, GoPath.GoodElem e.1 ∧ e.2.WF := by
          intro l
          induction l with
          | nil => intro _ e he; cases he
          | cons x l ih =>
            obtain ⟨y, z⟩ := x
            intro h e he
            rcases List.mem_cons.mp he with rfl | he
            · exact ⟨h.1, h.2.1⟩
            · exact ih h.2.2 e he
        obtain ⟨h1, h2⟩ := hkw kids hw.2 _ hmem
        rw [GoPath.good_cons]
        exact ⟨by rw [← ha]; exact h1, ih h2 hf⟩

/-- Without links everything is shown as it is. -/
theorem shown_up {disk : Node} (hw : disk.WF) {k : Nat} {es : List Str} (hg : GoPath.Good es) {n : Node}
    (h : Parser.osStat disk (GoPath.mk es) = some n) : Shown (os (LNode.up disk) k) (GoPath.mk es) n := by
  have hfind : disk.find es = some n := by rw [← GoPath.elems_mk hg]; exact h
  have hnw : n.WF := Disk.find_wf es hw hfind
  have hst : (os (LNode.up disk) k).stat (GoPath.mk es) = .ok n := by rw [(os_up hg).2, h]; rfl
  cases hd : n.isDir with
  | false => exact .file hst hd
  | true =>
    have hv : ∀ e ∈ Disk.visits (fun _ => false) (GoPath.mk es) n, (os (LNode.up disk) k).stat e.1 = .ok e.2 := by
      rw [Disk.visits_tree]
      intro e he
      obtain ⟨⟨cs, m⟩, h1, rfl⟩ := List.mem_map.mp he
      have h2 := (Disk.mem_tree_iff cs n m hnw).mp h1
      have hgc := wf_good cs hnw h2
      have hgg := GoPath.good_append.mpr ⟨hg, hgc⟩
      simp only
      rw [Disk.joinAll_mk hg hgc, (os_up hgg).2]
      simp only [Parser.osStat, GoPath.elems_mk hgg, Disk.find_append, hfind, h2]
      rfl
    have := Shown.dir (n := n) hst hd (by rw [(os_up hg).1, h]; rfl) hd (fun e he => ⟨e.2, hv e he, id⟩)
    rwa [mark_id _ _ hv] at this

theorem stuffLoop_up {E : Env} {disk : Node} (hw : disk.WF) {k : Nat} : ∀ {fs : List File},
    (∀ f ∈ fs, ∃ es, GoPath.Good es ∧ f.abs = GoPath.mk es) → ∀ w,
    stuffLoop E (os (LNode.up disk) k) fs w = Pack.stuffLoop E disk fs w := by
  intro fs
  induction fs with
  | nil => intro _ w; rfl
  | cons f fs ih =>
    intro h w
    have ih := ih fun g hg => h g (by simp [hg])
    simp only [stuffLoop, Pack.stuffLoop]
    split
    · exact ih w
    · obtain ⟨es, hg, he⟩ := h f (by simp)
      cases hn : Parser.osStat disk f.abs with
      | none =>
        have : (os (LNode.up disk) k).stat f.abs = .error .notExist := by rw [he, (os_up hg).2, ← he, hn]; rfl
        simp only [this]
      | some n =>
        obtain ⟨t, h1, h2⟩ := addOne_shown (E := E) (shown_up hw (k := k) hg (by rw [← he]; exact hn)) w
        rw [← he] at h1 h2
        have h3 : (Mem.add E w [⟨f.abs, n⟩]) = Mem.addOne E w ⟨f.abs, n⟩ := by
          simp only [Mem.add]
          generalize Mem.addOne E w ⟨f.abs, n⟩ = m
          obtain ⟨w1, r⟩ := m
          cases r with
          | ok u => rfl
          | err e => rfl
          | panic => rfl
        simp only [h1, h2, h3]
        generalize Mem.addOne E w ⟨f.abs, n⟩ = m
        obtain ⟨w1, r⟩ := m
        cases r with
        | ok u => exact ih w1
        | err e => rfl
        | panic => rfl

/-- The names the declarations refer to are rooted and clean, as `here` makes them. -/
def Rooted (d : Decl) : Prop :=
  (∃ es, GoPath.Good es ∧ d.file.abs = GoPath.mk es) ∧ ∃ es, GoPath.Good es ∧ d.file.here.module.dir = GoPath.mk es

theorem walkFiles_up {E : Env} {disk : Node} {k : Nat} {virt : Str → Bool} {d : Decl} (h : Rooted d) :
    walkFiles E (os (LNode.up disk) k) virt d = Parser.walkFiles E disk virt d := by
  obtain ⟨_, es, _, h2⟩ := h
  obtain ⟨cs, hg, hj⟩ := GoPath.join2_mk_form (a := es) d.file.path.name
  unfold walkFiles Parser.walkFiles
  simp only [h2, hj, (os_up hg).1]
  cases Parser.osStat disk (GoPath.mk cs) <;> rfl

theorem openFiles_up {E : Env} {disk : Node} {k : Nat} {virt : Str → Bool} {d : Decl} (h : Rooted d) :
    openFiles E (os (LNode.up disk) k) virt d = Parser.openFiles E disk virt d := by
  have hw := walkFiles_up (E := E) (disk := disk) (k := k) (virt := virt) h
  obtain ⟨_, es, _, h2⟩ := h
  obtain ⟨cs, hg, hj⟩ := GoPath.join2_mk_form (a := es) d.file.path.name
  unfold openFiles Parser.openFiles
  simp only [hw, h2, hj, (os_up hg).2]
  cases Parser.osStat disk (GoPath.mk cs) <;> rfl

theorem filer_up {E : Env} {disk : Node} {k : Nat} {d : Decl} (h : Rooted d) :
    filer E (os (LNode.up disk) k) d = Parser.filer E disk d := by
  unfold filer Parser.filer
  have h1 : (fun virt => walkFiles E (os (LNode.up disk) k) virt d) = fun virt => Parser.walkFiles E disk virt d :=
    funext fun _ => walkFiles_up h
  have h2 : (fun virt => openFiles E (os (LNode.up disk) k) virt d) = fun virt => Parser.openFiles E disk virt d :=
    funext fun _ => openFiles_up h
  rw [h1, h2]
  cases d.kind <;> rfl

theorem filesLoop_up {E : Env} {disk : Node} {k : Nat} : ∀ {ds : List Decl}, (∀ d ∈ ds, Rooted d) → ∀ s,
    filesLoop E (os (LNode.up disk) k) ds s = Parser.filesLoop E disk ds s := by
  intro ds
  induction ds with
  | nil => intro _ s; rfl
  | cons d ds ih =>
    intro h s
    have ih := ih fun x hx => h x (by simp [hx])
    simp only [filesLoop, Parser.filesLoop, filer_up (h d (by simp)), ih]
    cases Parser.filer E disk d with
    | none => rfl
    | some fl =>
      simp only
      cases fl fun x => (Parser.virtualPaths d ++ s.v).contains x <;> rfl

/-! ### Listed names -/

mutual
theorem walkNode_inv {S : Type} {cb : Disk.WalkFn S} {P : Str → Prop} {Q : S → Prop}
    (hj : ∀ p name, P p → P (GoPath.join2 p name)) (hc : ∀ p n s, P p → Q s → Q (cb p n s).1) :
    ∀ (path : Str) (n : Node) (s : S), P path → Q s → Q (Disk.walkNode cb path n s).1
  | path, .file d b, s, hp, hs => by
    simp only [Disk.walkNode]
    exact hc _ _ _ hp hs
  | path, .dir d kids, s, hp, hs => by
    simp only [Disk.walkNode]
    have h := hc path (.dir d kids) s hp hs
    generalize cb path (.dir d kids) s = m at h
    obtain ⟨s1, r⟩ := m
    cases r with
    | some e => exact h
    | none => exact walkKids_inv hj hc path kids s1 hp h
theorem walkKids_inv {S : Type} {cb : Disk.WalkFn S} {P : Str → Prop} {Q : S → Prop}
    (hj : ∀ p name, P p → P (GoPath.join2 p name)) (hc : ∀ p n s, P p → Q s → Q (cb p n s).1) :
    ∀ (path : Str) (kids : List (Str × Node)) (s : S), P path → Q s → Q (Disk.walkKids cb path kids s).1
  | path, [], s, _, hs => by simpa [Disk.walkKids] using hs
  | path, (name, n) :: rest, s, hp, hs => by
    simp only [Disk.walkKids]
    have h := walkNode_inv hj hc (GoPath.join2 path name) n s (hj _ _ hp) hs
    generalize Disk.walkNode cb (GoPath.join2 path name) n s = m at h
    obtain ⟨s1, r⟩ := m
    cases r with
    | none => exact walkKids_inv hj hc path rest s1 hp h
    | some e =>
      simp only
      split
      · exact walkKids_inv hj hc path rest s1 hp h
      · exact h
end

theorem walk_inv {S : Type} {cb : Disk.WalkFn S} {P : Str → Prop} {Q : S → Prop}
    (hj : ∀ p name, P p → P (GoPath.join2 p name)) (hc : ∀ p n s, P p → Q s → Q (cb p n s).1)
    {path : Str} {n : Node} {s : S} (hp : P path) (hs : Q s) : Q (Disk.walk cb path n s).1 := by
  have h := walkNode_inv hj hc path n s hp hs
  unfold Disk.walk
  generalize Disk.walkNode cb path n s = m at h
  split
  · exact h
  · exact h

/-- A rooted clean name. -/
def Clean (p : Str) : Prop := ∃ es, GoPath.Good es ∧ p = GoPath.mk es

theorem clean_join {p : Str} (name : Str) (h : Clean p) : Clean (GoPath.join2 p name) := by
  obtain ⟨es, _, rfl⟩ := h
  obtain ⟨cs, h1, h2⟩ := GoPath.join2_mk_form (a := es) name
  exact ⟨cs, h1, h2⟩

theorem walkFiles_clean {E : Env} {disk : Node} {virt : Str → Bool} {d : Decl} (h : Rooted d) {fs : List File}
    (hf : Parser.walkFiles E disk virt d = .ok fs) : ∀ f ∈ fs, Clean f.abs := by
  unfold Parser.walkFiles at hf
  simp only at hf
  cases hn : Parser.osStat disk (GoPath.join2 d.file.here.module.dir d.file.path.name) with
  | none => rw [hn] at hf; cases hf
  | some n =>
    rw [hn] at hf
    simp only at hf
    have hw := walk_inv (cb := Parser.walkFn E virt) (P := Clean) (Q := fun s => ∀ f ∈ s.2, Clean f.abs)
      (fun p name hp => clean_join name hp) (by
        intro p n s hp hs
        unfold Parser.walkFn
        simp only
        cases (if n.isDir then E.dirInfo p else Except.ok s.1) with
        | error e => exact hs
        | ok her =>
          simp only
          cases E.parse her (Str.trimPrefix p her.module.dir) with
          | error e => exact hs
          | ok pt =>
            simp only
            split
            · exact hs
            · intro f hf
              rcases List.mem_append.mp hf with hf | hf
              · exact hs f hf
              · simp only [List.mem_singleton] at hf
                subst hf
                exact hp)
      (n := n) (s := (d.file.here, [])) (clean_join d.file.path.name (by obtain ⟨_, es, h1, h2⟩ := h; exact ⟨es, h1, h2⟩))
      (by intro f hf; cases hf)
    generalize Disk.walk (Parser.walkFn E virt) (GoPath.join2 d.file.here.module.dir d.file.path.name) n
      (d.file.here, []) = m at hf hw
    obtain ⟨s, r⟩ := m
    cases r with
    | some e => cases hf
    | none =>
      injection hf with hf
      subst hf
      exact hw

theorem openFiles_clean {E : Env} {disk : Node} {virt : Str → Bool} {d : Decl} (h : Rooted d) {fs : List File}
    (hf : Parser.openFiles E disk virt d = .ok fs) : ∀ f ∈ fs, Clean f.abs := by
  unfold Parser.openFiles at hf
  split at hf
  · injection hf with hf; subst hf; intro f hf; cases hf
  · cases hn : Parser.osStat disk (GoPath.join2 d.file.here.module.dir d.file.path.name) with
    | none => rw [hn] at hf; cases hf
    | some n =>
      rw [hn] at hf
      simp only at hf
      split at hf
      · exact walkFiles_clean h hf
      · injection hf with hf
        subst hf
        intro f hf
        simp only [List.mem_singleton] at hf
        subst hf
        exact h.1

theorem addFiles_clean : ∀ {fs : List File} {s : Parser.FState}, (∀ f ∈ fs, Clean f.abs) →
    (∀ e ∈ s.m, Clean e.2.abs) → ∀ e ∈ (Parser.addFiles s fs).m, Clean e.2.abs := by
  intro fs
  induction fs with
  | nil => intro s _ hs; exact hs
  | cons f fs ih =>
    intro s hf hs
    simp only [Parser.addFiles]
    refine ih (fun g hg => hf g (by simp [hg])) ?_
    intro e he
    simp only [AMap.set] at he
    rcases List.mem_cons.mp he with rfl | he
    · exact hf f (by simp)
    · exact hs e (List.mem_filter.mp he).1

theorem filesLoop_clean {E : Env} {disk : Node} : ∀ {ds : List Decl}, (∀ d ∈ ds, Rooted d) → ∀ {s s' : Parser.FState},
    (∀ e ∈ s.m, Clean e.2.abs) → Parser.filesLoop E disk ds s = .ok s' → ∀ e ∈ s'.m, Clean e.2.abs := by
  intro ds
  induction ds with
  | nil => intro _ s s' hs h; injection h with h; subst h; exact hs
  | cons d ds ih =>
    intro hd s s' hs h
    have ih := fun {s s'} => ih (fun x hx => hd x (by simp [hx])) (s := s) (s' := s')
    have hr := hd d (by simp)
    simp only [Parser.filesLoop] at h
    cases hfl : Parser.filer E disk d with
    | none =>
      rw [hfl] at h
      exact ih (by exact hs) h
    | some fl =>
      rw [hfl] at h
      simp only at h
      have hclean : ∀ virt fs, fl virt = .ok fs → ∀ f ∈ fs, Clean f.abs := by
        intro virt fs hv
        unfold Parser.filer at hfl
        split at hfl
        · cases hfl
        · cases hfl
        · injection hfl with hfl
          subst hfl
          exact walkFiles_clean hr hv
        · injection hfl with hfl
          subst hfl
          exact openFiles_clean hr hv
      generalize hv : fl (fun x => (Parser.virtualPaths d ++ s.v).contains x) = r at h
      cases r with
      | error e => cases h
      | ok fs => exact ih (addFiles_clean (hclean _ fs hv) (by exact hs)) h

end Links
end Verif
