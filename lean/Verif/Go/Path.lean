import Verif.Go.Bytes

/-!
The parts of Go's `path` and `path/filepath` (Unix) that the repository computes with.

`Clean` is given by its documented meaning on path elements (drop empty and `.` elements, let `..`
cancel the element before it, drop leading `..` of a rooted path) instead of the library's
byte-by-byte loop.  On Unix `filepath.Clean/Join/Dir/Base` and `path.Clean/Join/Dir/Base` agree.
-/

namespace Verif
namespace GoPath

open Str

/-- `.` -/
abbrev dotS : Str := [46]
/-- `..` -/
abbrev dotdotS : Str := [46, 46]
/-- `/` -/
abbrev rootS : Str := [47]

/-- `strings.Split(s, "/")`. -/
def splitSlash : Str → List Str
  | [] => [[]]
  | c :: cs =>
    if c = slash then [] :: splitSlash cs
    else match splitSlash cs with
      | [] => [[c]]
      | w :: ws => (c :: w) :: ws

/-- `strings.Join(cs, "/")`. -/
def joinSlash : List Str → Str
  | [] => []
  | [w] => w
  | w :: ws => w ++ slash :: joinSlash ws

/-- The rooted path with the given elements. -/
def mk (cs : List Str) : Str := slash :: joinSlash cs

/-- The elements of a path that `Clean` looks at: empty and `.` elements are dropped. -/
def elems (s : Str) : List Str := (splitSlash s).filter fun w => !(w == [] || w == dotS)

/-- One element of `Clean` for a rooted path; the stack holds the result elements in reverse. -/
def stepRooted (st : List Str) (w : Str) : List Str :=
  if w = dotdotS then st.tail else w :: st

/-- One element of `Clean` for a relative path. -/
def stepRel (st : List Str) (w : Str) : List Str :=
  if w = dotdotS then
    match st with
    | [] => [dotdotS]
    | t :: ts => if t = dotdotS then dotdotS :: t :: ts else ts
  else w :: st

/-- Is the path rooted? -/
def rooted (s : Str) : Bool := s.head? == some slash

/-- The elements of `Clean(s)` for a rooted `s`. -/
def rootedElems (s : Str) : List Str := ((elems s).foldl stepRooted []).reverse

/-- `path.Clean` / `filepath.Clean`. -/
def clean (s : Str) : Str :=
  if rooted s then mk (rootedElems s)
  else
    match ((elems s).foldl stepRel []).reverse with
    | [] => dotS
    | cs => joinSlash cs

/-- `path.Join(a, b)` / `filepath.Join(a, b)`: empty arguments are ignored. -/
def join2 (a b : Str) : Str :=
  if a = [] then (if b = [] then [] else clean b)
  else if b = [] then clean a
  else clean (a ++ slash :: b)

/-- The part after the last slash. -/
def lastElem (s : Str) : Str := (s.reverse.takeWhile (· != slash)).reverse

/-- `path.Split(s)`: everything up to and including the last slash, and the rest. -/
def split (s : Str) : Str × Str := (s.take (s.length - (lastElem s).length), lastElem s)

/-- `filepath.Dir(s)`. -/
def dir (s : Str) : Str := clean (split s).1

/-- `filepath.Base(s)`. -/
def base (s : Str) : Str :=
  if s = [] then dotS
  else
    match (s.reverse.dropWhile (· == slash)).reverse with
    | [] => rootS
    | t => lastElem t

/-- A path element that `Clean` keeps as it is. -/
def GoodElem (w : Str) : Prop := w ≠ [] ∧ slash ∉ w ∧ w ≠ dotS ∧ w ≠ dotdotS

instance (w : Str) : Decidable (GoodElem w) := by unfold GoodElem; infer_instance

/-- All elements good. -/
def Good (cs : List Str) : Prop := ∀ w ∈ cs, GoodElem w

instance (cs : List Str) : Decidable (Good cs) := by unfold Good; infer_instance

theorem good_nil : Good [] := by simp [Good]

theorem good_cons {w : Str} {cs : List Str} : Good (w :: cs) ↔ GoodElem w ∧ Good cs := by
  simp [Good]

theorem good_append {a b : List Str} : Good (a ++ b) ↔ Good a ∧ Good b := by
  constructor
  · intro h
    exact ⟨fun w hw => h w (List.mem_append_left _ hw), fun w hw => h w (List.mem_append_right _ hw)⟩
  · rintro ⟨h1, h2⟩ w hw
    rcases List.mem_append.mp hw with h | h
    · exact h1 w h
    · exact h2 w h

theorem splitSlash_ne_nil (s : Str) : splitSlash s ≠ [] := by
  cases s with
  | nil => simp [splitSlash]
  | cons c cs =>
    simp only [splitSlash]
    split
    · simp
    · split <;> simp

theorem splitSlash_of_noSlash {w : Str} (h : slash ∉ w) : splitSlash w = [w] := by
  induction w with
  | nil => rfl
  | cons c cs ih =>
    simp only [List.mem_cons, not_or] at h
    simp only [splitSlash]
    rw [if_neg (fun e => h.1 e.symm), ih h.2]

theorem splitSlash_slash (s : Str) : splitSlash (slash :: s) = [] :: splitSlash s := by
  simp [splitSlash]

theorem splitSlash_append_slash (a b : Str) :
    splitSlash (a ++ slash :: b) = splitSlash a ++ splitSlash b := by
  induction a with
  | nil => simp [splitSlash]
  | cons c cs ih =>
    simp only [List.cons_append, splitSlash]
    split
    · rw [ih]; rfl
    · rw [ih]
      cases h : splitSlash cs with
      | nil => exact absurd h (splitSlash_ne_nil cs)
      | cons w ws => rfl

theorem splitSlash_noSlash (s : Str) : ∀ w ∈ splitSlash s, slash ∉ w := by
  induction s with
  | nil => simp [splitSlash]
  | cons c cs ih =>
    intro w hw
    simp only [splitSlash] at hw
    split at hw
    · rcases List.mem_cons.mp hw with rfl | hw
      · simp
      · exact ih w hw
    · rename_i hc
      split at hw
      · rename_i h; exact absurd h (splitSlash_ne_nil cs)
      · rename_i v vs hv
        rcases List.mem_cons.mp hw with rfl | hw
        · have := ih v (by rw [hv]; simp)
          simp only [List.mem_cons, not_or]
          exact ⟨fun e => hc e.symm, this⟩
        · exact ih w (by rw [hv]; simp [hw])

theorem joinSlash_splitSlash (s : Str) : joinSlash (splitSlash s) = s := by
  induction s with
  | nil => rfl
  | cons c cs ih =>
    simp only [splitSlash]
    split
    · rename_i hc
      cases h : splitSlash cs with
      | nil => exact absurd h (splitSlash_ne_nil cs)
      | cons w ws => rw [h] at ih; simp [joinSlash, ih, hc]
    · cases h : splitSlash cs with
      | nil => exact absurd h (splitSlash_ne_nil cs)
      | cons w ws =>
        rw [h] at ih
        cases ws with
        | nil => simp only [joinSlash] at ih ⊢; rw [ih]
        | cons v vs => simp only [joinSlash, List.cons_append] at ih ⊢; rw [ih]

theorem splitSlash_joinSlash {cs : List Str} (hne : cs ≠ []) (h : ∀ w ∈ cs, slash ∉ w) :
    splitSlash (joinSlash cs) = cs := by
  induction cs with
  | nil => exact absurd rfl hne
  | cons w ws ih =>
    cases ws with
    | nil => exact splitSlash_of_noSlash (h w (by simp))
    | cons v vs =>
      simp only [joinSlash]
      rw [splitSlash_append_slash, splitSlash_of_noSlash (h w (by simp))]
      have := ih (by simp) (fun x hx => h x (List.mem_cons_of_mem _ hx))
      rw [this]; rfl

theorem joinSlash_append {a b : List Str} (ha : a ≠ []) (hb : b ≠ []) :
    joinSlash (a ++ b) = joinSlash a ++ slash :: joinSlash b := by
  induction a with
  | nil => exact absurd rfl ha
  | cons w ws ih =>
    cases ws with
    | nil =>
      cases b with
      | nil => exact absurd rfl hb
      | cons v vs => simp [joinSlash]
    | cons v vs =>
      have := ih (by simp)
      simp only [List.cons_append, joinSlash, List.append_assoc] at this ⊢
      rw [this]

theorem elems_append_slash (a b : Str) : elems (a ++ slash :: b) = elems a ++ elems b := by
  simp [elems, splitSlash_append_slash]

theorem elems_slash (s : Str) : elems (slash :: s) = elems s := by
  simp [elems, splitSlash_slash]

@[simp] theorem elems_nil : elems [] = [] := rfl

theorem elems_filter_good {cs : List Str} (h : Good cs) :
    (cs.filter fun w => !(w == [] || w == dotS)) = cs := by
  rw [List.filter_eq_self]
  intro w hw
  have := h w hw
  simp [this.1, this.2.2.1]

theorem elems_joinSlash {cs : List Str} (h : Good cs) : elems (joinSlash cs) = cs := by
  cases cs with
  | nil => rfl
  | cons w ws =>
    unfold elems
    rw [splitSlash_joinSlash (by simp) (fun x hx => (h x hx).2.1)]
    exact elems_filter_good h

@[simp] theorem elems_mk {cs : List Str} (h : Good cs) : elems (mk cs) = cs := by
  rw [mk, elems_slash, elems_joinSlash h]

theorem mem_elems {s w : Str} (h : w ∈ elems s) : w ≠ [] ∧ slash ∉ w ∧ w ≠ dotS := by
  unfold elems at h
  rw [List.mem_filter] at h
  refine ⟨?_, splitSlash_noSlash s w h.1, ?_⟩
  · intro e; rw [e] at h; simp at h
  · intro e; rw [e] at h; simp at h

@[simp] theorem rooted_mk (cs : List Str) : rooted (mk cs) = true := by simp [rooted, mk]

@[simp] theorem rooted_cons_slash (s : Str) : rooted (slash :: s) = true := by simp [rooted]

theorem rooted_iff (s : Str) : rooted s = true ↔ ∃ t, s = slash :: t := by
  cases s with
  | nil => simp [rooted]
  | cons c cs => simp [rooted]

theorem foldl_stepRooted_good {cs : List Str} (h : Good cs) (st : List Str) :
    cs.foldl stepRooted st = cs.reverse ++ st := by
  induction cs generalizing st with
  | nil => rfl
  | cons w ws ih =>
    rw [good_cons] at h
    simp only [List.foldl_cons, List.reverse_cons, List.append_assoc]
    rw [ih h.2]
    simp [stepRooted, h.1.2.2.2]

theorem foldl_stepRooted_isGood {l : List Str} (hl : ∀ w ∈ l, w ≠ [] ∧ slash ∉ w ∧ w ≠ dotS)
    (st : List Str) (hst : Good st) : Good (l.foldl stepRooted st) := by
  induction l generalizing st with
  | nil => exact hst
  | cons w ws ih =>
    simp only [List.foldl_cons]
    apply ih (fun x hx => hl x (List.mem_cons_of_mem _ hx))
    unfold stepRooted
    split
    · intro x hx; exact hst x (List.mem_of_mem_tail hx)
    · rename_i hw
      have := hl w (by simp)
      rw [good_cons]; exact ⟨⟨this.1, this.2.1, this.2.2, hw⟩, hst⟩

theorem good_reverse {cs : List Str} : Good cs.reverse ↔ Good cs := by simp [Good]

theorem good_rootedElems (s : Str) : Good (rootedElems s) := by
  unfold rootedElems
  rw [good_reverse]
  exact foldl_stepRooted_isGood (fun w hw => mem_elems hw) [] good_nil

theorem rootedElems_mk {cs : List Str} (h : Good cs) : rootedElems (mk cs) = cs := by
  unfold rootedElems
  rw [elems_mk h, foldl_stepRooted_good h]
  simp

@[simp] theorem rootedElems_append_slash_nil (s : Str) :
    rootedElems (s ++ [slash]) = rootedElems s := by
  unfold rootedElems
  rw [show s ++ [slash] = s ++ slash :: [] from rfl, elems_append_slash]
  simp

theorem clean_of_rooted {s : Str} (h : rooted s = true) : clean s = mk (rootedElems s) := by
  simp [clean, h]

/-- A clean rooted path is a fixed point of `Clean`. -/
theorem clean_mk {cs : List Str} (h : Good cs) : clean (mk cs) = mk cs := by
  rw [clean_of_rooted (by simp), rootedElems_mk h]

/-- `Clean` of a rooted path: rooted, with good elements only. -/
theorem clean_rooted_form {s : Str} (h : rooted s = true) :
    ∃ cs, Good cs ∧ clean s = mk cs := ⟨_, good_rootedElems s, clean_of_rooted h⟩

theorem joinSlash_ne_nil {cs : List Str} (hne : cs ≠ []) (h : ∀ w ∈ cs, w ≠ []) :
    joinSlash cs ≠ [] := by
  cases cs with
  | nil => exact absurd rfl hne
  | cons w ws =>
    cases ws with
    | nil => simpa [joinSlash] using h w (by simp)
    | cons v vs => simp [joinSlash]

theorem joinSlash_injective {a b : List Str} (ha : Good a) (hb : Good b)
    (h : joinSlash a = joinSlash b) : a = b := by
  rw [← elems_joinSlash ha, ← elems_joinSlash hb, h]

theorem mk_injective {a b : List Str} (ha : Good a) (hb : Good b) (h : mk a = mk b) : a = b := by
  rw [← elems_mk ha, ← elems_mk hb, h]

@[simp] theorem mk_nil : mk [] = rootS := rfl

theorem mk_eq_root {cs : List Str} (h : Good cs) : mk cs = rootS ↔ cs = [] := by
  constructor
  · intro e; exact mk_injective h good_nil e
  · rintro rfl; rfl

theorem mk_snoc (a : List Str) (c : Str) :
    mk (a ++ [c]) = (if a = [] then [slash] else mk a ++ [slash]) ++ c := by
  by_cases ha : a = []
  · subst ha; simp [mk, joinSlash]
  · rw [if_neg ha, mk, joinSlash_append ha (by simp)]
    simp [mk, joinSlash]

theorem mk_append {a b : List Str} (ha : a ≠ []) (hb : b ≠ []) :
    mk (a ++ b) = mk a ++ mk b := by
  simp [mk, joinSlash_append ha hb]

theorem lastElem_append_slash {a c : Str} (hc : slash ∉ c) : lastElem (a ++ slash :: c) = c := by
  unfold lastElem
  have : (a ++ slash :: c).reverse = c.reverse ++ slash :: a.reverse := by simp
  rw [this, List.takeWhile_append_of_pos]
  · simp
  · intro x hx
    have : x ∈ c := by simpa using hx
    simp only [bne_iff_ne, ne_eq]
    intro e; subst e; exact hc this

theorem split_append_slash {a c : Str} (hc : slash ∉ c) :
    split (a ++ slash :: c) = (a ++ [slash], c) := by
  unfold split
  rw [lastElem_append_slash hc]
  congr 1
  have : (a ++ slash :: c).length - c.length = (a ++ [slash]).length := by simp; omega
  rw [this, show a ++ slash :: c = (a ++ [slash]) ++ c by simp, List.take_left]

theorem split_mk_snoc {a : List Str} {c : Str} (hc : GoodElem c) :
    split (mk (a ++ [c])) = (if a = [] then [slash] else mk a ++ [slash], c) := by
  rw [mk_snoc]
  by_cases ha : a = []
  · rw [if_pos ha]
    exact split_append_slash (a := []) hc.2.1
  · rw [if_neg ha]
    have := split_append_slash (a := mk a) hc.2.1
    simpa using this

theorem split_root : split rootS = (rootS, []) := by decide

theorem clean_mk_slash {a : List Str} (ha : Good a) : clean (mk a ++ [slash]) = mk a := by
  have hr : rooted (mk a ++ [slash]) = true := by simp [mk, rooted]
  rw [clean_of_rooted hr, rootedElems_append_slash_nil, rootedElems_mk ha]

theorem dir_mk_snoc {a : List Str} {c : Str} (ha : Good a) (hc : GoodElem c) :
    dir (mk (a ++ [c])) = mk a := by
  unfold dir
  rw [split_mk_snoc hc]
  by_cases h : a = []
  · subst h; show clean [slash] = mk []; decide
  · simp only [h, if_false]
    exact clean_mk_slash ha

theorem dir_root : dir rootS = rootS := by decide

theorem base_mk_snoc {a : List Str} {c : Str} (hc : GoodElem c) : base (mk (a ++ [c])) = c := by
  have hform : ∃ p, mk (a ++ [c]) = p ++ slash :: c := by
    rw [mk_snoc]
    by_cases h : a = []
    · exact ⟨[], by simp [h]⟩
    · exact ⟨mk a, by simp [h]⟩
  obtain ⟨p, hp⟩ := hform
  unfold base
  have hne : mk (a ++ [c]) ≠ [] := by simp [mk]
  rw [if_neg hne, hp]
  obtain ⟨x, xs, hx⟩ : ∃ x xs, c.reverse = x :: xs := by
    cases h : c.reverse with
    | nil => exact absurd (by simpa using h) hc.1
    | cons x xs => exact ⟨x, xs, rfl⟩
  have hxs : x ≠ slash := by
    intro e
    have : x ∈ c := by
      have : x ∈ c.reverse := by rw [hx]; simp
      simpa using this
    rw [e] at this; exact hc.2.1 this
  have hrev : (p ++ slash :: c).reverse = x :: (xs ++ slash :: p.reverse) := by
    simp [hx]
  rw [hrev, List.dropWhile_cons_of_neg (by simpa using hxs), ← hrev, List.reverse_reverse]
  have hlast := lastElem_append_slash (a := p) hc.2.1
  cases hpc : p ++ slash :: c with
  | nil => simp at hpc
  | cons y ys => rw [hpc] at hlast; exact hlast

theorem base_root : base rootS = rootS := by decide

/-- `Join` of two clean rooted paths appends their elements. -/
theorem join2_mk {a b : List Str} (ha : Good a) (hb : Good b) :
    join2 (mk a) (mk b) = mk (a ++ b) := by
  unfold join2
  rw [if_neg (by simp [mk]), if_neg (by simp [mk])]
  have hr : rooted (mk a ++ slash :: mk b) = true := by simp [mk, rooted]
  rw [clean_of_rooted hr]
  congr 1
  unfold rootedElems
  rw [elems_append_slash, elems_mk ha, elems_mk hb, foldl_stepRooted_good (good_append.mpr ⟨ha, hb⟩)]
  simp

/-- `Join` of a clean rooted path and any name is rooted and clean. -/
theorem join2_mk_form {a : List Str} (b : Str) : ∃ cs, Good cs ∧ join2 (mk a) b = mk cs := by
  unfold join2
  rw [if_neg (by simp [mk])]
  split
  · exact clean_rooted_form (by simp)
  · exact clean_rooted_form (by simp [mk, rooted])

/-- Prefix of clean paths on bytes, when the shorter one is followed by a slash, is prefix on
elements. -/
theorem mk_slash_prefix_iff {a b : List Str} (ha : Good a) (hb : Good b) (hane : a ≠ []) :
    (mk a ++ [slash]) <+: mk b ↔ ∃ c, c ≠ [] ∧ b = a ++ c := by
  constructor
  · rintro ⟨t, ht⟩
    have h1 : splitSlash (mk b) = [] :: (if b = [] then [[]] else b) := by
      rw [mk, splitSlash_slash]
      by_cases h : b = []
      · simp [h, joinSlash, splitSlash]
      · rw [if_neg h, splitSlash_joinSlash h (fun x hx => (hb x hx).2.1)]
    have h2 : splitSlash (mk a ++ [slash] ++ t) = ([] :: a) ++ splitSlash t := by
      rw [List.append_assoc, show [slash] ++ t = slash :: t from rfl, splitSlash_append_slash, mk,
        splitSlash_slash, splitSlash_joinSlash hane (fun x hx => (ha x hx).2.1)]
    rw [ht, h1] at h2
    have h3 : (if b = [] then [[]] else b) = a ++ splitSlash t := by
      simpa using h2
    by_cases hbne : b = []
    · rw [if_pos hbne] at h3
      have hl := congrArg List.length h3
      simp only [List.length_cons, List.length_nil, List.length_append] at hl
      have h4 : 0 < (splitSlash t).length := List.length_pos_iff.mpr (splitSlash_ne_nil t)
      have h5 : 0 < a.length := List.length_pos_iff.mpr hane
      omega
    · rw [if_neg hbne] at h3
      exact ⟨splitSlash t, splitSlash_ne_nil t, h3⟩
  · rintro ⟨c, hc, rfl⟩
    refine ⟨joinSlash c, ?_⟩
    rw [mk_append hane hc]
    simp [mk]

end GoPath
end Verif
