import Verif.Lemmas.Handle
import Verif.Spec.Tree

/-! What `MkdirAll` does on names of the Pkger's own module. -/

namespace Verif

/-- An element of an ordinary name: not empty, `.` or `..`, without the characters `/`, `:`, `\`, and not
ending in white space. -/
def OrdElem (w : Str) : Prop :=
  GoPath.GoodElem w ∧ Str.colon ∉ w ∧ Str.backslash ∉ w ∧ ¬ Str.EndsInSpace w

instance (w : Str) : Decidable (OrdElem w) := by unfold OrdElem; infer_instance

/-- A list of ordinary elements. -/
def Ord (cs : List Str) : Prop := ∀ w ∈ cs, OrdElem w

instance (cs : List Str) : Decidable (Ord cs) := by unfold Ord; infer_instance

/-- An ordinary name: it starts with a slash (it may contain `.`, `..` and repeated slashes), contains
no `:` or `\`, no element ends in white space, and its cleaned form does not start with the package's
own directory. -/
def Ordinary (i : Info) (s : Str) : Prop :=
  GoPath.rooted s = true ∧
  (∀ w ∈ GoPath.splitSlash s, Str.colon ∉ w ∧ Str.backslash ∉ w ∧ ¬ Str.EndsInSpace w) ∧
  Clear i (GoPath.clean s)

instance (i : Info) (s : Str) : Decidable (Ordinary i s) := by unfold Ordinary; infer_instance

theorem Ord.good {cs : List Str} (h : Ord cs) : GoPath.Good cs := fun w hw => (h w hw).1

theorem ord_append {a b : List Str} : Ord (a ++ b) ↔ Ord a ∧ Ord b := by
  constructor
  · intro h
    exact ⟨fun w hw => h w (List.mem_append_left _ hw), fun w hw => h w (List.mem_append_right _ hw)⟩
  · rintro ⟨h1, h2⟩ w hw
    rcases List.mem_append.mp hw with h | h
    · exact h1 w h
    · exact h2 w h

theorem Plain.ord {cs : List Str} (h : Plain cs) : Ord cs :=
  fun w hw => ⟨(h w hw).1, (h w hw).2.1, (h w hw).2.2.1, (h w hw).2.2.2.2⟩

theorem mem_foldl_stepRooted {l st : List Str} {w : Str} (h : w ∈ l.foldl GoPath.stepRooted st) :
    w ∈ l ∨ w ∈ st := by
  induction l generalizing st with
  | nil => exact Or.inr h
  | cons x l ih =>
    rcases ih h with h | h
    · exact Or.inl (List.mem_cons_of_mem _ h)
    · unfold GoPath.stepRooted at h
      split at h
      · exact Or.inr (List.mem_of_mem_tail h)
      · rcases List.mem_cons.mp h with rfl | h
        · exact Or.inl (by simp)
        · exact Or.inr h

theorem mem_rootedElems {s w : Str} (h : w ∈ GoPath.rootedElems s) : w ∈ GoPath.splitSlash s := by
  unfold GoPath.rootedElems at h
  rw [List.mem_reverse] at h
  rcases mem_foldl_stepRooted h with h | h
  · exact (List.mem_filter.mp h).1
  · simp at h

theorem Ordinary.ord {i : Info} {s : Str} (h : Ordinary i s) : Ord (GoPath.rootedElems s) := by
  intro w hw
  have h1 := h.2.1 w (mem_rootedElems hw)
  exact ⟨GoPath.good_rootedElems s w hw, h1.1, h1.2.1, h1.2.2⟩

theorem Ordinary.clean {i : Info} {s : Str} (h : Ordinary i s) :
    GoPath.clean s = GoPath.mk (GoPath.rootedElems s) := GoPath.clean_of_rooted h.1

theorem Ordinary.parse {E : Env} {i : Info} (hl : ParseLaws E i) {s : Str} (h : Ordinary i s) :
    E.parse i s = .ok ⟨i.module.path, GoPath.mk (GoPath.rootedElems s)⟩ := by
  rw [hl.rooted s h.1 h.2.1 h.2.2, h.clean]

theorem not_endsInSpace_nil : ¬ Str.EndsInSpace [] := by decide

theorem splitSlash_mk {cs : List Str} (h : GoPath.Good cs) :
    GoPath.splitSlash (GoPath.mk cs) = if cs = [] then [[], []] else [] :: cs := by
  rw [GoPath.mk, GoPath.splitSlash_slash]
  by_cases hc : cs = []
  · subst hc; rfl
  · rw [if_neg hc, GoPath.splitSlash_joinSlash hc (fun w hw => (h w hw).2.1)]

theorem ordinary_mk {i : Info} {cs : List Str} (h : Ord cs) (hc : Clear i (GoPath.mk cs)) :
    Ordinary i (GoPath.mk cs) := by
  refine ⟨by simp, ?_, by rw [GoPath.clean_mk h.good]; exact hc⟩
  intro w hw
  rw [splitSlash_mk h.good] at hw
  by_cases hn : w = []
  · subst hn; exact ⟨by simp, by simp, not_endsInSpace_nil⟩
  · have : w ∈ cs := by
      split at hw
      · simp [hn] at hw
      · simpa [hn] using hw
    exact (h w this).2

theorem ordinary_mk_slash {i : Info} {cs : List Str} (h : Ord cs) (hc : Clear i (GoPath.mk cs)) :
    Ordinary i (GoPath.mk cs ++ [Str.slash]) := by
  refine ⟨by simp [GoPath.mk, GoPath.rooted], ?_, by rw [GoPath.clean_mk_slash h.good]; exact hc⟩
  intro w hw
  rw [GoPath.splitSlash_append_slash] at hw
  rcases List.mem_append.mp hw with hw | hw
  · exact (ordinary_mk h hc).2.1 w hw
  · have : w = [] := by simpa [GoPath.splitSlash] using hw
    subst this
    exact ⟨by simp, by simp, not_endsInSpace_nil⟩

theorem clear_init {i : Info} {a : List Str} {c : Str} (h : Clear i (GoPath.mk (a ++ [c]))) :
    Clear i (GoPath.mk a) := by
  refine h.mono ?_
  rw [GoPath.mk_snoc]
  split
  · rename_i ha; subst ha; exact List.prefix_append _ _
  · rw [List.append_assoc]; exact List.prefix_append _ _

theorem rootedElems_mk_slash {a : List Str} (ha : GoPath.Good a) :
    GoPath.rootedElems (GoPath.mk a ++ [Str.slash]) = a := by
  rw [GoPath.rootedElems_append_slash_nil, GoPath.rootedElems_mk ha]

namespace Mem

/-- The details `MkdirAll` gives to the directory with elements `as`. -/
def dirDetails (as : List Str) (perm : Nat) (now : Int) : Details :=
  ⟨as.getLast?.getD [], 0, perm, now, true⟩

/-- The directory object `MkdirAll` stores. -/
def dirObj (w : World) (pt : Path) (name : Str) (perm : Nat) : FileObj :=
  { here := w.here, pkging := true, path := pt,
    info := some { isDir := true, name := name, mode := perm, modTime := w.now, size := 0 },
    data := none, parent := Path.zero, writer := none, reader := none }

/-- Store a fresh object under a path. -/
def bind (w : World) (pt : Path) (f : FileObj) : World := store (alloc w f).1 pt (alloc w f).2

theorem lookup_bind {w : World} (hw : WF w) (pt : Path) (f : FileObj) (q : Path) :
    lookup (bind w pt f) q = if q = pt then some f else lookup w q := by
  unfold lookup bind
  simp only [store, alloc, AMap.get_set]
  by_cases h : q = pt
  · simp [h]
  · simp only [h, if_false]
    cases hg : AMap.get w.files q with
    | none => rfl
    | some j =>
      have := (hw.bound q j hg).1
      simp only [Option.map_some]
      rw [upd_ne _ _ (by omega)]

/-- `MkdirAll` when nothing has to be made above. -/
theorem mkdirAllF_top {E : Env} {w : World} {s : Str} {pt : Path} {name : Str} {perm k : Nat}
    (hp : E.parse w.here s = .ok pt) (hs : GoPath.split pt.name = (GoPath.rootS, name)) :
    mkdirAllF E (k + 1) w s perm = (bind w pt (dirObj w pt name perm), .ok ()) := by
  unfold mkdirAllF parse
  rw [hp]
  simp only [hs, ne_eq, not_true, if_false, closeObj]
  rfl

/-- `MkdirAll` when the directory above is made first. -/
theorem mkdirAllF_up {E : Env} {w w1 : World} {s dir : Str} {pt : Path} {name : Str} {perm k : Nat}
    (hp : E.parse w.here s = .ok pt) (hs : GoPath.split pt.name = (dir, name)) (hd : dir ≠ GoPath.rootS)
    (hr : mkdirAllF E k w dir perm = (w1, .ok ())) :
    mkdirAllF E (k + 1) w s perm = (bind w1 pt (dirObj w1 pt name perm), .ok ()) := by
  unfold mkdirAllF parse
  rw [hp]
  simp only [hs, hd, ne_eq, not_false_eq_true, if_true, hr, closeObj]
  rfl

/-- `MkdirAll` on a name that parses to the elements `cs` of the own module. -/
theorem mkdirAllF_spec {E : Env} {i : Info} (hl : ParseLaws E i) (perm : Nat) :
    ∀ (n : Nat) (cs : List Str) (s : Str) (fuel : Nat) (w : World), cs.length = n → cs.length < fuel →
      w.here = i → WF w → Ord cs → Clear i (GoPath.mk cs) →
      E.parse i s = .ok ⟨i.module.path, GoPath.mk cs⟩ →
      (mkdirAllF E fuel w s perm).2 = .ok () ∧
      (∀ as, as <+: cs → (as ≠ [] ∨ cs = []) →
        ∃ f, lookup (mkdirAllF E fuel w s perm).1 ⟨i.module.path, GoPath.mk as⟩ = some f ∧
          f.info = some (dirDetails as perm w.now) ∧ f.data = none) ∧
      (∀ q, Chain E i s q → ∃ as, as <+: cs ∧ (as ≠ [] ∨ cs = []) ∧ q = ⟨i.module.path, GoPath.mk as⟩) := by
  intro n
  induction n with
  | zero =>
    intro cs s fuel w hlen hfuel hh hwf ho hc hp
    have : cs = [] := List.eq_nil_of_length_eq_zero hlen
    subst this
    obtain ⟨k, rfl⟩ : ∃ k, fuel = k + 1 := ⟨fuel - 1, by simp at hfuel; omega⟩
    have hsp : GoPath.split (GoPath.mk []) = (GoPath.rootS, []) := GoPath.split_root
    rw [mkdirAllF_top (by rw [hh]; exact hp) hsp]
    refine ⟨rfl, ?_, ?_⟩
    · intro as has _
      have : as = [] := by simpa using has
      subst this
      exact ⟨_, by rw [lookup_bind hwf, if_pos rfl], rfl, rfl⟩
    · intro q hq
      refine ⟨[], List.nil_prefix, Or.inr rfl, ?_⟩
      cases hq with
      | self h1 => rw [hp] at h1; injection h1 with h1; exact h1.symm
      | up h1 h2 h3 =>
        rw [hp] at h1; injection h1 with h1; subst h1
        exact absurd (congrArg Prod.fst hsp) h2
  | succ n ih =>
    intro cs s fuel w hlen hfuel hh hwf ho hc hp
    obtain ⟨k, rfl⟩ : ∃ k, fuel = k + 1 := ⟨fuel - 1, by omega⟩
    have hne : cs ≠ [] := by intro h; simp [h] at hlen
    obtain ⟨a, c, rfl⟩ : ∃ a c, cs = a ++ [c] := ⟨cs.dropLast, cs.getLast hne, (List.dropLast_concat_getLast hne).symm⟩
    have hoa := (ord_append.mp ho).1
    have hoc : GoPath.GoodElem c := (ho c (by simp)).1
    have hca : Clear i (GoPath.mk a) := clear_init hc
    have hsp := GoPath.split_mk_snoc (a := a) hoc
    have hlen' : a.length = n := by simpa using hlen
    by_cases ha : a = []
    · subst ha
      simp only [if_true] at hsp
      rw [mkdirAllF_top (by rw [hh]; exact hp) hsp]
      refine ⟨rfl, ?_, ?_⟩
      · intro as has hor
        have : as = [c] := by
          rcases List.prefix_concat_iff.mp has with h | h
          · simpa using h
          · have : as = [] := by simpa using h
            subst this; simp at hor
        subst this
        exact ⟨_, by rw [lookup_bind hwf]; exact if_pos rfl, rfl, rfl⟩
      · intro q hq
        refine ⟨[c], by simp, Or.inl (by simp), ?_⟩
        cases hq with
        | self h1 => rw [hp] at h1; injection h1 with h1; exact h1.symm
        | up h1 h2 h3 =>
          rw [hp] at h1; injection h1 with h1; subst h1
          exact absurd (congrArg Prod.fst hsp) h2
    · rw [if_neg ha] at hsp
      have hdne : GoPath.mk a ++ [Str.slash] ≠ GoPath.rootS := by
        intro h
        have h1 : (GoPath.mk a).length + 1 = 1 := by
          have := congrArg List.length h
          rw [List.length_append] at this
          exact this
        simp [GoPath.mk] at h1
      have hpa : E.parse i (GoPath.mk a ++ [Str.slash]) = .ok ⟨i.module.path, GoPath.mk a⟩ := by
        have := (ordinary_mk_slash hoa hca).parse hl
        rwa [rootedElems_mk_slash hoa.good] at this
      have hrec := ih a (GoPath.mk a ++ [Str.slash]) k w hlen' (by simp at hfuel; omega) hh hwf hoa hca hpa
      have hwf1 := wf_prims (prims_mkdirAllF E k w (GoPath.mk a ++ [Str.slash]) perm) hwf
      have hnow1 := (ext_prims (prims_mkdirAllF E k w (GoPath.mk a ++ [Str.slash]) perm)).now
      obtain ⟨w1, hw1⟩ : ∃ w1, mkdirAllF E k w (GoPath.mk a ++ [Str.slash]) perm = (w1, .ok ()) :=
        ⟨_, Prod.ext rfl hrec.1⟩
      rw [mkdirAllF_up (by rw [hh]; exact hp) hsp hdne hw1]
      rw [hw1] at hrec hwf1 hnow1
      simp only at hrec hwf1 hnow1
      refine ⟨rfl, ?_, ?_⟩
      · intro as has hor
        rw [lookup_bind hwf1]
        rcases List.prefix_concat_iff.mp has with rfl | has'
        · exact ⟨_, if_pos rfl, by simp [dirObj, dirDetails, hnow1], rfl⟩
        · have hasne : as ≠ [] := by simpa using hor
          have hgood : GoPath.Good as := by
            obtain ⟨t, rfl⟩ := has'
            exact (GoPath.good_append.mp hoa.good).1
          rw [if_neg]
          · exact hrec.2.1 as has' (Or.inl hasne)
          · intro h
            injection h with _ h
            have := GoPath.mk_injective hgood ho.good h
            have hl := has'.length_le
            rw [this] at hl
            simp at hl
            omega
      · intro q hq
        cases hq with
        | self h1 =>
          rw [hp] at h1; injection h1 with h1
          exact ⟨a ++ [c], List.prefix_refl _, Or.inl (by simp), h1.symm⟩
        | up h1 h2 h3 =>
          rw [hp] at h1; injection h1 with h1; subst h1
          rw [hsp] at h3
          obtain ⟨as, h4, h5, h6⟩ := hrec.2.2 q h3
          refine ⟨as, h4.trans (List.prefix_append _ _), Or.inl ?_, h6⟩
          rcases h5 with h5 | h5
          · exact h5
          · exact absurd h5 ha

theorem rootedElems_length_le (s : Str) : (GoPath.rootedElems s).length ≤ s.length + 1 := by
  have h1 : ∀ (l st : List Str), (l.foldl GoPath.stepRooted st).length ≤ l.length + st.length := by
    intro l
    induction l with
    | nil => intro st; simp
    | cons x l ih =>
      intro st
      have := ih (GoPath.stepRooted st x)
      have h2 : (GoPath.stepRooted st x).length ≤ st.length + 1 := by
        unfold GoPath.stepRooted
        split
        · simp; omega
        · simp
      simp only [List.foldl_cons, List.length_cons]
      omega
  have h2 : (GoPath.splitSlash s).length ≤ s.length + 1 := by
    induction s with
    | nil => simp [GoPath.splitSlash]
    | cons c cs ih =>
      unfold GoPath.splitSlash
      split
      · simp; exact ih
      · split
        · simp
        · rename_i h; rw [h] at ih; simp at ih ⊢; omega
  unfold GoPath.rootedElems
  have h3 := h1 (GoPath.elems s) []
  have h4 : (GoPath.elems s).length ≤ (GoPath.splitSlash s).length := List.length_filter_le _ _
  simp only [List.length_reverse, List.length_nil, Nat.add_zero] at h3 ⊢
  omega

/-- `MkdirAll` on an ordinary name. -/
theorem mkdirAll_spec {E : Env} {w : World} (hl : ParseLaws E w.here) (hwf : WF w) {s : Str}
    (hs : Ordinary w.here s) (perm : Nat) :
    (mkdirAll E w s perm).2 = .ok () ∧
    (∀ as, as <+: GoPath.rootedElems s → (as ≠ [] ∨ GoPath.rootedElems s = []) →
      ∃ f, lookup (mkdirAll E w s perm).1 ⟨w.here.module.path, GoPath.mk as⟩ = some f ∧
        f.info = some (dirDetails as perm w.now) ∧ f.data = none) ∧
    (∀ q, Chain E w.here s q → ∃ as, as <+: GoPath.rootedElems s ∧ (as ≠ [] ∨ GoPath.rootedElems s = []) ∧
      q = ⟨w.here.module.path, GoPath.mk as⟩) := by
  have hc := hs.2.2
  rw [hs.clean] at hc
  exact mkdirAllF_spec hl perm _ _ s _ w rfl (by have := rootedElems_length_le s; omega) rfl hwf
    hs.ord hc (hs.parse hl)

/-- Paths `MkdirAll` does not name keep their object. -/
theorem lookup_mkdirAll (E : Env) {w : World} (hwf : WF w) {p : Str} (perm : Nat) {q : Path}
    (h : ¬ Chain E w.here p q) : lookup (mkdirAll E w p perm).1 q = lookup w q := by
  unfold lookup
  rw [get_mkdirAll E perm h]
  cases hg : AMap.get w.files q with
  | none => rfl
  | some j =>
    simp only [Option.map_some]
    rw [(ext_prims (prims_mkdirAll E w p perm)).heap j (hwf.bound q j hg).1]

end Mem
end Verif
