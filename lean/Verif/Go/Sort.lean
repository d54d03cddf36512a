import Verif.Go.Bytes

/-!
Sorting by a string key.  Go's `sort.Slice` is an unspecified, unstable sort; the model uses insertion
sort, and `sortBy_unique` shows that on elements with pairwise different keys every correct sort gives
the same list, so the choice of algorithm cannot be observed.
-/

namespace Verif

/-- Insert `a` before the first element with a key that is not smaller. -/
def insertBy {α : Type} (key : α → Str) (a : α) : List α → List α
  | [] => [a]
  | b :: bs => if Str.le (key a) (key b) then a :: b :: bs else b :: insertBy key a bs

/-- `sort.Slice(l, func(a, b int) bool { return key(l[a]) <= key(l[b]) })` (also with `<`). -/
def sortBy {α : Type} (key : α → Str) : List α → List α
  | [] => []
  | a :: as => insertBy key a (sortBy key as)

theorem insertBy_perm {α : Type} (key : α → Str) (a : α) (l : List α) :
    (insertBy key a l).Perm (a :: l) := by
  induction l with
  | nil => exact List.Perm.refl _
  | cons b bs ih =>
    simp only [insertBy]
    split
    · exact List.Perm.refl _
    · exact (List.Perm.cons b ih).trans (List.Perm.swap a b bs)

theorem sortBy_perm {α : Type} (key : α → Str) (l : List α) : (sortBy key l).Perm l := by
  induction l with
  | nil => exact List.Perm.refl _
  | cons a as ih => exact (insertBy_perm key a _).trans (List.Perm.cons a ih)

theorem mem_sortBy {α : Type} (key : α → Str) (l : List α) (x : α) : x ∈ sortBy key l ↔ x ∈ l :=
  (sortBy_perm key l).mem_iff

theorem insertBy_sorted {α : Type} (key : α → Str) (a : α) (l : List α)
    (h : l.Pairwise fun x y => Str.le (key x) (key y) = true) :
    (insertBy key a l).Pairwise fun x y => Str.le (key x) (key y) = true := by
  induction l with
  | nil => simp [insertBy]
  | cons b bs ih =>
    rw [List.pairwise_cons] at h
    simp only [insertBy]
    split
    · rename_i hab
      rw [List.pairwise_cons]
      refine ⟨?_, List.pairwise_cons.mpr h⟩
      intro y hy
      rcases List.mem_cons.mp hy with rfl | hy
      · exact hab
      · exact Str.le_trans hab (h.1 y hy)
    · rename_i hab
      have hba : Str.le (key b) (key a) = true := by
        rcases Str.le_total (key a) (key b) with h' | h'
        · exact absurd h' hab
        · exact h'
      rw [List.pairwise_cons]
      refine ⟨?_, ih h.2⟩
      intro y hy
      rw [(insertBy_perm key a bs).mem_iff] at hy
      rcases List.mem_cons.mp hy with rfl | hy
      · exact hba
      · exact h.1 y hy

theorem sortBy_sorted {α : Type} (key : α → Str) (l : List α) :
    (sortBy key l).Pairwise fun x y => Str.le (key x) (key y) = true := by
  induction l with
  | nil => simp [sortBy]
  | cons a as ih => exact insertBy_sorted key a _ ih

/-- Two sorted permutations of each other, with an injective key on their elements, are equal. -/
theorem sorted_perm_unique {α : Type} (key : α → Str) :
    ∀ {l₁ l₂ : List α},
      (∀ x ∈ l₁, ∀ y ∈ l₁, key x = key y → x = y) →
      l₁.Pairwise (fun x y => Str.le (key x) (key y) = true) →
      l₂.Pairwise (fun x y => Str.le (key x) (key y) = true) →
      l₁.Perm l₂ → l₁ = l₂
  | [], l₂, _, _, _, hp => (List.nil_perm.mp hp).symm
  | a :: as, [], _, _, _, hp => by simp at hp
  | a :: as, b :: bs, hinj, h1, h2, hp => by
    have hab : a = b := by
      have hb : b ∈ a :: as := hp.mem_iff.mpr (by simp)
      have ha : a ∈ b :: bs := hp.mem_iff.mp (by simp)
      have hle1 : Str.le (key a) (key b) = true := by
        rcases List.mem_cons.mp hb with rfl | hb'
        · simp
        · exact (List.pairwise_cons.mp h1).1 b hb'
      have hle2 : Str.le (key b) (key a) = true := by
        rcases List.mem_cons.mp ha with rfl | ha'
        · simp
        · exact (List.pairwise_cons.mp h2).1 a ha'
      exact hinj a (by simp) b hb (Str.le_antisymm hle1 hle2)
    subst hab
    have hp' : as.Perm bs := (List.perm_cons a).mp hp
    have := sorted_perm_unique key
      (fun x hx y hy => hinj x (List.mem_cons_of_mem _ hx) y (List.mem_cons_of_mem _ hy))
      (List.pairwise_cons.mp h1).2 (List.pairwise_cons.mp h2).2 hp'
    rw [this]

/-- The sorted list does not depend on the input order, nor on the sorting algorithm. -/
theorem sortBy_unique {α : Type} (key : α → Str) {l l' : List α}
    (hinj : ∀ x ∈ l, ∀ y ∈ l, key x = key y → x = y)
    (hs : l'.Pairwise fun x y => Str.le (key x) (key y) = true)
    (hp : l'.Perm l) : l' = sortBy key l := by
  refine sorted_perm_unique key ?_ hs (sortBy_sorted key l) (hp.trans (sortBy_perm key l).symm)
  intro x hx y hy
  exact hinj x (hp.mem_iff.mp hx) y (hp.mem_iff.mp hy)

theorem sortBy_congr_perm {α : Type} (key : α → Str) {l l' : List α}
    (hinj : ∀ x ∈ l, ∀ y ∈ l, key x = key y → x = y) (hp : l.Perm l') :
    sortBy key l = sortBy key l' := by
  symm
  apply sortBy_unique key hinj (sortBy_sorted key l')
  exact (sortBy_perm key l').trans hp.symm

/-- With pairwise different keys the sorted list is strictly increasing. -/
theorem sortBy_strict {α : Type} (key : α → Str) {l : List α}
    (hinj : ∀ x ∈ l, ∀ y ∈ l, key x = key y → x = y) (hnd : l.Nodup) :
    (sortBy key l).Pairwise fun x y => Str.lt (key x) (key y) = true := by
  have hnd' : (sortBy key l).Nodup := (sortBy_perm key l).nodup_iff.mpr hnd
  have hs := sortBy_sorted key l
  have := hs.and hnd'
  refine List.Pairwise.imp_of_mem ?_ this
  intro a b ha hb h
  rw [Str.lt_iff]
  refine ⟨h.1, fun hk => h.2 ?_⟩
  exact hinj a ((mem_sortBy key l a).mp ha) b ((mem_sortBy key l b).mp hb) hk

end Verif
