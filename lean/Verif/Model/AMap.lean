/-!
Finite maps as association lists.  The list order stands for the (arbitrary) order in which Go ranges
over a `map` or `sync.Map`; nothing the model computes may depend on it except where the code does.
-/

namespace Verif

abbrev AMap (κ ν : Type) := List (κ × ν)

namespace AMap

variable {κ ν : Type} [DecidableEq κ]

/-- Lookup (`sync.Map.Load`, internal/maps/files.go:80-87). -/
def get (m : AMap κ ν) (k : κ) : Option ν :=
  match m with
  | [] => none
  | (a, v) :: rest => if a = k then some v else get rest k

/-- Delete (`sync.Map.Delete`, internal/maps/files.go:72-74). -/
def erase (m : AMap κ ν) (k : κ) : AMap κ ν := m.filter fun e => !(decide (e.1 = k))

/-- Store (`sync.Map.Store`, internal/maps/files.go:105-107). -/
def set (m : AMap κ ν) (k : κ) (v : ν) : AMap κ ν := (k, v) :: erase m k

/-- The keys in iteration order. -/
def keys (m : AMap κ ν) : List κ := m.map (·.1)

/-- Each key occurs once. -/
def Nodup (m : AMap κ ν) : Prop := (keys m).Nodup

@[simp] theorem get_nil (k : κ) : get ([] : AMap κ ν) k = none := rfl

theorem get_cons (a : κ) (v : ν) (m : AMap κ ν) (k : κ) :
    get ((a, v) :: m) k = if a = k then some v else get m k := rfl

theorem get_filter (m : AMap κ ν) (p : κ → Bool) (k : κ) :
    get (m.filter fun e => p e.1) k = if p k then get m k else none := by
  induction m with
  | nil => simp
  | cons e m ih =>
    obtain ⟨a, v⟩ := e
    simp only [List.filter_cons]
    by_cases hp : p a = true
    · simp only [hp, if_true, get_cons, ih]
      by_cases h : a = k
      · subst h; simp [hp]
      · simp [h]
    · simp only [hp, if_false, get_cons, ih, Bool.false_eq_true]
      by_cases h : a = k
      · subst h; simp [hp]
      · simp [h]

@[simp] theorem get_erase_self (m : AMap κ ν) (k : κ) : get (erase m k) k = none := by
  have := get_filter m (fun a => !(decide (a = k))) k
  simpa [erase] using this

theorem get_erase_ne (m : AMap κ ν) {k k' : κ} (h : k' ≠ k) : get (erase m k) k' = get m k' := by
  have := get_filter m (fun a => !(decide (a = k))) k'
  simpa [erase, h] using this

@[simp] theorem get_set_self (m : AMap κ ν) (k : κ) (v : ν) : get (set m k v) k = some v := by
  simp [set, get_cons]

theorem get_set_ne (m : AMap κ ν) {k k' : κ} (v : ν) (h : k' ≠ k) :
    get (set m k v) k' = get m k' := by
  simp [set, get_cons, Ne.symm h, get_erase_ne m h]

theorem get_set (m : AMap κ ν) (k k' : κ) (v : ν) :
    get (set m k v) k' = if k' = k then some v else get m k' := by
  by_cases h : k' = k
  · subst h; simp
  · simp [h, get_set_ne m v h]

theorem get_erase (m : AMap κ ν) (k k' : κ) :
    get (erase m k) k' = if k' = k then none else get m k' := by
  by_cases h : k' = k
  · subst h; simp
  · simp [h, get_erase_ne m h]

theorem mem_keys_iff (m : AMap κ ν) (k : κ) : k ∈ keys m ↔ ∃ v, get m k = some v := by
  induction m with
  | nil => simp [keys]
  | cons e m ih =>
    obtain ⟨a, v⟩ := e
    simp only [keys, List.map_cons, List.mem_cons, get_cons] at ih ⊢
    by_cases h : a = k
    · simp [h]
    · simp only [h, if_false, ← ih]
      constructor
      · rintro (rfl | h')
        · exact absurd rfl h
        · exact h'
      · exact Or.inr

theorem get_mem {m : AMap κ ν} {k : κ} {v : ν} (h : get m k = some v) : (k, v) ∈ m := by
  induction m with
  | nil => simp at h
  | cons e m ih =>
    obtain ⟨a, w⟩ := e
    rw [get_cons] at h
    by_cases hk : a = k
    · subst hk; simp at h; subst h; simp
    · rw [if_neg hk] at h; exact List.mem_cons_of_mem _ (ih h)

theorem get_of_mem {m : AMap κ ν} (hn : Nodup m) {k : κ} {v : ν} (h : (k, v) ∈ m) :
    get m k = some v := by
  induction m with
  | nil => simp at h
  | cons e m ih =>
    obtain ⟨a, w⟩ := e
    simp only [Nodup, keys, List.map_cons, List.nodup_cons] at hn
    rcases List.mem_cons.mp h with h | h
    · injection h with h1 h2; subst h1; subst h2; simp [get_cons]
    · have : a ≠ k := by
        intro e; subst e
        exact hn.1 (List.mem_map.mpr ⟨_, h, rfl⟩)
      rw [get_cons, if_neg this]
      exact ih hn.2 h

omit [DecidableEq κ] in
theorem nodup_filter {m : AMap κ ν} (p : κ × ν → Bool) (h : Nodup m) : Nodup (m.filter p) := by
  unfold Nodup keys at *
  exact h.sublist (List.filter_sublist.map _)

theorem nodup_erase {m : AMap κ ν} (k : κ) (h : Nodup m) : Nodup (erase m k) := nodup_filter _ h

theorem nodup_set {m : AMap κ ν} (k : κ) (v : ν) (h : Nodup m) : Nodup (set m k v) := by
  have h1 := nodup_erase k h
  unfold Nodup at *
  simp only [set, keys, List.map_cons, List.nodup_cons]
  refine ⟨?_, h1⟩
  intro hm
  obtain ⟨v', hv'⟩ := (mem_keys_iff (erase m k) k).mp hm
  simp at hv'

omit [DecidableEq κ] in
theorem nodup_perm {m m' : AMap κ ν} (hp : m.Perm m') (h : Nodup m) : Nodup m' := by
  unfold Nodup keys at *
  exact (hp.map _).nodup_iff.mp h

theorem get_perm {m m' : AMap κ ν} (hp : m.Perm m') (h : Nodup m) (k : κ) : get m k = get m' k := by
  cases h1 : get m k with
  | some v => exact (get_of_mem (nodup_perm hp h) (hp.mem_iff.mp (get_mem h1))).symm
  | none =>
    cases h2 : get m' k with
    | none => rfl
    | some v =>
      have := get_of_mem h (hp.mem_iff.mpr (get_mem h2))
      rw [this] at h1; cases h1

end AMap
end Verif
