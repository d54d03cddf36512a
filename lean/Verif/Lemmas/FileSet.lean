import Verif.Go.FileSet

/-! Positions in files: what they should be, and that the line table and the search give them. -/

namespace Verif
namespace Token

/-- The line and column of an offset in a text, counted from 1: the line is one more than the number of newlines before
the offset; the column counts from the start of the line. -/
def Right (text : Str) (off line col : Nat) : Prop :=
  line = 1 + ((text.take off).filter fun c => c = 10).length ∧
  ∃ first, first ≤ off ∧ (first = 0 ∨ text[first - 1]? = some 10) ∧ (∀ i, first ≤ i → i < off → text[i]? ≠ some 10) ∧
    col = off - first + 1

/-! ### The line table -/

theorem mem_starts {size x : Nat} : ∀ (s : Str) (n : Nat),
    x ∈ starts size n s ↔ n < x ∧ x < size ∧ s[x - 1 - n]? = some 10 := by
  intro s
  induction s with
  | nil => intro n; simp [starts]
  | cons c s ih =>
    intro n
    have step : n + 1 < x → (c :: s)[x - 1 - n]? = s[x - 1 - (n + 1)]? := by
      intro h
      have : x - 1 - n = (x - 1 - (n + 1)) + 1 := by omega
      rw [this, List.getElem?_cons_succ]
    have here : x = n + 1 → (c :: s)[x - 1 - n]? = some c := by
      intro h
      have : x - 1 - n = 0 := by omega
      rw [this]; rfl
    rw [starts]
    by_cases hc : c = 10 ∧ n + 1 < size
    · rw [if_pos hc, List.mem_cons, ih]
      constructor
      · rintro (h | ⟨h1, h2, h3⟩)
        · exact ⟨by omega, by omega, by rw [here h, hc.1]⟩
        · exact ⟨by omega, h2, by rw [step h1]; exact h3⟩
      · rintro ⟨h1, h2, h3⟩
        by_cases hx : x = n + 1
        · exact Or.inl hx
        · exact Or.inr ⟨by omega, h2, by rw [← step (by omega)]; exact h3⟩
    · rw [if_neg hc, ih]
      constructor
      · rintro ⟨h1, h2, h3⟩
        exact ⟨by omega, h2, by rw [step h1]; exact h3⟩
      · rintro ⟨h1, h2, h3⟩
        by_cases hx : x = n + 1
        · rw [here hx] at h3
          exact absurd ⟨Option.some.inj h3, by omega⟩ hc
        · exact ⟨by omega, h2, by rw [← step (by omega)]; exact h3⟩

theorem starts_sorted (size : Nat) : ∀ (s : Str) (n : Nat), (starts size n s).Pairwise (· < ·) := by
  intro s
  induction s with
  | nil => intro n; simp [starts]
  | cons c s ih =>
    intro n
    rw [starts]
    split
    · rw [List.pairwise_cons]
      exact ⟨fun x hx => ((mem_starts s (n + 1)).mp hx).1, ih _⟩
    · exact ih _

theorem lineStarts_sorted (text : Str) : (lineStarts text).Pairwise (· < ·) := by
  rw [lineStarts, List.pairwise_cons]
  exact ⟨fun x hx => ((mem_starts text 0).mp hx).1, starts_sorted _ _ _⟩

/-- The entries up to an offset within the text are as many as the newlines before it. -/
theorem starts_count {size off : Nat} (ho : off < size) : ∀ (s : Str) (n : Nat), n ≤ off →
    ((starts size n s).filter fun x => x ≤ off).length = ((s.take (off - n)).filter fun c => c = 10).length := by
  intro s
  induction s with
  | nil => intro n _; simp [starts]
  | cons c s ih =>
    intro n hn
    rw [starts]
    by_cases hlt : n < off
    · have e : off - n = (off - (n + 1)) + 1 := by omega
      have := ih (n + 1) (by omega)
      rw [e, List.take_succ_cons]
      by_cases hc : c = 10
      · rw [if_pos ⟨hc, by omega⟩, List.filter_cons_of_pos (by simp; omega), List.filter_cons_of_pos (by simpa using hc)]
        simp only [List.length_cons, this]
      · rw [if_neg (fun h => hc h.1), List.filter_cons_of_neg (by simpa using hc), this]
    · have e : off - n = 0 := by omega
      have none : ∀ x, x ∈ (if c = 10 ∧ n + 1 < size then (n + 1) :: starts size (n + 1) s
          else starts size (n + 1) s) → ¬ x ≤ off := by
        intro x hx
        have : n < x := by
          split at hx
          · rcases List.mem_cons.mp hx with h | h
            · omega
            · have := ((mem_starts s (n + 1)).mp h).1; omega
          · have := ((mem_starts s (n + 1)).mp hx).1; omega
        omega
      rw [e, List.take_zero, List.filter_eq_nil_iff.mpr (fun x hx => by simpa using none x hx)]
      rfl

/-! ### The search -/

theorem getD_lt {a : List Nat} (hs : a.Pairwise (· < ·)) {i j : Nat} (hij : i < j) (hj : j < a.length) :
    a.getD i 0 < a.getD j 0 := by
  have := List.pairwise_iff_getElem.mp hs i j (by omega) hj hij
  rw [List.getD_eq_getElem?_getD, List.getD_eq_getElem?_getD, List.getElem?_eq_getElem hj,
    List.getElem?_eq_getElem (by omega : i < a.length)]
  exact this

theorem search_spec {a : List Nat} (hs : a.Pairwise (· < ·)) (x : Nat) : ∀ (fuel i j : Nat), j - i ≤ fuel → i ≤ j →
    j ≤ a.length → (∀ k, k < i → a.getD k 0 ≤ x) → (∀ k, j ≤ k → k < a.length → x < a.getD k 0) →
    search a x fuel i j ≤ a.length ∧ (∀ k, k < search a x fuel i j → a.getD k 0 ≤ x) ∧
      ∀ k, search a x fuel i j ≤ k → k < a.length → x < a.getD k 0 := by
  intro fuel
  induction fuel with
  | zero =>
    intro i j hf hij hj h1 h2
    have : i = j := by omega
    subst this
    exact ⟨hj, h1, h2⟩
  | succ fuel ih =>
    intro i j hf hij hj h1 h2
    rw [search]
    by_cases hlt : i < j
    · rw [if_pos hlt]
      split
      · rename_i hle
        refine ih _ _ (by omega) (by omega) hj (fun k hk => ?_) h2
        by_cases hk' : k = (i + j) / 2
        · rw [hk']; exact hle
        · have := getD_lt hs (i := k) (j := (i + j) / 2) (by omega) (by omega)
          omega
      · rename_i hgt
        refine ih _ _ (by omega) (by omega) (by omega) h1 (fun k hk hk' => ?_)
        by_cases he : k = (i + j) / 2
        · rw [he]; omega
        · have := getD_lt hs (i := (i + j) / 2) (j := k) (by omega) hk'
          omega
    · rw [if_neg hlt]
      have : i = j := by omega
      subst this
      exact ⟨hj, h1, h2⟩

theorem searchInts_spec {a : List Nat} (hs : a.Pairwise (· < ·)) (x : Nat) :
    searchInts a x ≤ a.length ∧ (∀ k, k < searchInts a x → a.getD k 0 ≤ x) ∧
      ∀ k, searchInts a x ≤ k → k < a.length → x < a.getD k 0 :=
  search_spec hs x a.length 0 a.length (by omega) (by omega) (by omega) (by omega) (by omega)

theorem filter_length {a : List Nat} {x : Nat} : ∀ (r : Nat), r ≤ a.length → (∀ k, k < r → a.getD k 0 ≤ x) →
    (∀ k, r ≤ k → k < a.length → x < a.getD k 0) → (a.filter fun y => y ≤ x).length = r := by
  induction a with
  | nil => intro r h _ _; simp at h; simp [h]
  | cons y a ih =>
    intro r hr h1 h2
    cases r with
    | zero =>
      rw [List.filter_eq_nil_iff.mpr]
      · rfl
      · intro z hz
        obtain ⟨k, hk, rfl⟩ := List.mem_iff_getElem.mp hz
        have := h2 k (by omega) hk
        rw [List.getD_eq_getElem?_getD, List.getElem?_eq_getElem hk] at this
        simp only [Option.getD_some] at this
        simp only [decide_eq_true_eq]
        omega
    | succ r =>
      have hy : y ≤ x := by simpa using h1 0 (by omega)
      rw [List.filter_cons_of_pos (by simpa using hy), List.length_cons]
      congr 1
      refine ih r (by simpa using hr) (fun k hk => ?_) (fun k hk hk' => ?_)
      · simpa using h1 (k + 1) (by omega)
      · simpa using h2 (k + 1) (by omega) (by simpa using hk')

/-- The position in a scanned file is right, for every offset within the text. -/
theorem position_right (name text : Str) (base : Nat) {off : Nat} (ho : off < text.length) :
    ∃ line col, (⟨name, base, text.length, lineStarts text⟩ : TFile).position off = ⟨name, off, line, col⟩ ∧
      Right text off line col := by
  obtain ⟨h0, h1, h2⟩ := searchInts_spec (lineStarts_sorted text) off
  have hlen := filter_length (x := off) _ h0 h1 h2
  have hcount : searchInts (lineStarts text) off = 1 + ((text.take off).filter fun c => c = 10).length := by
    rw [← hlen, lineStarts, List.filter_cons_of_pos (by simp), List.length_cons, starts_count ho text 0 (by omega)]
    simp only [Nat.sub_zero]
    omega
  cases hr : searchInts (lineStarts text) off with
  | zero => rw [hr] at hcount; omega
  | succ i =>
    refine ⟨i + 1, off - (lineStarts text).getD i 0 + 1, by simp only [TFile.position, hr], by rw [← hr]; exact hcount,
      (lineStarts text).getD i 0, ?_, ?_, ?_, rfl⟩
    · exact h1 i (by omega)
    · cases i with
      | zero => exact Or.inl rfl
      | succ i =>
        right
        have hi : i < (starts text.length 0 text).length := by
          rw [hr] at h0; simp only [lineStarts, List.length_cons] at h0; omega
        have hm : (starts text.length 0 text)[i] ∈ starts text.length 0 text := List.getElem_mem hi
        have := ((mem_starts text 0).mp hm).2.2
        have hgd : (lineStarts text).getD (i + 1) 0 = (starts text.length 0 text)[i] := by
          rw [lineStarts, List.getD_eq_getElem?_getD, List.getElem?_cons_succ, List.getElem?_eq_getElem hi]; rfl
        rw [hgd]
        simpa using this
    · intro k hk hko hn
      have hm : k + 1 ∈ lineStarts text := by
        rw [lineStarts]
        exact List.mem_cons_of_mem _ ((mem_starts text 0).mpr ⟨by omega, by omega, by simpa using hn⟩)
      obtain ⟨q, hq, hqe⟩ := List.mem_iff_getElem.mp hm
      have hqd : (lineStarts text).getD q 0 = k + 1 := by
        rw [List.getD_eq_getElem?_getD, List.getElem?_eq_getElem hq, Option.getD_some, hqe]
      have hqi : q ≤ i := by
        by_cases h : q ≤ i
        · exact h
        · have := h2 q (by omega) hq
          omega
      by_cases he : q = i
      · rw [he] at hqd; omega
      · have := getD_lt (lineStarts_sorted text) (i := q) (j := i) (by omega) (by rw [hr] at h0; omega)
        omega

/-- A text has one line and one column at each offset. -/
theorem Right.unique {text : Str} {off l c l' c' : Nat} (h : Right text off l c) (h' : Right text off l' c') :
    l = l' ∧ c = c' := by
  obtain ⟨h1, a, ha, ha1, ha2, ha3⟩ := h
  obtain ⟨h1', b, hb, hb1, hb2, hb3⟩ := h'
  have hab : a = b := by
    rcases Nat.lt_trichotomy a b with hlt | heq | hlt
    · rcases hb1 with h | h
      · omega
      · exact absurd h (ha2 (b - 1) (by omega) (by omega))
    · exact heq
    · rcases ha1 with h | h
      · omega
      · exact absurd h (hb2 (a - 1) (by omega) (by omega))
  subst hab
  exact ⟨by rw [h1, h1'], by rw [ha3, hb3]⟩

/-! ### Several files in one set -/

theorem add_files (fs : FileSet) (l : List (Str × Str)) : ∃ more, (fs.addAll l).files = fs.files ++ more ∧
    ∀ f ∈ more, fs.base ≤ f.base := by
  induction l generalizing fs with
  | nil => exact ⟨[], by simp [FileSet.addAll], by simp⟩
  | cons e l ih =>
    obtain ⟨more, h1, h2⟩ := ih (fs.add e.1 e.2)
    refine ⟨⟨e.1, fs.base, e.2.length, lineStarts e.2⟩ :: more, ?_, ?_⟩
    · simp only [FileSet.addAll, List.foldl_cons] at h1 ⊢
      rw [h1]
      simp [FileSet.add]
    · intro f hf
      rcases List.mem_cons.mp hf with rfl | hf
      · exact Nat.le_refl _
      · have := h2 f hf
        simp only [FileSet.add] at this
        omega

/-- All files lie below the base of the set. -/
def Below (fs : FileSet) : Prop := ∀ f ∈ fs.files, f.base + f.size < fs.base

theorem below_new : Below FileSet.new := by intro f hf; simp [FileSet.new] at hf

theorem below_add {fs : FileSet} (h : Below fs) (name text : Str) : Below (fs.add name text) := by
  intro f hf
  simp only [FileSet.add, List.mem_append, List.mem_singleton] at hf ⊢
  rcases hf with hf | rfl
  · have := h f hf; omega
  · simp only; omega

theorem below_addAll (l : List (Str × Str)) : ∀ {fs : FileSet}, Below fs → Below (fs.addAll l) := by
  induction l with
  | nil => intro fs h; exact h
  | cons e l ih => intro fs h; exact ih (below_add h e.1 e.2)

/-- A position in one file of a set, whatever was added before and after. -/
theorem position_in {fs : FileSet} (hb : Below fs) (name text : Str) (after : List (Str × Str)) {off : Nat}
    (ho : off ≤ text.length) :
    ((fs.add name text).addAll after).position (fs.base + off) =
      (⟨name, fs.base, text.length, lineStarts text⟩ : TFile).position off := by
  obtain ⟨more, h1, _⟩ := add_files (fs.add name text) after
  have hnone : fs.files.find? (fun f => decide (f.base ≤ fs.base + off ∧ fs.base + off ≤ f.base + f.size)) = none := by
    rw [List.find?_eq_none]
    intro f hf
    have := hb f hf
    simp only [decide_eq_true_eq]
    omega
  have e : (fs.add name text).files = fs.files ++ [⟨name, fs.base, text.length, lineStarts text⟩] := rfl
  rw [FileSet.position, h1, e, List.append_assoc, List.find?_append, hnone, Option.none_or, List.singleton_append,
    List.find?_cons_of_pos (by simp; omega)]
  simp only [Nat.add_sub_cancel_left]

end Token
end Verif
