import Verif.Lemmas.DiskSkip
import Verif.Lemmas.Parser

/-! What a walk that ends without error has done. -/

namespace Verif
namespace Disk

open Node

/-- Running a callback over a list of visits with no error other than `SkipDir`. -/
inductive Steps {S : Type} (cb : WalkFn S) : List (Str × Node) → S → S → Prop where
  | nil (s) : Steps cb [] s s
  | cons {p n l s s' s'' r} : cb p n s = (s', r) → (r = none ∨ r = some .skipDir) → Steps cb l s' s'' →
      Steps cb ((p, n) :: l) s s''

theorem Steps.append {S : Type} {cb : WalkFn S} {l l' : List (Str × Node)} {s s' s'' : S} (h : Steps cb l s s')
    (h' : Steps cb l' s' s'') : Steps cb (l ++ l') s s'' := by
  induction h with
  | nil s => exact h'
  | cons h1 h2 _ ih => exact .cons h1 h2 (ih h')

mutual
theorem walkNode_steps {S : Type} {cb : WalkFn S} {skip : Str → Bool}
    (hb : ∀ p n s, (cb p n s).2 = some .skipDir ↔ n.isDir = true ∧ skip p = true)
    (hk : ∀ p n s, n.isDir = true → skip p = true → (cb p n s).2 = some .skipDir) (path : Str) :
    ∀ (n : Node) (s s' : S) (r : Option Err), walkNode cb path n s = (s', r) → (r = none ∨ r = some .skipDir) →
      Steps cb (visits skip path n) s s' ∧ (r = some .skipDir → n.isDir = true ∧ skip path = true)
  | .file d b, s, s', r, h, hr => by
    simp only [walkNode] at h
    refine ⟨.cons h hr (.nil _), ?_⟩
    intro hs
    have := (hb path (.file d b) s).mp (by rw [h]; exact hs)
    exact this
  | .dir d kids, s, s', r, h, hr => by
    simp only [walkNode] at h
    simp only [visits]
    generalize hcb : cb path (.dir d kids) s = m at h
    obtain ⟨s1, r1⟩ := m
    cases r1 with
    | some e =>
      simp only [Prod.mk.injEq] at h
      obtain ⟨rfl, rfl⟩ := h
      have hs : e = .skipDir := by
        rcases hr with hr | hr
        · cases hr
        · simpa using hr
      subst hs
      have := (hb path (.dir d kids) s).mp (by rw [hcb])
      rw [if_pos this.2]
      exact ⟨.cons hcb (Or.inr rfl) (.nil _), fun _ => this⟩
    | none =>
      simp only at h
      have hns : skip path = false := by
        cases hsk : skip path with
        | false => rfl
        | true =>
          have := hk path (.dir d kids) s rfl hsk
          rw [hcb] at this
          cases this
      rw [hns]
      simp only [Bool.false_eq_true, if_false]
      have := walkKids_steps hb hk path kids s1 s' r h hr
      refine ⟨.cons hcb (Or.inl rfl) this.1, ?_⟩
      intro hs
      rw [this.2] at hs
      cases hs

theorem walkKids_steps {S : Type} {cb : WalkFn S} {skip : Str → Bool}
    (hb : ∀ p n s, (cb p n s).2 = some .skipDir ↔ n.isDir = true ∧ skip p = true)
    (hk : ∀ p n s, n.isDir = true → skip p = true → (cb p n s).2 = some .skipDir) (path : Str) :
    ∀ (kids : List (Str × Node)) (s s' : S) (r : Option Err), walkKids cb path kids s = (s', r) →
      (r = none ∨ r = some .skipDir) → Steps cb (visitsKids skip path kids) s s' ∧ r = none
  | [], s, s', r, h, hr => by
    simp only [walkKids, Prod.mk.injEq] at h
    obtain ⟨rfl, rfl⟩ := h
    exact ⟨.nil _, rfl⟩
  | (name, n) :: rest, s, s', r, h, hr => by
    simp only [walkKids] at h
    simp only [visitsKids]
    generalize hw : walkNode cb (GoPath.join2 path name) n s = m at h
    obtain ⟨s1, r1⟩ := m
    cases r1 with
    | none =>
      simp only at h
      have h1 := walkNode_steps hb hk _ n s s1 none hw (Or.inl rfl)
      have h2 := walkKids_steps hb hk path rest s1 s' r h hr
      exact ⟨h1.1.append h2.1, h2.2⟩
    | some e =>
      simp only at h
      split at h
      · rename_i hc
        obtain ⟨_, rfl⟩ := hc
        have h1 := walkNode_steps hb hk _ n s s1 _ hw (Or.inr rfl)
        have h2 := walkKids_steps hb hk path rest s1 s' r h hr
        exact ⟨h1.1.append h2.1, h2.2⟩
      · rename_i hc
        simp only [Prod.mk.injEq] at h
        obtain ⟨rfl, rfl⟩ := h
        have he : e = .skipDir := by
          rcases hr with hr | hr
          · cases hr
          · simpa using hr
        subst he
        have h1 := walkNode_steps hb hk _ n s s1 _ hw (Or.inr rfl)
        exact absurd ⟨(h1.2 rfl).1, rfl⟩ hc
end

/-- A walk that ends without error has run the callback over all visits. -/
theorem walk_steps {S : Type} {cb : WalkFn S} {skip : Str → Bool}
    (hb : ∀ p n s, (cb p n s).2 = some .skipDir ↔ n.isDir = true ∧ skip p = true) {root : Str} {n : Node} {s s' : S}
    (h : walk cb root n s = (s', none)) : Steps cb (visits skip root n) s s' := by
  have hk : ∀ p n s, n.isDir = true → skip p = true → (cb p n s).2 = some .skipDir :=
    fun p n s h1 h2 => (hb p n s).mpr ⟨h1, h2⟩
  unfold walk at h
  split at h
  · rename_i s1 hw
    cases h
    exact (walkNode_steps hb hk root n s s' _ hw (Or.inr rfl)).1
  · exact (walkNode_steps hb hk root n s s' none h (Or.inl rfl)).1

end Disk

namespace Parser

open Disk (Node)

theorem addSources_joins {E : Env} {depth : Nat} : ∀ (srcs : List Source) (m m' : DeclMap),
    addSources E depth srcs m = .ok m' →
    ∃ f : Source → DeclMap, (∀ src ∈ srcs, declsMap E depth src = .ok (f src, none)) ∧
      ∀ k, m' k = m k ++ srcs.flatMap fun src => f src k
  | [], m, m', h => by
    cases h
    exact ⟨fun _ => DeclMap.empty, by simp, by simp⟩
  | src :: rest, m, m', h => by
    simp only [addSources] at h
    split at h
    · cases h
    · cases h
    · cases h
    · rename_i mm hm
      obtain ⟨f, hf, hj⟩ := addSources_joins rest _ _ h
      refine ⟨fun x => match declsMap E depth x with | .ok (y, _) => y | _ => DeclMap.empty, ?_, ?_⟩
      · intro x hx
        rcases List.mem_cons.mp hx with rfl | hx
        · simp [hm]
        · simp [hf x hx]
      · intro k
        rw [hj k]
        simp only [joinMaps, List.flatMap_cons, hm, List.append_assoc]
        congr 2
        rw [List.flatMap_def, List.flatMap_def]
        congr 1
        apply List.map_congr_left
        intro x hx
        simp [hf x hx]

end Parser
end Verif
