import Verif.Spec.Decls
import Verif.Lemmas.Disk

/-! Lemmas about the parser model. -/

namespace Verif
namespace Parser

open Spec

/-- Every declaration is filed under its kind. -/
def KindsOk (m : DeclMap) : Prop := ∀ k, ∀ d ∈ m k, d.kind = k

theorem kindsOk_empty : KindsOk DeclMap.empty := by intro k d hd; cases hd

theorem kindsOk_append {m : DeclMap} (h : KindsOk m) {k : Kind} {ds : List Decl} (hd : ∀ d ∈ ds, d.kind = k) :
    KindsOk (m.append k ds) := by
  intro k' d hd'
  unfold DeclMap.append at hd'
  split at hd'
  · rename_i hk
    subst hk
    rcases List.mem_append.mp hd' with h1 | h1
    · exact h _ d h1
    · exact hd d h1
  · exact h _ d hd'

theorem kindsOk_join {m mm : DeclMap} (h : KindsOk m) (h' : KindsOk mm) : KindsOk (joinMaps m mm) := by
  intro k d hd
  rcases List.mem_append.mp hd with h1 | h1
  · exact h _ d h1
  · exact h' _ d h1

theorem kindsOk_enter {E : Env} {depth : Nat} {src : Source} {node : Ast} {s s' : PState} {b : Bool}
    (h : KindsOk s.decls) (he : enter E depth src node s = .ok (s', b)) : KindsOk s'.decls := by
  unfold enter at he
  split at he
  · split at he
    · cases he; exact h
    · split at he
      · cases he; exact h
      · split at he
        · cases he; exact h
        · split at he
          · cases he
          · cases he; exact h
          · split at he
            · cases he; exact h
            · cases he
              exact kindsOk_append h (by simp)
  · cases he; exact h

mutual
theorem kindsOk_walk {E : Env} {depth : Nat} {src : Source} : ∀ (a : Ast) {s s' : PState},
    KindsOk s.decls → walkAst E depth src a s = .ok s' → KindsOk s'.decls
  | .ident n o, s, s', h, hw => by
    simp only [walkAst] at hw
    split at hw
    · rename_i he; cases hw; exact kindsOk_enter h he
    · cases hw
    · cases hw
  | .lit t, s, s', h, hw => by
    simp only [walkAst] at hw
    split at hw
    · rename_i he; cases hw; exact kindsOk_enter h he
    · cases hw
    · cases hw
  | .sel x n, s, s', h, hw => by
    simp only [walkAst] at hw
    split at hw
    · rename_i he; cases hw; exact kindsOk_enter h he
    · rename_i he; exact kindsOk_walk x (kindsOk_enter h he) hw
    · cases hw
    · cases hw
  | .call f args, s, s', h, hw => by
    simp only [walkAst] at hw
    split at hw
    · rename_i he; cases hw; exact kindsOk_enter h he
    · rename_i he
      split at hw
      · rename_i hf
        exact kindsOk_walks args (kindsOk_walk f (kindsOk_enter h he) hf) hw
      · cases hw
      · cases hw
    · cases hw
    · cases hw
  | .other kids, s, s', h, hw => by
    simp only [walkAst] at hw
    split at hw
    · rename_i he; cases hw; exact kindsOk_enter h he
    · rename_i he; exact kindsOk_walks kids (kindsOk_enter h he) hw
    · cases hw
    · cases hw
theorem kindsOk_walks {E : Env} {depth : Nat} {src : Source} : ∀ (as : List Ast) {s s' : PState},
    KindsOk s.decls → walkAsts E depth src as s = .ok s' → KindsOk s'.decls
  | [], s, s', h, hw => by simp only [walkAsts] at hw; cases hw; exact h
  | a :: as, s, s', h, hw => by
    simp only [walkAsts] at hw
    split at hw
    · rename_i ha; exact kindsOk_walks as (kindsOk_walk a h ha) hw
    · cases hw
    · cases hw
end

theorem kindsOk_declsMap {E : Env} {depth : Nat} {src : Source} {m : DeclMap} {e : Option Err}
    (h : declsMap E depth src = .ok (m, e)) : KindsOk m := by
  unfold declsMap runParse parseSource at h
  cases hw : walkAst E depth src src.ast ⟨DeclMap.empty, none⟩ with
  | ok s => rw [hw] at h; cases h; exact (kindsOk_walk (s' := s) _ kindsOk_empty hw : KindsOk s.decls)
  | err e => rw [hw] at h; cases h
  | panic => rw [hw] at h; cases h

theorem kindsOk_addSources {E : Env} {depth : Nat} : ∀ (l : List Source) {m m' : DeclMap}, KindsOk m →
    addSources E depth l m = .ok m' → KindsOk m'
  | [], m, m', h, ha => by simp only [addSources] at ha; cases ha; exact h
  | src :: rest, m, m', h, ha => by
    simp only [addSources] at ha
    split at ha
    · cases ha
    · cases ha
    · cases ha
    · rename_i mm hm
      exact kindsOk_addSources rest (kindsOk_join h (kindsOk_declsMap hm)) ha

mutual
theorem walkNode_pres {S : Type} {cb : Disk.WalkFn S} {I : S → Prop} (hcb : ∀ p n s, I s → I (cb p n s).1)
    (path : Str) : ∀ (n : Disk.Node) (s : S), I s → I (Disk.walkNode cb path n s).1
  | .file d b, s, h => by simp only [Disk.walkNode]; exact hcb _ _ _ h
  | .dir d kids, s, h => by
    simp only [Disk.walkNode]
    have := hcb path (.dir d kids) s h
    split
    · rename_i he; rw [he] at this; exact this
    · rename_i he; rw [he] at this; exact walkKids_pres hcb path kids _ this
theorem walkKids_pres {S : Type} {cb : Disk.WalkFn S} {I : S → Prop} (hcb : ∀ p n s, I s → I (cb p n s).1)
    (path : Str) : ∀ (kids : List (Str × Disk.Node)) (s : S), I s → I (Disk.walkKids cb path kids s).1
  | [], s, h => by simp only [Disk.walkKids]; exact h
  | (name, n) :: rest, s, h => by
    simp only [Disk.walkKids]
    have := walkNode_pres hcb (GoPath.join2 path name) n s h
    split
    · rename_i he; rw [he] at this; exact walkKids_pres hcb path rest _ this
    · rename_i he
      rw [he] at this
      split
      · exact walkKids_pres hcb path rest _ this
      · exact this
end

theorem walk_pres {S : Type} {cb : Disk.WalkFn S} {I : S → Prop} (hcb : ∀ p n s, I s → I (cb p n s).1)
    (path : Str) (n : Disk.Node) (s : S) (h : I s) : I (Disk.walk cb path n s).1 := by
  unfold Disk.walk
  have := walkNode_pres hcb path n s h
  split
  · rename_i he; rw [he] at this; exact this
  · exact this

theorem kindsOk_parseIncludes {E : Env} {her : Info} : ∀ (l : List Str) {m m' : DeclMap}, KindsOk m →
    parseIncludes E her l m = .ok m' → KindsOk m'
  | [], m, m', h, hp => by simp only [parseIncludes] at hp; cases hp; exact h
  | i :: is, m, m', h, hp => by
    simp only [parseIncludes] at hp
    split at hp
    · cases hp
    · rename_i d hd
      refine kindsOk_parseIncludes is (kindsOk_append h ?_) hp
      intro x hx
      simp at hx
      subst hx
      unfold newInclude at hd
      split at hd
      · cases hd
      · split at hd
        · split at hd
          · cases hd
          · cases hd; rfl
        · cases hd; rfl

theorem kindsOk_parse {E : Env} {G : GoTool} {disk : Disk.Node} {her : Info} {incl : List Str} {m : DeclMap}
    (h : parse E G disk her incl = .ok m) : KindsOk m := by
  unfold parse at h
  split at h
  · cases h
  · rename_i m0 hm0
    have h0 := kindsOk_parseIncludes incl kindsOk_empty hm0
    split at h
    · cases h
    · cases h
    · rename_i d kids _
      have hI := walk_pres (cb := scanFn (visitDir E G)) (I := fun s : Scan => KindsOk s.decls) (by
        intro p n s hs
        unfold scanFn
        split
        · exact hs
        · split
          · exact hs
          · unfold visitDir
            split
            · exact hs
            · split
              · exact hs
              · split
                · rename_i ha; exact kindsOk_addSources _ hs ha
                · exact hs
                · exact hs) her.dir (.dir d kids) ⟨m0, false⟩ h0
      split at h
      · rename_i he; rw [he] at hI; cases h; exact hI
      · split at h <;> cases h

theorem mem_ordered {m : DeclMap} (h : KindsOk m) {d : Decl} : d ∈ ordered m ↔ d ∈ m d.kind := by
  unfold ordered
  rw [List.mem_flatMap]
  constructor
  · rintro ⟨k, _, hd⟩; rw [h k d hd]; exact hd
  · intro hd; exact ⟨d.kind, by cases d.kind <;> simp [orderedKinds], hd⟩

/-! ### The loop of `Decls.Files` -/

/-- Adding files to the map one after the other. -/
def addAll (m : AMap Str File) (cs : List File) : AMap Str File := cs.foldl (fun m f => AMap.set m f.abs f) m

theorem addFiles_eq (s : FState) : ∀ fs, addFiles s fs = ⟨addAll s.m fs, (fs.map (·.abs)).reverse ++ s.v⟩ := by
  intro fs
  induction fs generalizing s with
  | nil => rfl
  | cons f fs ih => simp [addFiles, ih, addAll]

theorem addAll_append (m : AMap Str File) (a b : List File) : addAll m (a ++ b) = addAll (addAll m a) b := by
  simp [addAll, List.foldl_append]

theorem filer_none {E : Env} {disk : Disk.Node} {d : Decl} :
    filer E disk d = none ↔ d.kind = .mkdirAll ∨ d.kind = .create := by
  unfold filer
  cases d.kind <;> simp

theorem virtualPaths_creates {d : Decl} (h : d.kind = .mkdirAll ∨ d.kind = .create) : virtualPaths d = [d.value] := by
  unfold virtualPaths; rcases h with h | h <;> rw [h]

theorem virtualPaths_other {d : Decl} (h : ¬ (d.kind = .mkdirAll ∨ d.kind = .create)) : virtualPaths d = [] := by
  unfold virtualPaths
  split
  · rename_i hk; exact absurd (Or.inl hk) h
  · rename_i hk; exact absurd (Or.inr hk) h
  · rfl

theorem filesLoop_contributed {E : Env} {disk : Disk.Node} : ∀ (ds : List Decl) {s s' : FState},
    filesLoop E disk ds s = .ok s' → ∃ cs, Contributed E disk ds s.v cs ∧ s'.m = addAll s.m cs
  | [], s, s', h => by simp only [filesLoop] at h; cases h; exact ⟨[], .nil _, rfl⟩
  | d :: ds, s, s', h => by
    simp only [filesLoop] at h
    split at h
    · rename_i hf
      have hk := filer_none.mp hf
      obtain ⟨cs, h1, h2⟩ := filesLoop_contributed ds h
      rw [virtualPaths_creates hk] at h1
      exact ⟨cs, .creates hk h1, h2⟩
    · rename_i fl hf
      have hk : ¬ (d.kind = .mkdirAll ∨ d.kind = .create) := by
        intro hk; rw [filer_none.mpr hk] at hf; cases hf
      rw [virtualPaths_other hk] at h
      split at h
      · cases h
      · rename_i fs hfs
        obtain ⟨cs, h1, h2⟩ := filesLoop_contributed ds h
        rw [addFiles_eq] at h1 h2
        refine ⟨fs ++ cs, .names hf hfs h1, ?_⟩
        rw [h2, addAll_append]

theorem nodup_addAll {m : AMap Str File} (h : AMap.Nodup m) : ∀ cs, AMap.Nodup (addAll m cs) := by
  intro cs
  induction cs generalizing m with
  | nil => exact h
  | cons c cs ih => exact ih (AMap.nodup_set _ _ h)

theorem get_addAll (m : AMap Str File) (cs : List File) (k : Str) :
    AMap.get (addAll m cs) k =
      match cs.reverse.find? (fun f => f.abs == k) with
      | some f => some f
      | none => AMap.get m k := by
  induction cs generalizing m with
  | nil => rfl
  | cons c cs ih =>
    show AMap.get (addAll (AMap.set m c.abs c) cs) k = _
    rw [ih, List.reverse_cons, List.find?_append]
    cases hf : cs.reverse.find? (fun f => f.abs == k) with
    | some f => simp
    | none =>
      simp only [Option.none_or]
      rw [AMap.get_set]
      by_cases hk : k = c.abs
      · subst hk; simp
      · have hk' : ¬ c.abs = k := fun h => hk h.symm
        simp [hk, hk']

theorem mem_addAll_key {cs : List File} {k : Str} {f : File} (h : (k, f) ∈ addAll [] cs) : f.abs = k := by
  have hn : AMap.Nodup (addAll [] cs) := nodup_addAll (by simp [AMap.Nodup, AMap.keys]) cs
  have hg := AMap.get_of_mem hn h
  rw [get_addAll] at hg
  split at hg
  · rename_i x hx
    cases hg
    have := List.find?_some hx
    simpa using this
  · simp at hg

theorem lastOf_of_find {cs : List File} {g : File} (h : cs.reverse.find? (fun f => f.abs == g.abs) = some g) :
    LastOf cs g := by
  rw [List.find?_eq_some_iff_append] at h
  obtain ⟨_, as, bs, hab, hne⟩ := h
  refine ⟨bs.reverse, as.reverse, ?_, ?_⟩
  · have := congrArg List.reverse hab
    simpa using this
  · intro x hx
    have := hne x (by simpa using hx)
    simpa using this

end Parser
end Verif
