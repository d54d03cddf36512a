import Verif.Lemmas.Parser
import Verif.Spec.ParserDemo

/-! C37, C38, C39: from declarations to the list of files. -/

namespace Verif
namespace Props

open Parser Spec

/-- **C38**. The list `Decls.Files` returns has one entry per name on disk, is sorted by package path, consists of
contributed files (the last one contributed for its name on disk), and has an entry for every contributed file. -/
theorem C38_files_list {E : Env} {disk : Disk.Node} {sort : List File → List File} (hs : Sorts sort)
    {ds : List Decl} {out : List File} (h : files E disk sort ds = .ok out) :
    ∃ cs, Contributed E disk ds [] cs ∧
      (out.map (·.abs)).Nodup ∧
      (out.Pairwise fun f g => Str.lt g.path.str f.path.str = false) ∧
      (∀ f ∈ cs, ∃ g ∈ out, g.abs = f.abs) ∧
      (∀ g ∈ out, LastOf cs g) := by
  unfold files at h
  split at h
  · cases h
  · rename_i s hl
    cases h
    obtain ⟨cs, hc, hm⟩ := filesLoop_contributed ds hl
    simp only at hm
    have hn : AMap.Nodup (addAll [] cs) := nodup_addAll (by simp [AMap.Nodup, AMap.keys]) cs
    have hp := (hs (s.m.map (·.2))).1
    rw [hm] at hp ⊢
    refine ⟨cs, hc, ?_, (hs _).2, ?_, ?_⟩
    · have hk : ((addAll [] cs).map (·.2)).map (·.abs) = AMap.keys (addAll [] cs) := by
        rw [List.map_map]
        apply List.map_congr_left
        rintro ⟨k, f⟩ hkf
        exact mem_addAll_key hkf
      rw [(hp.map (·.abs)).nodup_iff, hk]
      exact hn
    · intro f hf
      have hg := get_addAll [] cs f.abs
      cases hfind : cs.reverse.find? (fun x => x.abs == f.abs) with
      | none =>
        rw [List.find?_eq_none] at hfind
        exact absurd (by simp) (hfind f (by simpa using hf))
      | some g =>
        rw [hfind] at hg
        have hm := AMap.get_mem hg
        refine ⟨g, hp.mem_iff.mpr (List.mem_map.mpr ⟨_, hm, rfl⟩), mem_addAll_key hm⟩
    · intro g hg
      obtain ⟨⟨k, f⟩, hkf, rfl⟩ := List.mem_map.mp (hp.mem_iff.mp hg)
      have hk := mem_addAll_key hkf
      subst hk
      have hg := AMap.get_of_mem hn hkf
      rw [get_addAll] at hg
      apply lastOf_of_find
      split at hg
      · rename_i x hx; cases hg; exact hx
      · simp at hg

/-- The declarations of the demo program `pkger.Open("/assets/b.txt"); pkger.Walk("/assets", …)`. -/
def demoDecls : List Decl :=
  [⟨.open, ⟨b! "/src/app/assets/b.txt", ⟨b! "app", b! "/assets/b.txt"⟩, Demo.info⟩, b! "/assets/b.txt"⟩,
   ⟨.walk, ⟨b! "/src/app/assets", ⟨b! "app", b! "/assets"⟩, Demo.info⟩, b! "/assets"⟩]

/-- A concrete case of C38: three files are listed, one of them contributed twice. -/
example : Sorts Demo.sortFiles ∧ (files Demo.env Demo.disk1 Demo.sortFiles demoDecls).toOption.map (·.map (·.path.name)) =
    some [b! "/assets", b! "/assets/a.txt", b! "/assets/b.txt"] :=
  ⟨Demo.sortFiles_sorts, by decide +kernel⟩

/-- **C39** where different files have different package paths (missing: C39 without that condition, which is false,
see `C39_nested_module_refuted`): the list of files does not depend on the order in which Go ranges over the map. -/
theorem C39_map_order_partial {E : Env} {disk : Disk.Node} {sort sort' : List File → List File} (hs : Sorts sort)
    (hs' : Sorts sort') {ds : List Decl}
    (hd : ∀ cs, Contributed E disk ds [] cs → ∀ f ∈ cs, ∀ g ∈ cs, f.path.str = g.path.str → f.abs = g.abs) :
    files E disk sort ds = files E disk sort' ds := by
  unfold files
  cases hl : filesLoop E disk ds ⟨[], []⟩ with
  | error e => rfl
  | ok s =>
    simp only
    obtain ⟨cs, hc, hm⟩ := filesLoop_contributed ds hl
    simp only at hm
    have hn : AMap.Nodup (addAll [] cs) := nodup_addAll (by simp [AMap.Nodup, AMap.keys]) cs
    have hmem : ∀ f ∈ s.m.map (·.2), f ∈ cs ∧ AMap.get s.m f.abs = some f := by
      intro f hf
      obtain ⟨⟨k, g⟩, hkg, rfl⟩ := List.mem_map.mp hf
      rw [hm] at hkg ⊢
      have hk := mem_addAll_key hkg
      subst hk
      have hg := AMap.get_of_mem hn hkg
      refine ⟨?_, hg⟩
      rw [get_addAll] at hg
      split at hg
      · rename_i x hx; cases hg
        simpa using List.mem_of_find?_eq_some hx
      · simp at hg
    have hle : ∀ l : List File, l.Pairwise (fun f g => Str.lt g.path.str f.path.str = false) →
        l.Pairwise (fun f g => Str.le f.path.str g.path.str = true) := by
      intro l h
      exact h.imp (by intro a b hab; simpa [Str.lt] using hab)
    congr 1
    refine sorted_perm_unique (fun f : File => f.path.str) ?_ (hle _ (hs _).2) (hle _ (hs' _).2)
      ((hs _).1.trans (hs' _).1.symm)
    intro f hf g hg hfg
    have hf' := hmem f ((hs _).1.mem_iff.mp hf)
    have hg' := hmem g ((hs _).1.mem_iff.mp hg)
    have habs := hd cs hc f hf'.1 g hg'.1 hfg
    have h1 := hf'.2
    rw [habs, hg'.2] at h1
    cases h1
    rfl

/-- The files of one successful run of the loop are the only ones contributed. -/
theorem contributed_unique {E : Env} {disk : Disk.Node} {ds : List Decl} {v : List Str} {cs cs' : List File}
    (h : Contributed E disk ds v cs) (h' : Contributed E disk ds v cs') : cs = cs' := by
  induction h generalizing cs' with
  | nil v => cases h'; rfl
  | creates hk _ ih =>
    cases h' with
    | creates _ h' => exact ih h'
    | names hf _ _ => rw [filer_none.mpr hk] at hf; cases hf
  | names hf hfl _ ih =>
    cases h' with
    | creates hk _ => rw [filer_none.mpr hk] at hf; cases hf
    | names hf' hfl' h' =>
      rw [hf] at hf'
      cases hf'
      rw [hfl] at hfl'
      cases hfl'
      rw [ih h']

/-- A file of the demo module. -/
def demoFile (name : Str) : File := ⟨b! "/src/app" ++ name, ⟨b! "app", name⟩, Demo.info⟩

/-- A concrete case of C39: the condition holds of the demo program, which contributes four files. -/
example : ∀ cs, Contributed Demo.env Demo.disk1 demoDecls [] cs →
    cs.length = 4 ∧ ∀ f ∈ cs, ∀ g ∈ cs, f.path.str = g.path.str → f.abs = g.abs := by
  intro cs h
  have h1 : openFiles Demo.env Demo.disk1 (fun x => ([] : List Str).contains x) ⟨.open, demoFile (b! "/assets/b.txt"), b! "/assets/b.txt"⟩ =
      .ok [demoFile (b! "/assets/b.txt")] := by decide +kernel
  have h2 : walkFiles Demo.env Demo.disk1 (fun x => (([demoFile (b! "/assets/b.txt")].map File.abs).reverse ++ []).contains x)
      ⟨.walk, demoFile (b! "/assets"), b! "/assets"⟩ =
      .ok [demoFile (b! "/assets"), demoFile (b! "/assets/a.txt"), demoFile (b! "/assets/b.txt")] := by decide +kernel
  have hd : demoDecls = [⟨.open, demoFile (b! "/assets/b.txt"), b! "/assets/b.txt"⟩,
      ⟨.walk, demoFile (b! "/assets"), b! "/assets"⟩] := by decide +kernel
  rw [hd] at h
  rw [contributed_unique h (.names (by unfold filer; rfl) h1 (.names (by unfold filer; rfl) h2 (.nil _)))]
  decide +kernel

end Props
end Verif
