import Verif.Model.Here

/-!
A reconstruction, from memory, of `Info.Parse` of `github.com/gobuffalo/here` v0.6.0, and a proof that
it satisfies `ParseLaws`.  No property theorem depends on this file; it shows that the laws can hold
and drives the concrete examples.

```go
var pathrx = regexp.MustCompile("([^:]+)(:(/.+))?")

func (i Info) Parse(p string) (Path, error) {
	p = strings.TrimSpace(p)
	p = filepath.Clean(p)
	p = strings.TrimPrefix(p, i.Dir)
	p = strings.Replace(p, "\\", "/", -1)
	p = strings.TrimSpace(p)
	if len(p) == 0 || p == ":" || p == "." {
		return i.build("", "", "")
	}
	res := pathrx.FindAllStringSubmatch(p, -1)
	if len(res) == 0 { return Path{}, fmt.Errorf("could not parse %q", p) }
	matches := res[0]
	return i.build(p, matches[1], matches[3])
}

func (i Info) build(p, pkg, name string) (Path, error) {
	pt := Path{Pkg: pkg, Name: name}
	if strings.HasPrefix(pt.Pkg, "/") || len(pt.Pkg) == 0 {
		pt.Name = pt.Pkg
		pt.Pkg = i.Module.Path
	}
	if len(pt.Name) == 0 { pt.Name = "/" }
	if pt.Pkg == pt.Name { pt.Pkg = i.Module.Path; pt.Name = "/" }
	if !strings.HasPrefix(pt.Name, "/") { pt.Name = "/" + pt.Name }
	pt.Name = strings.TrimPrefix(pt.Name, i.Dir)
	return pt, nil
}
```
-/

namespace Verif
namespace HereParse

open Str GoPath

/-- The sub-matches 1 and 3 of the first match of `([^:]+)(:(/.+))?`. -/
def submatch (s : Str) : Option (Str × Str) :=
  let s1 := s.dropWhile (· == colon)
  let m1 := s1.takeWhile (· != colon)
  if m1 = [] then none
  else
    match s1.drop m1.length with
    | c :: d :: rest =>
      let run := rest.takeWhile (· != newline)
      if c = colon ∧ d = slash ∧ run ≠ [] then some (m1, slash :: run) else some (m1, [])
    | _ => some (m1, [])

/-- `Info.build`. -/
def build (i : Info) (pkg name : Str) : Path :=
  let p1 : Path := if hasPrefix pkg rootS ∨ pkg = [] then ⟨i.module.path, pkg⟩ else ⟨pkg, name⟩
  let p2 : Path := if p1.name = [] then ⟨p1.pkg, rootS⟩ else p1
  let p3 : Path := if p2.pkg = p2.name then ⟨i.module.path, rootS⟩ else p2
  let p4 : Path := if hasPrefix p3.name rootS then p3 else ⟨p3.pkg, slash :: p3.name⟩
  ⟨p4.pkg, trimPrefix p4.name i.dir⟩

/-- `Info.Parse`. -/
def parse (i : Info) (s : Str) : Except Err Path :=
  let p := trimSpace (replaceByte (trimPrefix (clean (trimSpace s)) i.dir) backslash slash)
  if p = [] ∨ p = [colon] ∨ p = dotS then .ok (build i [] [])
  else
    match submatch p with
    | none => .error .parse
    | some (pkg, name) => .ok (build i pkg name)

theorem takeWhile_noColon {s : Str} (h : colon ∉ s) : s.takeWhile (· != colon) = s := by
  induction s with
  | nil => rfl
  | cons a as ih =>
    simp only [List.mem_cons, not_or] at h
    rw [List.takeWhile_cons_of_pos (by simpa using fun e => h.1 e.symm), ih h.2]

theorem submatch_noColon {s : Str} (hne : s ≠ []) (h : colon ∉ s) : submatch s = some (s, []) := by
  have h1 : s.dropWhile (· == colon) = s := by
    cases s with
    | nil => rfl
    | cons a as =>
      simp only [List.mem_cons, not_or] at h
      exact List.dropWhile_cons_of_neg (by simpa using fun e => h.1 e.symm)
  unfold submatch
  simp only [h1, takeWhile_noColon h, hne, if_false, List.drop_length]

theorem submatch_qualified {p r : Str} (hne : p ≠ []) (h : colon ∉ p) (hr : r ≠ [])
    (hnl : newline ∉ r) : submatch (p ++ colon :: slash :: r) = some (p, slash :: r) := by
  have h1 : (p ++ colon :: slash :: r).dropWhile (· == colon) = p ++ colon :: slash :: r := by
    cases p with
    | nil => exact absurd rfl hne
    | cons a as =>
      simp only [List.mem_cons, not_or] at h
      exact List.dropWhile_cons_of_neg (by simpa using fun e => h.1 e.symm)
  have h2 : (p ++ colon :: slash :: r).takeWhile (· != colon) = p := by
    rw [List.takeWhile_append_of_pos (by
      intro a ha; simp only [bne_iff_ne, ne_eq]; intro e; rw [e] at ha; exact h ha)]
    simp
  have h3 : r.takeWhile (· != newline) = r := by
    have := List.takeWhile_append_of_pos (p := (· != newline)) (l₁ := r) (l₂ := []) (by
      intro a ha; simp only [bne_iff_ne, ne_eq]; intro e; rw [e] at ha; exact hnl ha)
    simpa using this
  unfold submatch
  simp only [h1, h2, hne, if_false, List.drop_left, h3]
  simp [hr]

theorem submatch_trailing {p : Str} (hne : p ≠ []) (h : colon ∉ p) :
    submatch (p ++ [colon]) = some (p, []) := by
  have h1 : (p ++ [colon]).dropWhile (· == colon) = p ++ [colon] := by
    cases p with
    | nil => exact absurd rfl hne
    | cons a as =>
      simp only [List.mem_cons, not_or] at h
      exact List.dropWhile_cons_of_neg (by simpa using fun e => h.1 e.symm)
  have h2 : (p ++ [colon]).takeWhile (· != colon) = p := by
    rw [List.takeWhile_append_of_pos (by
      intro a ha; simp only [bne_iff_ne, ne_eq]; intro e; rw [e] at ha; exact h ha)]
    simp
  unfold submatch
  simp only [h1, h2, hne, if_false, List.drop_left]

theorem mem_joinSlash {cs : List Str} {x : UInt8} (h : x ∈ joinSlash cs) :
    x = slash ∨ ∃ w ∈ cs, x ∈ w := by
  induction cs with
  | nil => simp [joinSlash] at h
  | cons w ws ih =>
    cases ws with
    | nil => exact Or.inr ⟨w, by simp, h⟩
    | cons v vs =>
      simp only [joinSlash, List.mem_append, List.mem_cons] at h
      rcases h with h | h | h
      · exact Or.inr ⟨w, by simp, h⟩
      · exact Or.inl h
      · rcases ih (by simpa [joinSlash] using h) with h | ⟨z, hz, h⟩
        · exact Or.inl h
        · exact Or.inr ⟨z, List.mem_cons_of_mem _ hz, h⟩

theorem mk_notMem {cs : List Str} {x : UInt8} (hx : x ≠ slash) (h : ∀ w ∈ cs, x ∉ w) :
    x ∉ mk cs := by
  intro hm
  simp only [mk, List.mem_cons] at hm
  rcases hm with hm | hm
  · exact hx hm
  · rcases mem_joinSlash hm with hm | ⟨w, hw, hm⟩
    · exact hx hm
    · exact h w hw hm

theorem endsInSpace_joinSlash {cs : List Str} (hne : cs ≠ []) (h : ∀ w ∈ cs, ¬ EndsInSpace w) :
    ¬ EndsInSpace (joinSlash cs) := by
  induction cs with
  | nil => exact absurd rfl hne
  | cons w ws ih =>
    cases ws with
    | nil => exact h w (by simp)
    | cons v vs =>
      intro he
      simp only [joinSlash] at he
      exact ih (by simp) (fun x hx => h x (List.mem_cons_of_mem _ hx)) (endsInSpace_after_slash he)

theorem endsInSpace_mk {cs : List Str} (h : ∀ w ∈ cs, ¬ EndsInSpace w) : ¬ EndsInSpace (mk cs) := by
  intro he
  have he' := endsInSpace_after_slash (a := []) he
  by_cases hne : cs = []
  · subst hne; exact not_endsInSpace_nil he'
  · exact endsInSpace_joinSlash hne h he'

theorem startsInSpace_mk (cs : List Str) : ¬ StartsInSpace (mk cs) := not_startsInSpace_slash _

theorem endsInSpace_rooted {s : Str} (h : ∀ w ∈ splitSlash s, ¬ EndsInSpace w) : ¬ EndsInSpace s := by
  have := endsInSpace_joinSlash (splitSlash_ne_nil s) h
  rwa [joinSlash_splitSlash] at this

theorem mem_rootedElems {s w : Str} (h : w ∈ rootedElems s) : w ∈ splitSlash s := by
  have key : ∀ (l st : List Str), w ∈ l.foldl stepRooted st → w ∈ l ∨ w ∈ st := by
    intro l
    induction l with
    | nil => intro st h; exact Or.inr h
    | cons a as ih =>
      intro st h
      rcases ih _ h with h | h
      · exact Or.inl (List.mem_cons_of_mem _ h)
      · unfold stepRooted at h
        split at h
        · exact Or.inr (List.mem_of_mem_tail h)
        · rcases List.mem_cons.mp h with h | h
          · exact Or.inl (by simp [h])
          · exact Or.inr h
  unfold rootedElems at h
  rw [List.mem_reverse] at h
  rcases key _ _ h with h | h
  · unfold elems at h; exact (List.mem_filter.mp h).1
  · simp at h

/-- `build` on a rooted clean name. -/
theorem build_rooted {i : Info} {cs : List Str} (hi : PlainPkg i.module.path)
    (hc : Clear i (mk cs)) : build i (mk cs) [] = ⟨i.module.path, mk cs⟩ := by
  have hp : hasPrefix (mk cs) rootS = true := by
    rw [hasPrefix_iff]; exact ⟨joinSlash cs, rfl⟩
  have hne : i.module.path ≠ mk cs := by
    intro e
    obtain ⟨h1, h2, h3, _⟩ := hi
    cases hel : elems i.module.path with
    | nil => exact h1 hel
    | cons w ws =>
      rw [hel] at h2 h3
      have hw := (h3 w (by simp)).1
      cases w with
      | nil => exact hw.1 rfl
      | cons x xs =>
        have hx : x ≠ slash := fun e => hw.2.1 (by simp [e])
        rw [h2] at e
        cases ws with
        | nil => simp [joinSlash, mk, hx] at e
        | cons v vs => simp [joinSlash, mk, hx] at e
  have hmk : mk cs ≠ [] := by simp [mk]
  simp only [build, hp, true_or, if_true, hmk, if_false, hne, hc.trim]

theorem plainPkg_facts {p : Str} (h : PlainPkg p) :
    p ≠ [] ∧ colon ∉ p ∧ backslash ∉ p ∧ ¬ hasPrefix p rootS = true ∧ ¬ StartsInSpace p := by
  obtain ⟨h1, h2, h3, h4⟩ := h
  have hno : ∀ x : UInt8, x ≠ slash → (∀ w ∈ elems p, x ∉ w) → x ∉ p := by
    intro x hx hw hm
    rw [h2] at hm
    rcases mem_joinSlash hm with hm | ⟨w, hw', hm⟩
    · exact hx hm
    · exact hw w hw' hm
  have hne : p ≠ [] := by
    intro e; rw [e] at h1; exact h1 rfl
  refine ⟨hne, hno colon (by decide) (fun w hw => (h3 w hw).2.1),
    hno backslash (by decide) (fun w hw => (h3 w hw).2.2.1), ?_, h4⟩
  rw [hasPrefix_iff]
  intro hp
  obtain ⟨t, ht⟩ := hp
  cases hel : elems p with
  | nil => exact h1 hel
  | cons w ws =>
    rw [hel] at h2 h3
    have hw := (h3 w (by simp)).1
    cases w with
    | nil => exact hw.1 rfl
    | cons x xs =>
      have hx : x ≠ slash := fun e => hw.2.1 (by simp [e])
      rw [← ht] at h2
      cases ws with
      | nil => simp only [joinSlash, rootS, List.cons_append, List.nil_append, List.cons.injEq] at h2
               exact hx h2.1.symm
      | cons v vs =>
        simp only [joinSlash, rootS, List.cons_append, List.nil_append, List.cons.injEq] at h2
        exact hx h2.1.symm

/-- What `Parse` does after cleaning, on a clean rooted name. -/
theorem parse_tail {i : Info} {cs : List Str} (hi : PlainPkg i.module.path) (hc : Clear i (mk cs))
    (h : ∀ w ∈ cs, colon ∉ w ∧ backslash ∉ w ∧ ¬ EndsInSpace w) (p : Str) (hp : p = mk cs) :
    (let p := trimSpace (replaceByte p backslash slash)
     if p = [] ∨ p = [colon] ∨ p = dotS then Except.ok (build i [] [])
     else match submatch p with
      | none => .error .parse
      | some (pkg, name) => .ok (build i pkg name)) = (.ok ⟨i.module.path, mk cs⟩ : Except Err Path) := by
  subst hp
  have hcol : colon ∉ mk cs := mk_notMem (by decide) (fun w hw => (h w hw).1)
  have hbs : backslash ∉ mk cs := mk_notMem (by decide) (fun w hw => (h w hw).2.1)
  have hsp : trimSpace (mk cs) = mk cs :=
    trimSpace_id (startsInSpace_mk cs) (endsInSpace_mk (fun w hw => (h w hw).2.2))
  have hmk : mk cs ≠ [] := by simp [mk]
  have hmk2 : mk cs ≠ [colon] := by simp [mk]
  have hmk3 : mk cs ≠ dotS := by simp [mk]
  simp only [replaceByte_of_notMem hbs, hsp, hmk, hmk2, hmk3, or_self, if_false,
    submatch_noColon hmk hcol, build_rooted hi hc]

theorem foldl_stepRel_good {cs : List Str} (h : ∀ w ∈ cs, w ≠ dotdotS) (st : List Str) :
    cs.foldl stepRel st = cs.reverse ++ st := by
  induction cs generalizing st with
  | nil => rfl
  | cons w ws ih =>
    simp only [List.foldl_cons, List.reverse_cons, List.append_assoc]
    rw [ih (fun x hx => h x (List.mem_cons_of_mem _ hx))]
    simp [stepRel, h w (by simp)]

theorem clean_rel_good {cs : List Str} (hne : cs ≠ []) (h : Good cs)
    (s : Str) (hr : rooted s = false) (he : elems s = cs) : clean s = joinSlash cs := by
  unfold clean
  simp only [hr, he, Bool.false_eq_true, if_false]
  rw [foldl_stepRel_good (fun w hw => (h w hw).2.2.2)]
  cases hc : (cs.reverse ++ []).reverse with
  | nil => simp at hc; exact absurd hc hne
  | cons a as => simp only [← hc]; simp

theorem elems_qualified {pkg : Str} {cs : List Str} (hp : PlainPkg pkg) (hcs : Good cs) :
    ∃ qs, Good qs ∧ qs ≠ [] ∧ joinSlash qs = pkg ++ [colon] ∧
      elems (pkg ++ colon :: mk cs) = qs ++ cs := by
  obtain ⟨h1, h2, h3, h4⟩ := hp
  obtain ⟨ps, c, hpc⟩ : ∃ ps c, elems pkg = ps ++ [c] := by
    exact ⟨_, _, (List.dropLast_concat_getLast h1).symm⟩
  rw [hpc] at h2 h3
  have hgp : Good (ps ++ [c]) := h3.good
  have hc := (good_append.mp hgp).2 c (by simp)
  have hcc : GoodElem (c ++ [colon]) := by
    refine ⟨by simp, ?_, ?_, ?_⟩
    · simp only [List.mem_append, List.mem_singleton, not_or]
      exact ⟨hc.2.1, by decide⟩
    · intro e
      have := congrArg List.getLast? e
      simp at this
    · intro e
      have := congrArg List.getLast? e
      simp at this
  have hg : Good (ps ++ [c ++ [colon]]) := by
    rw [good_append]
    refine ⟨(good_append.mp hgp).1, ?_⟩
    rw [good_cons]; exact ⟨hcc, good_nil⟩
  have hj : joinSlash (ps ++ [c ++ [colon]]) = pkg ++ [colon] := by
    rw [h2]
    by_cases hps : ps = []
    · subst hps; simp [joinSlash]
    · rw [joinSlash_append hps (by simp), joinSlash_append hps (by simp)]
      simp [joinSlash]
  refine ⟨ps ++ [c ++ [colon]], hg, by simp, hj, ?_⟩
  have : pkg ++ colon :: mk cs = joinSlash (ps ++ [c ++ [colon]]) ++ slash :: joinSlash cs := by
    rw [hj, mk]; simp
  rw [this, elems_append_slash, elems_joinSlash hg, elems_joinSlash hcs]

/-- What `Parse` makes of `pkg:/a/b`. -/
theorem parse_qualified_raw {i : Info} {pkg : Str} {cs : List Str} (hd : i.dir = [] ∨ ∃ ds, i.dir = mk ds)
    (hp : PlainPkg pkg) (hcs : Plain cs) :
    parse i (pkg ++ colon :: mk cs) = .ok ⟨pkg, trimPrefix (mk cs) i.dir⟩ := by
  obtain ⟨qs, hqs, hqne, hj, hel⟩ := elems_qualified hp hcs.good
  obtain ⟨hpne, hpcol, hpbs, hproot, hpsp⟩ := plainPkg_facts hp
  obtain ⟨x, xs, hx⟩ : ∃ x xs, pkg = x :: xs := by
    cases hpk : pkg with
    | nil => exact absurd hpk hpne
    | cons x xs => exact ⟨x, xs, rfl⟩
  have hxs : x ≠ slash := by
    intro e; apply hproot; rw [hasPrefix_iff, hx, e]; exact ⟨xs, rfl⟩
  have hss : ∀ t, ¬ StartsInSpace (pkg ++ colon :: t) := by
    rintro t ⟨q, hq, hpre⟩
    have hqs' := spaceSeqs_no_sep q hq
    have hpp : pkg <+: pkg ++ colon :: t := ⟨_, rfl⟩
    by_cases hl : q.length ≤ pkg.length
    · exact hpsp ⟨q, hq, List.prefix_of_prefix_length_le hpre hpp hl⟩
    · have : (pkg ++ [colon]) <+: q :=
        List.prefix_of_prefix_length_le (⟨t, by simp⟩ : (pkg ++ [colon]) <+: pkg ++ colon :: t) hpre
          (by simp; omega)
      exact hqs'.2.1 (this.subset (by simp))
  have hes : ¬ EndsInSpace (pkg ++ colon :: mk cs) := by
    intro he
    exact endsInSpace_mk (fun w hw => (hcs w hw).2.2.2.2) (endsInSpace_after_colon he)
  have hclean : clean (pkg ++ colon :: mk cs) = joinSlash (qs ++ cs) := by
    refine clean_rel_good (by simp [hqne]) (good_append.mpr ⟨hqs, hcs.good⟩) _ ?_ hel
    rw [hx]; simp only [rooted, List.cons_append, List.head?_cons]
    simpa using hxs
  have hres : clean (pkg ++ colon :: mk cs) = if cs = [] then pkg ++ [colon] else pkg ++ colon :: mk cs := by
    rw [hclean]
    by_cases hcn : cs = []
    · simp [hcn, hj]
    · rw [if_neg hcn, joinSlash_append hqne hcn, hj, mk]; simp
  have htrim : ∀ t, trimPrefix (pkg ++ colon :: t) i.dir = pkg ++ colon :: t := by
    intro t
    rcases hd with hd | ⟨ds, hd⟩
    · simp [hd]
    · apply trimPrefix_of_not_prefix
      rintro ⟨u, hu⟩
      rw [hd, mk, hx] at hu
      simp only [List.cons_append, List.cons.injEq] at hu
      exact hxs hu.1.symm
  have hbuild : ∀ name, name = [] ∧ cs = [] ∨ name = mk cs → build i pkg name = ⟨pkg, trimPrefix (mk cs) i.dir⟩ := by
    intro name hname
    have hpm : pkg ≠ mk cs := by
      intro e; apply hproot; rw [hasPrefix_iff, e]; exact ⟨_, rfl⟩
    have hpr : hasPrefix (mk cs) rootS = true := by
      rw [hasPrefix_iff]; exact ⟨joinSlash cs, rfl⟩
    have hmk : mk cs ≠ [] := by simp [mk]
    rcases hname with ⟨rfl, hcn⟩ | rfl
    · subst hcn
      rw [mk_nil] at hpm hpr ⊢
      simp only [build, hproot, hpne, Bool.false_eq_true, or_self, if_false, if_true, hpm, hpr]
    · simp only [build, hproot, hpne, Bool.false_eq_true, or_self, if_false, hmk, hpm, hpr, if_true]
  unfold parse
  rw [trimSpace_id (hss _) hes, hres]
  by_cases hcn : cs = []
  · rw [if_pos hcn, show pkg ++ [colon] = pkg ++ colon :: [] from rfl, htrim]
    have hbs : backslash ∉ pkg ++ colon :: [] := by
      simp only [List.mem_append, List.mem_singleton, not_or]; exact ⟨hpbs, by decide⟩
    have hes' : ¬ EndsInSpace (pkg ++ colon :: []) := fun he =>
      not_endsInSpace_nil (endsInSpace_after_colon he)
    have g1 : pkg ++ [colon] ≠ [] := by simp
    have g2 : pkg ++ [colon] ≠ [colon] := by simp [hpne]
    have g3 : pkg ++ [colon] ≠ dotS := by
      intro e; have := congrArg List.getLast? e; simp at this
    simp only [replaceByte_of_notMem hbs, trimSpace_id (hss _) hes', g1, g2, g3, or_self, if_false,
      submatch_trailing hpne hpcol]
    rw [hbuild [] (Or.inl ⟨rfl, hcn⟩)]
  · rw [if_neg hcn, htrim]
    have hbs : backslash ∉ pkg ++ colon :: mk cs := by
      simp only [List.mem_append, List.mem_cons, not_or]
      exact ⟨hpbs, by decide, mk_notMem (by decide) (fun w hw => (hcs w hw).2.2.1)⟩
    have hjne : joinSlash cs ≠ [] := joinSlash_ne_nil hcn (fun w hw => (hcs w hw).1.1)
    have hnl : newline ∉ joinSlash cs := by
      have : newline ∉ mk cs := mk_notMem (by decide) (fun w hw => (hcs w hw).2.2.2.1)
      intro h; apply this; simp [mk, h]
    have g1 : pkg ++ colon :: mk cs ≠ [] := by simp
    have g2 : pkg ++ colon :: mk cs ≠ [colon] := by
      rw [hx]; simp
    have g3 : pkg ++ colon :: mk cs ≠ dotS := by
      rw [hx]; simp [mk]
    have hsub := submatch_qualified hpne hpcol hjne hnl
    simp only [replaceByte_of_notMem hbs, trimSpace_id (hss _) hes, g1, g2, g3, or_self, if_false]
    rw [show pkg ++ colon :: mk cs = pkg ++ colon :: slash :: joinSlash cs from rfl, hsub]
    simp only
    rw [hbuild (slash :: joinSlash cs) (Or.inr rfl)]

/-- The environment whose `Parse` is the reconstruction; the other members are left open. -/
def env (dirInfo pkgInfo : Str → Except Err Info) (gzip : Str → Str)
    (gunzip : Str → Except Err Str) : Env := ⟨parse, dirInfo, pkgInfo, gzip, gunzip⟩

/-- The reconstruction satisfies the assumed laws. -/
theorem lawful {i : Info} (hi : InfoOk i) (d p g u) : ParseLaws (env d p g u) i where
  rooted := by
    intro s hr hw hc
    have hsp : trimSpace s = s := by
      obtain ⟨t, rfl⟩ := (rooted_iff s).mp hr
      exact trimSpace_id (not_startsInSpace_slash t) (endsInSpace_rooted (fun w h => (hw w h).2.2))
    have hcl := clean_of_rooted hr
    show parse i s = _
    unfold parse
    rw [hsp, hc.trim, hcl]
    rw [hcl] at hc
    exact parse_tail hi.modulePlain hc (fun w h => hw w (mem_rootedElems h)) _ rfl
  qualified := by
    intro pkg cs hp hcs hc
    have hd : i.dir = [] ∨ ∃ ds, i.dir = mk ds := by
      rcases hi.dirOk with h | ⟨ds, _, _, h⟩
      · exact Or.inl h
      · exact Or.inr ⟨ds, h⟩
    have := parse_qualified_raw (i := i) hd hp hcs
    rw [hc.trim] at this
    exact this
  absolute := by
    intro cs hdne hcs hc
    rcases hi.dirOk with h | ⟨ds, hdsne, hds, hdir⟩
    · exact absurd h hdne
    · have hall : Plain (ds ++ cs) := plain_append.mpr ⟨hds, hcs⟩
      show parse i (join2 i.dir (mk cs)) = _
      rw [hdir, join2_mk hds.good hcs.good]
      unfold parse
      rw [trimSpace_id (startsInSpace_mk _) (endsInSpace_mk (fun w hw => (hall w hw).2.2.2.2)),
        clean_mk hall.good]
      by_cases hcn : cs = []
      · subst hcn
        rw [List.append_nil, hdir, show trimPrefix (mk ds) (mk ds) = [] by
          have := trimPrefix_append (mk ds) []; simpa using this]
        have h1 : trimSpace (replaceByte [] backslash slash) = [] := by decide
        simp only [h1, true_or, if_true]
        congr 1
        have hmne : i.module.path ≠ rootS := by
          intro e
          have := (plainPkg_facts hi.modulePlain).2.2.2.1
          rw [e] at this; exact this (by decide)
        have hp1 : hasPrefix rootS rootS = true := by decide
        have hmd : trimPrefix rootS i.dir = rootS := hc.trim
        simp only [build, or_true, if_true, hmne, if_false, hp1, hmd, mk_nil]
      · rw [hdir, mk_append hdsne hcn, trimPrefix_append]
        exact parse_tail hi.modulePlain hc
          (fun w hw => ⟨(hcs w hw).2.1, (hcs w hw).2.2.1, (hcs w hw).2.2.2.2⟩) _ rfl
  empty := by
    intro hc
    have h0 : trimPrefix (clean (trimSpace [])) i.dir = dotS := by
      have h1 : clean (trimSpace []) = dotS := by decide
      rw [h1]
      rcases hi.dirOk with h | ⟨ds, _, _, h⟩
      · rw [h]; exact trimPrefix_nil _
      · rw [h]
        apply trimPrefix_of_not_prefix
        rintro ⟨t, ht⟩
        simp [mk, dotS] at ht
    have hmne : i.module.path ≠ rootS := by
      intro e
      have := (plainPkg_facts hi.modulePlain).2.2.2.1
      rw [e] at this; exact this (by decide)
    have hp1 : hasPrefix rootS rootS = true := by decide
    have hmd : trimPrefix rootS i.dir = rootS := hc.trim
    have h2 : trimSpace (replaceByte dotS backslash slash) = dotS := by decide
    show parse i [] = _
    unfold parse
    rw [h0, h2]
    simp only [or_true, if_true]
    simp only [build, or_true, if_true, hmne, if_false, hp1, hmd]
  qualifiedPkg := by
    intro pkg cs hp hcs
    have hd : i.dir = [] ∨ ∃ ds, i.dir = mk ds := by
      rcases hi.dirOk with h | ⟨ds, _, _, h⟩
      · exact Or.inl h
      · exact Or.inr ⟨ds, h⟩
    exact ⟨_, parse_qualified_raw (i := i) hd hp hcs⟩

end HereParse
end Verif
