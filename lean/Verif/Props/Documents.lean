import Verif.Props.Serial

/-! C112: which differences between documents do not matter when a Pkger is read from them. -/

namespace Verif
namespace Props

open Serial Mem

/-! ### Specification -/

/-- One of the names, whatever the case of its letters. -/
def OneOf (names : List Str) (k : Str) : Prop := ∃ n ∈ names, lower n = lower k

instance (names : List Str) (k : Str) : Decidable (OneOf names k) := by unfold OneOf; infer_instance

/-- Objects with the same members, up to members of other names, the order of members of different names, and
differences `R` of the values. -/
inductive SameMembers (names : List Str) (R : Str → Json → Json → Prop) : List (Str × Json) → List (Str × Json) → Prop where
  | nil : SameMembers names R [] []
  | extra {k : Str} {j : Json} {ms ms' : List (Str × Json)} : ¬ OneOf names k → SameMembers names R ms ms' →
      SameMembers names R ms ((k, j) :: ms')
  | keep {k : Str} {j j' : Json} {ms ms' : List (Str × Json)} : R k j j' → SameMembers names R ms ms' →
      SameMembers names R ((k, j) :: ms) ((k, j') :: ms')
  | swap {k k' : Str} {j j' : Json} {ms : List (Str × Json)} : lower k ≠ lower k' →
      SameMembers names R ((k, j) :: (k', j') :: ms) ((k', j') :: (k, j) :: ms)
  | symm {ms ms' : List (Str × Json)} : SameMembers names R ms ms' → SameMembers names R ms' ms
  | trans {a b c : List (Str × Json)} : SameMembers names R a b → SameMembers names R b c → SameMembers names R a c

/-- The same value, or objects with the same members. -/
def SameStruct (names : List Str) (R : Str → Json → Json → Prop) (j j' : Json) : Prop :=
  j = j' ∨ ∃ ms ms', j = .obj ms ∧ j' = .obj ms' ∧ SameMembers names R ms ms'

/-- The details of a file, pkging/file_info.go:9-16. -/
def SameDetails : Json → Json → Prop :=
  SameStruct [b! "name", b! "size", b! "mode", b! "mod_time", b! "is_dir", b! "sys"] fun _ => Eq

/-- The info of a file, pkging/file_info.go:18-20. -/
def SameInfo : Json → Json → Prop := SameStruct [b! "details"] fun _ => SameDetails

/-- A file, pkging/embed/file.go:8-14. -/
def SameFile : Json → Json → Prop :=
  SameStruct [b! "info", b! "her", b! "path", b! "data", b! "parent"] fun k j j' =>
    if lower k = b! "info" then SameInfo j j' else j = j'

/-- Maps with the same keys in the same order, and the same files. -/
inductive SameEntries : List (Str × Json) → List (Str × Json) → Prop where
  | nil : SameEntries [] []
  | cons {k : Str} {j j' : Json} {ms ms' : List (Str × Json)} : SameFile j j' → SameEntries ms ms' →
      SameEntries ((k, j) :: ms) ((k, j') :: ms')

/-- A map of files. -/
def SameFiles (j j' : Json) : Prop := j = j' ∨ ∃ ms ms', j = .obj ms ∧ j' = .obj ms' ∧ SameEntries ms ms'

/-- A whole document, pkging/embed/embed.go:51-55. -/
def SameDoc : Json → Json → Prop :=
  SameStruct [b! "infos", b! "files", b! "here"] fun k j j' => if lower k = b! "files" then SameFiles j j' else j = j'

/-! ### Reading structs -/

/-- The order in which two members are read does not matter. -/
def Commute {α : Type} (g g' : Dec α) : Prop := ∀ a j j', (g a j).bind (fun x => g' x j') = (g' a j').bind fun x => g x j

theorem field_mem {α : Type} {fs : List (Str × Dec α)} {k : Str} {g : Dec α} (h : field fs k = some g) :
    ∃ n, (n, g) ∈ fs ∧ lower n = lower k := by
  unfold field at h
  cases h1 : fs.find? fun f => f.1 == k with
  | some f =>
    rw [h1] at h
    cases h
    have := List.find?_some h1
    simp only [beq_iff_eq] at this
    exact ⟨f.1, List.mem_of_find?_eq_some h1, by rw [this]⟩
  | none =>
    rw [h1] at h
    simp only at h
    cases h2 : fs.find? fun f => lower f.1 == lower k with
    | none => rw [h2] at h; cases h
    | some f =>
      rw [h2] at h
      cases h
      have := List.find?_some h2
      simp only [beq_iff_eq] at this
      exact ⟨f.1, List.mem_of_find?_eq_some h2, this⟩

theorem field_unknown {α : Type} {fs : List (Str × Dec α)} {k : Str} (h : ¬ OneOf (fs.map (·.1)) k) : field fs k = none := by
  cases hf : field fs k with
  | none => rfl
  | some g =>
    obtain ⟨n, hn, he⟩ := field_mem hf
    exact absurd ⟨n, List.mem_map.mpr ⟨_, hn, rfl⟩, he⟩ h

theorem members_step {α : Type} (fs : List (Str × Dec α)) (a : α) (k : Str) (j : Json) (ms : List (Str × Json)) :
    members fs a ((k, j) :: ms) =
      match field fs k with
      | none => members fs a ms
      | some g => (g a j).bind fun a' => members fs a' ms := by
  rw [members]
  cases field fs k <;> rfl

theorem members_same {α : Type} {fs : List (Str × Dec α)} {R : Str → Json → Json → Prop}
    (hc : ∀ x ∈ fs, ∀ y ∈ fs, lower x.1 ≠ lower y.1 → Commute x.2 y.2)
    (hR : ∀ k j j', R k j j' → ∀ n g, (n, g) ∈ fs → lower n = lower k → ∀ a, g a j = g a j')
    {ms ms' : List (Str × Json)} (h : SameMembers (fs.map (·.1)) R ms ms') :
    ∀ a, members fs a ms = members fs a ms' := by
  induction h with
  | nil => intro a; rfl
  | extra hk _ ih => intro a; rw [members_step, field_unknown hk]; exact ih a
  | @keep k j j' ms ms' hr _ ih =>
    intro a
    rw [members_step, members_step]
    cases hf : field fs k with
    | none => exact ih a
    | some g =>
      obtain ⟨n, hn, he⟩ := field_mem hf
      simp only
      rw [hR k j j' hr n g hn he a]
      congr 1
      funext x
      exact ih x
  | @swap k k' j j' ms hk =>
    intro a
    rw [members_step, members_step]
    cases hf : field fs k with
    | none =>
      simp only
      rw [members_step]
      cases hf' : field fs k' with
      | none => simp only [members_step, hf]
      | some g' => simp only [members_step, hf]
    | some g =>
      cases hf' : field fs k' with
      | none => simp only [members_step, hf, hf']
      | some g' =>
        simp only [members_step, hf, hf']
        obtain ⟨n, hn, he⟩ := field_mem hf
        obtain ⟨n', hn', he'⟩ := field_mem hf'
        have := hc _ hn _ hn' (by simp only; rw [he, he']; exact hk) a j j'
        simp only at this
        rw [← Option.bind_assoc, ← Option.bind_assoc, this]
  | symm _ ih => intro a; exact (ih a).symm
  | trans _ _ ih1 ih2 => intro a; rw [ih1, ih2]

theorem struct_same {α : Type} {fs : List (Str × Dec α)} {names : List Str} {R : Str → Json → Json → Prop}
    (hn : fs.map (·.1) = names) (hc : ∀ x ∈ fs, ∀ y ∈ fs, lower x.1 ≠ lower y.1 → Commute x.2 y.2)
    (hR : ∀ k j j', R k j j' → ∀ n g, (n, g) ∈ fs → lower n = lower k → ∀ a, g a j = g a j')
    {j j' : Json} (h : SameStruct names R j j') (a : α) : struct fs a j = struct fs a j' := by
  rcases h with rfl | ⟨ms, ms', rfl, rfl, h⟩
  · rfl
  · subst hn
    exact members_same hc hR h a

theorem bind_swap {α β γ : Type} (o : Option α) (o' : Option β) (f : α → β → γ) :
    (o.bind fun x => o'.map fun y => f x y) = o'.bind fun y => o.map fun x => f x y := by
  cases o <;> cases o' <;> rfl

/-! ### The types of embedded data -/

theorem details_commute : ∀ x ∈ detailsFields, ∀ y ∈ detailsFields, lower x.1 ≠ lower y.1 → Commute x.2 y.2 := by
  intro x hx y hy hxy
  simp only [detailsFields, List.mem_cons, List.not_mem_nil, or_false] at hx hy
  rcases hx with rfl | rfl | rfl | rfl | rfl | rfl <;> rcases hy with rfl | rfl | rfl | rfl | rfl | rfl <;>
    first
    | exact absurd rfl hxy
    | (intro a j j'
       simp only [Option.bind_map, Function.comp_def, Option.bind_some, Option.bind_fun_some]
       try exact bind_swap _ _ _)

theorem file_commute (H : HereJson) : ∀ x ∈ fileFields H, ∀ y ∈ fileFields H, lower x.1 ≠ lower y.1 → Commute x.2 y.2 := by
  intro x hx y hy hxy
  simp only [fileFields, List.mem_cons, List.not_mem_nil, or_false] at hx hy
  rcases hx with rfl | rfl | rfl | rfl | rfl <;> rcases hy with rfl | rfl | rfl | rfl | rfl <;>
    first
    | exact absurd rfl hxy
    | (intro a j j'
       simp only [Option.bind_map, Function.comp_def]
       exact bind_swap _ _ _)

theorem data_commute (H : HereJson) : ∀ x ∈ dataFields H, ∀ y ∈ dataFields H, lower x.1 ≠ lower y.1 → Commute x.2 y.2 := by
  intro x hx y hy hxy
  simp only [dataFields, List.mem_cons, List.not_mem_nil, or_false] at hx hy
  rcases hx with rfl | rfl | rfl <;> rcases hy with rfl | rfl | rfl <;>
    first
    | exact absurd rfl hxy
    | (intro a j j'
       simp only [Option.bind_map, Function.comp_def]
       exact bind_swap _ _ _)

theorem details_same {j j' : Json} (h : SameDetails j j') (d : Details) :
    struct detailsFields d j = struct detailsFields d j' :=
  struct_same rfl details_commute (fun _ _ _ h _ _ _ _ _ => by rw [h]) h d

theorem info_same {j j' : Json} (h : SameInfo j j') (i : Option Details) : decFileInfo i j = decFileInfo i j' := by
  have hs : ∀ d, struct fileInfoFields d j = struct fileInfoFields d j' := by
    intro d
    refine struct_same (fs := fileInfoFields) rfl ?_ ?_ h d
    · intro x hx y hy hxy
      simp only [fileInfoFields, List.mem_cons, List.not_mem_nil, or_false] at hx hy
      subst hx hy
      exact absurd rfl hxy
    · intro k j j' hr n g hg _ a
      simp only [fileInfoFields, List.mem_cons, List.not_mem_nil, or_false] at hg
      cases hg
      exact details_same hr a
  rcases h with rfl | ⟨ms, ms', rfl, rfl, _⟩
  · rfl
  · simp only [decFileInfo, hs]

theorem lower_names : lower (b! "info") = b! "info" ∧ lower (b! "files") = b! "files" := by decide

theorem file_same {H : HereJson} {j j' : Json} (h : SameFile j j') (f : EFile) :
    struct (fileFields H) f j = struct (fileFields H) f j' := by
  refine struct_same rfl (file_commute H) ?_ h f
  intro k j j' hr n g hg hn a
  simp only [fileFields, List.mem_cons, List.not_mem_nil, or_false] at hg
  by_cases hk : lower k = b! "info"
  · rw [if_pos hk] at hr
    rw [hk] at hn
    rcases hg with hg | hg | hg | hg | hg <;> cases hg
    · simp only [info_same hr]
    all_goals exact absurd hn (by decide)
  · rw [if_neg hk] at hr
    rw [hr]

theorem entries_same {H : HereJson} {ms ms' : List (Str × Json)} (h : SameEntries ms ms') : ∀ m : AMap Str EFile,
    decEntries (struct (fileFields H) fileZero) m ms = decEntries (struct (fileFields H) fileZero) m ms' := by
  induction h with
  | nil => intro m; rfl
  | cons hf _ ih =>
    intro m
    simp only [decEntries]
    rw [file_same hf]
    congr 1
    funext v
    exact ih _

theorem doc_same {H : HereJson} {j j' : Json} (h : SameDoc j j') (d : EData) :
    struct (dataFields H) d j = struct (dataFields H) d j' := by
  refine struct_same rfl (data_commute H) ?_ h d
  intro k j j' hr n g hg hn a
  simp only [dataFields, List.mem_cons, List.not_mem_nil, or_false] at hg
  by_cases hk : lower k = b! "files"
  · rw [if_pos hk] at hr
    rw [hk] at hn
    rcases hg with hg | hg | hg <;> cases hg
    · exact absurd hn (by decide)
    · rcases hr with rfl | ⟨ms, ms', rfl, rfl, hr⟩
      · rfl
      · simp only [decMap, entries_same hr]
    · exact absurd hn (by decide)
  · rw [if_neg hk] at hr
    rw [hr]

/-! ### C112 -/

/-- **C112**.  Reading a Pkger from two documents that differ only in members of unknown names, at any level, and in the
order of members of different names, has the same result, and leaves the same Pkger behind. -/
theorem C112_same (E : Env) (H : HereJson) (ord : AMap Str EFile → List (Str × EFile)) (w : World) {b b' : Str}
    {j j' : Json} (hb : Json.parse b = some j) (hb' : Json.parse b' = some j') (h : SameDoc j j') :
    unmarshal E H ord w b = unmarshal E H ord w b' := by
  unfold unmarshal
  rw [hb, hb']
  have hd := doc_same (H := H) h ⟨[], [], Mem.infoZero⟩
  rcases h with rfl | ⟨ms, ms', rfl, rfl, _⟩
  · rfl
  · simp only
    rw [hd]

theorem decEntries_append {α : Type} (dec : Json → Option α) : ∀ (l l' : List (Str × Json)) (m : AMap Str α),
    decEntries dec m (l ++ l') = (decEntries dec m l).bind fun m' => decEntries dec m' l' := by
  intro l
  induction l with
  | nil => intro l' m; rfl
  | cons e l ih =>
    intro l' m
    obtain ⟨k, j⟩ := e
    simp only [List.cons_append, decEntries, Option.bind_assoc]
    congr 1
    funext v
    exact ih _ _

theorem members_append {α : Type} (fs : List (Str × Dec α)) : ∀ (l l' : List (Str × Json)) (a : α),
    members fs a (l ++ l') = (members fs a l).bind fun a' => members fs a' l' := by
  intro l
  induction l with
  | nil => intro l' m; rfl
  | cons e l ih =>
    intro l' a
    obtain ⟨k, j⟩ := e
    rw [List.cons_append, members_step, members_step]
    cases field fs k with
    | none => exact ih _ _
    | some g =>
      simp only [Option.bind_assoc]
      congr 1
      funext v
      exact ih _ _

/-- **C112** (members given twice).  Maps of files given in several members of a document are taken together: wherever the
two stand, it is as if the first one had all the entries. -/
theorem C112_split (E : Env) (H : HereJson) (ord : AMap Str EFile → List (Str × EFile)) (w : World) {b b' : Str}
    {l1 l2 l3 fs1 fs2 : List (Str × Json)} (h2 : ∀ e ∈ l2, lower e.1 ≠ b! "files")
    (hb : Json.parse b = some (.obj (l1 ++ (b! "files", .obj fs1) :: l2 ++ (b! "files", .obj fs2) :: l3)))
    (hb' : Json.parse b' = some (.obj (l1 ++ (b! "files", .obj (fs1 ++ fs2)) :: l2 ++ l3))) :
    unmarshal E H ord w b = unmarshal E H ord w b' := by
  have hswap : ∀ (l : List (Str × Json)), (∀ e ∈ l, lower e.1 ≠ b! "files") → ∀ (x : Json) (r : List (Str × Json)) (a : EData),
      members (dataFields H) a (l ++ (b! "files", x) :: r) = members (dataFields H) a ((b! "files", x) :: l ++ r) := by
    intro l
    induction l with
    | nil => intro _ x r a; rfl
    | cons e l ih =>
      intro hl x r a
      obtain ⟨k, j⟩ := e
      have h1 : members (dataFields H) a ((k, j) :: (l ++ (b! "files", x) :: r)) =
          members (dataFields H) a ((k, j) :: (b! "files", x) :: (l ++ r)) := by
        rw [members_step, members_step]
        cases field (dataFields H) k with
        | none => exact ih (fun e he => hl e (List.mem_cons_of_mem _ he)) x r a
        | some g =>
          simp only
          congr 1
          funext v
          exact ih (fun e he => hl e (List.mem_cons_of_mem _ he)) x r v
      rw [List.cons_append, h1]
      refine members_same (R := fun _ => Eq) (data_commute H) (fun _ _ _ h _ _ _ _ _ => by rw [h]) ?_ a
      refine .swap ?_
      rw [lower_names.2]
      exact hl (k, j) (by simp)
  have hf : ∀ (a : EData) (r : List (Str × Json)), members (dataFields H) a ((b! "files", .obj fs1) :: (b! "files", .obj fs2) :: r) =
      members (dataFields H) a ((b! "files", .obj (fs1 ++ fs2)) :: r) := by
    intro a r
    have hfield : field (dataFields H) (b! "files") = some fun d j =>
        (decMap (struct (fileFields H) fileZero) d.files j).map fun x => { d with files := x } := rfl
    simp only [members_step, hfield, decMap, decEntries_append, Option.bind_map, Function.comp_def, Option.map_bind,
      Option.bind_assoc]
  have key : members (dataFields H) ⟨[], [], Mem.infoZero⟩ (l1 ++ (b! "files", .obj fs1) :: l2 ++ (b! "files", .obj fs2) :: l3) =
      members (dataFields H) ⟨[], [], Mem.infoZero⟩ (l1 ++ (b! "files", .obj (fs1 ++ fs2)) :: l2 ++ l3) := by
    rw [List.append_assoc, List.append_assoc, members_append, members_append]
    congr 1
    funext a
    rw [List.cons_append, List.cons_append, ← hf, ← List.cons_append]
    have : ∀ x y : List (Str × Json), (∀ a, members (dataFields H) a x = members (dataFields H) a y) →
        members (dataFields H) a ((b! "files", .obj fs1) :: x) = members (dataFields H) a ((b! "files", .obj fs1) :: y) := by
      intro x y h
      rw [members_step, members_step]
      cases field (dataFields H) (b! "files") with
      | none => exact h a
      | some g =>
        simp only
        congr 1
        funext v
        exact h v
    exact this _ _ fun a => hswap l2 h2 _ _ a
  unfold unmarshal
  rw [hb, hb']
  simp only [struct, key]

/-- **C112** (null after details).  A file whose last `info` is null has no details, whatever other members it has. -/
theorem C112_null {H : HereJson} {l1 l2 : List (Str × Json)} (h2 : ∀ e ∈ l2, lower e.1 ≠ b! "info") {f f' : EFile}
    (h : struct (fileFields H) f (.obj (l1 ++ (b! "info", .null) :: l2)) = some f') : f'.info = none := by
  have keep : ∀ (l : List (Str × Json)), (∀ e ∈ l, lower e.1 ≠ b! "info") → ∀ a a', members (fileFields H) a l = some a' →
      a'.info = a.info := by
    intro l
    induction l with
    | nil => intro _ a a' h; cases h; rfl
    | cons e l ih =>
      intro hl a a' h
      obtain ⟨k, j⟩ := e
      rw [members_step] at h
      have hl' : ∀ e ∈ l, lower e.1 ≠ b! "info" := fun e he => hl e (List.mem_cons_of_mem _ he)
      cases hf : field (fileFields H) k with
      | none => rw [hf] at h; exact ih hl' a a' h
      | some g =>
        rw [hf] at h
        obtain ⟨n, hn, he⟩ := field_mem hf
        simp only at h
        obtain ⟨x, hx, hm⟩ := Option.bind_eq_some_iff.mp h
        rw [ih hl' x a' hm]
        simp only [fileFields, List.mem_cons, List.not_mem_nil, or_false] at hn
        rcases hn with hn | hn | hn | hn | hn <;> cases hn
        · exact absurd (he.symm.trans lower_names.1) (hl (k, j) (by simp))
        all_goals
          obtain ⟨y, _, rfl⟩ := Option.map_eq_some_iff.mp hx
          rfl
  have h' : members (fileFields H) f (l1 ++ (b! "info", .null) :: l2) = some f' := h
  rw [members_append] at h'
  obtain ⟨a, _, ha⟩ := Option.bind_eq_some_iff.mp h'
  rw [members_step] at ha
  have hfield : field (fileFields H) (b! "info") = some fun f j =>
      (decFileInfo f.info j).map fun x => { f with info := x } := rfl
  rw [hfield] at ha
  simp only [decFileInfo, Option.map_some, Option.bind_some] at ha
  exact keep l2 h2 _ _ ha

/-! ### Cases -/

/-- A document with one file. -/
def plainDoc : Json :=
  .obj [(b! "files", .obj [(b! "app:/a", .obj [(b! "info", .obj [(b! "details", .obj [(b! "name", .str (b! "a")),
    (b! "size", .num (b! "2"))])]), (b! "data", .str (b! "aGk="))])]), (b! "here", .obj [])]

/-- The same in another order, with a version, a checksum and an owner. -/
def laterDoc : Json :=
  .obj [(b! "version", .num (b! "2")), (b! "here", .obj []), (b! "files", .obj [(b! "app:/a", .obj [(b! "sum", .str (b! "x")),
    (b! "info", .obj [(b! "details", .obj [(b! "owner", .null), (b! "size", .num (b! "2")), (b! "name", .str (b! "a"))])]),
    (b! "data", .str (b! "aGk="))])])]

theorem laterDoc_same : SameDoc plainDoc laterDoc := by
  refine .inr ⟨_, _, rfl, rfl, .extra (by decide) (.trans (.swap (by decide)) (.keep ?_ (.keep ?_ .nil)))⟩
  · rw [if_neg (by decide)]
  · rw [if_pos (by decide)]
    refine .inr ⟨_, _, rfl, rfl, .cons (.inr ⟨_, _, rfl, rfl, .extra (by decide) (.keep ?_ (.keep ?_ .nil))⟩) .nil⟩
    · rw [if_pos (by decide)]
      refine .inr ⟨_, _, rfl, rfl, .keep (.inr ⟨_, _, rfl, rfl, ?_⟩) .nil⟩
      exact .extra (by decide) (.swap (by decide))
    · rw [if_neg (by decide)]

/-- Reading the second document into a Pkger gives the file with its bytes and its size. -/
example : (match unmarshal Demo.env plainHere id (zero 0) laterDoc.print with
    | (w, .ok ()) => (w.files.map fun e => (e.1.name, (w.heap e.2).bytes, (w.heap e.2).info.map (·.size)))
    | _ => []) = [(b! "/a", b! "hi", some 2)] := by decide +kernel

theorem two_text : Json.NatText (b! "2") := by
  have h := (Decimal.ofNat_text 2).1
  have e : Decimal.ofNat 2 = b! "2" := by decide +kernel
  rwa [e] at h

theorem plainDoc_ints : plainDoc.Ints := by
  simp only [plainDoc, Json.Ints, Json.IntsMembers, and_true, true_and]
  exact .inl two_text

theorem laterDoc_ints : laterDoc.Ints := by
  simp only [laterDoc, Json.Ints, Json.IntsMembers, and_true, true_and]
  exact ⟨.inl two_text, .inl two_text⟩

theorem sane_words : ∀ s ∈ [b! "files", b! "app:/a", b! "info", b! "details", b! "name", b! "a", b! "size", b! "data",
    b! "aGk=", b! "here", b! "version", b! "sum", b! "x", b! "owner"], Utf8.sane s = s := by decide +kernel

theorem plainDoc_sane : plainDoc.sane = plainDoc := by
  simp only [plainDoc, Json.sane, Json.saneMembers]
  simp [sane_words]

theorem laterDoc_sane : laterDoc.sane = laterDoc := by
  simp only [laterDoc, Json.sane, Json.saneMembers]
  simp [sane_words]

/-- The hypotheses of `C112_same` are met. -/
example : Json.parse plainDoc.print = some plainDoc ∧ Json.parse laterDoc.print = some laterDoc ∧ SameDoc plainDoc laterDoc :=
  ⟨by rw [Json.parse_print plainDoc_ints, plainDoc_sane], by rw [Json.parse_print laterDoc_ints, laterDoc_sane],
    laterDoc_same⟩

/-- A document with the files in two members: those of both are read, as `C112_split` says. -/
example : (match unmarshal Demo.env plainHere id (zero 0) (Json.print (.obj ([] ++
      (b! "files", .obj [(b! "app:/a", .obj [(b! "data", .str (b! "aGk="))])]) :: [(b! "here", .obj [])] ++
      (b! "files", .obj [(b! "app:/b", .obj [(b! "data", .str (b! "aG8="))])]) :: []))) with
    | (w, .ok ()) => (w.files.map fun e => (e.1.name, (w.heap e.2).bytes))
    | _ => []) = [(b! "/a", b! "hi"), (b! "/b", b! "ho")] := by decide +kernel

/-- A file with details, and then null: it can be read, and `C112_null` applies. -/
example : (struct (fileFields plainHere) fileZero (.obj ([(b! "info", .obj [(b! "details", .obj [(b! "name", .str (b! "a"))])])] ++
    (b! "info", .null) :: [(b! "data", .str (b! "aGk="))]))).map (fun f => (f.info, f.data)) = some (none, some (b! "hi")) := by
  decide +kernel

theorem field_known {α : Type} {fs : List (Str × Dec α)} {k : Str} (h : field fs k = none) : ∀ n g, (n, g) ∈ fs → lower n ≠ lower k := by
  intro n g hm he
  unfold field at h
  cases h1 : fs.find? fun f => f.1 == k with
  | some f => rw [h1] at h; cases h
  | none =>
    rw [h1] at h
    simp only [Option.map_eq_none_iff, List.find?_eq_none] at h
    exact h (n, g) hm (by simpa using he)

/-- **C112** (null for the parts of the details).  Null leaves the name, the size, the mode and the kind of a file as they
were, but not the time: that becomes the first moment of the year 1. -/
theorem C112_null_details {l : List (Str × Json)} (hl : ∀ e ∈ l, e.2 = .null) (d : Details) :
    ∃ d', struct detailsFields d (.obj l) = some d' ∧ d'.name = d.name ∧ d'.size = d.size ∧ d'.mode = d.mode ∧
      d'.isDir = d.isDir ∧ ((∃ e ∈ l, lower e.1 = b! "mod_time") →
        Time.parse (b! "0001-01-01T00:00:00Z") = some d'.modTime) ∧
      ((∀ e ∈ l, lower e.1 ≠ b! "mod_time") → d'.modTime = d.modTime) := by
  have ht : Time.parse (b! "0001-01-01T00:00:00Z") = some detailsZero.modTime := by decide +kernel
  have hmt : lower (b! "mod_time") = b! "mod_time" := by decide
  show ∃ d', members detailsFields d l = some d' ∧ _
  -- once the time is the first moment it stays
  have key : ∀ (l : List (Str × Json)), (∀ e ∈ l, e.2 = .null) → ∀ d : Details, ∃ d', members detailsFields d l = some d' ∧
      d'.name = d.name ∧ d'.size = d.size ∧ d'.mode = d.mode ∧ d'.isDir = d.isDir ∧
      ((∃ e ∈ l, lower e.1 = b! "mod_time") → d'.modTime = detailsZero.modTime) ∧
      ((∀ e ∈ l, lower e.1 ≠ b! "mod_time") → d'.modTime = d.modTime) ∧
      (d.modTime = detailsZero.modTime → d'.modTime = detailsZero.modTime) := by
    intro l
    induction l with
    | nil => intro _ d; exact ⟨d, rfl, rfl, rfl, rfl, rfl, by simp, fun _ => rfl, id⟩
    | cons e l ih =>
      intro hl d
      obtain ⟨k, j⟩ := e
      have hj : j = .null := hl (k, j) (by simp)
      subst hj
      have ih := ih fun e he => hl e (List.mem_cons_of_mem _ he)
      rw [members_step]
      have other : ∀ (hk : lower k ≠ b! "mod_time"), (∃ d', members detailsFields d l = some d' ∧
          d'.name = d.name ∧ d'.size = d.size ∧ d'.mode = d.mode ∧ d'.isDir = d.isDir ∧
          ((∃ e ∈ (k, Json.null) :: l, lower e.1 = b! "mod_time") → d'.modTime = detailsZero.modTime) ∧
          ((∀ e ∈ (k, Json.null) :: l, lower e.1 ≠ b! "mod_time") → d'.modTime = d.modTime) ∧
          (d.modTime = detailsZero.modTime → d'.modTime = detailsZero.modTime)) := by
        intro hk
        obtain ⟨d', h1, h2, h3, h4, h5, h6, h7, h8⟩ := ih d
        refine ⟨d', h1, h2, h3, h4, h5, ?_, fun h => h7 fun e he => h e (List.mem_cons_of_mem _ he), h8⟩
        rintro ⟨e, he, hem⟩
        rcases List.mem_cons.mp he with rfl | he
        · exact absurd hem hk
        · exact h6 ⟨e, he, hem⟩
      cases hf : field detailsFields k with
      | none =>
        exact other fun hk => field_known hf (b! "mod_time") _ (by simp [detailsFields]; rfl) (hmt.trans hk.symm)
      | some g =>
        simp only
        obtain ⟨n, hn, he⟩ := field_mem hf
        simp only [detailsFields, List.mem_cons, List.not_mem_nil, or_false] at hn
        rcases hn with hn | hn | hn | hn | hn | hn <;> cases hn
        · exact other (by rw [← he]; decide)
        · exact other (by rw [← he]; decide)
        · exact other (by rw [← he]; decide)
        · obtain ⟨d', h1, h2, h3, h4, h5, h6, h7, h8⟩ := ih { d with modTime := detailsZero.modTime }
          refine ⟨d', h1, h2, h3, h4, h5, fun _ => h8 rfl, ?_, fun _ => h8 rfl⟩
          intro h
          exact absurd (he.symm.trans hmt) (h (k, .null) (by simp))
        · exact other (by rw [← he]; decide)
        · exact other (by rw [← he]; decide)
  obtain ⟨d', h1, h2, h3, h4, h5, h6, h7, _⟩ := key l hl d
  exact ⟨d', h1, h2, h3, h4, h5, fun h => by rw [ht, h6 h], h7⟩

/-- Details with a null name and a null time. -/
example : (struct detailsFields ⟨b! "a", 3, 420, 1000, false⟩ (.obj [(b! "name", .null), (b! "Mod_Time", .null)])).map
    (fun d => (d.name, d.modTime)) = some (b! "a", -62135596800000000000) := by decide +kernel

/-- What is in a field stays when no member has its name. -/
theorem members_keep {α β : Type} {fs : List (Str × Dec α)} (P : α → β) (name : Str)
    (hP : ∀ n g, (n, g) ∈ fs → lower n ≠ name → ∀ a j a', g a j = some a' → P a' = P a) :
    ∀ (l : List (Str × Json)), (∀ e ∈ l, lower e.1 ≠ name) → ∀ a a', members fs a l = some a' → P a' = P a := by
  intro l
  induction l with
  | nil => intro _ a a' h; rw [members] at h; cases h; rfl
  | cons e l ih =>
    obtain ⟨k, j⟩ := e
    intro hl a a' h
    have ih := ih fun e he => hl e (List.mem_cons_of_mem _ he)
    rw [members_step] at h
    cases hf : field fs k with
    | none => rw [hf] at h; exact ih a a' h
    | some g =>
      rw [hf] at h
      obtain ⟨n, hn, he⟩ := field_mem hf
      obtain ⟨b, hb, h⟩ := Option.bind_eq_some_iff.mp h
      rw [ih b a' h]
      exact hP n g hn (by rw [he]; exact hl (k, j) (by simp)) a j b hb

/-- **C112** (members left out).  A file whose document says nothing of its contents is read without contents, not with
empty ones; and the same goes for its details, its package, its path and its parent. -/
theorem C112_absent (H : HereJson) {l : List (Str × Json)} {f : EFile}
    (h : struct (fileFields H) fileZero (.obj l) = some f) :
    ((∀ e ∈ l, lower e.1 ≠ b! "data") → f.data = none) ∧
    ((∀ e ∈ l, lower e.1 ≠ b! "info") → f.info = none) ∧
    ((∀ e ∈ l, lower e.1 ≠ b! "her") → f.here = ⟨[], [], [], ⟨[], false, [], [], []⟩⟩) ∧
    ((∀ e ∈ l, lower e.1 ≠ b! "path") → f.path = ⟨[], []⟩) ∧
    ((∀ e ∈ l, lower e.1 ≠ b! "parent") → f.parent = ⟨[], []⟩) := by
  have key : ∀ {β : Type} (P : EFile → β) (name : Str),
      (∀ n g, (n, g) ∈ fileFields H → lower n ≠ name → ∀ a j a', g a j = some a' → P a' = P a) →
      (∀ e ∈ l, lower e.1 ≠ name) → P f = P fileZero := fun P name hP hl => members_keep P name hP l hl _ _ h
  refine ⟨key (·.data) _ ?_, key (·.info) _ ?_, key (·.here) _ ?_, key (·.path) _ ?_, key (·.parent) _ ?_⟩ <;>
  · intro n g hn hne a j a' hg
    simp only [fileFields, List.mem_cons, List.not_mem_nil, or_false] at hn
    rcases hn with hn | hn | hn | hn | hn <;> cases hn <;>
    first
    | exact absurd (by decide) hne
    | (simp only [Option.map_eq_some_iff] at hg
       obtain ⟨x, _, rfl⟩ := hg
       rfl)

/-- A document that gives only the details of a file, and one that gives empty contents. -/
example : ((struct (fileFields plainHere) fileZero (.obj [(b! "info", .null)])).map (·.data),
    (struct (fileFields plainHere) fileZero (.obj [(b! "Data", .str [])])).map (·.data)) =
    (some none, some (some [])) := by decide +kernel

end Props
end Verif
