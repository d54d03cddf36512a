import Verif.Props.Dump
import Verif.Props.Main
import Verif.Spec.Show

/-! C84 - C89: what the commands of `pkger` print and do. -/

namespace Verif
namespace Props

open Flag Cmd Main Serial Spec

variable {S : Type}

/-! ### Documents -/

theorem saneElems_map {α : Type} (enc : α → Json) (l : List α) :
    Json.saneElems (l.map enc) = l.map fun a => (enc a).sane := by
  induction l with
  | nil => rfl
  | cons a l ih => simp only [List.map_cons, Json.saneElems, ih]

theorem intsElems_map {α : Type} (enc : α → Json) (l : List α) (h : ∀ a ∈ l, (enc a).Ints) :
    Json.IntsElems (l.map enc) := by
  induction l with
  | nil => trivial
  | cons a l ih => exact ⟨h a (by simp), ih fun x hx => h x (by simp [hx])⟩

theorem ints_slice {α : Type} (enc : α → Json) (l : List α) (h : ∀ a ∈ l, (enc a).Ints) : (encSlice enc l).Ints := by
  cases l with
  | nil => trivial
  | cons a l => exact intsElems_map enc (a :: l) h

theorem elements_slice {α : Type} (enc : α → Json) (l : List α) :
    elements (encSlice enc l).sane = some (l.map fun a => (enc a).sane) := by
  cases l with
  | nil => rfl
  | cons a l =>
    simp only [encSlice, Json.sane, elements]
    rw [saneElems_map]

theorem eachTells_map {α β : Type} {T : Json → β → Prop} (f : α → Json) (g : α → β) :
    ∀ (l : List α), (∀ a ∈ l, T (f a) (g a)) → EachTells T (l.map f) (l.map g)
  | [], _ => trivial
  | a :: l, h => ⟨h a (by simp), eachTells_map f g l fun x hx => h x (by simp [hx])⟩

/-- Reading a written document gives it back. -/
theorem parse_encode {j : Json} (h : j.Ints) : Json.parse (encode j) = some j.sane :=
  Json.parse_pretty (u := [32]) (ws := [10]) (by decide) (by decide) h

/-- The document written for a map. -/
theorem docOf_map {α : Type} (enc : Str → α → Json) {m : AMap Str α} (hn : AMap.Nodup m)
    (hi : ∀ k v, AMap.get m k = some v → (enc k v).Ints) (hu : ∀ k v, AMap.get m k = some v → Utf8.Valid k) :
    ∃ ms, Json.parse (encode (.obj ((sortBy (·.1) m).map fun e => (e.1, enc e.1 e.2)))) = some (.obj ms) ∧
      (ms.map (·.1)).Pairwise (fun a b => Str.lt a b = true) ∧ (∀ k, k ∈ ms.map (·.1) ↔ k ∈ AMap.keys m) ∧
      ∀ k j, (k, j) ∈ ms → ∃ v, AMap.get m k = some v ∧ j = (enc k v).sane := by
  have hmem : ∀ e, e ∈ sortBy (·.1) m ↔ AMap.get m e.1 = some e.2 := fun e =>
    (mem_sortBy _ _ _).trans ⟨fun h => AMap.get_of_mem hn h, fun h => AMap.get_mem h⟩
  have hints : (Json.obj ((sortBy (·.1) m).map fun e => (e.1, enc e.1 e.2))).Ints := by
    have : ∀ l : List (Str × α), (∀ e ∈ l, AMap.get m e.1 = some e.2) →
        Json.IntsMembers (l.map fun e => (e.1, enc e.1 e.2)) := by
      intro l
      induction l with
      | nil => intro _; trivial
      | cons e l ih => exact fun h => ⟨hi _ _ (h e (by simp)), ih fun x hx => h x (by simp [hx])⟩
    exact this _ fun e he => (hmem e).mp he
  have hsane : (Json.obj ((sortBy (·.1) m).map fun e => (e.1, enc e.1 e.2))).sane =
      .obj ((sortBy (·.1) m).map fun e => (e.1, (enc e.1 e.2).sane)) := by
    have : ∀ l : List (Str × α), (∀ e ∈ l, AMap.get m e.1 = some e.2) →
        Json.saneMembers (l.map fun e => (e.1, enc e.1 e.2)) = l.map fun e => (e.1, (enc e.1 e.2).sane) := by
      intro l
      induction l with
      | nil => intro _; rfl
      | cons e l ih =>
        intro h
        simp only [List.map_cons, Json.saneMembers, saneText (hu _ _ (h e (by simp)))]
        rw [ih fun x hx => h x (by simp [hx])]
    simp only [Json.sane]
    rw [this _ fun e he => (hmem e).mp he]
  refine ⟨(sortBy (·.1) m).map fun e => (e.1, (enc e.1 e.2).sane), ?_, ?_, ?_, ?_⟩
  · rw [parse_encode hints, hsane]
  · rw [List.map_map, List.pairwise_map]
    refine (sortBy_strict (fun e : Str × α => e.1) ?_ ?_).imp ?_
    · intro x hx y hy hxy
      obtain ⟨k, v⟩ := x
      obtain ⟨k', v'⟩ := y
      simp only at hxy
      subst hxy
      have h1 := AMap.get_of_mem hn hx
      rw [AMap.get_of_mem hn hy] at h1
      rw [Option.some.inj h1]
    · have := hn
      unfold AMap.Nodup AMap.keys at this
      exact (List.pairwise_map.mp this).imp fun h e => h (congrArg _ e)
    · intro a b h; exact h
  · intro k
    rw [List.map_map]
    have : (fun e : Str × Json => e.1) ∘ (fun e : Str × α => (e.1, (enc e.1 e.2).sane)) = (·.1) := rfl
    rw [this, List.mem_map, AMap.mem_keys_iff]
    constructor
    · rintro ⟨e, he, rfl⟩
      exact ⟨e.2, (hmem e).mp he⟩
    · rintro ⟨v, hv⟩
      exact ⟨(k, v), (hmem (k, v)).mpr hv, rfl⟩
  · intro k j hkj
    obtain ⟨e, he, h⟩ := List.mem_map.mp hkj
    cases h
    exact ⟨e.2, (hmem e).mp he, rfl⟩

/-! ### `path` (C84) -/

theorem pathLoop_ok {E : Env} {here : Info} : ∀ (rest : List Str) {m : AMap Str Path}, AMap.Nodup m →
    (∀ a ∈ rest, ∃ p, E.parse here a = .ok p) →
    ∃ m', pathLoop E here rest m = .ok m' ∧ AMap.Nodup m' ∧
      ∀ a p, AMap.get m' a = some p ↔ (a ∈ rest ∧ E.parse here a = .ok p) ∨ (a ∉ rest ∧ AMap.get m a = some p)
  | [], m, hn, _ => ⟨m, rfl, hn, by simp⟩
  | x :: rest, m, hn, h => by
    obtain ⟨p, hp⟩ := h x (by simp)
    obtain ⟨m', h1, h2, h3⟩ := pathLoop_ok rest (AMap.nodup_set x p hn) fun a ha => h a (by simp [ha])
    refine ⟨m', by simp only [pathLoop, hp, h1], h2, fun a q => ?_⟩
    rw [h3, AMap.get_set]
    by_cases hax : a = x
    · subst hax
      simp only [if_true, List.mem_cons, true_or, true_and, not_true_eq_false, false_and, or_false, hp]
      constructor
      · rintro (⟨_, h⟩ | ⟨_, h⟩)
        · exact h
        · cases h; rfl
      · intro h
        by_cases ha : a ∈ rest
        · exact Or.inl ⟨ha, h⟩
        · cases h
          exact Or.inr ⟨ha, rfl⟩
    · simp [hax]

theorem pathLoop_err {E : Env} {here : Info} {e : Err} : ∀ (rest : List Str) {m : AMap Str Path},
    pathLoop E here rest m = .error e ↔ ∃ pre a post, rest = pre ++ a :: post ∧ (∀ x ∈ pre, ∃ p, E.parse here x = .ok p) ∧
      E.parse here a = .error e
  | [], m => by
    constructor
    · intro h; cases h
    · rintro ⟨pre, a, post, h, _⟩
      simp at h
  | x :: rest, m => by
    unfold pathLoop
    cases hp : E.parse here x with
    | error e' =>
      simp only
      constructor
      · intro h
        cases h
        exact ⟨[], x, rest, rfl, by simp, hp⟩
      · rintro ⟨pre, a, post, h1, h2, h3⟩
        cases pre with
        | nil =>
          cases h1
          rw [hp] at h3
          cases h3
          rfl
        | cons y pre =>
          cases h1
          obtain ⟨p, h⟩ := h2 x (by simp)
          rw [hp] at h
          cases h
    | ok p =>
      simp only
      rw [pathLoop_err rest]
      constructor
      · rintro ⟨pre, a, post, rfl, h2, h3⟩
        refine ⟨x :: pre, a, post, rfl, ?_, h3⟩
        intro y hy
        rcases List.mem_cons.mp hy with rfl | hy
        · exact ⟨p, hp⟩
        · exact h2 y hy
      · rintro ⟨pre, a, post, h1, h2, h3⟩
        cases pre with
        | nil =>
          cases h1
          rw [hp] at h3
          cases h3
        | cons y pre =>
          cases h1
          exact ⟨pre, a, post, rfl, fun z hz => h2 z (by simp [hz]), h3⟩

/-- What `run` does with a sub-command. -/
theorem run_sub {A : Around S} {w : Stdos.World S} {old : Option Str} {args0 args : List Str} {k : Str}
    (hr : route args0 = .sub k args) : run A w old args0 = execSub A w old k args := by
  simp only [run, hr]

theorem pathCmd_given {E : Env} {here : Info} {args rest : List Str} {l : List (Str × Val)}
    (hg : Given helpOptions args l rest) (hh : ∀ b, (b! "h", Val.bool b) ∉ l) :
    pathCmd E here args = if rest = [] then .missing else
      match pathLoop E here rest [] with | .error e => .err e | .ok m => .ok m := by
  have hp := (C66_options helpOptions args l rest).mpr hg
  unfold pathCmd
  rw [helpFlags_eq, hp]
  simp only [(lastBool_spec l (b! "h")).1 hh, Bool.false_eq_true, if_false]
  rfl

/-- The statement of **C84**: `pkger path` of one or more arguments that are paths prints a JSON object that tells for
each of them, and nothing else, the package and name it stands for. -/
def C84_statement : Prop :=
  ∀ (S : Type) (A : Around S) (w : Stdos.World S) (old : Option Str) (args0 args rest : List Str),
    HereLaw A.setup.here id → route args0 = .sub (b! "path") args → Given helpOptions args [] rest → rest ≠ [] →
    (∀ a ∈ rest, ∃ p, A.env.parse w.here a = .ok p) →
    (run A w old args0).fin = .ok ∧
    DocOf (run A w old args0).out rest fun a j => ∃ p, A.env.parse w.here a = .ok p ∧
      A.setup.here.pathOf Path.zero j = some p

/-- **C84** (missing: arguments that are not valid UTF-8, see `C84_refuted`).  `pkger path` of one or more arguments that
are paths prints a JSON object that tells for each of them, and nothing else, the package and name it stands for, and
changes nothing. -/
theorem C84_path_partial {A : Around S} {kept : Info → Info} (hH : HereLaw A.setup.here kept) (w : Stdos.World S)
    (old : Option Str) {args0 args rest : List Str} {l : List (Str × Val)} (hr : route args0 = .sub (b! "path") args)
    (hg : Given helpOptions args l rest) (hh : ∀ b, (b! "h", Val.bool b) ∉ l) (hne : rest ≠ [])
    (hok : ∀ a ∈ rest, ∃ p, A.env.parse w.here a = .ok p ∧ Utf8.Valid a ∧ PathText p) :
    (run A w old args0).fin = .ok ∧ (run A w old args0).world = w ∧ (run A w old args0).states = [old] ∧
    DocOf (run A w old args0).out rest fun a j => ∃ p, A.env.parse w.here a = .ok p ∧
      A.setup.here.pathOf Path.zero j = some p := by
  obtain ⟨m, h1, h2, h3⟩ := pathLoop_ok (E := A.env) (here := w.here) rest (m := []) (by simp [AMap.Nodup, AMap.keys])
    fun a ha => (hok a ha).imp fun p h => h.1
  have h3' : ∀ a p, AMap.get m a = some p ↔ a ∈ rest ∧ A.env.parse w.here a = .ok p := by
    intro a p
    rw [h3]
    simp
  have hrun : run A w old args0 = ⟨w, [old], pathOutput A.setup.here m, [], .ok⟩ := by
    rw [run_sub hr]
    unfold execSub
    rw [if_neg (by decide), if_pos rfl, pathCmd_given hg hh, if_neg hne, h1]
    rfl
  rw [hrun]
  refine ⟨rfl, rfl, rfl, ?_⟩
  obtain ⟨ms, q1, q2, q3, q4⟩ := docOf_map (fun _ p => A.setup.here.path p) h2 (fun _ p _ => hH.pathInts p) (by
    intro k p hk
    obtain ⟨hk, hp⟩ := (h3' k p).mp hk
    exact (hok k hk).elim fun _ h => h.2.1)
  refine ⟨ms, q1, q2, ?_, ?_⟩
  · intro k
    rw [q3, AMap.mem_keys_iff]
    constructor
    · rintro ⟨p, hp⟩
      exact ((h3' k p).mp hp).1
    · intro hk
      obtain ⟨p, hp, _⟩ := hok k hk
      exact ⟨p, (h3' k p).mpr ⟨hk, hp⟩⟩
  · intro k j hkj
    obtain ⟨p, hp, rfl⟩ := q4 k j hkj
    obtain ⟨hk, hp⟩ := (h3' k p).mp hp
    obtain ⟨p', hp', _, ht⟩ := hok k hk
    rw [hp] at hp'
    cases hp'
    exact ⟨p, hp, hH.path p ht⟩

/-- **C84** (errors).  Without arguments, or if one of them is no path, `pkger path` ends with an error, prints nothing
and changes nothing. -/
theorem C84_error (A : Around S) (w : Stdos.World S) (old : Option Str) {args0 args rest : List Str}
    {l : List (Str × Val)} (hr : route args0 = .sub (b! "path") args) (hg : Given helpOptions args l rest)
    (hh : ∀ b, (b! "h", Val.bool b) ∉ l) (hbad : rest = [] ∨ ∃ a ∈ rest, ∃ e, A.env.parse w.here a = .error e) :
    run A w old args0 = ⟨w, [old], [], [], .err⟩ ∧ (program A w old args0).2.status = 1 := by
  have hrun : run A w old args0 = ⟨w, [old], [], [], .err⟩ := by
    rw [run_sub hr]
    unfold execSub
    rw [if_neg (by decide), if_pos rfl, pathCmd_given hg hh]
    by_cases hne : rest = []
    · rw [if_pos hne]; rfl
    · rw [if_neg hne]
      have : ∃ e, pathLoop A.env w.here rest [] = .error e := by
        cases hp : pathLoop A.env w.here rest [] with
        | error e => exact ⟨e, rfl⟩
        | ok m =>
          rcases hbad with h | ⟨a, ha, e, he⟩
          · exact absurd h hne
          · obtain ⟨pre, post, rfl⟩ := List.append_of_mem ha
            exfalso
            -- the first argument that is no path
            have key : ∀ (pre : List Str), ∃ e' pre' a' post', pre ++ a :: post = pre' ++ a' :: post' ∧
                (∀ x ∈ pre', ∃ p, A.env.parse w.here x = .ok p) ∧ A.env.parse w.here a' = .error e' := by
              intro pre
              induction pre with
              | nil => exact ⟨e, [], a, post, rfl, by simp, he⟩
              | cons x pre ih =>
                cases hx : A.env.parse w.here x with
                | error e' => exact ⟨e', [], x, pre ++ a :: post, rfl, by simp, hx⟩
                | ok p =>
                  obtain ⟨e', pre', a', post', h1, h2, h3⟩ := ih
                  refine ⟨e', x :: pre', a', post', by rw [List.cons_append, h1]; rfl, ?_, h3⟩
                  intro y hy
                  rcases List.mem_cons.mp hy with rfl | hy
                  · exact ⟨p, hx⟩
                  · exact h2 y hy
            obtain ⟨e', pre', a', post', h1, h2, h3⟩ := key pre
            have := (pathLoop_err (E := A.env) (here := w.here) (e := e') _ (m := [])).mpr ⟨pre', a', post', h1, h2, h3⟩
            rw [hp] at this
            cases this
      obtain ⟨e, he⟩ := this
      rw [he]
      rfl
  refine ⟨hrun, ?_⟩
  have := (C76_tidy_partial (ε := Unit) [()] (fin := .err) (by intro s; simp)).2.2 (by simp)
  simp only [program, hrun, Go.Ran.status]
  rw [this]

/-- The hypotheses of `C84_path_partial` are met; what is printed. -/
example : route [b! "path", b! "/a", b! "lib:/b", b! "/a"] = .sub (b! "path") [b! "/a", b! "lib:/b", b! "/a"] ∧
    Given helpOptions [b! "/a", b! "lib:/b", b! "/a"] [] [b! "/a", b! "lib:/b", b! "/a"] ∧
    (∀ a ∈ [b! "/a", b! "lib:/b", b! "/a"], ∃ p, Demo.env.parse Demo.info a = .ok p ∧ Utf8.Valid a ∧ PathText p) ∧
    (run (around (Demo.program []) takeAll) atHome none [b! "path", b! "/a", b! "lib:/b", b! "/a"]).out =
      b! "{\n \"/a\": {\n  \"Pkg\": \"app\",\n  \"Name\": \"/a\"\n },\n \"lib:/b\": {\n  \"Pkg\": \"lib\",\n  \"Name\": \"/b\"\n }\n}\n" := by
  refine ⟨by decide +kernel, ⟨[], .nil, Or.inl ⟨rfl, by decide⟩⟩, ?_, by decide +kernel⟩
  intro a ha
  simp only [List.mem_cons, List.not_mem_nil, or_false] at ha
  rcases ha with rfl | rfl | rfl
  · exact ⟨⟨b! "app", b! "/a"⟩, by decide +kernel, by decide +kernel, by decide +kernel⟩
  · exact ⟨⟨b! "lib", b! "/b"⟩, by decide +kernel, by decide +kernel, by decide +kernel⟩
  · exact ⟨⟨b! "app", b! "/a"⟩, by decide +kernel, by decide +kernel, by decide +kernel⟩

/-- **C84 is false** of arguments that are not valid UTF-8: JSON has no such text, and another one is printed. -/
theorem C84_refuted : ¬ C84_statement := by
  intro h
  obtain ⟨_, ms, h1, _, h3, _⟩ := h Unit (around (Demo.program []) takeAll) atHome none [b! "path", [47, 255]] [[47, 255]]
    [[47, 255]] plainHere_law (by decide +kernel) ⟨[], .nil, Or.inl ⟨rfl, by decide⟩⟩ (by simp) (by
      intro a ha
      rw [List.mem_singleton] at ha
      subst ha
      exact ⟨⟨b! "app", [47, 255]⟩, by decide +kernel⟩)
  have h4 : (match Json.parse (run (around (Demo.program []) takeAll) atHome none [b! "path", [47, 255]]).out with
    | some (.obj ms) => ms.map (·.1)
    | _ => []) = [[47, 239, 191, 189]] := by decide +kernel
  rw [h1] at h4
  have h5 := (h3 [47, 255]).mpr (by simp)
  simp only at h4
  rw [h4] at h5
  revert h5
  decide

/-! ### `parse` (C85) -/

/-- The argument stands for a package (the one in the current directory if it is `.`) with these declarations. -/
def Declared (E : Env) (G : Parser.GoTool) (disk : Disk.Node) (a : Str) (ds : List Parser.Decl) : Prop :=
  ∃ info, (a = b! "." ∧ E.dirInfo a = .ok info ∨ a ≠ b! "." ∧ E.pkgInfo a = .ok info) ∧
    Parser.decls E G disk info [] = .ok ds

theorem parseLoop_step {E : Env} {G : Parser.GoTool} {disk : Disk.Node} {a : Str} {ds : List Parser.Decl}
    (h : Declared E G disk a ds) (rest : List Str) (m : AMap Str (List Parser.Decl)) :
    parseLoop E G disk (a :: rest) m = parseLoop E G disk rest (AMap.set m a ds) := by
  obtain ⟨info, h1, h2⟩ := h
  rw [parseLoop]
  rcases h1 with ⟨rfl, h1⟩ | ⟨hne, h1⟩
  · rw [if_pos rfl, h1]
    simp only [h2]
  · rw [if_neg hne, h1]
    simp only [h2]

theorem declared_unique {E : Env} {G : Parser.GoTool} {disk : Disk.Node} {a : Str} {ds ds' : List Parser.Decl}
    (h : Declared E G disk a ds) (h' : Declared E G disk a ds') : ds = ds' := by
  obtain ⟨i, h1, h2⟩ := h
  obtain ⟨i', h1', h2'⟩ := h'
  have : i = i' := by
    rcases h1 with ⟨e, h1⟩ | ⟨e, h1⟩ <;> rcases h1' with ⟨e', h1'⟩ | ⟨e', h1'⟩
    · rw [h1] at h1'; cases h1'; rfl
    · exact absurd e e'
    · exact absurd e' e
    · rw [h1] at h1'; cases h1'; rfl
  subst this
  rw [h2] at h2'
  cases h2'
  rfl

theorem parseLoop_ok {E : Env} {G : Parser.GoTool} {disk : Disk.Node} :
    ∀ (rest : List Str) {m : AMap Str (List Parser.Decl)}, AMap.Nodup m →
    (∀ a ∈ rest, ∃ ds, Declared E G disk a ds) →
    ∃ m', parseLoop E G disk rest m = .ok m' ∧ AMap.Nodup m' ∧
      ∀ a ds, AMap.get m' a = some ds ↔ (a ∈ rest ∧ Declared E G disk a ds) ∨ (a ∉ rest ∧ AMap.get m a = some ds)
  | [], m, hn, _ => ⟨m, rfl, hn, by simp⟩
  | x :: rest, m, hn, h => by
    obtain ⟨p, hp⟩ := h x (by simp)
    obtain ⟨m', h1, h2, h3⟩ := parseLoop_ok rest (AMap.nodup_set x p hn) fun a ha => h a (by simp [ha])
    refine ⟨m', by rw [parseLoop_step hp, h1], h2, fun a q => ?_⟩
    rw [h3, AMap.get_set]
    by_cases hax : a = x
    · subst hax
      simp only [if_true, List.mem_cons, true_or, true_and, not_true_eq_false, false_and, or_false]
      constructor
      · rintro (⟨_, h⟩ | ⟨_, h⟩)
        · exact h
        · cases h; exact hp
      · intro h
        by_cases ha : a ∈ rest
        · exact Or.inl ⟨ha, h⟩
        · exact Or.inr ⟨ha, congrArg some (declared_unique hp h)⟩
    · simp [hax]

/-- An argument that does not stand for a package that can be read ends the loop. -/
theorem parseLoop_fails {E : Env} {G : Parser.GoTool} {disk : Disk.Node} :
    ∀ (rest : List Str) {m : AMap Str (List Parser.Decl)}, (∃ a ∈ rest, ∀ ds, ¬ Declared E G disk a ds) →
    (∃ e, parseLoop E G disk rest m = .err e) ∨ parseLoop E G disk rest m = .panic
  | [], _, h => by simp at h
  | x :: rest, m, h => by
    by_cases hx : ∃ ds, Declared E G disk x ds
    · obtain ⟨ds, hx⟩ := hx
      rw [parseLoop_step hx]
      refine parseLoop_fails rest ?_
      obtain ⟨a, ha, hn⟩ := h
      rcases List.mem_cons.mp ha with rfl | ha
      · exact absurd hx (hn ds)
      · exact ⟨a, ha, hn⟩
    · have key : ∀ info, (x = b! "." ∧ E.dirInfo x = .ok info ∨ x ≠ b! "." ∧ E.pkgInfo x = .ok info) →
          (∃ e, Parser.decls E G disk info [] = .err e) ∨ Parser.decls E G disk info [] = .panic := by
        intro info hi
        cases hd : Parser.decls E G disk info [] with
        | ok ds => exact absurd ⟨ds, info, hi, hd⟩ hx
        | err e => exact Or.inl ⟨e, rfl⟩
        | panic => exact Or.inr rfl
      unfold parseLoop
      by_cases hd : x = b! "."
      · rw [if_pos hd]
        cases hi : E.dirInfo x with
        | error e => exact Or.inl ⟨e, rfl⟩
        | ok info =>
          rcases key info (Or.inl ⟨hd, hi⟩) with ⟨e, he⟩ | he
          · exact Or.inl ⟨e, by simp only [he]⟩
          · exact Or.inr (by simp only [he])
      · rw [if_neg hd]
        cases hi : E.pkgInfo x with
        | error e => exact Or.inl ⟨e, rfl⟩
        | ok info =>
          rcases key info (Or.inr ⟨hd, hi⟩) with ⟨e, he⟩ | he
          · exact Or.inl ⟨e, by simp only [he]⟩
          · exact Or.inr (by simp only [he])

theorem parseCmd_given {E : Env} {G : Parser.GoTool} {disk : Disk.Node} {args rest : List Str} {l : List (Str × Val)}
    (hg : Given helpOptions args l rest) (hh : ∀ b, (b! "h", Val.bool b) ∉ l) :
    parseCmd E G disk args = parseLoop E G disk (if rest = [] then [b! "."] else rest) [] := by
  have hp := (C66_options helpOptions args l rest).mpr hg
  unfold parseCmd
  rw [helpFlags_eq, hp]
  simp only [(lastBool_spec l (b! "h")).1 hh, Bool.false_eq_true, if_false]
  rfl

theorem ints_pfile {H : HereJson} {kept : Info → Info} (hH : HereLaw H kept) (f : Parser.File) : (encPFile H f).Ints :=
  ⟨trivial, hH.pathInts _, hH.infoInts _, trivial⟩

theorem ints_position (p : Position) : (encPosition p).Ints :=
  ⟨trivial, .inl (Decimal.ofNat_text _).1, .inl (Decimal.ofNat_text _).1, .inl (Decimal.ofNat_text _).1, trivial⟩

theorem ints_decl {H : HereJson} {kept : Info → Info} (hH : HereLaw H kept) (d : Parser.Decl × Position) :
    (encDecl H d).Ints :=
  ⟨ints_pfile hH _, ints_position _, trivial, trivial, trivial⟩

theorem tells_pfile {H : HereJson} {kept : Info → Info} (hH : HereLaw H kept) {f : Parser.File} (h : FileText f) :
    TellsFile H kept (encPFile H f).sane f := by
  have e1 : Utf8.sane (b! "Abs") = b! "Abs" := by decide +kernel
  have e2 : Utf8.sane (b! "Path") = b! "Path" := by decide +kernel
  have e3 : Utf8.sane (b! "Here") = b! "Here" := by decide +kernel
  simp only [encPFile, Json.sane, Json.saneMembers, e1, e2, e3, saneText h.1]
  exact ⟨rfl, ⟨_, rfl, hH.path _ h.2.1⟩, ⟨_, rfl, hH.info _ h.2.2⟩⟩

theorem tells_decl {H : HereJson} {kept : Info → Info} (hH : HereLaw H kept) {d : Parser.Decl} (pos : Position)
    (h : FileText d.file) (hv : Utf8.Valid d.value) : TellsDecl H kept (encDecl H (d, pos)).sane d := by
  have e1 : Utf8.sane (b! "file") = b! "file" := by decide +kernel
  have e2 : Utf8.sane (b! "pos") = b! "pos" := by decide +kernel
  have e3 : Utf8.sane (b! "type") = b! "type" := by decide +kernel
  have e4 : Utf8.sane (b! "value") = b! "value" := by decide +kernel
  have e5 : Utf8.sane (typeText d.kind) = typeText d.kind := by cases d.kind <;> decide +kernel
  simp only [encDecl, Json.sane, Json.saneMembers, e1, e2, e3, e4, e5, saneText hv]
  refine ⟨?_, rfl, _, rfl, tells_pfile hH h⟩
  cases d.kind with
  | mkdirAll => exact ⟨b! "MkdirAll", by decide, rfl⟩
  | create => exact ⟨b! "Create", by decide, rfl⟩
  | «include» => exact ⟨b! "Include", by decide, rfl⟩
  | stat => exact ⟨b! "Stat", by decide, rfl⟩
  | «open» => exact ⟨b! "Open", by decide, rfl⟩
  | dir => exact ⟨b! "Dir", by decide, rfl⟩
  | walk => exact ⟨b! "Walk", by decide, rfl⟩

/-- The statement of **C85**: `pkger parse` prints a JSON object that tells for each package named (the one in the
current directory if none is), and nothing else, its declarations in order. -/
def C85_statement : Prop :=
  ∀ (S : Type) (A : Around S) (w : Stdos.World S) (old : Option Str) (args0 args rest : List Str),
    HereLaw A.setup.here id → route args0 = .sub (b! "parse") args → Given helpOptions args [] rest →
    (∀ a ∈ (if rest = [] then [b! "."] else rest), ∃ ds, Declared A.env A.tool (A.disk old) a ds) →
    (run A w old args0).fin = .ok ∧
    DocOf (run A w old args0).out (if rest = [] then [b! "."] else rest) fun a j =>
      ∃ ds, Declared A.env A.tool (A.disk old) a ds ∧ ListOf (TellsDecl A.setup.here id) j ds

/-- **C85** (missing: texts that are not valid UTF-8, see `C85_refuted`).  `pkger parse` prints a JSON object that tells for
each package named (the one in the current directory if none is), and nothing else, its declarations in order, each with
the function called, its argument and the file it stands for; and changes nothing. -/
theorem C85_parse_partial {A : Around S} {kept : Info → Info} (hH : HereLaw A.setup.here kept) (w : Stdos.World S)
    (old : Option Str) {args0 args rest : List Str} {l : List (Str × Val)} (hr : route args0 = .sub (b! "parse") args)
    (hg : Given helpOptions args l rest) (hh : ∀ b, (b! "h", Val.bool b) ∉ l)
    (hok : ∀ a ∈ (if rest = [] then [b! "."] else rest), Utf8.Valid a ∧ ∃ ds, Declared A.env A.tool (A.disk old) a ds ∧
      ∀ d ∈ ds, FileText d.file ∧ Utf8.Valid d.value) :
    (run A w old args0).fin = .ok ∧ (run A w old args0).world = w ∧ (run A w old args0).states = [old] ∧
    DocOf (run A w old args0).out (if rest = [] then [b! "."] else rest) fun a j =>
      ∃ ds, Declared A.env A.tool (A.disk old) a ds ∧ ListOf (TellsDecl A.setup.here kept) j ds := by
  obtain ⟨m, h1, h2, h3⟩ := parseLoop_ok (E := A.env) (G := A.tool) (disk := A.disk old)
    (if rest = [] then [b! "."] else rest) (m := []) (by simp [AMap.Nodup, AMap.keys])
    fun a ha => (hok a ha).2.imp fun ds h => h.1
  have h3' : ∀ a ds, AMap.get m a = some ds ↔ a ∈ (if rest = [] then [b! "."] else rest) ∧
      Declared A.env A.tool (A.disk old) a ds := by
    intro a ds
    rw [h3]
    simp
  have hrun : run A w old args0 = ⟨w, [old], parseOutput A.setup.here A.pos m, [], .ok⟩ := by
    rw [run_sub hr]
    unfold execSub
    rw [if_neg (by decide), if_neg (by decide), if_pos rfl, parseCmd_given hg hh, h1]
    rfl
  rw [hrun]
  refine ⟨rfl, rfl, rfl, ?_⟩
  obtain ⟨ms, q1, q2, q3, q4⟩ := docOf_map
    (fun k ds => encSlice (encDecl A.setup.here) (ds.zipIdx.map fun d => (d.1, A.pos k d.2))) h2
    (fun _ _ _ => ints_slice _ _ fun d _ => ints_decl hH d) (by
      intro k ds hk
      exact (hok k ((h3' k ds).mp hk).1).1)
  refine ⟨ms, q1, q2, ?_, ?_⟩
  · intro k
    rw [q3, AMap.mem_keys_iff]
    constructor
    · rintro ⟨p, hp⟩
      exact ((h3' k p).mp hp).1
    · intro hk
      obtain ⟨_, ds, hp, _⟩ := hok k hk
      exact ⟨ds, (h3' k ds).mpr ⟨hk, hp⟩⟩
  · intro k j hkj
    obtain ⟨ds, hp, rfl⟩ := q4 k j hkj
    obtain ⟨hk, hp⟩ := (h3' k ds).mp hp
    obtain ⟨_, ds', hp', ht⟩ := hok k hk
    have := declared_unique hp hp'
    subst this
    refine ⟨ds, hp, _, elements_slice _ _, ?_⟩
    rw [List.map_map]
    have e : ds = ds.zipIdx.map fun d => d.1 := by simp
    conv => rhs; rw [e]
    refine eachTells_map _ _ _ fun d hd => ?_
    have hd' : d.1 ∈ ds := by
      have := List.mem_zipIdx hd
      rw [this.2.2]
      exact List.getElem_mem _
    exact tells_decl hH _ (ht _ hd').1 (ht _ hd').2

/-- **C85** (errors).  If one of the packages cannot be found or read, `pkger parse` prints nothing, changes nothing and
ends with status 1. -/
theorem C85_error (A : Around S) (w : Stdos.World S) (old : Option Str) {args0 args rest : List Str}
    {l : List (Str × Val)} (hr : route args0 = .sub (b! "parse") args) (hg : Given helpOptions args l rest)
    (hh : ∀ b, (b! "h", Val.bool b) ∉ l)
    (hbad : ∃ a ∈ (if rest = [] then [b! "."] else rest), ∀ ds, ¬ Declared A.env A.tool (A.disk old) a ds) :
    (run A w old args0).out = [] ∧ (run A w old args0).world = w ∧ (run A w old args0).states = [old] ∧
    (program A w old args0).2.status = 1 := by
  have hrun : run A w old args0 = ⟨w, [old], [], [], .err⟩ ∨ run A w old args0 = ⟨w, [old], [], [], .panic⟩ := by
    rw [run_sub hr]
    unfold execSub
    rw [if_neg (by decide), if_neg (by decide), if_pos rfl, parseCmd_given hg hh]
    rcases parseLoop_fails (m := []) _ hbad with ⟨e, he⟩ | he
    · rw [he]; exact Or.inl rfl
    · rw [he]; exact Or.inr rfl
  rcases hrun with hrun | hrun
  · have := (C76_tidy_partial (ε := Unit) [()] (fin := .err) (by intro s; simp)).2.2 (by simp)
    simp only [program, hrun, Go.Ran.status]
    rw [this]
    simp
  · have := (C76_tidy_partial (ε := Unit) [()] (fin := .panic) (by intro s; simp)).2.2 (by simp)
    simp only [program, hrun, Go.Ran.status]
    rw [this]
    simp

/-- A program with two declarations. -/
def twoDecls : Parser.Ast :=
  Demo.program [Demo.callLit (b! "Open") (b! "\"/readme\""), Demo.callLit (b! "Walk") (b! "\"/assets\"")]

/-- The declarations of `twoDecls`. -/
def twoFound : List Parser.Decl :=
  match Parser.decls Demo.env (Demo.tool twoDecls) Demo.disk1 Demo.info [] with
  | .ok ds => ds
  | _ => []

theorem two_found : Declared Demo.env (Demo.tool twoDecls) Demo.disk1 (b! "app") twoFound :=
  ⟨Demo.info, Or.inr ⟨by decide, by decide +kernel⟩, by decide +kernel⟩

/-- The hypotheses of `C85_parse_partial` are met, and those of `C85_error`. -/
example : route [b! "parse", b! "app"] = .sub (b! "parse") [b! "app"] ∧ Given helpOptions [b! "app"] [] [b! "app"] ∧
    (Utf8.Valid (b! "app") ∧ ∃ ds, Declared Demo.env (Demo.tool twoDecls) Demo.disk1 (b! "app") ds ∧ ds.length = 2 ∧
      ∀ d ∈ ds, FileText d.file ∧ Utf8.Valid d.value) ∧
    (∀ ds, ¬ Declared Demo.env (Demo.tool twoDecls) Demo.disk1 (b! "nope") ds) ∧
    (program (around twoDecls takeAll) atHome none [b! "parse", b! "app", b! "nope"]).2.status = 1 := by
  refine ⟨by decide +kernel, ⟨[], .nil, Or.inl ⟨rfl, by decide⟩⟩, ⟨by decide +kernel, twoFound, two_found, by decide +kernel,
    by decide +kernel⟩, ?_, by decide +kernel⟩
  rintro ds ⟨info, h | ⟨_, h⟩, _⟩
  · exact absurd h.1 (by decide)
  · have : Demo.env.pkgInfo (b! "nope") = .error (.other 2) := rfl
    rw [this] at h
    cases h

/-- A program that declares a path that is not valid UTF-8, as Go allows: `pkger.Open("/\xff")`. -/
def badText : Parser.Ast := Demo.program [Demo.callLit (b! "Open") (b! "\"/\\xff\"")]

/-- **C85 is false** of declarations whose texts are not valid UTF-8. -/
theorem C85_refuted : ¬ C85_statement := by
  intro h
  have hd : ∃ ds, Declared Demo.env (Demo.tool badText) Demo.disk1 (b! "app") ds ∧ ds.map (·.value) = [[47, 255]] := by
    refine ⟨match Parser.decls Demo.env (Demo.tool badText) Demo.disk1 Demo.info [] with | .ok ds => ds | _ => [],
      ⟨Demo.info, Or.inr ⟨by decide, by decide +kernel⟩, by decide +kernel⟩, by decide +kernel⟩
  obtain ⟨ds0, hd, hv⟩ := hd
  obtain ⟨_, ms, h1, _, h3, h4⟩ := h Unit (around badText takeAll) atHome none [b! "parse", b! "app"] [b! "app"]
    [b! "app"] plainHere_law (by decide +kernel) ⟨[], .nil, Or.inl ⟨rfl, by decide⟩⟩ (by
      intro a ha
      rw [if_neg (by simp), List.mem_singleton] at ha
      subst ha
      exact ⟨ds0, hd⟩)
  have h5 : (match Json.parse (run (around badText takeAll) atHome none [b! "parse", b! "app"]).out with
    | some (.obj [(_, .arr [j])]) => match get (b! "value") j with | some (.str s) => s | _ => []
    | _ => []) = [47, 239, 191, 189] := by decide +kernel
  rw [h1] at h5
  match ms, h4, h5 with
  | [(k, .arr [j])], h4, h5 =>
    simp only at h5
    obtain ⟨ds, q1, js, q2, q3⟩ := h4 k (.arr [j]) (by simp)
    have hk : k = b! "app" := by
      have := (h3 k).mp (by simp)
      rw [if_neg (by simp), List.mem_singleton] at this
      exact this
    subst hk
    have := declared_unique q1 hd
    subst this
    cases q2
    match ds, q3, hv with
    | [d], q3, hv =>
      rw [q3.1.2.1] at h5
      simp only [List.map_cons, List.map_nil, List.cons.injEq, and_true] at hv
      rw [hv] at h5
      revert h5
      decide

/-! ### `list` (C86) -/

theorem listText_unlines (ip : Str) (fs : List Parser.File) :
    listText ip fs = unlines (ip :: fs.map fun f => b! " > " ++ f.path.str) := by
  simp [listText, unlines, Function.comp_def]

theorem unlines_inj : ∀ {ls ls' : List Str}, (∀ l ∈ ls, 10 ∉ l) → (∀ l ∈ ls', 10 ∉ l) → unlines ls = unlines ls' → ls = ls'
  | [], [], _, _, _ => rfl
  | [], l :: ls, _, _, h => by simp [unlines] at h
  | l :: ls, [], _, _, h => by simp [unlines] at h
  | l :: ls, l' :: ls', h1, h2, h => by
    have h' : l ++ 10 :: unlines ls = l' ++ 10 :: unlines ls' := by simpa [unlines] using h
    have key : ∀ (a b x y : Str), (10 : UInt8) ∉ a → 10 ∉ b → a ++ 10 :: x = b ++ 10 :: y → a = b ∧ x = y := by
      intro a
      induction a with
      | nil =>
        intro b x y _ hb h
        cases b with
        | nil => exact ⟨rfl, by simpa using h⟩
        | cons c b =>
          simp only [List.nil_append, List.cons_append, List.cons.injEq] at h
          exact absurd (by rw [← h.1]; simp) hb
      | cons c a ih =>
        intro b x y ha hb h
        cases b with
        | nil =>
          simp only [List.nil_append, List.cons_append, List.cons.injEq] at h
          exact absurd (by rw [h.1]; simp) ha
        | cons d b =>
          simp only [List.cons_append, List.cons.injEq] at h
          obtain ⟨rfl, h⟩ := h
          obtain ⟨rfl, rfl⟩ := ih b x y (fun h => ha (List.mem_cons_of_mem _ h)) (fun h => hb (List.mem_cons_of_mem _ h)) h
          exact ⟨rfl, rfl⟩
    obtain ⟨rfl, h4⟩ := key l l' _ _ (h1 l (by simp)) (h2 l' (by simp)) h'
    rw [unlines_inj (fun x hx => h1 x (by simp [hx])) (fun x hx => h2 x (by simp [hx])) h4]

/-- The files the program with these options embeds, when there is no generated file yet. -/
def Embeds (A : Around S) (here : Info) (l : List (Str × Val)) (fs : List Parser.File) : Prop :=
  ∃ ds, Parser.decls A.env A.tool (A.disk none) here
      (l.filterMap fun x => match x with | (n, .text s) => if n = b! "include" then some s else none | _ => none) = .ok ds ∧
    Parser.files A.env (A.disk none) A.setup.sort ds = .ok fs

/-- What `list` ends with. -/
theorem list_given {A : Around S} {w : Stdos.World S} {old : Option Str} {args0 args rest : List Str} {l : List (Str × Val)}
    (hr : route args0 = .sub (b! "list") args) (hg : Given listOptions args l rest) {fs : List Parser.File}
    (he : Embeds A w.here l fs) :
    run A w old args0 = ⟨w, [old, none], listOutput A.setup.here (lastBool l (b! "json")) w.here.importPath fs, [], .ok⟩ := by
  obtain ⟨ds, h1, h2⟩ := he
  have hp := (C66_options listOptions args l rest).mpr hg
  rw [run_sub hr]
  unfold execSub
  rw [if_pos rfl]
  unfold Cmd.list
  have h1' : Parser.decls A.env A.tool (A.disk none) w.here (allTexts l (b! "include")) = .ok ds := h1
  simp only [listFlags_eq, hp, h1', h2]

/-- **C86** (as text).  Without `-json`, or if the last one says no, `pkger list` prints the package's import path and, one
per line and in order, the paths of the files that would be embedded. -/
theorem C86_text (A : Around S) (w : Stdos.World S) (old : Option Str) {args0 args rest : List Str} {l : List (Str × Val)}
    (hr : route args0 = .sub (b! "list") args) (hg : Given listOptions args l rest) {fs : List Parser.File}
    (he : Embeds A w.here l fs)
    (hj : (∀ b, (b! "json", Val.bool b) ∉ l) ∨ ∃ l1 l2, l = l1 ++ (b! "json", .bool false) :: l2 ∧ ∀ b, (b! "json", Val.bool b) ∉ l2) :
    (run A w old args0).fin = .ok ∧ (run A w old args0).world = w ∧
    (run A w old args0).out = unlines (w.here.importPath :: fs.map fun f => b! " > " ++ f.path.str) := by
  have hb : lastBool l (b! "json") = false := by
    rcases hj with h | ⟨l1, l2, e, h⟩
    · exact (lastBool_spec l (b! "json")).1 h
    · exact (lastBool_spec l (b! "json")).2 l1 false l2 e h
  rw [list_given hr hg he, hb]
  exact ⟨rfl, rfl, listText_unlines _ _⟩

/-- The statement of **C86**: from what `pkger list` prints, the import path and the paths of the files can be told. -/
def C86_statement : Prop :=
  ∀ (ip ip' : Str) (fs fs' : List Parser.File),
    listText ip fs = listText ip' fs' → ip = ip' ∧ fs.map (·.path.str) = fs'.map (·.path.str)

/-- **C86 is false** of names with newlines. -/
theorem C86_refuted : ¬ C86_statement := by
  intro h
  have := h (b! "app") (b! "app") [⟨[], ⟨b! "app", b! "/a\n > app:/b"⟩, Demo.info⟩]
    [⟨[], ⟨b! "app", b! "/a"⟩, Demo.info⟩, ⟨[], ⟨b! "app", b! "/b"⟩, Demo.info⟩] (by decide)
  exact absurd this.2 (by decide)

/-- **C86** (reading the text; missing: names with newlines, see `C86_refuted`). -/
theorem C86_lines_partial {ip ip' : Str} {fs fs' : List Parser.File} (h1 : 10 ∉ ip) (h2 : 10 ∉ ip')
    (h3 : ∀ f ∈ fs, 10 ∉ f.path.str) (h4 : ∀ f ∈ fs', 10 ∉ f.path.str) (h : listText ip fs = listText ip' fs') :
    ip = ip' ∧ fs.map (·.path.str) = fs'.map (·.path.str) := by
  rw [listText_unlines, listText_unlines] at h
  have key : ∀ (ip : Str) (fs : List Parser.File), 10 ∉ ip → (∀ f ∈ fs, 10 ∉ f.path.str) →
      ∀ l ∈ ip :: fs.map (fun f => b! " > " ++ f.path.str), 10 ∉ l := by
    intro ip fs h1 h3 l hl
    rcases List.mem_cons.mp hl with rfl | hl
    · exact h1
    · obtain ⟨f, hf, rfl⟩ := List.mem_map.mp hl
      intro hm
      rcases List.mem_append.mp hm with hm | hm
      · exact absurd hm (by decide)
      · exact h3 f hf hm
  have := unlines_inj (key ip fs h1 h3) (key ip' fs' h2 h4) h
  simp only [List.cons.injEq] at this
  refine ⟨this.1, ?_⟩
  have h5 := congrArg (List.map (List.drop 3)) this.2
  rw [List.map_map, List.map_map] at h5
  exact h5

/-- **C86** (as JSON; missing: texts that are not valid UTF-8).  With `-json` the document printed has the import path and
the list of files, in order, each with its absolute name, its path and its package. -/
theorem C86_json_partial {A : Around S} {kept : Info → Info} (hH : HereLaw A.setup.here kept) (w : Stdos.World S)
    (old : Option Str) {args0 args rest : List Str} {l l1 l2 : List (Str × Val)}
    (hr : route args0 = .sub (b! "list") args) (hg : Given listOptions args l rest) {fs : List Parser.File}
    (he : Embeds A w.here l fs) (hl : l = l1 ++ (b! "json", .bool true) :: l2) (hl2 : ∀ b, (b! "json", Val.bool b) ∉ l2)
    (hi : Utf8.Valid w.here.importPath) (hf : ∀ f ∈ fs, FileText f) :
    (run A w old args0).fin = .ok ∧ (run A w old args0).world = w ∧
    ∃ j ms, Json.parse (run A w old args0).out = some (.obj ms) ∧ ms.map (·.1) = [b! "ImportPath", b! "Files"] ∧
      get (b! "ImportPath") (.obj ms) = some (.str w.here.importPath) ∧ get (b! "Files") (.obj ms) = some j ∧
      ListOf (TellsFile A.setup.here kept) j fs := by
  rw [list_given hr hg he, (lastBool_spec l (b! "json")).2 l1 true l2 hl hl2]
  refine ⟨rfl, rfl, (encSlice (encPFile A.setup.here) fs).sane, [(b! "ImportPath", .str w.here.importPath),
    (b! "Files", (encSlice (encPFile A.setup.here) fs).sane)], ?_, rfl, rfl, rfl, _, elements_slice _ _, ?_⟩
  · simp only [listOutput, if_true]
    rw [parse_encode (j := .obj [(b! "ImportPath", .str w.here.importPath), (b! "Files", encSlice (encPFile A.setup.here) fs)])
      ⟨trivial, ints_slice _ _ fun f _ => ints_pfile hH f, trivial⟩]
    have e1 : Utf8.sane (b! "ImportPath") = b! "ImportPath" := by decide +kernel
    have e2 : Utf8.sane (b! "Files") = b! "Files" := by decide +kernel
    simp only [Json.sane, Json.saneMembers, e1, e2, saneText hi]
  · have := eachTells_map (T := TellsFile A.setup.here kept) (fun f => (encPFile A.setup.here f).sane) id fs
      fun f hf' => tells_pfile hH (hf f hf')
    rw [List.map_id] at this
    exact this

/-- The hypotheses are met: a listing of three files. -/
example : route [b! "list", b! "-json", b! "-include", b! "/main.go", b! "-json=0"] =
      .sub (b! "list") [b! "-json", b! "-include", b! "/main.go", b! "-json=0"] ∧
    Given listOptions [b! "-json", b! "-include", b! "/main.go", b! "-json=0"]
      ([(b! "json", .bool true), (b! "include", .text (b! "/main.go"))] ++ (b! "json", .bool false) :: []) [] ∧
    (run (around twoDecls takeAll) atHome none [b! "list", b! "-json", b! "-include", b! "/main.go", b! "-json=0"]).out =
      b! "app\n > app:/assets\n > app:/assets/a.txt\n > app:/assets/b.txt\n > app:/main.go\n > app:/readme\n" ∧
    (run (around (Demo.program []) takeAll) atHome none [b! "list", b! "-json", b! "-include", b! "/readme"]).out =
      b! "{\n \"ImportPath\": \"app\",\n \"Files\": [\n  {\n   \"Abs\": \"/src/app/readme\",\n   \"Path\": {\n    \"Pkg\": \"app\",\n    \"Name\": \"/readme\"\n   },\n   \"Here\": {\n    \"Dir\": \"/src/app\",\n    \"ImportPath\": \"app\",\n    \"Name\": \"main\",\n    \"Module\": {\n     \"Path\": \"app\",\n     \"Main\": true,\n     \"Dir\": \"/src/app\",\n     \"GoMod\": \"/src/app/go.mod\",\n     \"GoVersion\": \"1.13\"\n    }\n   }\n  }\n ]\n}\n" := by
  refine ⟨by decide +kernel, ⟨[b! "-json", b! "-include", b! "/main.go", b! "-json=0"], ?_, Or.inl ⟨by simp, trivial⟩⟩,
    by decide +kernel, by decide +kernel⟩
  exact .boolOn (d := b! "-") (n := b! "json") (Or.inl rfl) (by refine ⟨by decide, by decide, by decide⟩) rfl
    (.textNext (d := b! "-") (n := b! "include") (Or.inl rfl) (by refine ⟨by decide, by decide, by decide⟩) rfl
      (.boolVal (d := b! "-") (n := b! "json") (v := b! "0") (Or.inl rfl) (by refine ⟨by decide, by decide, by decide⟩) rfl
        (by decide) .nil))

end Props
end Verif
