import Verif.Props.Stuff

/-! The generated file: the rest of C02, C47, C62 and C63. -/

namespace Verif
namespace Props

open Mem Pack
open Disk (Node)
open Parser (File Decl GoTool)

/-! ### C02 -/

/-- A Go raw string literal at the start of the text (Go specification, "String literals"): everything between a
backquote and the next one, without carriage returns.  The result is its value and the text after it. -/
def rawLiteral : Str → Option (Str × Str)
  | 96 :: s =>
    if (96 : UInt8) ∈ s then some ((s.takeWhile (· ≠ 96)).filter (· ≠ 13), (s.dropWhile (· ≠ 96)).tail) else none
  | _ => none

/-- The fixed text before the literal. -/
def fixedHeader (pkgName : Str) : Str :=
  b! "// Code generated by pkger; DO NOT EDIT.\n\n// +build !skippkger\n\npackage " ++ pkgName ++
  b! "\n\nimport (\n\t\"github.com/markbates/pkger\"\n\t\"github.com/markbates/pkger/pkging/mem\"\n)\n\nvar _ = pkger.Apply(mem.UnmarshalEmbed([]byte("

/-- The fixed text after the literal. -/
def fixedFooter : Str := b! ")))\n"

theorem rawLiteral_quoted {b : Str} (h1 : (96 : UInt8) ∉ b) (h2 : (13 : UInt8) ∉ b) (t : Str) :
    rawLiteral (96 :: (b ++ 96 :: t)) = some (b, t) := by
  have hp : ∀ x ∈ b, (decide (x ≠ 96)) = true := by
    intro x hx
    have : x ≠ 96 := fun h => h1 (h ▸ hx)
    simpa using this
  simp only [rawLiteral]
  rw [if_pos (by simp), List.takeWhile_append_of_pos hp, List.dropWhile_append_of_pos hp]
  simp only [List.takeWhile_cons, List.dropWhile_cons, ne_eq, not_true_eq_false, decide_false, Bool.false_eq_true, if_false,
    List.append_nil, List.tail_cons, Option.some.injEq, Prod.mk.injEq, and_true]
  rw [List.filter_eq_self]
  intro x hx
  have : x ≠ 13 := fun h => h2 (h ▸ hx)
  simpa using this

theorem headers_flatten (pkgName : Str) : (headers pkgName).flatten = fixedHeader pkgName ++ [96] := by
  simp only [headers, fixedHeader, List.flatten_cons, List.flatten_nil, List.append_assoc, List.append_nil]
  rfl

/-- **C02** (the generated file). For every payload and every package name without a backquote, the complete file is
the fixed header, which contains no backquote, then one raw string literal whose value is exactly the blob, then the
fixed footer. -/
theorem C02_generated_file (E : Env) (payload pkgName : Str) (hn : (96 : UInt8) ∉ pkgName) :
    ∃ lit, complete pkgName (Embed.encode E payload) = fixedHeader pkgName ++ lit ∧
      (96 : UInt8) ∉ fixedHeader pkgName ∧ rawLiteral lit = some (Embed.encode E payload, fixedFooter) := by
  obtain ⟨h1, h2⟩ := C02_no_backquote E payload
  refine ⟨96 :: (Embed.encode E payload ++ 96 :: fixedFooter), ?_, ?_, rawLiteral_quoted h1 h2 _⟩
  · unfold complete
    rw [headers_flatten]
    simp [footer, fixedFooter]
  · unfold fixedHeader
    rw [List.mem_append, List.mem_append]
    rintro ((h | h) | h)
    · revert h; decide
    · exact hn h
    · revert h; decide

/-- A concrete case. -/
example : rawLiteral (b! "`1f6869`)))\n") = some (b! "1f6869", b! ")))\n") ∧
    (96 : UInt8) ∉ b! "main" := by decide

/-! ### C47 -/

/-- The writers take everything they are given. -/
def Faithful (wr : Nat → Writer) : Prop := ∀ n s, (wr n s).1 = s.length

/-- Nothing, or a complete generated file for some blob. -/
def Sound (pkgName : Str) (s : Option Str) : Prop :=
  s = none ∨ ∃ (E : Env) (payload : Str), s = some (complete pkgName (Embed.encode E payload))

/-- **C47** in full: if packaging reports success, the output is a complete generated file holding the blob; and at any
point at which the process may die, or after any failure, the output is absent or complete. -/
def C47_statement : Prop :=
  ∀ (E : Env) (S : Setup) (disk : Option Str → Node) (info c : Info) (out : Str) (ds : List Decl)
    (create : Option Err) (wr : Nat → Writer) (old : Option Str), E.dirInfo (GoPath.dir out) = .ok c →
    Sound c.name old →
    ((package E S disk info out ds create wr old).2 = .ok () →
      ∃ h b, blob E { S with disk := disk (some h) } info ds = .ok b ∧
        (package E S disk info out ds create wr old).1.getLast? = some (some (complete c.name b))) ∧
    ∀ s ∈ (package E S disk info out ds create wr old).1, Sound c.name s

theorem writes_last {wr : Nat → Writer} (hf : Faithful wr) : ∀ (n : Nat) (ss : List Str) (old : Str), ss ≠ [] →
    (writes wr n ss old).getLast? = some (old ++ ss.flatten) := by
  intro n ss
  induction ss generalizing n with
  | nil => intro old h; exact absurd rfl h
  | cons s ss ih =>
    intro old _
    simp only [writes, hf n s, List.take_length, List.flatten_cons]
    by_cases hs : ss = []
    · subst hs; simp [writes]
    · have := ih (n + 1) (old ++ s) hs
      rw [List.getLast?_cons, this]
      simp

theorem writes_prefix {wr : Nat → Writer} (hf : Faithful wr) : ∀ (n : Nat) (ss : List Str) (old : Str),
    ∀ x ∈ writes wr n ss old, old <+: x ∧ x <+: old ++ ss.flatten := by
  intro n ss
  induction ss generalizing n with
  | nil => intro old x hx; cases hx
  | cons s ss ih =>
    intro old x hx
    simp only [writes, hf n s, List.take_length, List.mem_cons] at hx
    rcases hx with rfl | hx
    · exact ⟨List.prefix_append _ _, by rw [List.flatten_cons, ← List.append_assoc]; exact List.prefix_append _ _⟩
    · have := ih (n + 1) (old ++ s) x hx
      exact ⟨(List.prefix_append _ _).trans this.1, by rw [List.flatten_cons, ← List.append_assoc]; exact this.2⟩

/-- The text of the header. -/
theorem header_last {wr : Nat → Writer} (hf : Faithful wr) (pkgName : Str) :
    (writes wr 0 (headers pkgName) []).getLast?.getD [] = (headers pkgName).flatten := by
  rw [writes_last hf 0 (headers pkgName) [] (by simp [headers])]
  simp

theorem stuff_cases {E : Env} {S : Setup} {c : Info} {ds : List Decl} (wr : Writer) :
    (∃ b, blob E S c ds = .ok b ∧ stuff E S c ds wr = (b.take (wr b).1, .ok ())) ∨
    (∃ e, blob E S c ds = .err e ∧ stuff E S c ds wr = ([], .err e)) ∨
    (blob E S c ds = .panic ∧ stuff E S c ds wr = ([], .panic)) := by
  unfold stuff
  cases blob E S c ds <;> simp

theorem add_no_panic {E : Env} : ∀ {fs : List OsFile} {w : World}, (add E w fs).2 ≠ .panic := by
  intro fs
  induction fs with
  | nil => intro w; simp [add]
  | cons f fs ih =>
    intro w
    simp only [add]
    have h1 : (addOne E w f).2 ≠ .panic := by
      unfold addOne
      split
      · simp
      · simp only
        split
        · simp
        · split
          · split <;> simp
          · simp
    generalize addOne E w f = m at h1
    obtain ⟨w1, r⟩ := m
    cases r with
    | ok u => exact ih
    | err e => simp
    | panic => exact absurd rfl h1

theorem stuffLoop_no_panic {E : Env} {disk : Node} : ∀ {fs : List File} {w : World},
    (stuffLoop E disk fs w).2 ≠ .panic := by
  intro fs
  induction fs with
  | nil => intro w; simp [stuffLoop]
  | cons f fs ih =>
    intro w
    simp only [stuffLoop]
    split
    · exact ih
    · split
      · simp
      · rename_i n _
        have h1 := add_no_panic (E := E) (fs := [⟨f.abs, n⟩]) (w := w)
        generalize add E w [⟨f.abs, n⟩] = m at h1
        obtain ⟨w1, r⟩ := m
        cases r with
        | ok u => exact ih
        | err e => simp
        | panic => exact absurd rfl h1

/-- `Stuff` never panics. -/
theorem blob_no_panic (E : Env) (S : Setup) (c : Info) (ds : List Decl) : blob E S c ds ≠ .panic := by
  unfold blob stuffed
  cases Parser.files E S.disk S.sort ds with
  | error e => simp
  | ok fs =>
    simp only
    have h1 := stuffLoop_no_panic (E := E) (disk := S.disk) (fs := fs) (w := Mem.new c S.now)
    generalize stuffLoop E S.disk fs (Mem.new c S.now) = m at h1
    obtain ⟨w1, r⟩ := m
    cases r with
    | ok u => simp
    | err e => simp
    | panic => exact absurd rfl h1

/-- **C47** (success) if no write fails or is short (missing: failing writes, for which the claim is false, see
`C47_short_write_refuted`): packaging reports success exactly if the package directory is known, the file can be
created and the blob can be made; the output is then complete and holds the blob. -/
theorem C47_success_partial {E : Env} {S : Setup} {disk : Option Str → Node} {info : Info} {out : Str}
    {ds : List Decl} {create : Option Err} {wr : Nat → Writer} {old : Option Str} (hf : Faithful wr) :
    (package E S disk info out ds create wr old).2 = .ok () ↔
      ∃ c b, E.dirInfo (GoPath.dir out) = .ok c ∧ create = none ∧
        blob E { S with disk := disk (some (headers c.name).flatten) } info ds = .ok b ∧
        (package E S disk info out ds create wr old).1.getLast? = some (some (complete c.name b)) := by
  unfold package packageWith
  cases hd : E.dirInfo (GoPath.dir out) with
  | error e => simp
  | ok c =>
    simp only
    cases create with
    | some e => simp
    | none =>
      simp only [header_last hf]
      rcases stuff_cases (E := E) (S := { S with disk := disk (some (headers c.name).flatten) }) (c := info) (ds := ds) (wr 6) with
        ⟨b, h1, h2⟩ | ⟨e, h1, h2⟩ | ⟨h1, h2⟩
      · rw [h2, hf 6 b, List.take_length]
        simp only [true_iff]
        refine ⟨c, b, rfl, trivial, h1, ?_⟩
        rw [List.getLast?_append, List.getLast?_cons, List.getLast?_map, writes_last hf 7 _ _ (by simp)]
        simp [complete]
      · rw [h2]
        simp only [reduceCtorEq, false_iff]
        rintro ⟨c', b, h3, _, h4, _⟩
        cases h3
        rw [h1] at h4
        cases h4
      · exact absurd h1 (blob_no_panic _ _ _ _)

/-- **C47** (failures and crashes) if no write fails or is short (missing: that the output is never a proper part of a
generated file, which is false, see `C47_crash_refuted` and `C47_error_refuted`): once packaging has started to change
the output, the old output is gone, and whenever the process dies or packaging ends, the output is absent or consists
of the first part of the complete file (of the header, if no blob can be made). -/
theorem C47_never_stale_partial {E : Env} {S : Setup} {disk : Option Str → Node} {info : Info} {out : Str}
    {ds : List Decl} {create : Option Err} {wr : Nat → Writer} {old : Option Str} (hf : Faithful wr) {s : Option Str}
    (hs : s ∈ (package E S disk info out ds create wr old).1.tail) :
    ∃ c, E.dirInfo (GoPath.dir out) = .ok c ∧
      (s = none ∨
        (∃ t, s = some t ∧ t <+: (headers c.name).flatten) ∨
        (∃ t b, s = some t ∧ blob E { S with disk := disk (some (headers c.name).flatten) } info ds = .ok b ∧
          t <+: complete c.name b)) := by
  unfold package packageWith at hs
  cases hd : E.dirInfo (GoPath.dir out) with
  | error e => rw [hd] at hs; simp at hs
  | ok c =>
    rw [hd] at hs
    refine ⟨c, rfl, ?_⟩
    simp only at hs
    cases create with
    | some e => simp at hs; left; exact hs
    | none =>
      simp only [header_last hf] at hs
      have hstates : ∀ x, x ∈ (none : Option Str) :: some [] :: (writes wr 0 (headers c.name) []).map some →
          x = none ∨ ∃ t, x = some t ∧ t <+: (headers c.name).flatten := by
        intro x hx
        rcases List.mem_cons.mp hx with rfl | hx
        · left; rfl
        · rcases List.mem_cons.mp hx with rfl | hx
          · right; exact ⟨[], rfl, List.nil_prefix⟩
          · obtain ⟨t, ht, rfl⟩ := List.mem_map.mp hx
            right
            exact ⟨t, rfl, by simpa using (writes_prefix hf 0 _ [] t ht).2⟩
      rcases stuff_cases (E := E) (S := { S with disk := disk (some (headers c.name).flatten) }) (c := info) (ds := ds) (wr 6) with
        ⟨b, h1, h2⟩ | ⟨e, h1, h2⟩ | ⟨h1, h2⟩
      · rw [h2, hf 6 b, List.take_length] at hs
        simp only [List.cons_append, List.tail_cons] at hs
        rw [← List.cons_append, ← List.cons_append] at hs
        rcases List.mem_append.mp hs with hs | hs
        · rcases hstates s hs with h | h
          · exact Or.inl h
          · exact Or.inr (Or.inl h)
        · right; right
          rcases List.mem_cons.mp hs with rfl | hs
          · exact ⟨_, b, rfl, h1, by unfold complete; exact List.prefix_append _ _⟩
          · obtain ⟨t, ht, rfl⟩ := List.mem_map.mp hs
            refine ⟨t, b, rfl, h1, ?_⟩
            have := (writes_prefix hf 7 _ _ t ht).2
            simpa [complete] using this
      · rw [h2] at hs
        rcases hstates s hs with h | h
        · exact Or.inl h
        · exact Or.inr (Or.inl h)
      · exact absurd h1 (blob_no_panic _ _ _ _)

/-- Writers that take everything. -/
def takeAll : Nat → Writer := fun _ s => (s.length, none)

theorem takeAll_faithful : Faithful takeAll := fun _ _ => rfl

/-- The demo disk, on which the output is somewhere else. -/
def demoDisk : Option Str → Node := fun _ => Demo.disk1

/-- A concrete case: packaging the demo program succeeds. -/
example : Faithful takeAll ∧
    (package Demo.env (demoSetup Demo.disk1) demoDisk Demo.info (b! "/src/app/pkged.go") demoDecls none takeAll none).2 =
      .ok () := ⟨takeAll_faithful, by decide +kernel⟩

/-- An empty file is not a complete generated file. -/
theorem not_sound_short {pkgName s : Str} (h : s.length < (headers pkgName).flatten.length) : ¬ Sound pkgName (some s) := by
  rintro (h' | ⟨E, p, h'⟩)
  · cases h'
  · injection h' with h'
    rw [h'] at h
    simp [complete] at h
    omega

/-- **C47** is false of the code: if the process dies just after the file was created, it is left empty. -/
theorem C47_crash_refuted : ¬ C47_statement := by
  intro h
  have := (h Demo.env (demoSetup Demo.disk1) demoDisk Demo.info Demo.info (b! "/src/app/pkged.go") demoDecls none takeAll none
    (by decide +kernel) (Or.inl rfl)).2 (some []) (by
      have h1 : (package Demo.env (demoSetup Demo.disk1) demoDisk Demo.info (b! "/src/app/pkged.go") demoDecls none takeAll none).1.contains
        (some []) = true := by decide +kernel
      simpa using h1)
  exact not_sound_short (by decide +kernel) this

/-- **C47** is false of the code: an error while embedding leaves a file with the header only, which is not valid Go. -/
theorem C47_error_refuted :
    ∃ ds e, package Demo.env (demoSetup Demo.disk1) demoDisk Demo.info (b! "/src/app/pkged.go") ds none takeAll none =
      ((package Demo.env (demoSetup Demo.disk1) demoDisk Demo.info (b! "/src/app/pkged.go") ds none takeAll none).1, .err e) ∧
    ∃ s, (package Demo.env (demoSetup Demo.disk1) demoDisk Demo.info (b! "/src/app/pkged.go") ds none takeAll none).1.getLast? =
      some s ∧ ¬ Sound Demo.info.name s := by
  refine ⟨[⟨.open, ⟨b! "/src/app/gone", ⟨b! "app", b! "/gone"⟩, Demo.info⟩, b! "/gone"⟩], .text .notExist,
    by decide +kernel, some (headers Demo.info.name).flatten, by decide +kernel, ?_⟩
  rintro (h | ⟨E, p, h⟩)
  · cases h
  · injection h with h
    have := congrArg List.length h
    simp [complete, footer] at this

/-- **C47** is false of the code: if the disk is full, packaging reports success and leaves an incomplete file. -/
theorem C47_short_write_refuted :
    (package Demo.env (demoSetup Demo.disk1) demoDisk Demo.info (b! "/src/app/pkged.go") demoDecls none
      (fun _ _ => (0, some (.other 28))) none).2 = .ok () ∧
    (package Demo.env (demoSetup Demo.disk1) demoDisk Demo.info (b! "/src/app/pkged.go") demoDecls none
      (fun _ _ => (0, some (.other 28))) none).1.getLast? = some (some []) ∧ ¬ Sound Demo.info.name (some []) :=
  ⟨by decide +kernel, by decide +kernel, not_sound_short (by decide +kernel)⟩

/-- **C47** would be false of the code if anything below `Stuff` panicked: packaging would remove the output and report
success (`Stuff` itself does not panic, `blob_no_panic`). -/
theorem C47_panic_is_success (c : Info) (wr : Nat → Writer) (st : Str → Writer → Str × Res Unit)
    (h : ∀ t w, (st t w).2 = .panic) (old : Option Str) :
    (packageWith (.ok c) none wr st old).2 = .ok () ∧ (packageWith (.ok c) none wr st old).1.getLast? = some none := by
  unfold packageWith
  simp only
  have := h ((writes wr 0 (headers c.name) []).getLast?.getD []) (wr 6)
  generalize st ((writes wr 0 (headers c.name) []).getLast?.getD []) (wr 6) = m at this
  obtain ⟨b, r⟩ := m
  simp only at this
  subst this
  exact ⟨rfl, List.getLast?_concat⟩

/-! ### C62 -/

/-- **C62**. What `pkger` does to the output file after its first step, and what it reports, does not depend on the
output of an earlier run. -/
theorem C62_old_output_irrelevant (E : Env) (G : GoTool) (S : Setup) (disk : Option Str → Node) (info : Info)
    (outDir : Str) (includes : List Str) (create : Option Err) (wr : Nat → Writer) (old old' : Option Str) :
    (exec E G S disk (.ok info) outDir includes create wr old).1.tail =
      (exec E G S disk (.ok info) outDir includes create wr old').1.tail ∧
    (exec E G S disk (.ok info) outDir includes create wr old).2 =
      (exec E G S disk (.ok info) outDir includes create wr old').2 := by
  unfold exec
  simp only
  cases Parser.decls E G (disk none) info includes <;> exact ⟨rfl, rfl⟩

/-- **C62** (what is left of an old output): if `pkger` fails after it has found the current package, or dies at any
point after its first step, the old output is gone: the file is absent or a first part of the new one. -/
theorem C62_old_output_gone {E : Env} {G : GoTool} {S : Setup} {disk : Option Str → Node} {info : Info}
    {outDir : Str} {includes : List Str} {create : Option Err} {wr : Nat → Writer} {old : Option Str}
    (hf : Faithful wr) {s : Option Str}
    (hs : s ∈ (exec E G S disk (.ok info) outDir includes create wr old).1.tail) :
    s = none ∨ ∃ t c ds, s = some t ∧ Parser.decls E G (disk none) info includes = .ok ds ∧
      E.dirInfo (GoPath.dir (GoPath.join2 (GoPath.join2 info.dir outDir) (b! "pkged.go"))) = .ok c ∧
      (t <+: (headers c.name).flatten ∨
        ∃ b, blob E { S with disk := disk (some (headers c.name).flatten) } info ds = .ok b ∧ t <+: complete c.name b) := by
  unfold exec at hs
  simp only at hs
  cases hd : Parser.decls E G (disk none) info includes with
  | err e => rw [hd] at hs; simp at hs; exact Or.inl hs
  | panic => rw [hd] at hs; simp at hs; exact Or.inl hs
  | ok ds =>
    rw [hd] at hs
    simp only [List.tail_cons] at hs
    have hhead : (package E S disk info (GoPath.join2 (GoPath.join2 info.dir outDir) outName) ds create wr none).1.head? =
        some none := by
      unfold package packageWith
      cases E.dirInfo (GoPath.dir (GoPath.join2 (GoPath.join2 info.dir outDir) outName)) with
      | error e => rfl
      | ok c =>
        cases create with
        | some e => rfl
        | none =>
          simp only
          generalize stuff E _ info ds (wr 6) = m
          obtain ⟨b, r⟩ := m
          cases r <;> rfl
    by_cases hmem : s ∈ (package E S disk info (GoPath.join2 (GoPath.join2 info.dir outDir) outName) ds create wr none).1.tail
    · obtain ⟨c, hc, h⟩ := C47_never_stale_partial hf hmem
      rcases h with h | ⟨t, h1, h2⟩ | ⟨t, b, h1, h2, h3⟩
      · exact Or.inl h
      · exact Or.inr ⟨t, c, ds, h1, rfl, hc, Or.inl h2⟩
      · exact Or.inr ⟨t, c, ds, h1, rfl, hc, Or.inr ⟨b, h2, h3⟩⟩
    · left
      generalize (package E S disk info (GoPath.join2 (GoPath.join2 info.dir outDir) outName) ds create wr none).1 = l at *
      cases l with
      | nil => cases hs
      | cons a l =>
        simp only [List.head?_cons, Option.some.injEq] at hhead
        simp only [List.tail_cons] at hmem
        rcases List.mem_cons.mp hs with h | h
        · rw [h, hhead]
        · exact absurd h hmem

/-- A concrete case: with the old output `old`, packaging the demo program succeeds, in ten steps. -/
example :
    (exec Demo.env (Demo.tool (Demo.program [Demo.callLit (b! "Dir") (b! "\"/assets\"")])) (demoSetup Demo.disk1) demoDisk
      (.ok Demo.info) [] [] none takeAll (some (b! "old"))).2 = .ok () ∧
    (exec Demo.env (Demo.tool (Demo.program [Demo.callLit (b! "Dir") (b! "\"/assets\"")])) (demoSetup Demo.disk1) demoDisk
      (.ok Demo.info) [] [] none takeAll (some (b! "old"))).1.length = 12 := by
  constructor <;> decide +kernel

/-! ### C63 -/

/-- The disk shows the output file: it has a regular file at `out` exactly if the output exists, with its bytes. -/
def Shows (disk : Option Str → Node) (out : Str) : Prop :=
  (Parser.osStat (disk none) out = none) ∧
  ∀ t, ∃ d, Parser.osStat (disk (some t)) out = some (.file d t)

/-- **C63** in full: the file being generated is not itself embedded. -/
def C63_statement : Prop :=
  ∀ (E : Env) (G : GoTool) (S : Setup) (disk : Option Str → Node) (info c : Info) (out : Str) (includes : List Str)
    (ds : List Decl) (w : World), Spec.AnyOrder G → Spec.Sorts S.sort →
    (∀ p i, E.dirInfo p = .ok i → ParseLaws E i) → (∀ o, (disk o).WF) → (∀ o, NodeOk (disk o)) → Shows disk out →
    E.dirInfo (GoPath.dir out) = .ok c → Parser.decls E G (disk none) info includes = .ok ds →
    stuffed E { S with disk := disk (some (headers c.name).flatten) } info ds = .ok w →
    ∀ q, E.parse info out = .ok q → ¬ Stored w q

/-- **C63** for files of the own module (missing: programs that list a directory above the output, for which C63 is
false, see `C63_refuted`): the generated file is not embedded unless it, or a directory it is in, is listed. -/
theorem C63_not_listed_partial {E : Env} (hs : NoSkip E) {S : Setup} {info : Info} (hl : ParseLaws E info)
    (ho : InfoOk info) {ds : List Decl} {fs : List File} (hf : Parser.files E S.disk S.sort ds = .ok fs)
    (hown : ∀ f ∈ fs, Kept f → ∃ rel n, OwnFile E info S.disk f rel n) {w : World} (h : stuffed E S info ds = .ok w)
    {relOut : List Str} (hplain : Plain relOut)
    (hno : ∀ f ∈ fs, Kept f → ∀ rel, rel <+: relOut → f.path ≠ ⟨info.module.path, GoPath.mk rel⟩) :
    ¬ Stored w ⟨info.module.path, GoPath.mk relOut⟩ := by
  intro hq
  obtain ⟨w', h1, _, h3⟩ := stuffed_own hs hl ho hf (fun f h1 h2 => hown f h1 (kept_iff.mpr h2))
  rw [h] at h1
  injection h1 with h1
  subst h1
  rw [stored_iff_lookup] at hq
  obtain ⟨o, hlk⟩ := hq
  obtain ⟨f, hff, hk, rel, n, hon, cs, m, her, hm, _, hq', _⟩ := h3 _ o hlk
  injection hq' with _ hq'
  have := GoPath.mk_injective hplain.good (hon.2.2.plain cs m hm).good hq'
  exact hno f hff (kept_iff.mpr hk) rel ⟨cs, this.symm⟩ hon.1

/-- The hypotheses hold of the demo program, whose output is `/src/app/pkged.go`. -/
example : ∃ w, stuffed Demo.env (demoSetup Demo.disk1) Demo.info demoDecls = .ok w ∧
    ¬ Stored w ⟨b! "app", b! "/pkged.go"⟩ := by
  have hown : ∀ f ∈ demoList, Kept f → ∃ rel n, OwnFile Demo.env Demo.info Demo.disk1 f rel n := by
    intro f hf hk
    obtain ⟨rel, n, h, _⟩ := demoList_own f hf hk
    exact ⟨rel, n, h⟩
  obtain ⟨w, h1, _⟩ := stuffed_own demo_noSkip (S := demoSetup Demo.disk1) Demo.laws Demo.info_ok demoList_files
    (fun f h1 h2 => hown f h1 (kept_iff.mpr h2))
  refine ⟨w, h1, ?_⟩
  refine C63_not_listed_partial demo_noSkip (S := demoSetup Demo.disk1) Demo.laws Demo.info_ok demoList_files hown h1
    (relOut := [b! "pkged.go"]) (by decide +kernel) ?_
  intro f hf _ rel hrel
  have : rel = [] ∨ rel = [b! "pkged.go"] := by
    obtain ⟨t, ht⟩ := hrel
    cases rel with
    | nil => exact Or.inl rfl
    | cons a l =>
      simp only [List.cons_append, List.cons.injEq, List.append_eq_nil_iff] at ht
      right
      rw [ht.1, ht.2.1]
  rcases this with rfl | rfl
  · revert f; decide +kernel
  · revert f; decide +kernel

/-- The demo module with the output in it. -/
def outDisk (o : Option Str) : Node :=
  Demo.disk [Demo.dirNode (b! "src") [Demo.dirNode (b! "app")
    (Demo.fileNode (b! "main.go") (b! "package main") ::
      match o with
      | none => []
      | some t => [Demo.fileNode (b! "pkged.go") t])]]

/-- **C63** is false of the code: with `pkger.Dir("/")`, the file being generated is embedded, as it is at that
moment, with its header only. -/
theorem C63_refuted : ¬ C63_statement := by
  intro h
  have h1 : (match Parser.decls Demo.env (Demo.tool (Demo.program [Demo.callLit (b! "Dir") (b! "\"/\"")])) (outDisk none)
      Demo.info [] with
    | .ok ds =>
      match stuffed Demo.env (demoSetup (outDisk (some (headers (b! "main")).flatten))) Demo.info ds with
      | .ok w => (AMap.get w.files ⟨b! "app", b! "/pkged.go"⟩).isSome
      | _ => false
    | _ => false) = true := by decide +kernel
  split at h1
  · rename_i ds hds
    split at h1
    · rename_i w hw
      obtain ⟨id, hid⟩ := Option.isSome_iff_exists.mp h1
      refine h Demo.env _ (demoSetup Demo.disk1) outDisk Demo.info Demo.info (b! "/src/app/pkged.go") [] ds w
        (Demo.tool_anyOrder _) Demo.sortFiles_sorts demo_dir_laws ?_ ?_ ⟨by rfl, ?_⟩ (by decide +kernel) hds hw _
        (by decide +kernel) ⟨id, hid⟩
      · intro o
        cases o with
        | none => decide +kernel
        | some t =>
          simp only [outDisk, Demo.disk, Demo.dirNode, Demo.fileNode, Disk.Node.WF, Disk.Node.WFKids, List.map_cons,
            List.map_nil]
          decide +kernel
      · intro o
        cases o with
        | none =>
          unfold outDisk Demo.disk Demo.dirNode Demo.fileNode
          repeat' first
            | exact .file _ _ rfl rfl
            | (refine .dir _ _ rfl ?_; intro e he; simp only [List.mem_cons, List.not_mem_nil, or_false] at he)
            | (rcases he with rfl | rfl)
            | subst he
        | some t =>
          unfold outDisk Demo.disk Demo.dirNode Demo.fileNode
          repeat' first
            | exact .file _ _ rfl rfl
            | (refine .dir _ _ rfl ?_; intro e he; simp only [List.mem_cons, List.not_mem_nil, or_false] at he)
            | (rcases he with rfl | rfl)
            | subst he
      · intro t
        exact ⟨_, rfl⟩
    · cases h1
  · cases h1

end Props
end Verif
