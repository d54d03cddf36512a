import Verif.Spec.Syntax
import Verif.Spec.ParserDemo
import Verif.Lemmas.Unquote

/-! C40, C41, C42: the declarations of a source file. -/

namespace Verif
namespace Props

open Parser Spec

/-! ### Evaluating arguments -/

theorem idxOf?_iff {name : Str} {l : List Str} {i : Nat} :
    l.idxOf? name = some i ↔ l[i]? = some name ∧ ∀ j < i, l[j]? ≠ some name := by
  unfold List.idxOf?
  rw [List.findIdx?_eq_some_iff_getElem]
  constructor
  · rintro ⟨h, h1, h2⟩
    refine ⟨by rw [List.getElem?_eq_getElem h]; simpa using h1, ?_⟩
    intro j hj hc
    have := h2 j hj
    rw [List.getElem?_eq_getElem (by omega)] at hc
    simp only [Option.some.injEq] at hc
    simp [hc] at this
  · rintro ⟨h1, h2⟩
    obtain ⟨h, h1⟩ := List.getElem?_eq_some_iff.mp h1
    refine ⟨h, by simpa using h1, ?_⟩
    intro j hj
    have := h2 j hj
    rw [List.getElem?_eq_getElem (by omega)] at this
    simpa using this

theorem valueNode_mono {objs : Nat → Obj} : ∀ (d : Nat) (e : Ast) (s : Str), valueNode objs d e = .ok s →
    ∀ d' ≥ d, valueNode objs d' e = .ok s
  | 0, e, s, h => by simp [valueNode] at h
  | d + 1, e, s, h => by
    intro d' hd'
    obtain ⟨d'', rfl⟩ : ∃ d'', d' = d'' + 1 := ⟨d' - 1, by omega⟩
    cases e with
    | lit t => exact h
    | sel x n => exact h
    | call f args => exact h
    | other kids => exact h
    | ident name obj =>
      cases obj with
      | none => simp [valueNode] at h
      | some o =>
        simp only [valueNode] at h ⊢
        split at h
        · rename_i hc
          rw [if_pos hc]
          split at h
          · exact h
          · rename_i sp hs
            split at h
            · exact h
            · rename_i i hi
              split at h
              · cases h
              · rename_i v hv
                exact valueNode_mono d v s h d'' (by omega)
        · rename_i hc
          rw [if_neg hc]
          exact h

theorem valueNode_no_err {objs : Nat → Obj} : ∀ (d : Nat) (e : Ast) (x : Err), valueNode objs d e ≠ .err x
  | 0, e, x => by simp [valueNode]
  | d + 1, e, x => by
    cases e with
    | lit t => simp [valueNode]
    | sel y n => simp [valueNode]
    | call f args => simp [valueNode]
    | other kids => simp [valueNode]
    | ident name obj =>
      cases obj with
      | none => simp [valueNode]
      | some o =>
        simp only [valueNode]
        split
        · split
          · simp
          · split
            · simp
            · split
              · simp
              · exact valueNode_no_err d _ x
        · simp

theorem valueNode_resolved {objs : Nat → Obj} {e : Ast} (h : Resolved objs e) : ∃ d s, valueNode objs d e = .ok s := by
  induction h with
  | lit t => exact ⟨1, _, rfl⟩
  | sel x n => exact ⟨1, _, rfl⟩
  | call f args => exact ⟨1, _, rfl⟩
  | other kids => exact ⟨1, _, rfl⟩
  | @notCon name o hc => exact ⟨1, name, by simp [valueNode, hc]⟩
  | @noSpec name o hc hs => exact ⟨1, name, by simp [valueNode, hc, hs]⟩
  | @notNamed name o sp hc hs hn =>
    refine ⟨1, name, ?_⟩
    have : sp.names.idxOf? name = none := by
      cases hi : sp.names.idxOf? name with
      | none => rfl
      | some i => exact absurd (List.mem_of_getElem? (idxOf?_iff.mp hi).1) hn
    simp [valueNode, hc, hs, this]
  | @const name o sp e i hc hs h1 h2 hv _ ih =>
    obtain ⟨d, s, hd⟩ := ih
    exact ⟨d + 1, s, by simp [valueNode, hc, hs, idxOf?_iff.mpr ⟨h1, h2⟩, hv, hd]⟩

theorem resolved_valueNode {objs : Nat → Obj} : ∀ (d : Nat) (e : Ast) (s : Str), valueNode objs d e = .ok s → Resolved objs e
  | 0, e, s, h => by simp [valueNode] at h
  | d + 1, e, s, h => by
    cases e with
    | lit t => exact .lit t
    | sel x n => exact .sel x n
    | call f args => exact .call f args
    | other kids => exact .other kids
    | ident name obj =>
      cases obj with
      | none => simp [valueNode] at h
      | some o =>
        simp only [valueNode] at h
        split at h
        · rename_i hc
          split at h
          · rename_i hs; exact .noSpec hc hs
          · rename_i sp hs
            split at h
            · rename_i hi
              refine .notNamed hc hs ?_
              intro hm
              unfold List.idxOf? at hi
              rw [List.findIdx?_eq_none_iff] at hi
              have := hi name hm
              simp at this
            · rename_i i hi
              split at h
              · cases h
              · rename_i v hv
                have hi' := idxOf?_iff.mp hi
                exact .const hc hs hi'.1 hi'.2 hv (resolved_valueNode d v s h)
        · rename_i hc
          exact .notCon (by simpa using hc)

/-- A name that does not start with a quote is not a literal. -/
theorem unquote_name {n : Str} (h : Typed (.ident n none)) : ∀ v, Unquote.unquote n ≠ .ok v := by
  intro v hv
  have := (Unquote.unquote_iff h.2.2).mp hv
  cases this with
  | raw _ => exact h.2.1 rfl
  | interpreted _ => exact h.1 rfl

theorem constant_of_value {src : Source} (hc : ∀ o sp, (src.objs o).spec = some sp → ∀ e ∈ sp.values, Typed e) {v : Str} :
    ∀ (d : Nat) (e : Ast) (s : Str), Typed e → valueNode src.objs d e = .ok s → Unquote.unquote s = .ok v →
      Constant src.objs e v
  | 0, e, s, _, h, _ => by simp [valueNode] at h
  | d + 1, e, s, ht, h, hv => by
    have hnil : ∀ v, Unquote.unquote [] ≠ .ok v := by intro v h; cases h
    cases e with
    | lit t =>
      simp only [valueNode, Res.ok.injEq] at h
      subst h
      exact .lit ((Unquote.unquote_iff ht).mp hv)
    | sel x n => simp only [valueNode, Res.ok.injEq] at h; subst h; exact absurd hv (hnil v)
    | call f args => simp only [valueNode, Res.ok.injEq] at h; subst h; exact absurd hv (hnil v)
    | other kids => simp only [valueNode, Res.ok.injEq] at h; subst h; exact absurd hv (hnil v)
    | ident name obj =>
      cases obj with
      | none => simp [valueNode] at h
      | some o =>
        simp only [valueNode] at h
        split at h
        · rename_i hcon
          split at h
          · cases h; exact absurd hv (unquote_name ht v)
          · rename_i sp hs
            split at h
            · cases h; exact absurd hv (unquote_name ht v)
            · rename_i i hi
              split at h
              · cases h
              · rename_i x hx
                have hi' := idxOf?_iff.mp hi
                exact .const hcon hs hi'.1 hi'.2 hx
                  (constant_of_value hc d x s (hc o sp hs x (List.mem_of_getElem? hx)) h hv)
        · cases h; exact absurd hv (unquote_name ht v)

theorem goString_head {t v : Str} (h : GoString t v) : t.head? ≠ some 39 := by
  cases h <;> simp

theorem value_of_constant {src : Source} {e : Ast} {v : Str} (h : Constant src.objs e v) :
    ∃ d0, ∀ d ≥ d0, value d src e = .ok v := by
  have : ∃ d s, valueNode src.objs d e = .ok s ∧ Unquote.unquote s = .ok v := by
    induction h with
    | lit hg => exact ⟨1, _, rfl, (Unquote.unquote_iff (goString_head hg)).mpr hg⟩
    | const hc hs h1 h2 hv _ ih =>
      obtain ⟨d, s, hd, hu⟩ := ih
      exact ⟨d + 1, s, by simp [valueNode, hc, hs, idxOf?_iff.mpr ⟨h1, h2⟩, hv, hd], hu⟩
  obtain ⟨d, s, hd, hu⟩ := this
  refine ⟨d, fun d' hd' => ?_⟩
  simp only [value, valueNode_mono d e s hd d' hd', hu]

/-- **C42** in full. Evaluating an argument terminates without a crash if there is room enough on the stack, and gives
the value of a constant. -/
def C42_statement : Prop :=
  ∀ (src : Source) (e : Ast), TypedSource src → Typed e → ∃ d0, ∀ d ≥ d0, value d src e ≠ .panic ∧
    ∀ v, Constant src.objs e v → value d src e = .ok v

/-- The source file used in the refutations: objects and nothing else. -/
def objSource (objs : Nat → Obj) : Source := ⟨[], ⟨[], []⟩, Demo.info, .other [], objs⟩

theorem typed_objSource {objs : Nat → Obj} (h : ∀ o sp, (objs o).spec = some sp → ∀ e ∈ sp.values, Typed e) :
    TypedSource (objSource objs) :=
  { args := by
      intro a ha k arg args hc
      simp [nodes, objSource, occurrences, occurrencesList] at ha
      subst ha
      obtain ⟨o, name, h, _⟩ := hc
      cases h
    consts := h }

/-- **C42** is false of the code: an identifier that `go/parser` did not resolve, e.g. one defined in another file of
the package, has a nil object, which is dereferenced. -/
theorem C42_unresolved_refuted : ¬ C42_statement := by
  intro h
  obtain ⟨d0, hd⟩ := h (objSource fun _ => ⟨false, none⟩) (.ident (b! "name") none)
    (typed_objSource (by intro o sp h; cases h)) (by decide)
  have := (hd (d0 + 1) (by omega)).1
  exact this rfl

/-- The constants `const ( a = "x"; b )`: `b` has no value of its own. -/
def implicitConst : Nat → Obj
  | 0 => ⟨true, some ⟨[b! "a"], [.lit (b! "\"x\"")]⟩⟩
  | _ => ⟨true, some ⟨[b! "b"], []⟩⟩

/-- **C42** is false of the code: a constant with an implicit value is an index out of range. -/
theorem C42_implicit_value_refuted : ¬ C42_statement := by
  intro h
  obtain ⟨d0, hd⟩ := h (objSource implicitConst) (.ident (b! "b") (some 1))
    (typed_objSource (by
      intro o sp h
      unfold implicitConst at h
      split at h
      · cases h; decide
      · cases h; simp)) (by decide)
  have := (hd (d0 + 1) (by omega)).1
  exact this rfl

/-- The constants `const a = b; const b = a`, which are not legal but which the parser accepts. -/
def cyclicConst : Nat → Obj
  | 0 => ⟨true, some ⟨[b! "a"], [.ident (b! "b") (some 1)]⟩⟩
  | _ => ⟨true, some ⟨[b! "b"], [.ident (b! "a") (some 0)]⟩⟩

theorem cyclic_panics : ∀ d, valueNode cyclicConst d (.ident (b! "a") (some 0)) = .panic ∧
    valueNode cyclicConst d (.ident (b! "b") (some 1)) = .panic
  | 0 => ⟨rfl, rfl⟩
  | d + 1 => ⟨(cyclic_panics d).2, (cyclic_panics d).1⟩

/-- **C42** is false of the code: constants defined by each other overflow the stack, whatever its size. -/
theorem C42_cycle_refuted : ¬ C42_statement := by
  intro h
  obtain ⟨d0, hd⟩ := h (objSource cyclicConst) (.ident (b! "a") (some 0))
    (typed_objSource (by
      intro o sp h
      unfold cyclicConst at h
      split at h
      · cases h; decide
      · cases h; decide)) (by decide)
  have := (hd d0 (by omega)).1
  unfold value objSource at this
  rw [(cyclic_panics d0).1] at this
  exact this rfl

/-- **C42** for arguments whose evaluation comes to an end (missing: the cases refuted above). With enough stack it
does not crash, and gives the value of a constant. -/
theorem C42_resolved_partial (src : Source) (e : Ast) (hr : Resolved src.objs e) :
    ∃ d0, ∀ d ≥ d0, value d src e ≠ .panic ∧ ∀ v, Constant src.objs e v → value d src e = .ok v := by
  obtain ⟨d0, s, hs⟩ := valueNode_resolved hr
  refine ⟨d0, fun d hd => ?_⟩
  have hds := valueNode_mono d0 e s hs d hd
  refine ⟨?_, ?_⟩
  · unfold value
    rw [hds]
    simp only
    split <;> simp
  · intro v hv
    obtain ⟨d1, h1⟩ := value_of_constant hv
    have h2 := h1 (max d d1) (Nat.le_max_right _ _)
    unfold value at h2 ⊢
    rw [valueNode_mono d e s hds _ (Nat.le_max_left d d1)] at h2
    rw [hds]
    exact h2

/-- Exactly which arguments crash the tool, however large the stack. -/
theorem C42_crash_iff (src : Source) (e : Ast) : (∀ d, value d src e = .panic) ↔ ¬ Resolved src.objs e := by
  constructor
  · intro h hr
    obtain ⟨d0, hd⟩ := C42_resolved_partial src e hr
    exact (hd d0 (Nat.le_refl _)).1 (h d0)
  · intro hr d
    unfold value
    cases h : valueNode src.objs d e with
    | ok s => exact absurd (resolved_valueNode d e s h) hr
    | err x => exact absurd h (valueNode_no_err d e x)
    | panic => rfl

/-- The constants `const a, b = c, "y"` and `const c = "x\n"`, and the value of `a`. -/
example : ∃ objs : Nat → Obj, Resolved objs (.ident (b! "a") (some 0)) ∧
    Constant objs (.ident (b! "a") (some 0)) [120, 10] ∧
    value 5 (objSource objs) (.ident (b! "a") (some 0)) = .ok [120, 10] := by
  refine ⟨fun o => if o = 0 then ⟨true, some ⟨[b! "a", b! "b"], [.ident (b! "c") (some 1), .lit (b! "\"y\"")]⟩⟩
    else ⟨true, some ⟨[b! "c"], [.lit (b! "\"x\\n\"")]⟩⟩, ?_, ?_, by decide +kernel⟩
  · exact .const (i := 0) rfl rfl rfl (by intro j hj; omega) rfl
      (.const (i := 0) rfl rfl rfl (by intro j hj; omega) rfl (.lit _))
  · refine .const (i := 0) rfl rfl rfl (by intro j hj; omega) rfl
      (.const (i := 0) rfl rfl rfl (by intro j hj; omega) rfl (.lit ?_))
    exact (Unquote.unquote_iff (by decide)).mp (by decide +kernel)

/-! ### Finding declarations -/

theorem kindOf_iff (name : Str) (k : Kind) : kindOf name = some k ↔ (name, k) ∈ declaring := by
  constructor
  · intro h
    unfold kindOf at h
    repeat' split at h
    all_goals first | (cases h; subst_vars; decide) | cases h
  · intro h
    simp only [declaring, List.mem_cons, Prod.mk.injEq, List.not_mem_nil, or_false] at h
    rcases h with ⟨rfl, rfl⟩ | ⟨rfl, rfl⟩ | ⟨rfl, rfl⟩ | ⟨rfl, rfl⟩ | ⟨rfl, rfl⟩ | ⟨rfl, rfl⟩ | ⟨rfl, rfl⟩ <;> decide

theorem declFile_iff {E : Env} {abs val : Str} {f : File} : declFile E abs val = .ok f ↔ FileFor E abs val f := by
  constructor
  · intro h
    unfold declFile at h
    split at h
    · cases h
    · rename_i info hi
      split at h
      · cases h
      · rename_i pt hp
        split at h
        · rename_i hne
          split at h
          · cases h
          · rename_i info' hi'
            cases h
            exact .foreign hi hp hne hi'
        · rename_i he
          cases h
          exact .own hi hp (by simpa using he)
  · intro h
    cases h with
    | own h1 h2 h3 => simp [declFile, h1, h2, h3]
    | foreign h1 h2 h3 h4 => simp [declFile, h1, h2, h3, h4]

theorem constant_unique {objs : Nat → Obj} {e : Ast} {v v' : Str} (h : Constant objs e v) (h' : Constant objs e v') :
    v = v' := by
  obtain ⟨d1, h1⟩ := value_of_constant (src := objSource objs) h
  obtain ⟨d2, h2⟩ := value_of_constant (src := objSource objs) h'
  have a := h1 (max d1 d2) (Nat.le_max_left _ _)
  have b := h2 (max d1 d2) (Nat.le_max_right _ _)
  rw [a] at b
  cases b
  rfl

theorem isCall_kind {a : Ast} {k k' : Kind} {as as' : List Ast} (h : IsCall a k as) (h' : IsCall a k' as') :
    k = k' ∧ as = as' := by
  obtain ⟨o, n, rfl, hk⟩ := h
  obtain ⟨o', n', he, hk'⟩ := h'
  cases he
  have a := (kindOf_iff _ _).mpr hk
  have b := (kindOf_iff _ _).mpr hk'
  rw [a] at b
  cases b
  exact ⟨rfl, rfl⟩

theorem declares_unique {E : Env} {src : Source} {a : Ast} {d d' : Decl} (h : Declares E src a d)
    (h' : Declares E src a d') : d = d' := by
  obtain ⟨arg, args, hc, hv, hf⟩ := h
  obtain ⟨arg', args', hc', hv', hf'⟩ := h'
  obtain ⟨hk, ha⟩ := isCall_kind hc hc'
  cases ha
  have hvv := constant_unique hv hv'
  rw [← declFile_iff] at hf hf'
  rw [hvv, hf'] at hf
  cases d; cases d'
  simp only at hk hvv hf
  cases hk; cases hvv; cases hf
  rfl

/-- What the callback does at one node: it records the declaration of the node if there is one, and stops the descent
exactly at unusable calls. -/
theorem enter_spec {E : Env} {depth : Nat} {src : Source}
    (hc : ∀ o sp, (src.objs o).spec = some sp → ∀ e ∈ sp.values, Typed e) {a : Ast}
    (hargs : ∀ k arg args, IsCall a k (arg :: args) → Typed arg) {s s' : PState} {go : Bool}
    (h : enter E depth src a s = .ok (s', go)) :
    (∃ d, Declares E src a d ∧ s'.decls = s.decls.append d.kind [d] ∧ go = true) ∨
      ((∀ d, ¬ Declares E src a d) ∧ s'.decls = s.decls ∧ (go = false ↔ Unusable E src a)) := by
  have nocall : (∀ k args, ¬ IsCall a k args) → s' = s → go = true →
      (∀ d, ¬ Declares E src a d) ∧ s'.decls = s.decls ∧ (go = false ↔ Unusable E src a) := by
    rintro h1 rfl rfl
    refine ⟨?_, rfl, ?_⟩
    · rintro d ⟨arg, args, hcall, _⟩
      exact h1 _ _ hcall
    · constructor
      · intro h; cases h
      · rintro ⟨⟨k, args, hcall⟩, _⟩
        exact absurd hcall (h1 k args)
  unfold enter at h
  split at h
  · rename_i pkg obj name args
    split at h
    · rename_i hp
      cases h
      refine Or.inr (nocall ?_ rfl rfl)
      rintro k as ⟨o, n, he, _⟩
      cases he
      exact hp rfl
    · rename_i hp
      have hp : pkg = b! "pkger" := by simpa using hp
      subst hp
      split at h
      · rename_i hk
        cases h
        refine Or.inr (nocall ?_ rfl rfl)
        rintro k as ⟨o, n, he, hn⟩
        cases he
        rw [(kindOf_iff _ _).mpr hn] at hk
        cases hk
      · rename_i k hk
        have hcall : IsCall (.call (.sel (.ident (b! "pkger") obj) name) args) k args :=
          ⟨obj, name, rfl, (kindOf_iff _ _).mp hk⟩
        -- an unusable call
        have unusable : (∀ d, ¬ Declares E src (.call (.sel (.ident (b! "pkger") obj) name) args) d) →
            s'.decls = s.decls → go = false →
            (∀ d, ¬ Declares E src (.call (.sel (.ident (b! "pkger") obj) name) args) d) ∧ s'.decls = s.decls ∧
              (go = false ↔ Unusable E src (.call (.sel (.ident (b! "pkger") obj) name) args)) :=
          fun h1 h2 h3 => ⟨h1, h2, fun _ => ⟨⟨k, args, hcall⟩, h1⟩, fun _ => h3⟩
        split at h
        · cases h
          refine Or.inr (unusable ?_ rfl rfl)
          rintro d ⟨arg, args, hcall', _⟩
          cases (isCall_kind hcall hcall').2
        · rename_i n rest
          split at h
          · cases h
          · rename_i e he
            cases h
            refine Or.inr (unusable ?_ rfl rfl)
            rintro d ⟨arg, args, hcall', hv, _⟩
            cases (isCall_kind hcall hcall').2
            obtain ⟨d0, h0⟩ := value_of_constant hv
            have h1 := h0 (max d0 depth) (Nat.le_max_left _ _)
            unfold value at he h1
            split at he
            · rename_i t ht
              rw [valueNode_mono depth n t ht _ (Nat.le_max_right d0 depth)] at h1
              simp only at h1
              split at he
              · cases he
              · rename_i e' hu
                rw [hu] at h1
                cases h1
            · rename_i e' hx
              exact valueNode_no_err _ _ _ hx
            · cases he
          · rename_i v hv
            have hconst : Constant src.objs n v := by
              unfold value at hv
              split at hv
              · rename_i t ht
                split at hv
                · rename_i v' hu
                  cases hv
                  exact constant_of_value hc depth n t (hargs k n rest hcall) ht hu
                · cases hv
              · cases hv
              · cases hv
            split at h
            · rename_i e he
              cases h
              refine Or.inr (unusable ?_ rfl rfl)
              rintro d ⟨arg, args, hcall', hv', hf⟩
              cases (isCall_kind hcall hcall').2
              rw [constant_unique hv' hconst] at hf
              rw [declFile_iff.mpr hf] at he
              cases he
            · rename_i f hf
              cases h
              exact Or.inl ⟨⟨k, f, v⟩, ⟨n, rest, hcall, hconst, declFile_iff.mp hf⟩, rfl, rfl⟩
  · rename_i hne
    cases h
    refine Or.inr (nocall ?_ rfl rfl)
    rintro k as ⟨o, n, he, _⟩
    exact hne _ _ _ _ he

/-- An occurrence that the scan reports: it declares `d` of kind `k`, and is not nested in an unusable call. -/
def Reported (E : Env) (src : Source) (k : Kind) (o : List Ast × Ast) (d : Decl) : Prop :=
  (∀ b ∈ o.1, ¬ Unusable E src b) ∧ d.kind = k ∧ Declares E src o.2 d

theorem picks_append {α β : Type} {P : α → β → Prop} {a b : List α} {x y : List β} (h1 : Picks P a x) (h2 : Picks P b y) :
    Picks P (a ++ b) (x ++ y) := by
  induction h1 with
  | nil => exact h2
  | pick hp _ ih => exact .pick hp ih
  | skip hn _ ih => exact .skip hn ih

theorem picks_none {α β : Type} {P : α → β → Prop} : ∀ {l : List α}, (∀ x ∈ l, ∀ y, ¬ P x y) → Picks P l []
  | [], _ => .nil
  | x :: _, h => .skip (h x (by simp)) (picks_none fun z hz => h z (by simp [hz]))

mutual
theorem occurrences_outer (outer : List Ast) : ∀ (a : Ast), ∀ o ∈ occurrences outer a, ∀ b ∈ outer, b ∈ o.1
  | .ident n o => by simp [occurrences]
  | .lit t => by simp [occurrences]
  | .sel x n => by
    intro o ho b hb
    simp only [occurrences, List.mem_cons] at ho
    rcases ho with rfl | ho
    · exact hb
    · exact occurrences_outer _ x o ho b (by simp [hb])
  | .call f args => by
    intro o ho b hb
    simp only [occurrences, List.mem_cons, List.mem_append] at ho
    rcases ho with rfl | ho | ho
    · exact hb
    · exact occurrences_outer _ f o ho b (by simp [hb])
    · exact occurrencesList_outer _ args o ho b (by simp [hb])
  | .other kids => by
    intro o ho b hb
    simp only [occurrences, List.mem_cons] at ho
    rcases ho with rfl | ho
    · exact hb
    · exact occurrencesList_outer _ kids o ho b (by simp [hb])

theorem occurrencesList_outer (outer : List Ast) : ∀ (as : List Ast), ∀ o ∈ occurrencesList outer as, ∀ b ∈ outer, b ∈ o.1
  | [] => by simp [occurrencesList]
  | a :: as => by
    intro o ho b hb
    simp only [occurrencesList, List.mem_append] at ho
    rcases ho with ho | ho
    · exact occurrences_outer outer a o ho b hb
    · exact occurrencesList_outer outer as o ho b hb
end

/-- The outcome of a scan of the occurrences `os`. -/
def Scanned (E : Env) (src : Source) (os : List (List Ast × Ast)) (s s' : PState) : Prop :=
  ∀ k, ∃ l, s'.decls k = s.decls k ++ l ∧ Picks (Reported E src k) os l

theorem scanned_append {E : Env} {src : Source} {a b : List (List Ast × Ast)} {s s' s'' : PState}
    (h1 : Scanned E src a s s') (h2 : Scanned E src b s' s'') : Scanned E src (a ++ b) s s'' := by
  intro k
  obtain ⟨l1, e1, p1⟩ := h1 k
  obtain ⟨l2, e2, p2⟩ := h2 k
  exact ⟨l1 ++ l2, by rw [e2, e1, List.append_assoc], picks_append p1 p2⟩

theorem enter_scanned {E : Env} {depth : Nat} {src : Source}
    (hc : ∀ o sp, (src.objs o).spec = some sp → ∀ e ∈ sp.values, Typed e) {a : Ast}
    (hargs : ∀ k arg args, IsCall a k (arg :: args) → Typed arg) {outer : List Ast}
    (hout : ∀ b ∈ outer, ¬ Unusable E src b) {s s' : PState} {go : Bool} (h : enter E depth src a s = .ok (s', go)) :
    Scanned E src [(outer, a)] s s' ∧ (go = false → Unusable E src a) ∧ (go = true → ¬ Unusable E src a) := by
  rcases enter_spec hc hargs h with ⟨d, hd, hs, hgo⟩ | ⟨hn, hs, hgo⟩
  · refine ⟨?_, (by rw [hgo]; intro h; cases h), fun _ hu => hu.2 d hd⟩
    intro k
    by_cases hk : k = d.kind
    · exact ⟨[d], by rw [hs]; simp [DeclMap.append, hk], .pick ⟨hout, hk.symm, hd⟩ .nil⟩
    · refine ⟨[], by rw [hs]; simp [DeclMap.append, hk], .skip ?_ .nil⟩
      rintro y ⟨_, hy, hdy⟩
      exact hk (by rw [← hy, declares_unique hdy hd])
  · refine ⟨?_, hgo.mp, ?_⟩
    · intro k
      exact ⟨[], by rw [hs]; simp, .skip (fun y hy => hn y hy.2.2) .nil⟩
    · intro ht hu
      rw [hgo.mpr hu] at ht
      cases ht

theorem scanned_below {E : Env} {src : Source} {a : Ast} (hu : Unusable E src a) {os : List (List Ast × Ast)}
    (ho : ∀ o ∈ os, a ∈ o.1) (s : PState) : Scanned E src os s s :=
  fun _ => ⟨[], by simp, picks_none fun o h _ hr => hr.1 a (ho o h) hu⟩

mutual
theorem walkAst_scanned {E : Env} {depth : Nat} {src : Source}
    (hc : ∀ o sp, (src.objs o).spec = some sp → ∀ e ∈ sp.values, Typed e) :
    ∀ (a : Ast) (outer : List Ast) (s s' : PState),
      (∀ o ∈ occurrences outer a, ∀ k arg args, IsCall o.2 k (arg :: args) → Typed arg) →
      (∀ b ∈ outer, ¬ Unusable E src b) → walkAst E depth src a s = .ok s' →
      Scanned E src (occurrences outer a) s s'
  | .ident n o, outer, s, s', hargs, hout, h => by
    simp only [walkAst] at h
    split at h
    · rename_i s1 go he
      cases h
      exact (enter_scanned hc (hargs (outer, _) (by simp [occurrences])) hout he).1
    · cases h
    · cases h
  | .lit t, outer, s, s', hargs, hout, h => by
    simp only [walkAst] at h
    split at h
    · rename_i s1 go he
      cases h
      exact (enter_scanned hc (hargs (outer, _) (by simp [occurrences])) hout he).1
    · cases h
    · cases h
  | .sel x n, outer, s, s', hargs, hout, h => by
    simp only [walkAst] at h
    simp only [occurrences]
    split at h
    · rename_i s1 he
      cases h
      have h1 := enter_scanned hc (hargs (outer, _) (by simp [occurrences])) hout he
      exact scanned_append (a := [_]) h1.1 (scanned_below (h1.2.1 rfl) (fun o ho => occurrences_outer _ _ o ho _ (by simp)) _)
    · rename_i s1 he
      have h1 := enter_scanned hc (hargs (outer, _) (by simp [occurrences])) hout he
      refine scanned_append (a := [_]) h1.1 (walkAst_scanned hc x _ _ _ ?_ ?_ h)
      · intro o ho; exact hargs o (by simp [occurrences, ho])
      · intro b hb
        rcases List.mem_cons.mp hb with rfl | hb
        · exact h1.2.2 rfl
        · exact hout b hb
    · cases h
    · cases h
  | .call f args, outer, s, s', hargs, hout, h => by
    simp only [walkAst] at h
    simp only [occurrences]
    split at h
    · rename_i s1 he
      cases h
      have h1 := enter_scanned hc (hargs (outer, _) (by simp [occurrences])) hout he
      refine scanned_append (a := [_]) h1.1 (scanned_below (h1.2.1 rfl) (fun o ho => ?_) _)
      rcases List.mem_append.mp ho with ho | ho
      · exact occurrences_outer _ _ o ho _ (by simp)
      · exact occurrencesList_outer _ _ o ho _ (by simp)
    · rename_i s1 he
      have h1 := enter_scanned hc (hargs (outer, _) (by simp [occurrences])) hout he
      have hout' : ∀ b ∈ Ast.call f args :: outer, ¬ Unusable E src b := by
        intro b hb
        rcases List.mem_cons.mp hb with rfl | hb
        · exact h1.2.2 rfl
        · exact hout b hb
      split at h
      · rename_i s2 h2
        refine scanned_append (a := [_]) h1.1 (scanned_append (walkAst_scanned hc f _ _ _ ?_ hout' h2)
          (walkAsts_scanned hc args _ _ _ ?_ hout' h))
        · intro o ho; exact hargs o (by simp [occurrences, ho])
        · intro o ho; exact hargs o (by simp [occurrences, ho])
      · cases h
      · cases h
    · cases h
    · cases h
  | .other kids, outer, s, s', hargs, hout, h => by
    simp only [walkAst] at h
    simp only [occurrences]
    split at h
    · rename_i s1 he
      cases h
      have h1 := enter_scanned hc (hargs (outer, _) (by simp [occurrences])) hout he
      exact scanned_append (a := [_]) h1.1
        (scanned_below (h1.2.1 rfl) (fun o ho => occurrencesList_outer _ _ o ho _ (by simp)) _)
    · rename_i s1 he
      have h1 := enter_scanned hc (hargs (outer, _) (by simp [occurrences])) hout he
      refine scanned_append (a := [_]) h1.1 (walkAsts_scanned hc kids _ _ _ ?_ ?_ h)
      · intro o ho; exact hargs o (by simp [occurrences, ho])
      · intro b hb
        rcases List.mem_cons.mp hb with rfl | hb
        · exact h1.2.2 rfl
        · exact hout b hb
    · cases h
    · cases h

theorem walkAsts_scanned {E : Env} {depth : Nat} {src : Source}
    (hc : ∀ o sp, (src.objs o).spec = some sp → ∀ e ∈ sp.values, Typed e) :
    ∀ (as : List Ast) (outer : List Ast) (s s' : PState),
      (∀ o ∈ occurrencesList outer as, ∀ k arg args, IsCall o.2 k (arg :: args) → Typed arg) →
      (∀ b ∈ outer, ¬ Unusable E src b) → walkAsts E depth src as s = .ok s' →
      Scanned E src (occurrencesList outer as) s s'
  | [], outer, s, s', _, _, h => by
    simp only [walkAsts, Res.ok.injEq] at h
    subst h
    exact fun k => ⟨[], by simp, .nil⟩
  | a :: as, outer, s, s', hargs, hout, h => by
    simp only [walkAsts] at h
    split at h
    · rename_i s1 h1
      exact scanned_append (walkAst_scanned hc a outer _ _ (fun o ho => hargs o (by simp [occurrencesList, ho])) hout h1)
        (walkAsts_scanned hc as outer _ _ (fun o ho => hargs o (by simp [occurrencesList, ho])) hout h)
    · cases h
    · cases h
end

/-- **C40** in full: for every source file whose arguments can be evaluated at all (C42), with enough stack, the
declarations of each kind are exactly those declared by the nodes of the syntax tree, in order. -/
def C40_statement : Prop :=
  ∀ (E : Env) (src : Source), TypedSource src →
    (∀ a ∈ nodes src.ast, ∀ k arg args, IsCall a k (arg :: args) → Resolved src.objs arg) →
    ∃ d0, ∀ depth ≥ d0, ∃ m e, declsMap E depth src = .ok (m, e) ∧
      ∀ k, Picks (fun a d => d.kind = k ∧ Declares E src a d) (nodes src.ast) (m k)

/-- **C40** as far as the code goes (missing: calls nested in an unusable call). The declarations of each kind are
exactly those declared by the nodes that are not nested in an unusable call, in order. -/
theorem C40_found_partial {E : Env} {depth : Nat} {src : Source} (ht : TypedSource src) {m : DeclMap} {e : Option Err}
    (h : declsMap E depth src = .ok (m, e)) (k : Kind) :
    Picks (Reported E src k) (occurrences [] src.ast) (m k) := by
  unfold declsMap runParse parseSource at h
  cases hw : walkAst E depth src src.ast ⟨DeclMap.empty, none⟩ with
  | ok s =>
    rw [hw] at h
    simp only [Res.ok.injEq, Prod.mk.injEq] at h
    obtain ⟨rfl, _⟩ := h
    obtain ⟨l, hl, hp⟩ := walkAst_scanned ht.consts src.ast [] _ s
      (fun o ho => ht.args o.2 (List.mem_map.mpr ⟨o, ho, rfl⟩)) (by simp) hw k
    rw [hl]
    exact hp
  | err x => rw [hw] at h; cases h
  | panic => rw [hw] at h; cases h

theorem picks_map {α β γ : Type} {P : α → β → Prop} {Q : γ → β → Prop} {f : α → γ} {l : List α} {out : List β}
    (h : Picks P l out) (hPQ : ∀ x ∈ l, ∀ y, P x y ↔ Q (f x) y) : Picks Q (l.map f) out := by
  induction h with
  | nil => exact .nil
  | pick hp _ ih =>
    exact .pick ((hPQ _ (by simp) _).mp hp) (ih fun x hx => hPQ x (by simp [hx]))
  | skip hn _ ih =>
    exact .skip (fun y hy => hn y ((hPQ _ (by simp) y).mpr hy)) (ih fun x hx => hPQ x (by simp [hx]))

theorem picks_mem {α β : Type} {P : α → β → Prop} {l : List α} {out : List β} (h : Picks P l out) :
    ∀ y ∈ out, ∃ x ∈ l, P x y := by
  induction h with
  | nil => simp
  | pick hp _ ih =>
    intro z hz
    rcases List.mem_cons.mp hz with rfl | hz
    · exact ⟨_, by simp, hp⟩
    · obtain ⟨x, hx, hpx⟩ := ih z hz
      exact ⟨x, by simp [hx], hpx⟩
  | skip _ _ ih =>
    intro z hz
    obtain ⟨x, hx, hpx⟩ := ih z hz
    exact ⟨x, by simp [hx], hpx⟩

/-- **C40**, nothing else: every declaration found is declared by a node of the tree. -/
theorem C40_nothing_else {E : Env} {depth : Nat} {src : Source} (ht : TypedSource src) {m : DeclMap} {e : Option Err}
    (h : declsMap E depth src = .ok (m, e)) (k : Kind) :
    ∀ d ∈ m k, d.kind = k ∧ ∃ a ∈ nodes src.ast, Declares E src a d := by
  intro d hd
  obtain ⟨o, ho, hr⟩ := picks_mem (C40_found_partial ht h k) d hd
  exact ⟨hr.2.1, o.2, List.mem_map.mpr ⟨o, ho, rfl⟩, hr.2.2⟩

mutual
theorem mem_occurrences_outer (outer : List Ast) : ∀ (a : Ast), ∀ o ∈ occurrences outer a, ∀ b ∈ o.1,
    b ∈ outer ∨ ∃ o' ∈ occurrences outer a, o'.2 = b
  | .ident n o => by simp [occurrences]; exact fun b hb => Or.inl hb
  | .lit t => by simp [occurrences]; exact fun b hb => Or.inl hb
  | .sel x n => by
    intro o ho b hb
    simp only [occurrences, List.mem_cons] at ho ⊢
    rcases ho with rfl | ho
    · exact Or.inl hb
    · rcases mem_occurrences_outer _ x o ho b hb with h | ⟨o', h1, h2⟩
      · rcases List.mem_cons.mp h with rfl | h
        · exact Or.inr ⟨_, Or.inl rfl, rfl⟩
        · exact Or.inl h
      · exact Or.inr ⟨o', Or.inr h1, h2⟩
  | .call f args => by
    intro o ho b hb
    simp only [occurrences, List.mem_cons, List.mem_append] at ho ⊢
    rcases ho with rfl | ho | ho
    · exact Or.inl hb
    · rcases mem_occurrences_outer _ f o ho b hb with h | ⟨o', h1, h2⟩
      · rcases List.mem_cons.mp h with rfl | h
        · exact Or.inr ⟨_, Or.inl rfl, rfl⟩
        · exact Or.inl h
      · exact Or.inr ⟨o', Or.inr (Or.inl h1), h2⟩
    · rcases mem_occurrencesList_outer _ args o ho b hb with h | ⟨o', h1, h2⟩
      · rcases List.mem_cons.mp h with rfl | h
        · exact Or.inr ⟨_, Or.inl rfl, rfl⟩
        · exact Or.inl h
      · exact Or.inr ⟨o', Or.inr (Or.inr h1), h2⟩
  | .other kids => by
    intro o ho b hb
    simp only [occurrences, List.mem_cons] at ho ⊢
    rcases ho with rfl | ho
    · exact Or.inl hb
    · rcases mem_occurrencesList_outer _ kids o ho b hb with h | ⟨o', h1, h2⟩
      · rcases List.mem_cons.mp h with rfl | h
        · exact Or.inr ⟨_, Or.inl rfl, rfl⟩
        · exact Or.inl h
      · exact Or.inr ⟨o', Or.inr h1, h2⟩

theorem mem_occurrencesList_outer (outer : List Ast) : ∀ (as : List Ast), ∀ o ∈ occurrencesList outer as, ∀ b ∈ o.1,
    b ∈ outer ∨ ∃ o' ∈ occurrencesList outer as, o'.2 = b
  | [] => by simp [occurrencesList]
  | a :: as => by
    intro o ho b hb
    simp only [occurrencesList, List.mem_append] at ho ⊢
    rcases ho with ho | ho
    · rcases mem_occurrences_outer outer a o ho b hb with h | ⟨o', h1, h2⟩
      · exact Or.inl h
      · exact Or.inr ⟨o', Or.inl h1, h2⟩
    · rcases mem_occurrencesList_outer outer as o ho b hb with h | ⟨o', h1, h2⟩
      · exact Or.inl h
      · exact Or.inr ⟨o', Or.inr h1, h2⟩
end

theorem enter_no_err {E : Env} {depth : Nat} {src : Source} {a : Ast} {s : PState} {e : Err} :
    enter E depth src a s ≠ .err e := by
  intro h
  unfold enter at h
  repeat' split at h
  all_goals cases h

mutual
theorem walkAst_no_err {E : Env} {depth : Nat} {src : Source} : ∀ (a : Ast) (s : PState) (e : Err),
    walkAst E depth src a s ≠ .err e
  | .ident n o, s, e => by
    intro h
    simp only [walkAst] at h
    split at h <;> first | (rename_i h'; exact enter_no_err h') | cases h
  | .lit t, s, e => by
    intro h
    simp only [walkAst] at h
    split at h <;> first | (rename_i h'; exact enter_no_err h') | cases h
  | .sel x n, s, e => by
    intro h
    simp only [walkAst] at h
    split at h <;> first | exact walkAst_no_err x _ _ h | (rename_i h'; exact enter_no_err h') | cases h
  | .call f args, s, e => by
    intro h
    simp only [walkAst] at h
    split at h
    · cases h
    · split at h <;> first | exact walkAsts_no_err args _ _ h | (rename_i h'; exact walkAst_no_err f _ _ h') | cases h
    · rename_i h'; exact enter_no_err h'
    · cases h
  | .other kids, s, e => by
    intro h
    simp only [walkAst] at h
    split at h <;> first | exact walkAsts_no_err kids _ _ h | (rename_i h'; exact enter_no_err h') | cases h

theorem walkAsts_no_err {E : Env} {depth : Nat} {src : Source} : ∀ (as : List Ast) (s : PState) (e : Err),
    walkAsts E depth src as s ≠ .err e
  | [], s, e => by simp [walkAsts]
  | a :: as, s, e => by
    intro h
    simp only [walkAsts] at h
    split at h <;> first | exact walkAsts_no_err as _ _ h | (rename_i h'; exact walkAst_no_err a _ _ h') | cases h
end

theorem bound_exists {α : Type} {P : α → Nat → Prop} (l : List α) (h : ∀ x ∈ l, ∃ d0, ∀ d ≥ d0, P x d) :
    ∃ d0, ∀ d ≥ d0, ∀ x ∈ l, P x d := by
  induction l with
  | nil => exact ⟨0, by simp⟩
  | cons x xs ih =>
    obtain ⟨d1, h1⟩ := h x (by simp)
    obtain ⟨d2, h2⟩ := ih fun y hy => h y (by simp [hy])
    refine ⟨max d1 d2, fun d hd y hy => ?_⟩
    rcases List.mem_cons.mp hy with rfl | hy
    · exact h1 d (Nat.le_trans (Nat.le_max_left _ _) hd)
    · exact h2 d (Nat.le_trans (Nat.le_max_right _ _) hd) y hy

theorem enter_no_panic {E : Env} {depth : Nat} {src : Source} {a : Ast}
    (h : ∀ k arg args, IsCall a k (arg :: args) → value depth src arg ≠ .panic) (s : PState) :
    enter E depth src a s ≠ .panic := by
  intro hp
  unfold enter at hp
  split at hp
  · rename_i pkg obj name args
    split at hp
    · cases hp
    · rename_i hpk
      have hpk : pkg = b! "pkger" := by simpa using hpk
      subst hpk
      split at hp
      · cases hp
      · rename_i k hk
        split at hp
        · cases hp
        · rename_i n rest
          split at hp
          · rename_i hv
            exact h k n rest ⟨obj, name, rfl, (kindOf_iff _ _).mp hk⟩ hv
          · cases hp
          · split at hp <;> cases hp
  · cases hp

mutual
theorem walkAst_no_panic {E : Env} {depth : Nat} {src : Source} (outer : List Ast) : ∀ (a : Ast) (s : PState),
    (∀ o ∈ occurrences outer a, ∀ k arg args, IsCall o.2 k (arg :: args) → value depth src arg ≠ .panic) →
    walkAst E depth src a s ≠ .panic
  | .ident n o, s, hv => by
    intro h
    simp only [walkAst] at h
    split at h <;> first | (rename_i h'; exact enter_no_panic (hv (outer, _) (by simp [occurrences])) _ h') | cases h
  | .lit t, s, hv => by
    intro h
    simp only [walkAst] at h
    split at h <;> first | (rename_i h'; exact enter_no_panic (hv (outer, _) (by simp [occurrences])) _ h') | cases h
  | .sel x n, s, hv => by
    intro h
    simp only [walkAst] at h
    split at h <;> first
      | exact walkAst_no_panic (.sel x n :: outer) x _ (fun o ho => hv o (by simp [occurrences, ho])) h
      | (rename_i h'; exact enter_no_panic (hv (outer, _) (by simp [occurrences])) _ h') | cases h
  | .call f args, s, hv => by
    intro h
    simp only [walkAst] at h
    split at h
    · cases h
    · split at h <;> first
      | exact walkAsts_no_panic (.call f args :: outer) args _ (fun o ho => hv o (by simp [occurrences, ho])) h
      | (rename_i h'; exact walkAst_no_panic (.call f args :: outer) f _ (fun o ho => hv o (by simp [occurrences, ho])) h')
      | cases h
    · cases h
    · rename_i h'; exact enter_no_panic (hv (outer, _) (by simp [occurrences])) _ h'
  | .other kids, s, hv => by
    intro h
    simp only [walkAst] at h
    split at h <;> first
      | exact walkAsts_no_panic (.other kids :: outer) kids _ (fun o ho => hv o (by simp [occurrences, ho])) h
      | (rename_i h'; exact enter_no_panic (hv (outer, _) (by simp [occurrences])) _ h') | cases h

theorem walkAsts_no_panic {E : Env} {depth : Nat} {src : Source} (outer : List Ast) : ∀ (as : List Ast) (s : PState),
    (∀ o ∈ occurrencesList outer as, ∀ k arg args, IsCall o.2 k (arg :: args) → value depth src arg ≠ .panic) →
    walkAsts E depth src as s ≠ .panic
  | [], s, _ => by simp [walkAsts]
  | a :: as, s, hv => by
    intro h
    simp only [walkAsts] at h
    split at h <;> first
      | exact walkAsts_no_panic outer as _ (fun o ho => hv o (by simp [occurrencesList, ho])) h
      | (rename_i h'; exact walkAst_no_panic outer a _ (fun o ho => hv o (by simp [occurrencesList, ho])) h')
      | cases h
end

/-- If every argument can be evaluated, parsing the source comes to an end, given enough stack. -/
theorem declsMap_completes (E : Env) (src : Source)
    (hr : ∀ a ∈ nodes src.ast, ∀ k arg args, IsCall a k (arg :: args) → Resolved src.objs arg) :
    ∃ d0, ∀ depth ≥ d0, ∃ m, declsMap E depth src = .ok (m, none) := by
  obtain ⟨d0, hd⟩ := bound_exists (P := fun a d => ∀ k arg args, IsCall a k (arg :: args) → value d src arg ≠ .panic)
    (nodes src.ast) (by
      intro a ha
      by_cases hc : ∃ k arg args, IsCall a k (arg :: args)
      · obtain ⟨k, arg, args, hc⟩ := hc
        obtain ⟨d0, h0⟩ := C42_resolved_partial src arg (hr a ha k arg args hc)
        refine ⟨d0, fun d hd k' arg' args' hc' => ?_⟩
        cases (isCall_kind hc hc').2
        exact (h0 d hd).1
      · exact ⟨0, fun d _ k arg args h => absurd ⟨k, arg, args, h⟩ hc⟩)
  refine ⟨d0, fun depth hdepth => ?_⟩
  unfold declsMap runParse parseSource
  cases hw : walkAst E depth src src.ast ⟨DeclMap.empty, none⟩ with
  | ok s => exact ⟨_, rfl⟩
  | err x => exact absurd hw (walkAst_no_err _ _ _)
  | panic =>
    exact absurd hw (walkAst_no_panic [] _ _ fun o ho => hd depth hdepth o.2 (List.mem_map.mpr ⟨o, ho, rfl⟩))

theorem constant_resolved {objs : Nat → Obj} {e : Ast} {v : Str} (h : Constant objs e v) : Resolved objs e := by
  induction h with
  | lit _ => exact .lit _
  | const h1 h2 h3 h4 h5 _ ih => exact .const h1 h2 h3 h4 h5 ih

/-- **C40** for source files without unusable calls (missing: files with unusable calls): given enough stack, the
declarations of each kind are exactly those declared by the nodes of the syntax tree, in order. -/
theorem C40_all_usable_partial (E : Env) (src : Source) (ht : TypedSource src)
    (hu : ∀ a ∈ nodes src.ast, ¬ Unusable E src a) :
    ∃ d0, ∀ depth ≥ d0, ∃ m e, declsMap E depth src = .ok (m, e) ∧
      ∀ k, Picks (fun a d => d.kind = k ∧ Declares E src a d) (nodes src.ast) (m k) := by
  obtain ⟨d0, h0⟩ := declsMap_completes E src (by
    intro a ha k arg args hc
    have := hu a ha
    unfold Unusable at this
    have : ∃ d, Declares E src a d := Classical.byContradiction fun hn =>
      this ⟨⟨k, _, hc⟩, fun d hd => hn ⟨d, hd⟩⟩
    obtain ⟨d, arg', args', hc', hv, _⟩ := this
    cases (isCall_kind hc hc').2
    exact constant_resolved hv)
  refine ⟨d0, fun depth hd => ?_⟩
  obtain ⟨m, hm⟩ := h0 depth hd
  refine ⟨m, none, hm, fun k => ?_⟩
  refine picks_map (C40_found_partial ht hm k) ?_
  intro o ho d
  constructor
  · exact fun hr => hr.2
  · intro hr
    refine ⟨fun b hb => ?_, hr⟩
    rcases mem_occurrences_outer [] src.ast o ho b hb with h | ⟨o', h1, rfl⟩
    · simp at h
    · exact hu _ (List.mem_map.mpr ⟨o', h1, rfl⟩)

theorem picks_complete {α β : Type} {P : α → β → Prop} {l : List α} {out : List β} (h : Picks P l out) :
    ∀ x ∈ l, ∀ y, P x y → ∃ z ∈ out, P x z := by
  induction h with
  | nil => simp
  | pick hp _ ih =>
    intro x hx y hy
    rcases List.mem_cons.mp hx with rfl | hx
    · exact ⟨_, by simp, hp⟩
    · obtain ⟨z, hz, hpz⟩ := ih x hx y hy
      exact ⟨z, by simp [hz], hpz⟩
  | skip hn _ ih =>
    intro x hx y hy
    rcases List.mem_cons.mp hx with rfl | hx
    · exact absurd hy (hn y)
    · exact ih x hx y hy

/-- `pkger.Walk(dir, func(…) { pkger.Open("/readme") })` where `dir` is a variable. -/
def nestedSource : Source :=
  ⟨b! "/src/app/main.go", ⟨b! "app", b! "/"⟩, Demo.info,
    .call (.sel (.ident (b! "pkger") none) (b! "Walk"))
      [.ident (b! "dir") (some 0), .other [Demo.callLit (b! "Open") (b! "\"/readme\"")]],
    fun _ => ⟨false, none⟩⟩

theorem nestedSource_args : ∀ a ∈ nodes nestedSource.ast, ∀ k arg args, IsCall a k (arg :: args) →
    arg = .ident (b! "dir") (some 0) ∨ arg = .lit (b! "\"/readme\"") := by
  rintro a ha k arg args ⟨o, name, rfl, _⟩
  simp [nodes, nestedSource, occurrences, occurrencesList, Demo.callLit] at ha
  rcases ha with ⟨_, h, _⟩ | ⟨_, h, _⟩
  · exact Or.inl h
  · exact Or.inr h

theorem nestedSource_typed : TypedSource nestedSource :=
  { args := by
      intro a ha k arg args hc
      rcases nestedSource_args a ha k arg args hc with rfl | rfl <;> decide
    consts := by intro o sp h; cases h }

theorem demo_const (objs : Nat → Obj) : Constant objs (.lit (b! "\"/readme\"")) (b! "/readme") :=
  .lit ((Unquote.unquote_iff (by decide)).mp (by decide +kernel))

theorem demo_fileFor : FileFor Demo.env (b! "/src/app/main.go") (b! "/readme")
    ⟨b! "/src/app/readme", ⟨b! "app", b! "/readme"⟩, Demo.info⟩ :=
  declFile_iff.mp (by decide +kernel)

theorem demo_declares (name : Str) (k : Kind) (hk : (name, k) ∈ declaring) (objs : Nat → Obj) (ast : Ast) :
    Declares Demo.env ⟨b! "/src/app/main.go", ⟨b! "app", b! "/"⟩, Demo.info, ast, objs⟩
      (Demo.callLit name (b! "\"/readme\""))
      ⟨k, ⟨b! "/src/app/readme", ⟨b! "app", b! "/readme"⟩, Demo.info⟩, b! "/readme"⟩ := by
  exact ⟨_, _, ⟨none, name, rfl, hk⟩, demo_const _, demo_fileFor⟩

/-- **C40** is false of the code: declarations nested in a call whose argument cannot be evaluated are missed. -/
theorem C40_nested_refuted : ¬ C40_statement := by
  intro h
  obtain ⟨d0, hd⟩ := h Demo.env nestedSource nestedSource_typed (by
    intro a ha k arg args hc
    rcases nestedSource_args a ha k arg args hc with rfl | rfl
    · exact .notCon rfl
    · exact .lit _)
  obtain ⟨m, e, hm, hp⟩ := hd (d0 + 1) (by omega)
  have hm' : declsMap Demo.env (d0 + 1) nestedSource = .ok (DeclMap.empty, none) := rfl
  rw [hm'] at hm
  cases hm
  obtain ⟨z, hz, _⟩ := picks_complete (hp .open) (Demo.callLit (b! "Open") (b! "\"/readme\"")) (by
    simp [nodes, nestedSource, occurrences, occurrencesList, Demo.callLit]) _ ⟨rfl, demo_declares _ _ (by decide) _ _⟩
  cases hz

/-- A concrete case of C40: a call nested in the arguments of another one. -/
example : ∃ src : Source, TypedSource src ∧ (∀ a ∈ nodes src.ast, ¬ Unusable Demo.env src a) ∧
    (match declsMap Demo.env 3 src with
      | .ok (m, none) => (m .open).length == 1 && (m .walk).length == 1
      | _ => false) = true := by
  refine ⟨⟨b! "/src/app/main.go", ⟨b! "app", b! "/"⟩, Demo.info,
    .call (.sel (.ident (b! "pkger") none) (b! "Walk"))
      [.lit (b! "\"/readme\""), .other [Demo.callLit (b! "Open") (b! "\"/readme\"")]],
    fun _ => ⟨false, none⟩⟩, ?_, ?_, by decide +kernel⟩
  · refine ⟨?_, by intro o sp h; cases h⟩
    rintro a ha k arg args ⟨o, name, rfl, _⟩
    simp [nodes, occurrences, occurrencesList, Demo.callLit] at ha
    rcases ha with ⟨_, h, _⟩ | ⟨_, h, _⟩
    · rw [h]; decide
    · rw [h]; decide
  · rintro a ha ⟨⟨k, args, o, name, rfl, hk⟩, hn⟩
    simp [nodes, occurrences, occurrencesList, Demo.callLit] at ha
    rcases ha with ⟨⟨rfl, rfl⟩, rfl⟩ | ⟨⟨rfl, rfl⟩, rfl⟩
    · refine hn ⟨k, ⟨b! "/src/app/readme", ⟨b! "app", b! "/readme"⟩, Demo.info⟩, b! "/readme"⟩
        ⟨_, _, ⟨none, _, rfl, hk⟩, demo_const _, demo_fileFor⟩
    · exact hn _ (demo_declares _ k hk _ _)

/-! ### Errors -/

/-- **C41** in full: a source file with an unusable call is an error. -/
def C41_statement : Prop :=
  ∀ (E : Env) (depth : Nat) (src : Source), TypedSource src → (∃ a ∈ nodes src.ast, Unusable E src a) →
    ∀ m e, declsMap E depth src = .ok (m, e) → e ≠ none

/-- The opposite of **C41** holds of the code, for every source file: no error is ever returned. -/
theorem C41_never_reported (E : Env) (depth : Nat) (src : Source) :
    (∃ m, declsMap E depth src = .ok (m, none)) ∨ declsMap E depth src = .panic := by
  unfold declsMap runParse parseSource
  cases hw : walkAst E depth src src.ast ⟨DeclMap.empty, none⟩ with
  | ok s => exact Or.inl ⟨_, rfl⟩
  | err x => exact absurd hw (walkAst_no_err _ _ _)
  | panic => exact Or.inr rfl

/-- **C41** is false of the code. -/
theorem C41_refuted : ¬ C41_statement := by
  intro h
  refine h Demo.env 1 nestedSource nestedSource_typed ⟨nestedSource.ast, ?_, ?_⟩ DeclMap.empty none rfl rfl
  · simp [nodes, nestedSource, occurrences]
  · refine ⟨⟨.walk, _, none, _, rfl, by decide⟩, ?_⟩
    rintro d ⟨arg, args, ⟨o, name, he, _⟩, hv, _⟩
    cases he
    cases hv with
    | const hc _ _ _ _ _ => cases hc

end Props
end Verif
