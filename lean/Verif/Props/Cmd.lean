import Verif.Spec.Cmd
import Verif.Props.Stdos
import Verif.Props.Package

/-! C52, C66 - C69: the command line. -/

namespace Verif
namespace Props

open Flag Cmd

/-! ### Options (C66) -/

theorem classify_plain {s : Str} (h : s.length < 2 ∨ s.head? ≠ some dash) : classify s = .plain := by
  match s with
  | [] => rfl
  | [_] => rfl
  | c :: c' :: t =>
    have : c ≠ dash := by
      rintro rfl
      rcases h with h | h
      · simp at h; omega
      · simp at h
    simp [classify, this]

theorem plain_of_classify {s : Str} (h : classify s = .plain) : s.length < 2 ∨ s.head? ≠ some dash := by
  match s with
  | [] => left; simp
  | [_] => left; simp
  | c :: c' :: t =>
    right
    intro hc
    have hc' : c = dash := by simpa using hc
    subst hc'
    simp only [classify, ne_eq, not_true_eq_false, if_false] at h
    repeat' split at h
    all_goals cases h

theorem classify_terminator {s : Str} : classify s = .terminator ↔ s = b! "--" := by
  constructor
  · intro h
    match s with
    | [] => cases h
    | [_] => cases h
    | c :: c' :: t =>
      by_cases hc : c = dash
      · subst hc
        simp only [classify, ne_eq, not_true_eq_false, if_false] at h
        split at h
        · rename_i h'; rw [h'.1, h'.2]
        · repeat' split at h
          all_goals cases h
      · simp [classify, hc] at h
  · rintro rfl; decide

theorem takeWhile_noEq {n : Str} (h : equals ∉ n) (v : Str) :
    (n ++ equals :: v).takeWhile (· != equals) = n ∧ (n ++ equals :: v).dropWhile (· != equals) = equals :: v := by
  induction n with
  | nil => simp
  | cons c n ih =>
    have hc : c ≠ equals := fun e => h (by simp [e])
    have := ih (fun e => h (by simp [e]))
    simp [hc, this]

/-- An option as it is written. -/
theorem classify_flag {d n : Str} (hd : Dashes d) (hn : NameOk n) :
    classify (d ++ n) = .flag n none ∧ ∀ v, classify (d ++ n ++ equals :: v) = .flag n (some v) := by
  obtain ⟨h1, h2, h3⟩ := hn
  cases n with
  | nil => exact absurd rfl h1
  | cons x n =>
    have hx : x ≠ dash := by simpa using h2
    have hx' : x ≠ equals := fun e => h3 (by simp [e])
    have hm : equals ∉ x :: n := h3
    rcases hd with rfl | rfl
    · refine ⟨?_, fun v => ?_⟩
      · simp [classify, hx, hx', hm]
      · have := takeWhile_noEq hm v
        simp only [List.cons_append] at this
        simp [classify, hx, hx', this]
    · refine ⟨?_, fun v => ?_⟩
      · simp [classify, hx, hx', hm]
      · have := takeWhile_noEq hm v
        simp only [List.cons_append] at this
        simp [classify, hx, hx', this]

/-- Only texts of that form are options. -/
theorem flag_of_classify {s n : Str} {v : Option Str} (h : classify s = .flag n v) :
    ∃ d, Dashes d ∧ NameOk n ∧ ((v = none ∧ s = d ++ n) ∨ ∃ t, v = some t ∧ s = d ++ n ++ equals :: t) := by
  match s with
  | [] => cases h
  | [_] => cases h
  | c :: c' :: t =>
    by_cases hc : c = dash
    · subst hc
      simp only [classify, ne_eq, not_true_eq_false, if_false] at h
      split at h
      · cases h
      · have key : ∀ (d name : Str), Dashes d → dash :: c' :: t = d ++ name →
            (match name with
              | [] => Arg.bad
              | x :: _ =>
                if x = dash ∨ x = equals then .bad
                else if equals ∈ name then
                  .flag (name.takeWhile (· != equals)) (some ((name.dropWhile (· != equals)).drop 1))
                else .flag name none) = .flag n v →
            ∃ d, Dashes d ∧ NameOk n ∧ ((v = none ∧ dash :: c' :: t = d ++ n) ∨
              ∃ t', v = some t' ∧ dash :: c' :: t = d ++ n ++ equals :: t') := by
          intro d name hd hs hm
          cases name with
          | nil => cases hm
          | cons x m =>
            simp only at hm
            split at hm
            · cases hm
            · rename_i hx
              split at hm
              · rename_i heq
                injection hm with h1 h2
                have hsplit := List.takeWhile_append_dropWhile (p := (· != equals)) (l := x :: m)
                have hdrop : ∃ t', (x :: m).dropWhile (· != equals) = equals :: t' := by
                  cases hdw : (x :: m).dropWhile (· != equals) with
                  | nil =>
                    rw [hdw, List.append_nil] at hsplit
                    rw [← hsplit] at heq
                    have := List.all_eq_true.mp (List.all_takeWhile (p := (· != equals)) (l := x :: m)) _ heq
                    simp at this
                  | cons y t' =>
                    have := List.head_dropWhile_not (p := (· != equals)) (l := x :: m) (by rw [hdw]; simp)
                    simp only [hdw, List.head_cons] at this
                    exact ⟨t', by simpa using this⟩
                obtain ⟨t', ht'⟩ := hdrop
                rw [ht'] at h2
                refine ⟨d, hd, ⟨?_, ?_, ?_⟩, Or.inr ⟨t', ?_, ?_⟩⟩
                · rw [← h1]
                  have : x ≠ equals := fun e => hx (Or.inr e)
                  simp [this]
                · rw [← h1]
                  have h3 : x ≠ equals := fun e => hx (Or.inr e)
                  have h4 : x ≠ dash := fun e => hx (Or.inl e)
                  simp [h3, h4]
                · rw [← h1]
                  intro hmem
                  have := List.all_eq_true.mp (List.all_takeWhile (p := (· != equals)) (l := x :: m)) _ hmem
                  simp at this
                · rw [← h2]; rfl
                · rw [hs, ← h1, List.append_assoc, ← ht', hsplit]
              · rename_i heq
                injection hm with h1 h2
                subst h1 h2
                exact ⟨d, hd, ⟨by simp, by simpa using fun e => hx (Or.inl e), heq⟩, Or.inl ⟨rfl, hs⟩⟩
        by_cases h2 : c' = dash
        · subst h2
          simp only [if_true] at h
          exact key [dash, dash] t (Or.inr rfl) rfl h
        · exact key [dash] (c' :: t) (Or.inl rfl) rfl (by simpa only [h2, if_false] using h)
    · simp [classify, hc] at h

theorem parseBool_iff {v : Str} {b : Bool} : parseBool v = some b ↔ BoolText v b := by
  unfold parseBool
  constructor
  · intro h
    split at h
    · rename_i hm
      cases h
      simp only [BoolText, List.mem_cons, List.not_mem_nil, or_false] at hm ⊢
      rcases hm with h | h | h | h | h | h <;> simp [h]
    · split at h
      · rename_i hm
        cases h
        simp only [BoolText, List.mem_cons, List.not_mem_nil, or_false] at hm ⊢
        rcases hm with h | h | h | h | h | h <;> simp [h]
      · cases h
  · intro h
    cases b with
    | true =>
      simp only [BoolText, List.mem_cons, List.not_mem_nil, or_false] at h
      rcases h with rfl | rfl | rfl | rfl | rfl | rfl <;> decide
    | false =>
      simp only [BoolText, List.mem_cons, List.not_mem_nil, or_false] at h
      rcases h with rfl | rfl | rfl | rfl | rfl | rfl <;> decide

theorem parse_writes {defs : Str → Option Flag.Kind} {args : List Str} {l : List (Str × Val)} (h : Writes defs args l)
    {tail rest : List Str} (ht : parse defs tail = .done [] rest) : parse defs (args ++ tail) = .done l rest := by
  induction h with
  | nil => simpa using ht
  | boolOn hd hn hk _ ih =>
    simp only [List.cons_append, parse, (classify_flag hd hn).1, hk, ih, Outcome.cons]
  | boolVal hd hn hk hb _ ih =>
    simp only [List.cons_append, parse, (classify_flag hd hn).2, hk, parseBool_iff.mpr hb, ih, Outcome.cons]
  | textVal hd hn hk _ ih =>
    simp only [List.cons_append, parse, (classify_flag hd hn).2, hk, ih, Outcome.cons]
  | textNext hd hn hk _ ih =>
    simp only [List.cons_append, parse, (classify_flag hd hn).1, hk, ih, Outcome.cons]

theorem parse_noOption {defs : Str → Option Flag.Kind} {rest : List Str} (h : NoOption rest) :
    parse defs rest = .done [] rest := by
  cases rest with
  | nil => rfl
  | cons s r => simp only [parse, classify_plain h]

theorem cons_done {x : Str × Val} {o : Outcome} {l : List (Str × Val)} {rest : List Str}
    (h : o.cons x = .done l rest) : ∃ l', l = x :: l' ∧ o = .done l' rest := by
  cases o with
  | exit => cases h
  | done l' r => simp only [Outcome.cons, Outcome.done.injEq] at h; exact ⟨l', h.1.symm, by rw [h.2]⟩

theorem writes_of_parse {defs : Str → Option Flag.Kind} : ∀ (n : Nat) (args : List Str) (l : List (Str × Val)) (rest : List Str),
    args.length ≤ n → parse defs args = .done l rest →
    ∃ pre, Writes defs pre l ∧ ((args = pre ++ rest ∧ NoOption rest) ∨ args = pre ++ b! "--" :: rest) := by
  intro n
  induction n with
  | zero =>
    intro args l rest hl h
    have : args = [] := List.length_eq_zero_iff.mp (by omega)
    subst this
    simp only [parse, Outcome.done.injEq] at h
    obtain ⟨rfl, rfl⟩ := h
    exact ⟨[], .nil, Or.inl ⟨rfl, trivial⟩⟩
  | succ n ih =>
    intro args l rest hl h
    cases args with
    | nil =>
      simp only [parse, Outcome.done.injEq] at h
      obtain ⟨rfl, rfl⟩ := h
      exact ⟨[], .nil, Or.inl ⟨rfl, trivial⟩⟩
    | cons s r =>
      have hr : r.length ≤ n := by simpa using hl
      unfold parse at h
      cases hc : classify s with
      | plain =>
        simp only [hc, Outcome.done.injEq] at h
        obtain ⟨rfl, rfl⟩ := h
        exact ⟨[], .nil, Or.inl ⟨rfl, plain_of_classify hc⟩⟩
      | terminator =>
        simp only [hc, Outcome.done.injEq] at h
        obtain ⟨rfl, rfl⟩ := h
        exact ⟨[], .nil, Or.inr (by rw [classify_terminator.mp hc]; rfl)⟩
      | bad => simp only [hc] at h; cases h
      | flag name value =>
        simp only [hc] at h
        obtain ⟨d, hd, hn, hv⟩ := flag_of_classify hc
        cases hk : defs name with
        | none => simp only [hk] at h; cases h
        | some k =>
          cases k with
          | bool =>
            cases value with
            | none =>
              simp only [hk] at h
              obtain ⟨l', rfl, h'⟩ := cons_done h
              obtain ⟨pre, hw, he⟩ := ih r l' rest hr h'
              rcases hv with ⟨_, rfl⟩ | ⟨t, ht, _⟩
              · refine ⟨(d ++ name) :: pre, .boolOn hd hn hk hw, ?_⟩
                rcases he with ⟨e, h1⟩ | e
                · exact Or.inl ⟨by rw [e]; rfl, h1⟩
                · exact Or.inr (by rw [e]; rfl)
              · cases ht
            | some v =>
              simp only [hk] at h
              cases hb : parseBool v with
              | none => simp only [hb] at h; cases h
              | some b =>
                simp only [hb] at h
                obtain ⟨l', rfl, h'⟩ := cons_done h
                obtain ⟨pre, hw, he⟩ := ih r l' rest hr h'
                rcases hv with ⟨ht, _⟩ | ⟨t, ht, rfl⟩
                · cases ht
                · injection ht with ht
                  subst ht
                  refine ⟨(d ++ name ++ equals :: v) :: pre, .boolVal hd hn hk (parseBool_iff.mp hb) hw, ?_⟩
                  rcases he with ⟨e, h1⟩ | e
                  · exact Or.inl ⟨by rw [e]; rfl, h1⟩
                  · exact Or.inr (by rw [e]; rfl)
          | text =>
            cases value with
            | some v =>
              simp only [hk] at h
              obtain ⟨l', rfl, h'⟩ := cons_done h
              obtain ⟨pre, hw, he⟩ := ih r l' rest hr h'
              rcases hv with ⟨ht, _⟩ | ⟨t, ht, rfl⟩
              · cases ht
              · injection ht with ht
                subst ht
                refine ⟨(d ++ name ++ equals :: v) :: pre, .textVal hd hn hk hw, ?_⟩
                rcases he with ⟨e, h1⟩ | e
                · exact Or.inl ⟨by rw [e]; rfl, h1⟩
                · exact Or.inr (by rw [e]; rfl)
            | none =>
              cases r with
              | nil => simp only [hk] at h; cases h
              | cons v r' =>
                simp only [hk] at h
                obtain ⟨l', rfl, h'⟩ := cons_done h
                obtain ⟨pre, hw, he⟩ := ih r' l' rest (by simp at hr; omega) h'
                rcases hv with ⟨_, rfl⟩ | ⟨t, ht, _⟩
                · refine ⟨(d ++ name) :: v :: pre, .textNext hd hn hk hw, ?_⟩
                  rcases he with ⟨e, h1⟩ | e
                  · exact Or.inl ⟨by rw [e]; rfl, h1⟩
                  · exact Or.inr (by rw [e]; rfl)
                · cases ht

/-- **C66** (reading options). Exactly the argument lists that start with options in one of the usual forms, followed by
an argument that is no option, or by nothing, or by `--`, are accepted, and then the options give exactly the values
written and the rest is passed on unchanged.  Everything else ends the program. -/
theorem C66_options (defs : Str → Option Flag.Kind) (args : List Str) (l : List (Str × Val)) (rest : List Str) :
    parse defs args = .done l rest ↔ Given defs args l rest := by
  unfold Given
  constructor
  · exact writes_of_parse args.length args l rest (Nat.le_refl _)
  · rintro ⟨pre, hw, ⟨rfl, h⟩ | rfl⟩
    · exact parse_writes hw (parse_noOption h)
    · exact parse_writes hw (by simp only [parse, classify_terminator.mpr rfl])

/-- The options of `pkger` are those of its table. -/
theorem packFlags_eq : packFlags = toolOptions := by
  funext n
  simp only [packFlags, toolOptions, options, List.find?_cons, List.find?_nil]
  by_cases h1 : n = b! "h"
  · subst h1; decide
  by_cases h2 : n = b! "o"
  · subst h2; decide
  by_cases h3 : n = b! "include"
  · subst h3; decide
  simp [h1, h2, h3, beq_eq_false_iff_ne.mpr (Ne.symm h1), beq_eq_false_iff_ne.mpr (Ne.symm h2), beq_eq_false_iff_ne.mpr (Ne.symm h3)]

theorem listFlags_eq : listFlags = listOptions := by
  funext n
  simp only [listFlags, listOptions, options, List.find?_cons, List.find?_nil]
  by_cases h1 : n = b! "json"
  · subst h1; decide
  by_cases h2 : n = b! "include"
  · subst h2; decide
  simp [h1, h2, beq_eq_false_iff_ne.mpr (Ne.symm h1), beq_eq_false_iff_ne.mpr (Ne.symm h2)]

theorem helpFlags_eq : helpFlags = helpOptions := by
  funext n
  simp only [helpFlags, helpOptions, options, List.find?_cons, List.find?_nil]
  by_cases h1 : n = b! "h"
  · subst h1; decide
  simp [h1, beq_eq_false_iff_ne.mpr (Ne.symm h1)]

/-! Example: all forms at once, with values that look like options themselves. -/
example : Writes toolOptions [b! "-include", b! "-x", b! "--o=a=b", b! "-h=0", b! "--include", b! ""]
    [(b! "include", .text (b! "-x")), (b! "o", .text (b! "a=b")), (b! "h", .bool false), (b! "include", .text [])] :=
  .textNext (d := [dash]) (n := b! "include") (Or.inl rfl) ⟨by decide, by decide, by decide⟩ (by decide)
    (.textVal (d := [dash, dash]) (n := b! "o") (v := b! "a=b") (Or.inr rfl) ⟨by decide, by decide, by decide⟩ (by decide)
      (.boolVal (d := [dash]) (n := b! "h") (v := b! "0") (Or.inl rfl) ⟨by decide, by decide, by decide⟩ (by decide)
        (by decide)
        (.textNext (d := [dash, dash]) (n := b! "include") (Or.inr rfl) ⟨by decide, by decide, by decide⟩ (by decide)
          .nil)))

/-- The last of several values counts. -/
theorem lastText_spec (l : List (Str × Val)) (name dflt : Str) :
    ((∀ v, (name, .text v) ∉ l) → lastText l name dflt = dflt) ∧
    (∀ l1 v l2, l = l1 ++ (name, .text v) :: l2 → (∀ v', (name, .text v') ∉ l2) → lastText l name dflt = v) := by
  have h0 : ∀ (l : List (Str × Val)) (acc : Str), (∀ v, (name, Val.text v) ∉ l) → lastText l name acc = acc := by
    intro l
    induction l with
    | nil => intro acc _; rfl
    | cons x l ih =>
      intro acc h
      obtain ⟨n, v⟩ := x
      have h' := ih acc (fun v hv => h v (by simp [hv]))
      cases v with
      | bool b => exact h'
      | text s =>
        have : n ≠ name := by rintro rfl; exact h s (by simp)
        simp only [lastText, List.foldl_cons, this, if_false]
        exact h'
  refine ⟨h0 l dflt, ?_⟩
  rintro l1 v l2 rfl h
  have : lastText (l1 ++ (name, .text v) :: l2) name dflt = lastText l2 name v := by
    simp [lastText, List.foldl_append]
  rw [this, h0 l2 v h]

theorem lastBool_spec (l : List (Str × Val)) (name : Str) :
    ((∀ b, (name, .bool b) ∉ l) → lastBool l name = false) ∧
    (∀ l1 b l2, l = l1 ++ (name, .bool b) :: l2 → (∀ b', (name, .bool b') ∉ l2) → lastBool l name = b) := by
  have h0 : ∀ (l : List (Str × Val)) (acc : Bool), (∀ v, (name, Val.bool v) ∉ l) →
      l.foldl (fun acc x => match x with | (n, Val.bool b) => if n = name then b else acc | _ => acc) acc = acc := by
    intro l
    induction l with
    | nil => intro acc _; rfl
    | cons x l ih =>
      intro acc h
      obtain ⟨n, v⟩ := x
      have h' := ih acc (fun v hv => h v (by simp [hv]))
      cases v with
      | text s => exact h'
      | bool b =>
        have : n ≠ name := by rintro rfl; exact h b (by simp)
        simp only [List.foldl_cons, this, if_false]
        exact h'
  refine ⟨h0 l false, ?_⟩
  rintro l1 v l2 rfl h
  unfold lastBool
  rw [List.foldl_append]
  simp only [List.foldl_cons, if_true]
  exact h0 l2 v h

/-- **C66** (packing with options). `pkger` with options only, none of them asking for help, packs, with the last output
directory given (the package's directory if none is) and all the includes in the order given. -/
theorem C66_pack {args : List Str} {l : List (Str × Val)} (hw : Writes toolOptions args l)
    (hh : ∀ b, (b! "h", Val.bool b) ∉ l) :
    ∃ out incs, route args = .pack out incs ∧
      ((∀ v, (b! "o", Val.text v) ∉ l) → out = []) ∧
      (∀ l1 v l2, l = l1 ++ (b! "o", .text v) :: l2 → (∀ v', (b! "o", Val.text v') ∉ l2) → out = v) ∧
      incs = l.filterMap (fun x => match x with | (n, .text s) => if n = b! "include" then some s else none | _ => none) := by
  have hp := (C66_options toolOptions args l []).mpr ⟨args, hw, Or.inl ⟨by simp, trivial⟩⟩
  refine ⟨_, _, ?_, (lastText_spec l (b! "o") []).1, (lastText_spec l (b! "o") []).2, rfl⟩
  simp only [route, packFlags_eq, hp, (lastBool_spec l (b! "h")).1 hh, Bool.false_eq_true, if_false]
  rfl

/-- **C66** (help). If the last `-h` says yes, usage is printed and nothing is run, whatever follows. -/
theorem C66_help {pre rest : List Str} {l1 l2 : List (Str × Val)} (hr : NoOption rest)
    (hw : Writes toolOptions pre (l1 ++ (b! "h", .bool true) :: l2)) (hh : ∀ b, (b! "h", Val.bool b) ∉ l2) :
    route (pre ++ rest) = .usage := by
  have hp := (C66_options toolOptions (pre ++ rest) _ rest).mpr ⟨pre, hw, Or.inl ⟨rfl, hr⟩⟩
  simp only [route, packFlags_eq, hp, (lastBool_spec _ (b! "h")).2 l1 true l2 rfl hh, if_true]

example : route [b! "-o", b! "x", b! "--include=/a", b! "-o=y", b! "-include", b! "lib:/b"] =
    .pack (b! "y") [b! "/a", b! "lib:/b"] := by decide +kernel
example : route [b! "-h", b! "list"] = .usage := by decide +kernel
example : route [b! "-x", b! "list"] = .exit := by decide +kernel

/-! ### Dispatch (C52) -/

/-- The sub-commands. -/
def subNames : List Str := [b! "serve", b! "stat", b! "info", b! "path", b! "parse", b! "list"]

theorem find_sub {k : Str} (h : k ∈ subNames) : subs.find? (fun c => k == c) = some k := by
  have h' : k ∈ subs := (mem_sortBy id _ k).mpr h
  cases hf : subs.find? (fun c => k == c) with
  | none => exact absurd (List.find?_eq_none.mp hf k h') (by simp)
  | some c =>
    have := List.find?_some hf
    simp only [beq_iff_eq] at this
    rw [this]

theorem find_not_sub {k : Str} (h : k ∉ subNames) : subs.find? (fun c => k == c) = none := by
  rw [List.find?_eq_none]
  intro c hc
  simp only [beq_iff_eq]
  rintro rfl
  exact h ((mem_sortBy id _ k).mp hc)

theorem subNames_noOption {k : Str} (h : k ∈ subNames) : k.length < 2 ∨ k.head? ≠ some dash := by
  right
  simp only [subNames, List.mem_cons, List.not_mem_nil, or_false] at h
  rcases h with rfl | rfl | rfl | rfl | rfl | rfl <;> decide

/-- What follows the options, if nobody asked for help: the first remaining argument decides. -/
theorem route_rest {pre : List Str} {l : List (Str × Val)} {k : Str} (hw : Leads toolOptions pre k l)
    (hh : ∀ b, (b! "h", Val.bool b) ∉ l) (args : List Str) :
    route (pre ++ k :: args) =
      match subs.find? (fun c => k == c) with
      | some c => if args.any (· == b! "-h") then .subUsage c else .sub c args
      | none => .unknown (b! "unknown arguments: " ++ joinBlank (k :: args)) := by
  have hp : parse toolOptions (pre ++ k :: args) = .done l (k :: args) := by
    refine (C66_options toolOptions (pre ++ k :: args) l (k :: args)).mpr ?_
    rcases hw with ⟨hw, hk⟩ | ⟨pre', rfl, hw⟩
    · exact ⟨pre, hw, Or.inl ⟨rfl, hk⟩⟩
    · exact ⟨pre', hw, Or.inr (by simp)⟩
  simp only [route, packFlags_eq, hp, (lastBool_spec l (b! "h")).1 hh, Bool.false_eq_true, if_false]
  rfl

/-- **C52** (running). `pkger k args` with `k` one of the six sub-commands runs that one, with exactly the arguments
`args`, if `-h` is not among them, and otherwise prints its usage; also after any options. -/
theorem C52_sub {pre : List Str} {l : List (Str × Val)} {k : Str} (hk : k ∈ subNames)
    (hw : Writes toolOptions pre l ∨ Leads toolOptions pre k l) (hh : ∀ b, (b! "h", Val.bool b) ∉ l) (args : List Str) :
    (b! "-h" ∉ args → route (pre ++ k :: args) = .sub k args) ∧
    (b! "-h" ∈ args → route (pre ++ k :: args) = .subUsage k) := by
  have hw' : Leads toolOptions pre k l := hw.elim (fun h => Or.inl ⟨h, subNames_noOption hk⟩) id
  rw [route_rest hw' hh args, find_sub hk]
  constructor
  · intro h
    have : args.any (· == b! "-h") = false := by
      rw [List.any_eq_false]
      intro a ha
      simp only [beq_iff_eq]
      rintro rfl
      exact h ha
    simp only [this, Bool.false_eq_true, if_false]
  · intro h
    have : args.any (· == b! "-h") = true := List.any_eq_true.mpr ⟨_, h, by simp⟩
    simp only [this, if_true]

/-- **C52** (nothing given). Without arguments `pkger` packs, into the package's directory and with no includes. -/
theorem C52_pack : route [] = .pack [] [] := by decide +kernel

theorem mem_joinBlank : ∀ {args : List Str} {a : Str}, a ∈ args → a <:+: joinBlank args
  | [s], a, h => by
    simp only [List.mem_singleton] at h
    subst h
    exact List.infix_refl _
  | s :: s' :: t, a, h => by
    rcases List.mem_cons.mp h with rfl | h
    · exact ⟨[], 32 :: joinBlank (s' :: t), by simp [joinBlank]⟩
    · obtain ⟨x, y, e⟩ := mem_joinBlank h
      exact ⟨s ++ 32 :: x, y, by simp only [joinBlank]; rw [← e]; simp⟩

/-- **C52** (unknown). A first argument that is neither an option nor a sub-command is an error whose text names all the
arguments from there on, and nothing runs. -/
theorem C52_unknown {pre : List Str} {l : List (Str × Val)} {k : Str} (hk : k ∉ subNames)
    (hw : Leads toolOptions pre k l) (hh : ∀ b, (b! "h", Val.bool b) ∉ l) (args : List Str) :
    ∃ text, route (pre ++ k :: args) = .unknown text ∧ b! "unknown arguments: " <+: text ∧
      ∀ a ∈ k :: args, a <:+: text := by
  refine ⟨_, by rw [route_rest hw hh args, find_not_sub hk], List.prefix_append _ _, ?_⟩
  intro a ha
  exact (mem_joinBlank ha).trans (List.suffix_append _ _).isInfix

/-- **C52** (every argument list). The cases above are all there are: the flag package ends the program, or help is asked
for, or there are options only, or a first argument after them. -/
theorem C52_complete (args : List Str) :
    parse toolOptions args = .exit ∨ ∃ l, (∃ b l1 l2, l = l1 ++ (b! "h", Val.bool b) :: l2) ∧ (∃ rest, parse toolOptions args = .done l rest) ∨
      (∀ b, (b! "h", Val.bool b) ∉ l) ∧
        ((∃ pre, Writes toolOptions pre l ∧ (args = pre ∨ args = pre ++ [b! "--"])) ∨
          ∃ pre k rest, args = pre ++ k :: rest ∧ Leads toolOptions pre k l) := by
  cases hp : parse toolOptions args with
  | exit => exact Or.inl rfl
  | done l rest =>
    refine Or.inr ⟨l, ?_⟩
    by_cases hh : ∃ b, (b! "h", Val.bool b) ∈ l
    · obtain ⟨b, hb⟩ := hh
      obtain ⟨l1, l2, e⟩ := List.append_of_mem hb
      exact Or.inl ⟨⟨b, l1, l2, e⟩, rest, rfl⟩
    · refine Or.inr ⟨fun b hb => hh ⟨b, hb⟩, ?_⟩
      obtain ⟨pre, hw, he⟩ := (C66_options toolOptions args l rest).mp hp
      cases rest with
      | nil =>
        refine Or.inl ⟨pre, hw, ?_⟩
        rcases he with ⟨e, _⟩ | e
        · exact Or.inl (by simpa using e)
        · exact Or.inr e
      | cons k r =>
        right
        rcases he with ⟨e, h1⟩ | e
        · exact ⟨pre, k, r, e, Or.inl ⟨hw, h1⟩⟩
        · exact ⟨pre ++ [b! "--"], k, r, by rw [e]; simp, Or.inr ⟨pre, rfl, hw⟩⟩

/-- **C52** (nothing else runs). Whatever the arguments, the only sub-commands that can run are the six. -/
theorem C52_only_subs {args : List Str} {k : Str} {args' : List Str} (h : route args = .sub k args') :
    k ∈ subNames ∧ b! "-h" ∉ args' ∧ ∃ pre, args = pre ++ k :: args' := by
  unfold route at h
  rw [packFlags_eq] at h
  cases hp : parse toolOptions args with
  | exit => simp only [hp] at h; cases h
  | done l rest =>
    simp only [hp] at h
    obtain ⟨pre, _, he⟩ := (C66_options toolOptions args l rest).mp hp
    split at h
    · cases h
    · cases rest with
      | nil => cases h
      | cons k' r =>
        simp only at h
        split at h
        · rename_i c hc
          have hkc := List.find?_some hc
          simp only [beq_iff_eq] at hkc
          subst hkc
          have hmem := List.mem_of_find?_eq_some hc
          split at h
          · cases h
          · rename_i hany
            injection h with h1 h2
            subst h1 h2
            refine ⟨(mem_sortBy id _ _).mp hmem, ?_, ?_⟩
            · intro hm
              exact hany (List.any_eq_true.mpr ⟨_, hm, by simp⟩)
            · rcases he with ⟨e, _⟩ | e
              · exact ⟨pre, e⟩
              · exact ⟨pre ++ [b! "--"], by rw [e]; simp⟩
        · cases h

example : route [b! "-o", b! "x", b! "list", b! "-json"] = .sub (b! "list") [b! "-json"] := by decide +kernel
example : route [b! "stat", b! "/a", b! "-h"] = .subUsage (b! "stat") := by decide +kernel
example : route [b! "lst", b! "a"] = .unknown (b! "unknown arguments: lst a") := by decide +kernel
example : Writes toolOptions [b! "-o", b! "x"] [(b! "o", .text (b! "x"))] :=
  .textNext (d := [dash]) (n := b! "o") (Or.inl rfl) ⟨by decide, by decide, by decide⟩ (by decide) .nil

/-! ### Reporting changes nothing (C67) -/

section Reports
open Stdos

variable {S : Type}

/-- The paths of the changing calls made so far. -/
abbrev changed (w : Stdos.World (S × List Str)) : List Str := w.host.2

theorem info_changed (O : Host S) (w : Stdos.World (S × List Str)) (p : Str) :
    changed (Stdos.info O.changes w p).1 = changed w := by
  unfold Stdos.info
  split
  · rfl
  · generalize hm : O.changes.package p w.host = m
    simp only [Host.changes] at hm
    obtain ⟨h', r⟩ := m
    obtain ⟨rfl, rfl⟩ := Prod.mk.inj hm
    cases (O.package p w.host.1).2 <;> rfl

theorem locate_changed (E : Env) (O : Host S) (w : Stdos.World (S × List Str)) (name : Str) :
    changed (locate E O.changes w name).1 = changed w := by
  rcases locate_world (E := E) (O := O.changes) w name with e | ⟨p, e⟩
  · rw [e]
  · rw [e]; exact info_changed O w p

theorem wrapFile_changed (O : Host S) (w : Stdos.World (S × List Str)) (pt : Path) (her : Info) (fd : Nat) :
    changed (wrapFile O.changes w pt her fd).1 = changed w := by
  unfold wrapFile
  generalize hm : O.changes.fstat fd w.host = m
  simp only [Host.changes] at hm
  obtain ⟨h', r⟩ := m
  obtain ⟨rfl, rfl⟩ := Prod.mk.inj hm
  cases (O.fstat fd w.host.1).2 <;> rfl

theorem openFile_changed (E : Env) (O : Host S) (w : Stdos.World (S × List Str)) (name : Str) :
    changed (Stdos.openFile E O.changes w name).1 = changed w := by
  have h0 := locate_changed E O w name
  unfold Stdos.openFile
  generalize locate E O.changes w name = m at h0
  obtain ⟨w1, r⟩ := m
  cases r with
  | error e => exact h0
  | ok x =>
    obtain ⟨pt, her⟩ := x
    simp only at h0 ⊢
    generalize hm : O.changes.openFile (GoPath.join2 her.dir pt.name) w1.host = m
    simp only [Host.changes] at hm
    obtain ⟨h', r⟩ := m
    obtain ⟨rfl, rfl⟩ := Prod.mk.inj hm
    cases (O.openFile (GoPath.join2 her.dir pt.name) w1.host.1).2 with
    | error e => exact h0
    | ok fd => exact (wrapFile_changed O _ pt her fd).trans h0

theorem fileStat_changed (O : Host S) (w : Stdos.World (S × List Str)) (f : Stdos.File) :
    changed (fileStat O.changes w f).1 = changed w := by
  unfold fileStat
  split
  · rfl
  · generalize hm : O.changes.fstat f.fd w.host = m
    simp only [Host.changes] at hm
    obtain ⟨h', r⟩ := m
    obtain ⟨rfl, rfl⟩ := Prod.mk.inj hm
    cases (O.fstat f.fd w.host.1).2 <;> rfl

theorem infoLoop_changed (O : Host S) (args : List Str) : ∀ w : Stdos.World (S × List Str),
    changed (infoLoop O.changes w args).1 = changed w := by
  induction args with
  | nil => intro w; rfl
  | cons a rest ih =>
    intro w
    have h := info_changed O w a
    unfold infoLoop
    generalize Stdos.info O.changes w a = m at h
    obtain ⟨w1, r⟩ := m
    cases r with
    | error e => exact h
    | ok i => exact (ih w1).trans h

theorem statLoop_changed (E : Env) (O : Host S) (args : List Str) : ∀ (w : Stdos.World (S × List Str)) (ds : List Stdos.File),
    changed (statLoop E O.changes w ds args).1 = changed w := by
  induction args with
  | nil => intro w ds; rfl
  | cons a rest ih =>
    intro w ds
    have h := openFile_changed E O w a
    unfold statLoop
    generalize Stdos.openFile E O.changes w a = m at h
    obtain ⟨w1, r⟩ := m
    cases r with
    | error e => exact h
    | ok f =>
      have h2 := (fileStat_changed O w1 f).trans h
      simp only
      generalize fileStat O.changes w1 f = m at h2
      obtain ⟨w2, f', r⟩ := m
      cases r with
      | error e => exact h2
      | ok fi =>
        simp only at h2 ⊢
        split
        · generalize hm : fileReaddir O.changes w2 f' (-1) = m
          obtain ⟨w3, r⟩ := m
          have h3 : changed w3 = changed w2 := by
            have := congrArg Prod.fst hm
            simp only [fileReaddir, Host.changes] at this
            rw [← this]
          cases r with
          | error e => exact h3.trans h2
          | ok l => exact (ih w3 _).trans (h3.trans h2)
        · exact (ih w2 _).trans h2

theorem closeAll_changed (O : Host S) (fs : List Stdos.File) : ∀ w : Stdos.World (S × List Str),
    changed (closeAll O.changes fs w) = changed w := by
  induction fs with
  | nil => intro w; rfl
  | cons f fs ih => intro w; exact ih _

/-- **C67** (stat). `pkger stat` creates, changes and removes nothing, whatever the disk answers. -/
theorem C67_stat (E : Env) (O : Host S) (w : Stdos.World (S × List Str)) (args : List Str) :
    changed (statCmd E O.changes w args).1 = changed w := by
  have h := statLoop_changed E O (orDot args) w []
  unfold statCmd
  generalize statLoop E O.changes w [] (orDot args) = m at h
  obtain ⟨w1, out, ds, r⟩ := m
  exact (closeAll_changed O ds w1).trans h

/-- **C67** (info). `pkger info` creates, changes and removes nothing. -/
theorem C67_info (O : Host S) (w : Stdos.World (S × List Str)) (args : List Str) :
    changed (infoCmd O.changes w args).1 = changed w := infoLoop_changed O _ w

end Reports

/-- **C67** for `list`, as one would expect it: it leaves the file `pkged.go` of the package as it is. -/
def C67_statement : Prop :=
  ∀ (E : Env) (G : Parser.GoTool) (sort : List Parser.File → List Parser.File) (disk : Option Str → Disk.Node)
    (current : Except Err Info) (args : List Str) (old : Option Str),
    (list E G sort disk current args old).1.getLast? = some old

/-- **C67 is false of `list`**: it removes the generated file (list.go:42-43), so that a program that was packaged is not
any more after its files have been listed. -/
theorem C67_list_refuted : ¬ C67_statement := by
  intro h
  have := h Demo.env (Demo.tool (Demo.program [])) Demo.sortFiles (fun _ => Demo.disk1) (.ok Demo.info) []
    (some (b! "package main"))
  revert this
  decide +kernel

/-- **C67** (what `list` does in general). If the options are right and the current package is known, the generated file
is gone afterwards, whether or not listing succeeds; otherwise it is as before. -/
theorem C67_list_removes (E : Env) (G : Parser.GoTool) (sort : List Parser.File → List Parser.File)
    (disk : Option Str → Disk.Node) (current : Except Err Info) (args : List Str) (old : Option Str) :
    (∀ l rest i, parse listFlags args = .done l rest → current = .ok i →
      (list E G sort disk current args old).1 = [old, none]) ∧
    (parse listFlags args = .exit ∨ (∃ e, current = .error e) → (list E G sort disk current args old).1 = [old]) := by
  constructor
  · intro l rest i hp hc
    simp only [list, hp, hc]
    split
    · rfl
    · rfl
    · split <;> rfl
  · unfold list
    rintro (hp | ⟨e, hc⟩)
    · simp only [hp]
    · simp only [hc]
      split <;> rfl

/-- **C67** (missing: a generated file that exists, see `C67_list_refuted`). Listing a package without a generated file
changes nothing. -/
theorem C67_list_partial (E : Env) (G : Parser.GoTool) (sort : List Parser.File → List Parser.File)
    (disk : Option Str → Disk.Node) (current : Except Err Info) (args : List Str) :
    ∀ s ∈ (list E G sort disk current args none).1, s = none := by
  unfold list
  repeat' split
  all_goals simp

example : (list Demo.env (Demo.tool (Demo.program [])) Demo.sortFiles (fun _ => Demo.disk1) (.ok Demo.info) [b! "-json"]
    (some (b! "x"))).1 = [some (b! "x"), none] := by decide +kernel
example : (list Demo.env (Demo.tool (Demo.program [])) Demo.sortFiles (fun _ => Demo.disk1) (.ok Demo.info) [b! "-o"]
    (some (b! "x"))).1 = [some (b! "x")] := by decide +kernel
example : (statCmd Demo.env Demo.host.changes (Stdos.new Demo.info ((), [])) [b! "/a", b! "lib:/b"]).2.1.length = 2 := by
  decide +kernel

/-! ### `list` and packaging agree (C68) -/

/-- **C68** in full: `list` shows exactly the files packaging goes through.  Packaging determines them when its output
has been created and its header written (pack.go:136-159). -/
def C68_statement : Prop :=
  ∀ (E : Env) (G : Parser.GoTool) (sort : List Parser.File → List Parser.File) (disk : Option Str → Disk.Node)
    (info c : Info) (out : Str) (args includes : List Str) (old : Option Str) (json : Bool) (ds : List Parser.Decl)
    (fs fs' : List Parser.File),
    Spec.AnyOrder G → Spec.Sorts sort → (∀ o, (disk o).WF) → Shows disk out →
    Parser.decls E G (disk none) info includes = .ok ds →
    (list E G sort disk (.ok info) args old).2 = .files json info.importPath fs →
    (∃ sets rest, parse listFlags args = .done sets rest ∧ allTexts sets (b! "include") = includes) →
    Parser.files E (disk (some (Pack.headers c.name).flatten)) sort ds = .ok fs' →
    fs.map (·.path) = fs'.map (·.path)

/-- Whether a listing has the path. -/
def lists (q : Path) : Except Err (List Parser.File) → Bool
  | .ok fs => (fs.map (·.path)).contains q
  | .error _ => false

/-- **C68 is false of the code**: with `pkger.Dir("/")`, packaging goes through its own half-written output, which `list`
does not show. -/
theorem C68_refuted : ¬ C68_statement := by
  intro h
  have e1 : (match Parser.decls Demo.env (Demo.tool (Demo.program [Demo.callLit (b! "Dir") (b! "\"/\"")])) (outDisk none)
      Demo.info [] with
    | .ok ds => lists ⟨b! "app", b! "/pkged.go"⟩ (Parser.files Demo.env (outDisk none) Demo.sortFiles ds) == false &&
        lists ⟨b! "app", b! "/main.go"⟩ (Parser.files Demo.env (outDisk none) Demo.sortFiles ds) &&
        lists ⟨b! "app", b! "/pkged.go"⟩
          (Parser.files Demo.env (outDisk (some (Pack.headers (b! "main")).flatten)) Demo.sortFiles ds)
    | _ => false) = true := by decide +kernel
  generalize hds : Parser.decls Demo.env (Demo.tool (Demo.program [Demo.callLit (b! "Dir") (b! "\"/\"")])) (outDisk none)
      Demo.info [] = m at e1
  cases m with
  | err e => cases e1
  | panic => cases e1
  | ok ds =>
  simp only [Bool.and_eq_true, beq_iff_eq] at e1
  obtain ⟨⟨h1, h2⟩, h3⟩ := e1
  cases hf : Parser.files Demo.env (outDisk none) Demo.sortFiles ds with
  | error e => rw [hf] at h2; cases h2
  | ok fs =>
    cases hf' : Parser.files Demo.env (outDisk (some (Pack.headers (b! "main")).flatten)) Demo.sortFiles ds with
    | error e => rw [hf'] at h3; cases h3
    | ok fs' =>
      rw [hf] at h1
      rw [hf'] at h3
      have := h Demo.env _ Demo.sortFiles outDisk Demo.info Demo.info (b! "/src/app/pkged.go") [] [] none false ds fs fs'
        (Demo.tool_anyOrder _) Demo.sortFiles_sorts ?_ ⟨by rfl, fun t => ⟨_, rfl⟩⟩ hds ?_ ⟨[], [], rfl, rfl⟩ hf'
      · simp only [lists] at h1 h3
        rw [this, h3] at h1
        cases h1
      · intro o
        cases o with
        | none => decide +kernel
        | some t =>
          simp only [outDisk, Demo.disk, Demo.dirNode, Demo.fileNode, Disk.Node.WF, Disk.Node.WFKids, List.map_cons,
            List.map_nil]
          decide +kernel
      · have hp : parse listFlags [] = .done [] [] := rfl
        have ha : allTexts ([] : List (Str × Val)) (b! "include") = [] := rfl
        unfold list
        simp only [hp, ha, hds, hf]
        rfl

theorem filesLoop_disk {E : Env} {disk disk' : Disk.Node} (ds : List Parser.Decl)
    (h : ∀ d ∈ ds, Parser.osStat disk (GoPath.join2 d.file.here.module.dir d.file.path.name) =
      Parser.osStat disk' (GoPath.join2 d.file.here.module.dir d.file.path.name)) :
    ∀ s, Parser.filesLoop E disk ds s = Parser.filesLoop E disk' ds s := by
  induction ds with
  | nil => intro s; rfl
  | cons d ds ih =>
    intro s
    have hd : Parser.filer E disk d = Parser.filer E disk' d := by
      have h0 := h d (by simp)
      have hw : ∀ v, Parser.walkFiles E disk v d = Parser.walkFiles E disk' v d := by
        intro v; simp only [Parser.walkFiles, h0]
      have ho : ∀ v, Parser.openFiles E disk v d = Parser.openFiles E disk' v d := by
        intro v; simp only [Parser.openFiles, h0, hw]
      unfold Parser.filer
      cases d.kind <;> simp only [hw, ho]
    have ih' := ih (fun d hd => h d (by simp [hd]))
    simp only [Parser.filesLoop, hd, ih']

/-- **C68** (missing: programs that list a directory above the output, for which it is false). If what the declarations
name is the same with and without the output, `list` ends with an error exactly if the files to package cannot be
determined, and otherwise shows exactly the files packaging goes through, in that order. -/
theorem C68_agree_partial {E : Env} {G : Parser.GoTool} {sort : List Parser.File → List Parser.File}
    {disk : Option Str → Disk.Node} {info : Info} {args : List Str} {old : Option Str} {sets : List (Str × Val)}
    {rest : List Str} {ds : List Parser.Decl} {t : Str} (hp : parse listFlags args = .done sets rest)
    (hd : Parser.decls E G (disk none) info (allTexts sets (b! "include")) = .ok ds)
    (h : ∀ d ∈ ds, Parser.osStat (disk none) (GoPath.join2 d.file.here.module.dir d.file.path.name) =
      Parser.osStat (disk (some t)) (GoPath.join2 d.file.here.module.dir d.file.path.name)) :
    (list E G sort disk (.ok info) args old).2 =
      match Parser.files E (disk (some t)) sort ds with
      | .ok fs => .files (lastBool sets (b! "json")) info.importPath fs
      | .error e => .err e := by
  have hf : Parser.files E (disk none) sort ds = Parser.files E (disk (some t)) sort ds := by
    simp only [Parser.files, filesLoop_disk ds h]
  simp only [list, hp, hd, hf]
  cases Parser.files E (disk (some t)) sort ds <;> rfl

/-- The hypotheses hold of the demo program and its disk. -/
example : ∃ ds, Parser.decls Demo.env (Demo.tool (Demo.program [Demo.callLit (b! "Open") (b! "\"/main.go\"")])) (outDisk none)
      Demo.info [] = .ok ds ∧ ds.length = 1 ∧
    ∀ d ∈ ds, Parser.osStat (outDisk none) (GoPath.join2 d.file.here.module.dir d.file.path.name) =
      Parser.osStat (outDisk (some (b! "x"))) (GoPath.join2 d.file.here.module.dir d.file.path.name) := by
  have e1 : (match Parser.decls Demo.env (Demo.tool (Demo.program [Demo.callLit (b! "Open") (b! "\"/main.go\"")]))
      (outDisk none) Demo.info [] with
    | .ok ds => ds.length == 1 && ds.all fun d =>
        GoPath.join2 d.file.here.module.dir d.file.path.name == b! "/src/app/main.go"
    | _ => false) = true := by decide +kernel
  generalize Parser.decls Demo.env (Demo.tool (Demo.program [Demo.callLit (b! "Open") (b! "\"/main.go\"")]))
      (outDisk none) Demo.info [] = m at e1
  cases m with
  | err e => cases e1
  | panic => cases e1
  | ok ds =>
    simp only [Bool.and_eq_true, beq_iff_eq, List.all_eq_true] at e1
    refine ⟨ds, rfl, e1.1, fun d hd => ?_⟩
    rw [e1.2 d hd]
    rfl

/-! ### `stat` closes what it opens (C69) -/

section Closing
open Stdos

variable {S : Type}

theorem fileStat_handles (O : Host S) (w : Stdos.World (S × List Nat)) (f : Stdos.File) :
    handles (fileStat (O.watched .handles) w f).1 = handles w ∧ (fileStat (O.watched .handles) w f).2.1.fd = f.fd := by
  unfold fileStat
  split
  · exact ⟨rfl, rfl⟩
  · generalize hm : (O.watched .handles).fstat f.fd w.host = m
    simp only [Host.watched] at hm
    obtain ⟨h', r⟩ := m
    obtain ⟨rfl, rfl⟩ := Prod.mk.inj hm
    cases (O.fstat f.fd w.host.1).2 <;> exact ⟨rfl, rfl⟩

/-- If the status of an open file can always be told, a failed `Open` opens nothing. -/
theorem openFile_fails {E : Env} {O : Host S} (hO : ∀ fd s, ∃ d, (O.fstat fd s).2 = .ok d)
    {w w' : Stdos.World (S × List Nat)} {name : Str} {e : Err}
    (h : Stdos.openFile E (O.watched .handles) w name = (w', .error e)) : handles w' = handles w := by
  have h0 := locate_handles E O w name
  unfold Stdos.openFile at h
  generalize locate E (O.watched .handles) w name = m at h h0
  obtain ⟨w1, r⟩ := m
  cases r with
  | error e => obtain ⟨rfl, _⟩ := Prod.mk.inj h; exact h0
  | ok x =>
    obtain ⟨pt, her⟩ := x
    simp only at h h0
    generalize hm : (O.watched .handles).openFile (GoPath.join2 her.dir pt.name) w1.host = m at h
    simp only [Host.watched, Watch.handles] at hm
    obtain ⟨h', r⟩ := m
    split at hm
    · obtain ⟨rfl, rfl⟩ := Prod.mk.inj hm
      rename_i h1 fd _
      simp only [wrapFile] at h
      generalize hm : (O.watched .handles).fstat fd (h1, fd :: w1.host.2) = m at h
      simp only [Host.watched] at hm
      obtain ⟨h', r⟩ := m
      obtain ⟨rfl, rfl⟩ := Prod.mk.inj hm
      obtain ⟨d, hd⟩ := hO fd h1
      have : ({ host := (h1, fd :: w1.host.2), here := w1.here, infos := w1.infos } :
        Stdos.World (S × List Nat)).host.1 = h1 := rfl
      simp only [hd] at h
      exact absurd (Prod.mk.inj h).2 (by simp)
    · obtain ⟨rfl, rfl⟩ := Prod.mk.inj hm
      obtain ⟨rfl, _⟩ := Prod.mk.inj h
      exact h0

theorem closeAll_handles (O : Host S) (fs : List Stdos.File) : ∀ (w : Stdos.World (S × List Nat)) (l : List Nat),
    handles w = fs.map (·.fd) ++ l → handles (closeAll (O.watched .handles) fs w) = l := by
  induction fs with
  | nil => intro w l h; exact h
  | cons f fs ih =>
    intro w l h
    refine ih _ l ?_
    rw [closeFile_handles, h]
    simp

theorem statLoop_handles {E : Env} {O : Host S} (hO : ∀ fd s, ∃ d, (O.fstat fd s).2 = .ok d) (args : List Str) (l : List Nat) :
    ∀ (w : Stdos.World (S × List Nat)) (ds : List Stdos.File), handles w = ds.map (·.fd) ++ l →
    handles (statLoop E (O.watched .handles) w ds args).1 =
      (statLoop E (O.watched .handles) w ds args).2.2.1.map (·.fd) ++ l := by
  induction args with
  | nil => intro w ds h; exact h
  | cons a rest ih =>
    intro w ds h
    unfold statLoop
    generalize ho : Stdos.openFile E (O.watched .handles) w a = m
    obtain ⟨w1, r⟩ := m
    cases r with
    | error e => exact (openFile_fails hO ho).trans h
    | ok f =>
      have h1 := openFile_handles E O ho
      have h2 := fileStat_handles O w1 f
      simp only
      generalize fileStat (O.watched .handles) w1 f = m at h2
      obtain ⟨w2, f', r⟩ := m
      simp only at h2
      have h3 : handles w2 = (f' :: ds).map (·.fd) ++ l := by
        rw [h2.1, h1, h, List.map_cons, h2.2]; rfl
      cases r with
      | error e => exact h3
      | ok fi =>
        simp only
        split
        · generalize hm : fileReaddir (O.watched .handles) w2 f' (-1) = m
          obtain ⟨w3, r⟩ := m
          have h4 : handles w3 = handles w2 := by
            have := congrArg Prod.fst hm
            simp only [fileReaddir, Host.watched] at this
            rw [← this]
          cases r with
          | error e => exact h4.trans h3
          | ok l' => exact ih w3 _ (h4.trans h3)
        · exact ih w2 _ h3

/-- **C69** in full: after `pkger stat`, the files that are open are those that were open before. -/
def C69_statement : Prop :=
  ∀ (E : Env) (S : Type) (O : Host S) (w : Stdos.World (S × List Nat)) (args : List Str),
    handles (statCmd E (O.watched .handles) w args).1 = handles w

/-- **C69 is false**: if the operating system opens a file and then cannot tell its status, `Open` returns the error
without closing it (stdos.go:122-125). -/
theorem C69_refuted : ¬ C69_statement := by
  intro h
  have := h Demo.env Unit { Demo.host with fstat := fun _ s => (s, .error .notExist) } (Stdos.new Demo.info ((), []))
    [b! "/a"]
  revert this
  decide +kernel

/-- **C69** (missing: files whose status cannot be told once they are open, see `C69_refuted`). Also when a later
argument fails, `pkger stat` closes every file it opened, and no other. -/
theorem C69_closes_partial {E : Env} {O : Host S} (hO : ∀ fd s, ∃ d, (O.fstat fd s).2 = .ok d)
    (w : Stdos.World (S × List Nat)) (args : List Str) :
    handles (statCmd E (O.watched .handles) w args).1 = handles w := by
  have h := statLoop_handles (E := E) hO (orDot args) (handles w) w [] rfl
  unfold statCmd
  generalize statLoop E (O.watched .handles) w [] (orDot args) = m at h
  obtain ⟨w1, out, ds, r⟩ := m
  exact closeAll_handles O ds w1 _ h

end Closing

example : (statLoop Demo.env (Demo.host.watched .handles) (Stdos.new Demo.info ((), [3])) [] [b! "/a", b! "nope:/b", b! "/c"]).1.host.2
    = [10, 3] := by decide +kernel
example : ∀ fd s, ∃ d, (Demo.host.fstat fd s).2 = .ok d := fun _ _ => ⟨_, rfl⟩

end Props
end Verif
