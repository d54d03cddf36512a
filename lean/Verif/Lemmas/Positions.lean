import Verif.Model.Positions
import Verif.Lemmas.FileSet

/-! What positions of declarations ought to be, and lemmas about walking trees with offsets. -/

namespace Verif
namespace Parser

open Token (Position FileSet)

/-! ### Specification -/

/-- The tree contains a call `pkger.name(arg, …)`. -/
inductive HasCall : PAst → Str → PAst → Prop where
  | here {o : Nat} {ob : Option Nat} {name : Str} {a : PAst} {as : List PAst} :
      HasCall (.call (.sel (.ident o (b! "pkger") ob) name) (a :: as)) name a
  | sel {x : PAst} {m n : Str} {a : PAst} : HasCall x n a → HasCall (.sel x m) n a
  | fn {f : PAst} {args : List PAst} {n : Str} {a : PAst} : HasCall f n a → HasCall (.call f args) n a
  | arg {f x : PAst} {args : List PAst} {n : Str} {a : PAst} : x ∈ args → HasCall x n a → HasCall (.call f args) n a
  | kid {o : Nat} {x : PAst} {kids : List PAst} {n : Str} {a : PAst} : x ∈ kids → HasCall x n a →
      HasCall (.other o kids) n a

/-- The node is a literal or an identifier, written like this. -/
def Written (a : PAst) (t : Str) : Prop := (∃ o, a = .lit o t) ∨ ∃ o ob, a = .ident o t ob

mutual
/-- The offsets are where the texts of the literals and identifiers are: what `go/parser` ensures. -/
def Placed (text : Str) : PAst → Prop
  | .ident o n _ => n ≠ [] ∧ n <+: text.drop o
  | .lit o t => t ≠ [] ∧ t <+: text.drop o
  | .sel x _ => Placed text x
  | .call f args => Placed text f ∧ PlacedAll text args
  | .other _ kids => PlacedAll text kids

def PlacedAll (text : Str) : List PAst → Prop
  | [] => True
  | a :: as => Placed text a ∧ PlacedAll text as
end

mutual
/-- The tree lies between two offsets, its parts one after the other: what `go/parser` ensures. -/
def Spans : PAst → Nat → Nat → Prop
  | .ident o _ _, lo, hi => lo ≤ o ∧ o < hi
  | .lit o _, lo, hi => lo ≤ o ∧ o < hi
  | .sel x _, lo, hi => Spans x lo hi
  | .call f args, lo, hi => ∃ mid, Spans f lo mid ∧ SpansAll args mid hi
  | .other o kids, lo, hi => lo ≤ o ∧ o < hi ∧ SpansAll kids lo hi

def SpansAll : List PAst → Nat → Nat → Prop
  | [], lo, hi => lo ≤ hi
  | a :: as, lo, hi => ∃ mid, Spans a lo mid ∧ SpansAll as mid hi
end

/-! ### The same declarations -/

/-- Without positions. -/
def PPState.erase (s : PPState) : PState := ⟨fun k => (s.decls k).map (·.1), s.err⟩

theorem erase_push (s : PPState) (k : Kind) (d : Decl × Position) :
    (s.push k d).erase = { s.erase with decls := s.erase.decls.append k [d.1] } := by
  have : (fun k' => ((s.push k d).decls k').map (·.1)) = s.erase.decls.append k [d.1] := by
    funext k'
    by_cases hk : k' = k
    · subst hk; simp [PPState.push, PPState.erase, DeclMap.append]
    · simp [PPState.push, PPState.erase, DeclMap.append, hk]
  unfold PPState.erase at this ⊢
  rw [this]
  rfl

/-- A result with something done to its value. -/
def onOk {α β : Type} (f : α → β) : Res α → Res β
  | .ok a => .ok (f a)
  | .err e => .err e
  | .panic => .panic

theorem penter_erase (E : Env) (depth : Nat) (p : PSource) (t : PAst) (s : PPState) :
    enter E depth p.erase t.erase s.erase = onOk (fun r => (r.1.erase, r.2)) (penter E depth p t s) := by
  cases t with
  | ident o n ob => rfl
  | lit o t => rfl
  | sel x n => rfl
  | other o kids => rfl
  | call f args =>
    cases f with
    | ident o n ob => rfl
    | lit o t => rfl
    | call f as => rfl
    | other o kids => rfl
    | sel x name =>
      cases x with
      | lit o t => rfl
      | call f as => rfl
      | other o kids => rfl
      | sel x n => rfl
      | ident o pkg ob =>
        simp only [PAst.erase, enter, penter]
        by_cases hp : pkg ≠ b! "pkger"
        · rw [if_pos hp, if_pos hp]; rfl
        · rw [if_neg hp, if_neg hp]
          cases kindOf name with
          | none => rfl
          | some k =>
            cases args with
            | nil => rfl
            | cons a as =>
              simp only [PAst.eraseAll]
              cases value depth p.erase a.erase with
              | panic => rfl
              | err e => rfl
              | ok val =>
                simp only [PSource.erase]
                cases declFile E p.abs val with
                | error e => rfl
                | ok f => simp only [onOk, erase_push]

mutual
theorem pwalk_erase (E : Env) (depth : Nat) (p : PSource) : ∀ (t : PAst) (s : PPState),
    walkAst E depth p.erase t.erase s.erase = onOk PPState.erase (pwalk E depth p t s)
  | .ident o n ob, s => rfl
  | .lit o t, s => rfl
  | .sel x n, s => by
    have h := penter_erase E depth p (.sel x n) s
    simp only [PAst.erase] at h ⊢
    rw [walkAst, pwalk, h]
    cases penter E depth p (.sel x n) s with
    | ok r =>
      obtain ⟨s', b⟩ := r
      cases b
      · rfl
      · exact pwalk_erase E depth p x s'
    | err e => rfl
    | panic => rfl
  | .call f args, s => by
    have h := penter_erase E depth p (.call f args) s
    simp only [PAst.erase] at h ⊢
    rw [walkAst, pwalk, h]
    cases penter E depth p (.call f args) s with
    | ok r =>
      obtain ⟨s', b⟩ := r
      cases b
      · rfl
      · simp only [onOk]
        rw [pwalk_erase E depth p f s']
        cases pwalk E depth p f s' with
        | ok s2 => exact pwalkAll_erase E depth p args s2
        | err e => rfl
        | panic => rfl
    | err e => rfl
    | panic => rfl
  | .other o kids, s => by
    have h := penter_erase E depth p (.other o kids) s
    simp only [PAst.erase] at h ⊢
    rw [walkAst, pwalk, h]
    cases penter E depth p (.other o kids) s with
    | ok r =>
      obtain ⟨s', b⟩ := r
      cases b
      · rfl
      · exact pwalkAll_erase E depth p kids s'
    | err e => rfl
    | panic => rfl

theorem pwalkAll_erase (E : Env) (depth : Nat) (p : PSource) : ∀ (l : List PAst) (s : PPState),
    walkAsts E depth p.erase (PAst.eraseAll l) s.erase = onOk PPState.erase (pwalkAll E depth p l s)
  | [], s => rfl
  | a :: as, s => by
    rw [PAst.eraseAll, walkAsts, pwalkAll, pwalk_erase E depth p a s]
    cases pwalk E depth p a s with
    | ok s2 => exact pwalkAll_erase E depth p as s2
    | err e => rfl
    | panic => rfl
end

/-! ### Where they come from -/

/-- The entry was made for a call in the tree. -/
def From (p : PSource) (depth : Nat) (t : PAst) (k : Kind) (e : Decl × Position) : Prop :=
  ∃ name a, HasCall t name a ∧ kindOf name = some k ∧ value depth p.erase a.erase = .ok e.1.value ∧
    e.2 = p.fset.position (p.base + a.off)

/-- What a step does to the declarations. -/
theorem penter_step {E : Env} {depth : Nat} {p : PSource} {t : PAst} {s s' : PPState} {b : Bool}
    (h : penter E depth p t s = .ok (s', b)) :
    s'.decls = s.decls ∨ ∃ o ob name a as k f val, t = .call (.sel (.ident o (b! "pkger") ob) name) (a :: as) ∧
      kindOf name = some k ∧ value depth p.erase a.erase = .ok val ∧
      s' = s.push k (⟨k, f, val⟩, p.fset.position (p.base + a.off)) := by
  unfold penter at h
  split at h
  · rename_i o pkg ob name args
    split at h
    · cases h; exact Or.inl rfl
    · rename_i hp
      have hp : pkg = b! "pkger" := Decidable.not_not.mp hp
      subst hp
      split at h
      · cases h; exact Or.inl rfl
      · rename_i k hk
        split at h
        · cases h; exact Or.inl rfl
        · rename_i a as
          split at h
          · cases h
          · cases h; exact Or.inl rfl
          · rename_i val hv
            split at h
            · cases h; exact Or.inl rfl
            · rename_i f hf
              cases h
              exact Or.inr ⟨o, ob, name, a, as, k, f, val, rfl, hk, hv, rfl⟩
  · cases h; exact Or.inl rfl

theorem penter_from {E : Env} {depth : Nat} {p : PSource} {t : PAst} {s s' : PPState} {b : Bool}
    (h : penter E depth p t s = .ok (s', b)) {k : Kind} {e : Decl × Position} (he : e ∈ s'.decls k) :
    e ∈ s.decls k ∨ From p depth t k e := by
  rcases penter_step h with h | ⟨o, ob, name, a, as, k', f, val, rfl, hk, hv, rfl⟩
  · rw [h] at he; exact Or.inl he
  · simp only [PPState.push] at he
    split at he
    · rename_i hkk
      subst hkk
      rcases List.mem_append.mp he with he | he
      · exact Or.inl he
      · rw [List.mem_singleton] at he
        subst he
        exact Or.inr ⟨name, a, .here, hk, hv, rfl⟩
    · exact Or.inl he

mutual
theorem pwalk_from {E : Env} {depth : Nat} {p : PSource} : ∀ (t : PAst) (s s' : PPState),
    pwalk E depth p t s = .ok s' → ∀ k e, e ∈ s'.decls k → e ∈ s.decls k ∨ From p depth t k e
  | .ident o n ob, s, s', h, k, e, he => by rw [pwalk] at h; cases h; exact Or.inl he
  | .lit o t, s, s', h, k, e, he => by rw [pwalk] at h; cases h; exact Or.inl he
  | .sel x n, s, s', h, k, e, he => by
    rw [pwalk] at h
    cases hp : penter E depth p (.sel x n) s with
    | ok r =>
      obtain ⟨s1, b⟩ := r
      rw [hp] at h
      cases b with
      | false => cases h; exact penter_from hp he
      | true =>
        rcases pwalk_from x s1 s' h k e he with h1 | ⟨name, a, h1, h2⟩
        · exact penter_from hp h1
        · exact Or.inr ⟨name, a, .sel h1, h2⟩
    | err e => rw [hp] at h; cases h
    | panic => rw [hp] at h; cases h
  | .call f args, s, s', h, k, e, he => by
    rw [pwalk] at h
    cases hp : penter E depth p (.call f args) s with
    | ok r =>
      obtain ⟨s1, b⟩ := r
      rw [hp] at h
      cases b with
      | false => cases h; exact penter_from hp he
      | true =>
        simp only at h
        cases hf : pwalk E depth p f s1 with
        | ok s2 =>
          rw [hf] at h
          rcases pwalkAll_from args s2 s' h k e he with h1 | ⟨x, hx, name, a, h1, h2⟩
          · rcases pwalk_from f s1 s2 hf k e h1 with h1 | ⟨name, a, h1, h2⟩
            · exact penter_from hp h1
            · exact Or.inr ⟨name, a, .fn h1, h2⟩
          · exact Or.inr ⟨name, a, .arg hx h1, h2⟩
        | err e => rw [hf] at h; cases h
        | panic => rw [hf] at h; cases h
    | err e => rw [hp] at h; cases h
    | panic => rw [hp] at h; cases h
  | .other o kids, s, s', h, k, e, he => by
    rw [pwalk] at h
    cases hp : penter E depth p (.other o kids) s with
    | ok r =>
      obtain ⟨s1, b⟩ := r
      rw [hp] at h
      cases b with
      | false => cases h; exact penter_from hp he
      | true =>
        rcases pwalkAll_from kids s1 s' h k e he with h1 | ⟨x, hx, name, a, h1, h2⟩
        · exact penter_from hp h1
        · exact Or.inr ⟨name, a, .kid hx h1, h2⟩
    | err e => rw [hp] at h; cases h
    | panic => rw [hp] at h; cases h

theorem pwalkAll_from {E : Env} {depth : Nat} {p : PSource} : ∀ (l : List PAst) (s s' : PPState),
    pwalkAll E depth p l s = .ok s' → ∀ k e, e ∈ s'.decls k → e ∈ s.decls k ∨ ∃ x ∈ l, From p depth x k e
  | [], s, s', h, k, e, he => by rw [pwalkAll] at h; cases h; exact Or.inl he
  | a :: as, s, s', h, k, e, he => by
    rw [pwalkAll] at h
    cases ha : pwalk E depth p a s with
    | ok s1 =>
      rw [ha] at h
      rcases pwalkAll_from as s1 s' h k e he with h1 | ⟨x, hx, h1⟩
      · rcases pwalk_from a s s1 ha k e h1 with h1 | h1
        · exact Or.inl h1
        · exact Or.inr ⟨a, by simp, h1⟩
      · exact Or.inr ⟨x, by simp [hx], h1⟩
    | err e => rw [ha] at h; cases h
    | panic => rw [ha] at h; cases h
end

theorem unquote_nil : Unquote.unquote [] = .error .syntax := by decide +kernel

/-- Only literals and identifiers have a value. -/
theorem written_of_value {depth : Nat} {p : PSource} {a : PAst} {val : Str}
    (h : value depth p.erase a.erase = .ok val) : ∃ t, Written a t := by
  cases a with
  | ident o n ob => exact ⟨n, Or.inr ⟨o, ob, rfl⟩⟩
  | lit o t => exact ⟨t, Or.inl ⟨o, rfl⟩⟩
  | sel x n =>
    cases depth with
    | zero => simp [value, valueNode] at h
    | succ d => simp [value, valueNode, PAst.erase, unquote_nil] at h
  | call f args =>
    cases depth with
    | zero => simp [value, valueNode] at h
    | succ d => simp [value, valueNode, PAst.erase, unquote_nil] at h
  | other o kids =>
    cases depth with
    | zero => simp [value, valueNode] at h
    | succ d => simp [value, valueNode, PAst.erase, unquote_nil] at h

theorem placedAll_mem {text : Str} : ∀ {l : List PAst}, PlacedAll text l → ∀ x ∈ l, Placed text x
  | [], _, x, hx => by cases hx
  | a :: as, h, x, hx => by
    rw [PlacedAll] at h
    rcases List.mem_cons.mp hx with rfl | hx
    · exact h.1
    · exact placedAll_mem h.2 x hx

theorem placed_arg {text : Str} {t a : PAst} {name : Str} (hc : HasCall t name a) : Placed text t → Placed text a := by
  induction hc with
  | here => intro h; rw [Placed, PlacedAll] at h; exact h.2.1
  | sel _ ih => intro h; rw [Placed] at h; exact ih h
  | fn _ ih => intro h; rw [Placed] at h; exact ih h.1
  | arg hx _ ih => intro h; rw [Placed] at h; exact ih (placedAll_mem h.2 _ hx)
  | kid hx _ ih => intro h; rw [Placed] at h; exact ih (placedAll_mem h _ hx)

theorem placed_written {text : Str} {a : PAst} {t : Str} (hw : Written a t) (hp : Placed text a) :
    t ≠ [] ∧ t <+: text.drop a.off ∧ a.off < text.length := by
  have key : t ≠ [] ∧ t <+: text.drop a.off := by
    rcases hw with ⟨o, rfl⟩ | ⟨o, ob, rfl⟩
    · rw [Placed] at hp; exact hp
    · rw [Placed] at hp; exact hp
  refine ⟨key.1, key.2, ?_⟩
  obtain ⟨r, hr⟩ := key.2
  have := congrArg List.length hr
  rw [List.length_append, List.length_drop] at this
  have := List.length_pos_iff.mpr key.1
  omega

/-! ### Order -/

mutual
theorem spans_off : ∀ {t : PAst} {lo hi : Nat}, Spans t lo hi → lo ≤ t.off ∧ t.off < hi
  | .ident o n ob, lo, hi, h => by rw [Spans] at h; exact h
  | .lit o t, lo, hi, h => by rw [Spans] at h; exact h
  | .sel x n, lo, hi, h => by rw [Spans] at h; exact spans_off (t := x) h
  | .call f args, lo, hi, h => by
    rw [Spans] at h
    obtain ⟨mid, h1, h2⟩ := h
    have := spans_off (t := f) h1
    have := spansAll_le (l := args) h2
    simp only [PAst.off]
    omega
  | .other o kids, lo, hi, h => by rw [Spans] at h; exact ⟨h.1, h.2.1⟩

theorem spansAll_le : ∀ {l : List PAst} {lo hi : Nat}, SpansAll l lo hi → lo ≤ hi
  | [], lo, hi, h => by rw [SpansAll] at h; exact h
  | a :: as, lo, hi, h => by
    rw [SpansAll] at h
    obtain ⟨mid, h1, h2⟩ := h
    have := spans_off (t := a) h1
    have := spansAll_le (l := as) h2
    omega
end

/-- In order, all before the offset. -/
def Upto (s : PPState) (n : Nat) : Prop :=
  ∀ k, ((s.decls k).Pairwise fun x y => x.2.offset < y.2.offset) ∧ ∀ e ∈ s.decls k, e.2.offset < n

theorem Upto.mono {s s' : PPState} {n m : Nat} (h : Upto s n) (hd : s'.decls = s.decls) (hnm : n ≤ m) : Upto s' m := by
  intro k
  rw [hd]
  exact ⟨(h k).1, fun e he => Nat.lt_of_lt_of_le ((h k).2 e he) hnm⟩

/-- The positions of the source are the offsets in the file. -/
def Offsets (p : PSource) (size : Nat) : Prop := ∀ off, off < size → (p.fset.position (p.base + off)).offset = off

theorem Upto.push {s : PPState} {lo : Nat} (h : Upto s lo) {off : Nat} (k : Kind) (d : Decl × Position)
    (hd : d.2.offset = off) (hlo : lo ≤ off) : Upto (s.push k d) (off + 1) := by
  intro k'
  simp only [PPState.push]
  split
  · rename_i hk
    subst hk
    refine ⟨?_, ?_⟩
    · rw [List.pairwise_append]
      refine ⟨(h k').1, by simp, fun x hx y hy => ?_⟩
      rw [List.mem_singleton] at hy
      subst hy
      have := (h k').2 x hx
      omega
    · intro e he
      rcases List.mem_append.mp he with he | he
      · have := (h k').2 e he; omega
      · rw [List.mem_singleton] at he
        subst he
        omega
  · exact ⟨(h k').1, fun e he => by have := (h k').2 e he; omega⟩

mutual
theorem pwalk_order {E : Env} {depth : Nat} {p : PSource} {size : Nat} (hp : Offsets p size) :
    ∀ (t : PAst) (s s' : PPState) (lo hi : Nat), pwalk E depth p t s = .ok s' → Spans t lo hi → hi ≤ size → Upto s lo →
      Upto s' hi
  | .ident o n ob, s, s', lo, hi, h, hs, _, hu => by
    rw [pwalk] at h; cases h
    rw [Spans] at hs
    exact hu.mono rfl (by omega)
  | .lit o t, s, s', lo, hi, h, hs, _, hu => by
    rw [pwalk] at h; cases h
    rw [Spans] at hs
    exact hu.mono rfl (by omega)
  | .sel x n, s, s', lo, hi, h, hs, hh, hu => by
    rw [pwalk] at h
    have he : penter E depth p (.sel x n) s = .ok (s, true) := rfl
    rw [he] at h
    rw [Spans] at hs
    exact pwalk_order hp x s s' lo hi h hs hh hu
  | .call f args, s, s', lo, hi, h, hs, hh, hu => by
    rw [pwalk] at h
    rw [Spans] at hs
    obtain ⟨mid, hf, ha⟩ := hs
    have hmh := spansAll_le ha
    have hfo := spans_off hf
    cases he : penter E depth p (.call f args) s with
    | ok r =>
      obtain ⟨s1, b⟩ := r
      rw [he] at h
      rcases penter_step he with hd | ⟨o, ob, name, a, as, k, fl, val, hc, hk, hv, hpush⟩
      · have hu1 : Upto s1 lo := hu.mono hd (Nat.le_refl _)
        cases b with
        | false => cases h; exact hu1.mono rfl (by omega)
        | true =>
          simp only at h
          cases hw : pwalk E depth p f s1 with
          | ok s2 =>
            rw [hw] at h
            exact pwalkAll_order hp args s2 s' mid hi h ha hh
              (pwalk_order hp f s1 s2 lo mid hw hf (by omega) hu1)
          | err e => rw [hw] at h; cases h
          | panic => rw [hw] at h; cases h
      · cases hc
        rw [SpansAll] at ha
        obtain ⟨m1, ha1, ha2⟩ := ha
        have hao := spans_off ha1
        have hm1 := spansAll_le ha2
        have hu1 : Upto s1 (a.off + 1) := by
          rw [hpush]
          exact hu.push k _ (hp a.off (by omega)) (by omega)
        cases b with
        | false => cases h; exact hu1.mono rfl (by omega)
        | true =>
          have hw : pwalk E depth p (.sel (.ident o (b! "pkger") ob) name) s1 = .ok s1 := by
            rw [pwalk]
            have he : penter E depth p (.sel (.ident o (b! "pkger") ob) name) s1 = .ok (s1, true) := rfl
            rw [he]
            simp only
            rw [pwalk]
          have hwa : pwalk E depth p a s1 = .ok s1 := by
            obtain ⟨t, ⟨o, rfl⟩ | ⟨o, ob, rfl⟩⟩ := written_of_value hv
            · rw [pwalk]
            · rw [pwalk]
          simp only at h
          rw [hw] at h
          simp only at h
          rw [pwalkAll, hwa] at h
          simp only at h
          exact pwalkAll_order hp as s1 s' m1 hi h ha2 hh (hu1.mono rfl (by omega))
    | err e => rw [he] at h; cases h
    | panic => rw [he] at h; cases h
  | .other o kids, s, s', lo, hi, h, hs, hh, hu => by
    rw [pwalk] at h
    have he : penter E depth p (.other o kids) s = .ok (s, true) := rfl
    rw [he] at h
    rw [Spans] at hs
    exact pwalkAll_order hp kids s s' lo hi h hs.2.2 hh hu

theorem pwalkAll_order {E : Env} {depth : Nat} {p : PSource} {size : Nat} (hp : Offsets p size) :
    ∀ (l : List PAst) (s s' : PPState) (lo hi : Nat), pwalkAll E depth p l s = .ok s' → SpansAll l lo hi → hi ≤ size →
      Upto s lo → Upto s' hi
  | [], s, s', lo, hi, h, hs, _, hu => by
    rw [pwalkAll] at h; cases h
    rw [SpansAll] at hs
    exact hu.mono rfl hs
  | a :: as, s, s', lo, hi, h, hs, hh, hu => by
    rw [pwalkAll] at h
    rw [SpansAll] at hs
    obtain ⟨mid, h1, h2⟩ := hs
    have := spansAll_le h2
    cases ha : pwalk E depth p a s with
    | ok s1 =>
      rw [ha] at h
      exact pwalkAll_order hp as s1 s' mid hi h h2 hh (pwalk_order hp a s s1 lo mid ha h1 (by omega) hu)
    | err e => rw [ha] at h; cases h
    | panic => rw [ha] at h; cases h
end

end Parser
end Verif
