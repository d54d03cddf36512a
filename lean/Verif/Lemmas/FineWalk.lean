import Verif.Lemmas.FineWrite

/-! `Walk` while others change the file system. -/

namespace Verif
namespace Fine

open Mem Code

variable {S : Path → Str → Prop} {D K M N : Path → Prop} {t : Nat} {I0 : AMap Str Info}

/-- There has been an entry at each of these paths. -/
def Came (l : List Path) (g : Glob) : Prop := ∀ q ∈ l, ∃ id, (q, id) ∈ g.came

theorem Came.stable (l : List Path) : Stable (Rely S D M t) (Came l) := fun _ _ h hr q hq =>
  (h q hq).imp fun _ h => hr.came _ h

/-- In the middle of listing the keys. -/
structure Listing (S : Path → Str → Prop) (D N : Path → Prop) (t : Nat) (st : RangeSt) (g : Glob) : Prop where
  hold : Hold S D t [] g
  nodup : st.seen.Nodup
  seen : Came st.seen g
  begun : Came st.start g
  all : ∀ q, N q → D q → q ∈ st.start

theorem Listing.stable (st : RangeSt) : Stable (Rely S D M t) (Listing S D N t st) := fun g g' h hr =>
  ⟨Hold.stable [] g g' h.hold hr, h.nodup, Came.stable _ g g' h.seen hr, Came.stable _ g g' h.begun hr, h.all⟩

theorem walk_keys : Safe' S D K M t keysC (fun g => Hold S D t [] g ∧ Known I0 N g) fun ks g =>
    (∃ l : List Path, ks = sortBy Path.str l ∧ l.Nodup ∧ ∀ q, N q → D q → q ∈ l) ∧ Came ks g ∧ Hold S D t [] g := by
  unfold keysC
  refine ⟨Listing S D N t, fun st q g => Listing S D N t { st with seen := st.seen ++ [q] } g,
    fun l g => (l.Nodup ∧ ∀ q, N q → D q → q ∈ l) ∧ Came l g ∧ Hold S D t [] g, Listing.stable,
    fun st q => Listing.stable _, ?_, ?_, ?_, ?_, ?_, ?_⟩
  · intro l g g' h hr
    exact ⟨h.1, Came.stable l g g' h.2.1 hr, Hold.stable [] g g' h.2.2 hr⟩
  · intro g h
    refine ⟨h.1, List.nodup_nil, fun q hq => (by cases hq), ?_, ?_⟩
    · intro q hq
      obtain ⟨id, hid⟩ := (AMap.mem_keys_iff _ _).mp hq
      exact ⟨id, h.1.inv.was q id hid⟩
    · intro q h1 h2
      obtain ⟨id, hid⟩ := h.2.came q h1
      exact (AMap.mem_keys_iff _ _).mpr (h.1.inv.stays _ hid h2)
  · intro st q g h hv
    have hq : ∃ id, (q, id) ∈ g.came := by
      rcases hv.1 with h1 | h1
      · exact h.begun q h1
      · obtain ⟨e, h2, rfl⟩ := List.mem_map.mp h1
        exact ⟨e.2, List.mem_of_mem_drop h2⟩
    refine ⟨h.hold, ?_, ?_, h.begun, h.all⟩
    · refine List.nodup_append.mpr ⟨h.nodup, by simp, ?_⟩
      intro a ha b hb e
      simp at hb
      subst hb; subst e
      exact hv.2 ha
    · intro x hx
      rcases List.mem_append.mp hx with hx | hx
      · exact h.seen x hx
      · simp at hx; subst hx; exact hq
  · exact fun st q g h => h
  · intro st g h he
    refine ⟨⟨h.nodup, fun q h1 h2 => ?_⟩, h.seen, h.hold⟩
    rcases he q (h.all q h1 h2) with h3 | h3
    · exact h3
    · exact absurd h2 (h.hold.inv.gone q (List.mem_of_mem_drop h3))
  · intro l g h
    exact ⟨⟨l, rfl, h.1⟩, fun q hq => h.2.1 q ((mem_sortBy _ _ _).mp hq), h.2.2⟩

theorem walk_loop (root : Path) (hD : ∀ q, Under root q → D q) : ∀ (ks : List Path) (l0 : List (Str × Details)),
    Safe' S D K M t (walkLoopC Client.note root ks skipInit l0) (fun g => Came ks g ∧ Hold S D t [] g) fun r g =>
      (r.2 = .ok () ∧ r.1.map (·.1) = l0.map (·.1) ++ (ks.filter fun q => decide (Under root q)).map Path.str) ∧ Came ks g := by
  intro ks
  induction ks with
  | nil => exact fun l0 g h => ⟨⟨rfl, by simp⟩, h.1⟩
  | cons k ks ih =>
    intro l0
    have skip : ¬ Under root k → Safe' S D K M t (walkLoopC Client.note root ks skipInit l0)
        (fun g => Came (k :: ks) g ∧ Hold S D t [] g) fun r g =>
        (r.2 = .ok () ∧ r.1.map (·.1) = l0.map (·.1) ++ ((k :: ks).filter fun q => decide (Under root q)).map Path.str) ∧
          Came (k :: ks) g := by
      intro hu
      have hst : Stable (Rely S D M t) (fun g => ∃ id, (k, id) ∈ g.came) := fun g g' h hr => h.imp fun _ h => hr.came _ h
      have hkeep := Safe.keep (t := t) (walkLoopC Client.note root ks skipInit l0) hst (by
        intro β a g h
        cases a with
        | store k id => exact h.imp fun _ h => List.mem_append_left _ h
        | _ => exact h)
      refine ((ih l0).and hkeep).mono ?_ ?_
      · intro g h
        exact ⟨⟨fun q hq => h.1 q (List.mem_cons_of_mem _ hq), h.2⟩, h.1 k (List.mem_cons_self ..)⟩
      · intro r g h
        refine ⟨?_, fun q hq => ?_⟩
        · rw [List.filter_cons, if_neg (by simpa using hu)]
          exact h.1.1
        · rcases List.mem_cons.mp hq with rfl | hq
          · exact h.2
          · exact h.1.2 q hq
    simp only [walkLoopC]
    by_cases h1 : k.pkg ≠ root.pkg
    · rw [if_pos h1]
      exact skip fun h => h1 h.1
    · rw [if_neg h1]
      by_cases h2 : Str.hasPrefix k.name root.name = false
      · rw [if_pos h2]
        exact skip fun h => by rw [h.2.1] at h2; cases h2
      · rw [if_neg h2]
        by_cases h3 : Str.hasPrefix k.name skipInit = true
        · rw [if_pos h3]
          exact skip fun h => by
            have h4 : Str.hasPrefix k.name skipInit = false := h.2.2
            rw [h4] at h3; cases h3
        · rw [if_neg h3]
          have h4 : Str.hasPrefix k.name skipInit = false := by
            cases h : Str.hasPrefix k.name skipInit with
            | false => rfl
            | true => exact absurd h h3
          have hu : Under root k := ⟨Classical.byContradiction fun e => h1 e, by simpa using h2, h4⟩
          have hst : Stable (Rely S D M t) (fun g => Came (k :: ks) g ∧ Hold S D t [] g) := fun g g' h hr =>
            ⟨Came.stable _ g g' h.1 hr, Hold.stable [] g g' h.2 hr⟩
          refine ⟨fun r g => (∃ id, r = some id ∧ (k, id) ∈ g.came) ∧ Came (k :: ks) g ∧ Hold S D t [] g, ?_, ?_, ?_⟩
          · rintro r g g' ⟨⟨id, h4, h5⟩, h6⟩ hr
            exact ⟨⟨id, h4, hr.came _ h5⟩, hst g g' h6 hr⟩
          · intro g hg
            obtain ⟨id0, h0⟩ := hg.1 k (List.mem_cons_self ..)
            obtain ⟨id, hid⟩ := hg.2.inv.stays _ h0 (hD k hu)
            exact ⟨Guar.refl g, ⟨id, hid, hg.2.inv.was k id hid⟩, hg⟩
          · intro r
            cases r with
            | none =>
              refine (Safe.never _ _).mono (P1 := fun g => (∃ id, none = some id ∧ (k, id) ∈ g.came) ∧
                Came (k :: ks) g ∧ Hold S D t [] g) ?_ (fun _ _ h => h)
              rintro g ⟨⟨id, h1, _⟩, _⟩
              cases h1
            | some id =>
              refine Safe.mono (P := fun g => (k, id) ∈ g.came ∧ Came (k :: ks) g ∧ Hold S D t [] g) ?_ ?_ (fun _ _ h => h)
              · have hst' : Stable (Rely S D M t) (fun g => (k, id) ∈ g.came ∧ Came (k :: ks) g ∧ Hold S D t [] g) :=
                  fun g g' h hr => ⟨hr.came _ h.1, hst g g' h.2 hr⟩
                have look : ∀ {β : Type} {c : FileObj → Code β} {Q : β → Glob → Prop},
                    (∀ f : FileObj, f.info ≠ none →
                      Safe' S D K M t (c f) (fun g => (k, id) ∈ g.came ∧ Came (k :: ks) g ∧ Hold S D t [] g) Q) →
                    Safe' S D K M t (.acc (.get id) c) (fun g => (k, id) ∈ g.came ∧ Came (k :: ks) g ∧ Hold S D t [] g) Q := by
                  intro β c Q h
                  refine ⟨fun f g => f.info ≠ none ∧ (k, id) ∈ g.came ∧ Came (k :: ks) g ∧ Hold S D t [] g,
                    fun f g g' h1 hr => ⟨h1.1, hst' g g' h1.2 hr⟩, ?_, fun f => Safe.of_fact fun hf => h f hf⟩
                  intro g hg
                  exact ⟨Guar.refl g, hg.2.2.inv.info _ hg.1, hg⟩
                unfold fileStatC
                simp only [Code.bind]
                refine look fun f hf => ?_
                cases hfi : f.info with
                | none => exact absurd hfi hf
                | some d =>
                  simp only [Code.bind]
                  refine look fun f' hf' => ?_
                  cases hfi' : f'.info with
                  | none => exact absurd hfi' hf'
                  | some d' =>
                    simp only [Code.bind, Client.note]
                    have hk : Stable (Rely S D M t) (fun g => ∃ id, (k, id) ∈ g.came) := fun g g' h hr =>
                      h.imp fun _ h => hr.came _ h
                    have hkeep := Safe.keep (t := t) (walkLoopC Client.note root ks skipInit (l0 ++ [(k.str, newFileInfo d')])) hk (by
                      intro β a g h
                      cases a with
                      | store k id => exact h.imp fun _ h => List.mem_append_left _ h
                      | _ => exact h)
                    refine ((ih _).and hkeep).mono ?_ ?_
                    · intro g h
                      exact ⟨⟨fun q hq => h.2.1 q (List.mem_cons_of_mem _ hq), h.2.2⟩, id, h.1⟩
                    · intro r g h
                      refine ⟨⟨h.1.1.1, ?_⟩, fun q hq => ?_⟩
                      · rw [List.filter_cons, if_pos (by simpa using hu), h.1.1.2]
                        simp
                      · rcases List.mem_cons.mp hq with rfl | hq
                        · exact h.2
                        · exact h.1.2 q hq
              · rintro g ⟨⟨id', h4, h5⟩, h6⟩
                injection h4 with h4
                subst h4
                exact ⟨h5, h6⟩

/-- `Walk` of `root` while nobody deletes anything below it. -/
theorem walk_once (E : Env) (here : Info) {name : Str} {root : Path} (hp : E.parse here name = .ok root)
    (hD : ∀ q, Under root q → D q) {γ : Type} (fin : Ans → γ) :
    Safe' S D K M t ((Prog.step (.reads (.walk name)) fun a => .ret (fin a)).code E here [])
      (fun g => Hold S D t [] g ∧ Known I0 N g) fun r g =>
      ∃ (l : List (Str × Details)) (ks : List Path), r = fin (.reads (.walked l (.ok ()))) ∧ l.map (·.1) = ks.map Path.str ∧
        ks.Nodup ∧ ks.Pairwise (fun a b => Str.le a.str b.str = true) ∧ (∀ q ∈ ks, Under root q) ∧
        (∀ q, N q → Under root q → q ∈ ks) ∧ Came ks g := by
  simp only [Prog.code, callC, readsC, walkC]
  let X : List (Str × Details) → Res Unit → Glob → Prop := fun l r g =>
    ∃ ks : List Path, r = .ok () ∧ l.map (·.1) = ks.map Path.str ∧
        ks.Nodup ∧ ks.Pairwise (fun a b => Str.le a.str b.str = true) ∧ (∀ q ∈ ks, Under root q) ∧
        (∀ q, N q → Under root q → q ∈ ks) ∧ Came ks g
  refine Safe.bind (Q1 := fun r g => ∃ l, r.2 = .reads (.walked l (.ok ())) ∧ X l (.ok ()) g)
    (Safe.bind (Q1 := fun r g => ∃ l, r.2 = .walked l (.ok ()) ∧ X l (.ok ()) g)
    (Safe.bind (Q1 := fun r g => X r.1 r.2 g) (Safe.bind walk_keys fun ks => Safe.of_fact ?_) fun r => ?_) fun r => ?_) fun r => ?_
  · rintro ⟨l, rfl, hnd, hall⟩
    rw [hp]
    refine (walk_loop root hD _ _).mono (fun _ h => h) ?_
    rintro r g ⟨⟨h1, h2⟩, h3⟩
    refine ⟨(sortBy Path.str l).filter fun q => decide (Under root q), h1, by simpa using h2, ?_, ?_, ?_, ?_, ?_⟩
    · exact List.Nodup.sublist List.filter_sublist ((sortBy_perm Path.str l).nodup_iff.mpr hnd)
    · exact List.Pairwise.sublist List.filter_sublist (sortBy_sorted Path.str l)
    · intro q hq
      simpa using (List.mem_filter.mp hq).2
    · intro q h4 h5
      exact List.mem_filter.mpr ⟨(mem_sortBy _ _ _).mpr (hall q h4 (hD q h5)), by simpa using h5⟩
    · exact fun q hq => h3 q (List.mem_filter.mp hq).1
  · intro g h
    obtain ⟨ks, h1, h2⟩ := h
    exact ⟨r.1, by simp only [h1], ks, rfl, h2⟩
  · intro g h
    obtain ⟨l, h1, h2⟩ := h
    exact ⟨l, by simp only [h1], h2⟩
  · intro g h
    obtain ⟨l, h1, ks, _, h2⟩ := h
    exact ⟨l, ks, by rw [h1], h2⟩

/-- What has come was there at some moment. -/
theorem came_was {α : Type} (es : List Event) : ∀ (s : Sys α) (e : Path × Nat), e ∈ (s.run es).g.came →
    e ∈ s.g.came ∨ ∃ es1 es2, es = es1 ++ es2 ∧ AMap.get (s.run es1).g.w.files e.1 = some e.2 := by
  have one : ∀ (t : Nat) (pick : Option Path) (c : Code α) (g : Glob) (e : Path × Nat), e ∈ (c.step t pick g).1.came →
      e ∈ g.came ∨ AMap.get (c.step t pick g).1.w.files e.1 = some e.2 := by
    intro t pick c g e he
    cases c with
    | ret a => exact Or.inl he
    | acc a k =>
      simp only [Code.step] at he ⊢
      cases a with
      | store q id =>
        rcases List.mem_append.mp he with h | h
        · exact Or.inl h
        · simp at h
          subst h
          exact Or.inr (AMap.get_set_self ..)
      | _ => exact Or.inl he
    | range st body k =>
      cases st with
      | none => exact Or.inl he
      | some st =>
        simp only [Code.step] at he
        split at he
        · split at he <;> exact Or.inl he
        · split at he <;> exact Or.inl he
  induction es with
  | nil => exact fun s e h => Or.inl h
  | cons ev es ih =>
    intro s e he
    rcases ih (s.step ev) e he with h | ⟨es1, es2, h1, h2⟩
    · cases ev with
      | tick now => exact Or.inl h
      | go t pick =>
        rcases one t pick (s.code t) s.g e h with h | h
        · exact Or.inl h
        · exact Or.inr ⟨[.go t pick], es, rfl, h⟩
    · exact Or.inr ⟨ev :: es1, es2, by rw [h1]; rfl, h2⟩

end Fine
end Verif
