import Verif.Model.WrapFiles
import Verif.Props.LayerMem
import Verif.Props.Write
import Verif.Props.Create

/-! C108, C109: writing through stacks of in-memory Pkgers, and `pkger.Dir` on them. -/

namespace Verif
namespace Props

open Layer Mem Spec

/-! ### Specification -/

/-- The calls on the layer `n` that a call of the program may lead to. -/
def SOp.callsOn (n : Nat) : SOp → List Op
  | .create name => [.create name]
  | .mkdirAll p perm => [.mkdirAll p perm]
  | .openFile name => [.openFile name]
  | .remove name => [.remove name]
  | .removeAll name => [.removeAll name]
  | .inLayer m o => if m = n then [o] else []

/-- The chunks a history writes to the file `f`. -/
def writtenTo (f : Nat × Nat) : List SOp → List Str
  | [] => []
  | .inLayer n (.write id d) :: ops => if n = f.1 ∧ id = f.2 then d :: writtenTo f ops else writtenTo f ops
  | _ :: ops => writtenTo f ops

/-- None of the calls names the path `pt` in the layer `n` of the module `i`, and the disk files they add are as the
operating system has them. -/
def Leaves (E : Env) (i : Info) (n : Nat) (pt : Path) (ops : List SOp) : Prop :=
  ∀ o ∈ ops, ∀ o' ∈ SOp.callsOn n o, o'.HostOk ∧ ¬ o'.touches E i pt

/-! ### What a call does to one layer -/

theorem firstAnswer_layer {C α : Type} (E : Env) (o : Op) (f : Nat → Act (Store C) α)
    (hf : ∀ n s, (f n s).1 = (upd s.1 n (step E (s.1 n) o), s.2)) (m : Nat) :
    ∀ (b : Nat) (bs : List Nat) (s : Store C),
      ∃ k, (firstAnswer (f b) (bs.map f) s).1.1 m = run E (s.1 m) (List.replicate k o) := by
  have one : ∀ n (s : Store C), ∃ k, (f n s).1.1 m = run E (s.1 m) (List.replicate k o) := by
    intro n s
    rw [hf]
    by_cases h : m = n
    · subst h; exact ⟨1, by simp [upd]⟩
    · exact ⟨0, by simp [upd, h]⟩
  intro b bs
  induction bs generalizing b with
  | nil => intro s; exact one b s
  | cons c cs ih =>
    intro s
    obtain ⟨k, hk⟩ := one b s
    simp only [List.map_cons, firstAnswer]
    generalize hr : f b s = r at hk
    obtain ⟨s', r⟩ := r
    cases r with
    | ok a => exact ⟨k, hk⟩
    | panic => exact ⟨k, hk⟩
    | err e =>
      obtain ⟨k', hk'⟩ := ih c s'
      refine ⟨k + k', ?_⟩
      simp only at hk hk' ⊢
      rw [hk', hk, ← run_append, List.replicate_append_replicate]

theorem allOf_layer {C : Type} (E : Env) (o : Op) (f : Nat → Act (Store C) Unit)
    (hf : ∀ n s, (f n s).1 = (upd s.1 n (step E (s.1 n) o), s.2)) (m : Nat) :
    ∀ (bs : List Nat) (s : Store C), ∃ k, (allOf (bs.map f) s).1.1 m = run E (s.1 m) (List.replicate k o) := by
  intro bs
  induction bs with
  | nil => intro s; exact ⟨0, rfl⟩
  | cons b bs ih =>
    intro s
    have one : ∃ k, (f b s).1.1 m = run E (s.1 m) (List.replicate k o) := by
      rw [hf]
      by_cases h : m = b
      · subst h; exact ⟨1, by simp [upd]⟩
      · exact ⟨0, by simp [upd, h]⟩
    obtain ⟨k, hk⟩ := one
    simp only [List.map_cons, allOf]
    generalize hr : f b s = r at hk
    obtain ⟨s', r⟩ := r
    cases r with
    | err a => exact ⟨k, hk⟩
    | panic => exact ⟨k, hk⟩
    | ok u =>
      obtain ⟨k', hk'⟩ := ih s'
      refine ⟨k + k', ?_⟩
      simp only at hk hk' ⊢
      rw [hk', hk, ← run_append, List.replicate_append_replicate]

theorem ask_layer {C : Type} (E : Env) (o : Op) (q : Question)
    (hf : ∀ n (s : Store C), (ask (memLayer E n) q s).1 = (upd s.1 n (step E (s.1 n) o), s.2)) (m b : Nat) (bs : List Nat)
    (s : Store C) : ∃ k, (ask (memStack E b bs) q s).1.1 m = run E (s.1 m) (List.replicate k o) := by
  rw [ask_memStack]
  have := firstAnswer_layer E o (fun n => ask (memLayer (C := C) E n) q) hf m b bs s
  simpa [memLayers, List.map_map, Function.comp_def] using this

theorem tell_layer {C : Type} (E : Env) (o : Op) (c : Command (Store C))
    (hf : ∀ n (s : Store C), (tell (memLayer E n) c s).1 = (upd s.1 n (step E (s.1 n) o), s.2)) (m b : Nat) (bs : List Nat)
    (s : Store C) : ∃ k, (tell (memStack E b bs) c s).1.1 m = run E (s.1 m) (List.replicate k o) := by
  rw [tell_memStack]
  have := allOf_layer E o (fun n => tell (memLayer (C := C) E n) c) hf m (b :: bs) s
  simpa only [memLayers, List.map_map, Function.comp_def] using this

theorem chunks_replicate {o : Op} (h : ∀ id d, o ≠ .write id d) (id k : Nat) : chunks id (List.replicate k o) = [] := by
  induction k with
  | zero => rfl
  | succ k ih =>
    rw [List.replicate_succ]
    cases o <;> first | exact ih | exact absurd rfl (h _ _)

theorem chunks_append (id : Nat) (a b : List Op) : chunks id (a ++ b) = chunks id a ++ chunks id b := by
  induction a with
  | nil => rfl
  | cons o a ih =>
    cases o <;> simp only [List.cons_append, chunks, ih]
    split <;> simp

theorem sstep_layer {C : Type} (E : Env) (b : Nat) (bs : List Nat) (s : Store C) (o : SOp) (n id : Nat) :
    ∃ ops, (sstep E (memStack E b bs) s o).1 n = run E (s.1 n) ops ∧ (∀ o' ∈ ops, o' ∈ SOp.callsOn n o) ∧
      chunks id ops = writtenTo (n, id) [o] := by
  have key : ∀ (t : Store C) (o' : Op), SOp.callsOn n o = [o'] → writtenTo (n, id) [o] = [] → (∀ id d, o' ≠ .write id d) →
      (∃ k, t.1 n = run E (s.1 n) (List.replicate k o')) →
      ∃ ops, t.1 n = run E (s.1 n) ops ∧ (∀ o' ∈ ops, o' ∈ SOp.callsOn n o) ∧ chunks id ops = writtenTo (n, id) [o] := by
    intro t o' h1 h2 h3 ⟨k, hk⟩
    refine ⟨_, hk, ?_, ?_⟩
    · intro x hx; rw [h1, (List.mem_replicate.mp hx).2]; simp
    · rw [h2]; exact chunks_replicate h3 id k
  cases o with
  | create name => exact key _ _ rfl rfl (by simp) (ask_layer E (.create name) (.create name) (fun _ _ => rfl) n b bs s)
  | openFile name => exact key _ _ rfl rfl (by simp) (ask_layer E (.openFile name) (.openFile name) (fun _ _ => rfl) n b bs s)
  | mkdirAll p perm =>
    exact key _ _ rfl rfl (by simp) (tell_layer E (.mkdirAll p perm) (.mkdirAll p perm) (fun _ _ => rfl) n b bs s)
  | remove p => exact key _ _ rfl rfl (by simp) (tell_layer E (.remove p) (.remove p) (fun _ _ => rfl) n b bs s)
  | removeAll p => exact key _ _ rfl rfl (by simp) (tell_layer E (.removeAll p) (.removeAll p) (fun _ _ => rfl) n b bs s)
  | inLayer m o =>
    by_cases h : n = m
    · subst h
      refine ⟨[o], by simp [sstep, upd], by simp [SOp.callsOn], ?_⟩
      cases o <;> simp [chunks, writtenTo]
    · refine ⟨[], by simp [sstep, upd, h], by simp, ?_⟩
      have h' : m ≠ n := fun e => h e.symm
      cases o <;> simp [chunks, writtenTo, h']

theorem writtenTo_cons (f : Nat × Nat) (o : SOp) (ops : List SOp) :
    writtenTo f (o :: ops) = writtenTo f [o] ++ writtenTo f ops := by
  cases o with
  | inLayer m o =>
    cases o <;> simp only [writtenTo, List.nil_append]
    split <;> simp
  | _ => simp only [writtenTo, List.nil_append]

/-- What a history does to one layer is a history of that layer. -/
theorem srun_layer {C : Type} (E : Env) (b : Nat) (bs : List Nat) (n id : Nat) (os : List SOp) : ∀ (s : Store C),
    ∃ ops, (srun E (memStack E b bs) s os).1 n = run E (s.1 n) ops ∧
      (∀ o' ∈ ops, ∃ o ∈ os, o' ∈ SOp.callsOn n o) ∧ chunks id ops = writtenTo (n, id) os := by
  induction os with
  | nil => intro s; exact ⟨[], rfl, by simp, rfl⟩
  | cons o os ih =>
    intro s
    obtain ⟨ops1, h1, h2, h3⟩ := sstep_layer E b bs s o n id
    obtain ⟨ops2, h4, h5, h6⟩ := ih (sstep E (memStack E b bs) s o)
    refine ⟨ops1 ++ ops2, ?_, ?_, ?_⟩
    · rw [run_append, ← h1, ← h4]; rfl
    · intro x hx
      rcases List.mem_append.mp hx with hx | hx
      · exact ⟨o, by simp, h2 x hx⟩
      · obtain ⟨y, hy, hxy⟩ := h5 x hx
        exact ⟨y, List.mem_cons_of_mem _ hy, hxy⟩
    · rw [chunks_append, h3, h6, ← writtenTo_cons]

/-! ### Which layer `Create` and `Open` choose -/

theorem create_chosen {C : Type} (E : Env) {i : Info} {name : Str} {s1 : Store C} {k id : Nat} : ∀ (b : Nat) (bs : List Nat)
    (s : Store C), LayersOk E i s (b :: bs) → (memStack E b bs).create name s = (s1, .ok (k, id)) →
    k ∈ b :: bs ∧ ∃ w, Reached E i w ∧ create E w name = (s1.1 k, .ok id) := by
  intro b bs
  induction bs generalizing b with
  | nil =>
    intro s hok h
    have h' : (memLayer (C := C) E b).create name s = (s1, .ok (k, id)) := by
      rw [← h]
      simp only [memStack, memLayers, List.map_nil, stackOf, wrap, fallback, call]
      generalize (memLayer (C := C) E b).create name s = r
      obtain ⟨t, r⟩ := r
      cases r <;> rfl
    simp only [memLayer, memPkger, Prod.mk.injEq] at h'
    obtain ⟨h1, h2⟩ := h'
    cases hr : (create E (s.1 b) name).2 with
    | ok v =>
      rw [hr] at h2
      simp only [mapRes, Res.ok.injEq, Prod.mk.injEq] at h2
      obtain ⟨rfl, rfl⟩ := h2
      refine ⟨by simp, s.1 b, hok b (by simp), ?_⟩
      rw [← h1]
      exact Prod.ext (by simp [upd]) hr
    | err e => rw [hr] at h2; cases h2
    | panic => rw [hr] at h2; cases h2
  | cons c cs ih =>
    intro s hok h
    have h' : (memStack E b (c :: cs)).create name s =
        match (memLayer (C := C) E b).create name s with
        | (s', .err _) => (memStack E c cs).create name s'
        | r => r := by
      simp only [memStack, wrap, fallback, call]
      rw [show stackOf (memLayers (C := C) E (c :: cs)) = some (memStack E c cs) from rfl]
      generalize (memLayer (C := C) E b).create name s = r
      obtain ⟨t, r⟩ := r
      cases r <;> rfl
    rw [h] at h'
    cases hr : (create E (s.1 b) name).2 with
    | ok v =>
      simp only [memLayer, memPkger, hr, mapRes, Prod.mk.injEq, Res.ok.injEq] at h'
      obtain ⟨h1, rfl, rfl⟩ := h'
      refine ⟨by simp, s.1 k, hok k (by simp), ?_⟩
      rw [h1]
      exact Prod.ext (by simp [upd]) hr
    | panic => simp [memLayer, memPkger, hr, mapRes] at h'
    | err e =>
      simp only [memLayer, memPkger, hr, mapRes] at h'
      obtain ⟨hm, hw⟩ := ih c (upd s.1 b (create E (s.1 b) name).1, s.2) (by
        intro m hm
        by_cases hmb : m = b
        · subst hmb
          simp only [upd, if_true]
          exact (hok m (by simp)).step (o := .create name) trivial
        · simp only [upd, hmb, if_false]
          exact hok m (List.mem_cons_of_mem _ hm)) h'.symm
      exact ⟨List.mem_cons_of_mem _ hm, hw⟩

/-- `Create` is done by the first layer that does not fail; the ones before it have tried. -/
theorem create_split {C : Type} (E : Env) {name : Str} {s1 : Store C} {k id : Nat} : ∀ (b : Nat) (bs : List Nat)
    (s : Store C), (b :: bs).Nodup → (memStack E b bs).create name s = (s1, .ok (k, id)) →
    ∃ newer older, b :: bs = newer ++ k :: older ∧ (∀ n, n ∉ newer → n ≠ k → s1.1 n = s.1 n) ∧
      ∀ j ∈ newer, ∃ e, create E (s.1 j) name = (s1.1 j, .err e) := by
  intro b bs
  induction bs generalizing b with
  | nil =>
    intro s _ h
    have h' : (memLayer (C := C) E b).create name s = (s1, .ok (k, id)) := by
      rw [← h]
      simp only [memStack, memLayers, List.map_nil, stackOf, wrap, fallback, call]
      generalize (memLayer (C := C) E b).create name s = r
      obtain ⟨t, r⟩ := r
      cases r <;> rfl
    simp only [memLayer, memPkger, Prod.mk.injEq] at h'
    obtain ⟨h1, h2⟩ := h'
    cases hr : (create E (s.1 b) name).2 with
    | ok v =>
      rw [hr] at h2
      simp only [mapRes, Res.ok.injEq, Prod.mk.injEq] at h2
      obtain ⟨rfl, rfl⟩ := h2
      exact ⟨[], [], rfl, fun n _ hn => by rw [← h1]; simp [upd, hn], by simp⟩
    | err e => rw [hr] at h2; cases h2
    | panic => rw [hr] at h2; cases h2
  | cons c cs ih =>
    intro s hnd h
    have h' : (memStack E b (c :: cs)).create name s =
        match (memLayer (C := C) E b).create name s with
        | (s', .err _) => (memStack E c cs).create name s'
        | r => r := by
      simp only [memStack, wrap, fallback, call]
      rw [show stackOf (memLayers (C := C) E (c :: cs)) = some (memStack E c cs) from rfl]
      generalize (memLayer (C := C) E b).create name s = r
      obtain ⟨t, r⟩ := r
      cases r <;> rfl
    rw [h] at h'
    cases hr : (create E (s.1 b) name).2 with
    | ok v =>
      simp only [memLayer, memPkger, hr, mapRes, Prod.mk.injEq, Res.ok.injEq] at h'
      obtain ⟨h1, rfl, rfl⟩ := h'
      exact ⟨[], c :: cs, rfl, fun n _ hn => by rw [h1]; simp [upd, hn], by simp⟩
    | panic => simp [memLayer, memPkger, hr, mapRes] at h'
    | err e =>
      simp only [memLayer, memPkger, hr, mapRes] at h'
      have hbm : b ∉ c :: cs := (List.nodup_cons.mp hnd).1
      obtain ⟨newer, older, e1, e2, e3⟩ := ih c (upd s.1 b (create E (s.1 b) name).1, s.2) (List.nodup_cons.mp hnd).2 h'.symm
      have hbn : b ∉ newer := fun hm => hbm (by rw [e1]; exact List.mem_append_left _ hm)
      have hbk : b ≠ k := fun hm => hbm (by rw [e1, hm]; simp)
      refine ⟨b :: newer, older, by rw [e1]; rfl, ?_, ?_⟩
      · intro n hn hnk
        rw [List.mem_cons, not_or] at hn
        rw [e2 n hn.2 hnk]
        simp [upd, hn.1]
      · intro j hj
        rcases List.mem_cons.mp hj with rfl | hj
        · refine ⟨e, Prod.ext ?_ hr⟩
          rw [e2 j hbn hbk]
          simp [upd]
        · obtain ⟨e', he'⟩ := e3 j hj
          have hjb : j ≠ b := fun h => hbn (h ▸ hj)
          simp only [upd, hjb, if_false] at he'
          exact ⟨e', he'⟩

theorem openFile_err {E : Env} {w : World} {name : Str} {e : Err} (h : (openFile E w name).2 = .err e) :
    (openFile E w name).1 = w := by
  unfold openFile at h ⊢
  revert h
  cases parse E w name with
  | error _ => intro _; rfl
  | ok pt =>
    simp only
    cases AMap.get w.files pt with
    | none => intro _; rfl
    | some j =>
      simp only
      cases (w.heap j).info with
      | none => intro _; rfl
      | some d => intro h; cases h

/-- `Open` of a stack is answered by the first layer that does not fail. -/
theorem open_chosen {C : Type} (E : Env) {name : Str} {k : Nat} {older : List Nat} (newer : List Nat) : ∀ (b : Nat) (bs : List Nat)
    (s : Store C), b :: bs = newer ++ k :: older → (∀ j ∈ newer, ∃ e, (openFile E (s.1 j) name).2 = .err e) →
    (∃ h, (openFile E (s.1 k) name).2 = .ok h) →
    (memStack E b bs).openFile name s =
      ((upd s.1 k (openFile E (s.1 k) name).1, s.2), mapRes (fun h => (k, h)) (openFile E (s.1 k) name).2) := by
  induction newer with
  | nil =>
    intro b bs s hl _ ⟨h, hh⟩
    injection hl with h1 h2
    subst h1 h2
    simp only [memStack, wrap, fallback, call, memLayer, memPkger, hh, mapRes]
  | cons j js ih =>
    intro b bs s hl hnew hk
    injection hl with h1 h2
    subst h1
    obtain ⟨e, he⟩ := hnew b (by simp)
    have hsame := openFile_err he
    cases bs with
    | nil => simp at h2
    | cons c cs =>
      have hu : upd s.1 b (s.1 b) = s.1 := by funext m; by_cases hm : m = b <;> simp [upd, hm]
      rw [← ih c cs s h2 (fun j hj => hnew j (List.mem_cons_of_mem _ hj)) hk]
      simp only [memStack, wrap, fallback, call]
      rw [show stackOf (memLayers (C := C) E (c :: cs)) = some (memStack E c cs) from rfl]
      simp only [memLayer, memPkger, he, mapRes, hsame, hu]
      rfl

/-! ### C108 -/

/-- **C108** (what holds).  On every stack of in-memory layers in reachable states: after `Create`, any writes to the
file it gave, interleaved with any other calls on the stack, its files and its layers, `Close`, and again any such calls
- none of which names the path or closes the file again -, `Open` delivers exactly the concatenation of the written
chunks, from the layer that made the file, provided that no newer layer has a file of that name. -/
theorem C108_written_partial {C : Type} (E : Env) {i : Info} {s s1 : Store C} {b : Nat} {bs : List Nat} {name : Str} {pt : Path}
    {k id : Nat} (hok : LayersOk E i s (b :: bs)) (hp : E.parse i name = .ok pt)
    (hc : (memStack E b bs).create name s = (s1, .ok (k, id))) (ops1 ops2 : List SOp)
    (h1 : Leaves E i k pt ops1) (h2 : Leaves E i k pt ops2)
    (hn1 : .inLayer k (.close id) ∉ ops1) (hn2 : .inLayer k (.close id) ∉ ops2)
    {newer older : List Nat} (hl : b :: bs = newer ++ k :: older)
    (hnew : ∀ j ∈ newer, ∃ e,
      (openFile E ((srun E (memStack E b bs) s1 (ops1 ++ .inLayer k (.close id) :: ops2)).1 j) name).2 = .err e) :
    ∃ s3 h, (memStack E b bs).openFile name (srun E (memStack E b bs) s1 (ops1 ++ .inLayer k (.close id) :: ops2)) =
        (s3, .ok (k, h)) ∧ Delivers (s3.1 k) h (writtenTo (k, id) ops1).flatten := by
  obtain ⟨_, w, hw, hcw⟩ := create_chosen E b bs s hok hc
  obtain ⟨o1, e1, c1, d1⟩ := srun_layer E b bs k id ops1 s1
  obtain ⟨o2, e2, c2, d2⟩ := srun_layer E b bs k id ops2
    (sstep E (memStack E b bs) (srun E (memStack E b bs) s1 ops1) (.inLayer k (.close id)))
  have hsplit : srun E (memStack E b bs) s1 (ops1 ++ .inLayer k (.close id) :: ops2) =
      srun E (memStack E b bs) (sstep E (memStack E b bs) (srun E (memStack E b bs) s1 ops1) (.inLayer k (.close id))) ops2 := by
    simp only [srun, List.foldl_append, List.foldl_cons]
  have hrun : (srun E (memStack E b bs) s1 (ops1 ++ .inLayer k (.close id) :: ops2)).1 k =
      run E (s1.1 k) (o1 ++ .close id :: o2) := by
    rw [hsplit, e2, run_append, run_cons]
    simp only [sstep, upd, if_true, e1]
  have hcl : ∀ (ops : List SOp) (os : List Op), (∀ o' ∈ os, ∃ o ∈ ops, o' ∈ SOp.callsOn k o) →
      .inLayer k (.close id) ∉ ops → .close id ∉ os := by
    intro ops os hc hn hm
    obtain ⟨o, ho, hoo⟩ := hc _ hm
    cases o with
    | inLayer m o =>
      by_cases hmk : m = k
      · subst hmk
        simp [SOp.callsOn] at hoo
        subst hoo
        exact hn ho
      · simp [SOp.callsOn, hmk] at hoo
    | _ => simp [SOp.callsOn] at hoo
  have hal : ∀ (ops : List SOp) (os : List Op), (∀ o' ∈ os, ∃ o ∈ ops, o' ∈ SOp.callsOn k o) → Leaves E i k pt ops →
      ∀ o' ∈ os, o'.HostOk ∧ ¬ o'.touches E i pt := by
    intro ops os hc hlv o' ho'
    obtain ⟨o, ho, hoo⟩ := hc _ ho'
    exact hlv o ho o' hoo
  have a1 := hal ops1 o1 c1 h1
  have a2 := hal ops2 o2 c2 h2
  have hp' : E.parse w.here name = .ok pt := by rw [hw.here]; exact hp
  obtain ⟨w3, h, ho, hd⟩ := C08_written_bytes_are_read E hw hp' hcw o1 o2 (fun o ho => (a1 o ho).1) (fun o ho => (a2 o ho).1)
    (hcl _ _ c1 hn1) (hcl _ _ c2 hn2)
    (C08_hypothesis_met E hw hcw _ (by
      rw [hw.here]
      intro o ho
      rcases List.mem_append.mp ho with ho | ho
      · exact a1 o ho
      · rcases List.mem_cons.mp ho with rfl | ho
        · exact ⟨trivial, fun h => h⟩
        · exact a2 o ho))
  rw [← hrun] at ho
  refine ⟨(upd (srun E (memStack E b bs) s1 (ops1 ++ .inLayer k (.close id) :: ops2)).1 k w3,
    (srun E (memStack E b bs) s1 (ops1 ++ .inLayer k (.close id) :: ops2)).2), h, ?_, ?_⟩
  · rw [open_chosen E newer b bs _ hl hnew ⟨h, by rw [ho]⟩, ho]
    rfl
  · simp only [upd, if_true]
    rw [← d1]
    exact hd

/-- **C108** (what holds, the newest layer).  If it is the newest layer that makes the file, nothing is asked of the
others. -/
theorem C108_newest_partial {C : Type} (E : Env) {i : Info} {s s1 : Store C} {b : Nat} {bs : List Nat} {name : Str} {pt : Path}
    {id : Nat} (hok : LayersOk E i s (b :: bs)) (hp : E.parse i name = .ok pt)
    (hc : (memStack E b bs).create name s = (s1, .ok (b, id))) (ops1 ops2 : List SOp)
    (h1 : Leaves E i b pt ops1) (h2 : Leaves E i b pt ops2)
    (hn1 : .inLayer b (.close id) ∉ ops1) (hn2 : .inLayer b (.close id) ∉ ops2) :
    ∃ s3 h, (memStack E b bs).openFile name (srun E (memStack E b bs) s1 (ops1 ++ .inLayer b (.close id) :: ops2)) =
        (s3, .ok (b, h)) ∧ Delivers (s3.1 b) h (writtenTo (b, id) ops1).flatten :=
  C108_written_partial E hok hp hc ops1 ops2 h1 h2 hn1 hn2 (newer := []) rfl (by simp)

/-- **C108** (what holds, layers in order).  If every layer that has the file lets it be created again, and the file is not
the module's root, then what was written through the stack is what is read through it. -/
theorem C108_whole_partial {C : Type} (E : Env) {i : Info} {s s1 : Store C} {b : Nat} {bs : List Nat} {name : Str} {pt : Path}
    {k id : Nat} (hl : ParseLaws E i) (hi : InfoOk i) (hnd : (b :: bs).Nodup) (hok : LayersOk E i s (b :: bs))
    (hp : E.parse i name = .ok pt) (hroot : pt ≠ rootOf i)
    (hwhole : ∀ j ∈ b :: bs, (∃ h, (openFile E (s.1 j) name).2 = .ok h) → ∃ h, (create E (s.1 j) name).2 = .ok h)
    (hc : (memStack E b bs).create name s = (s1, .ok (k, id))) (ops1 ops2 : List SOp)
    (h1 : ∀ n ∈ b :: bs, Leaves E i n pt ops1) (h2 : ∀ n ∈ b :: bs, Leaves E i n pt ops2)
    (hn1 : .inLayer k (.close id) ∉ ops1) (hn2 : .inLayer k (.close id) ∉ ops2) :
    ∃ s3 h, (memStack E b bs).openFile name (srun E (memStack E b bs) s1 (ops1 ++ .inLayer k (.close id) :: ops2)) =
        (s3, .ok (k, h)) ∧ Delivers (s3.1 k) h (writtenTo (k, id) ops1).flatten := by
  obtain ⟨newer, older, hsp, _, hfail⟩ := create_split E b bs s hnd hc
  have hk : k ∈ b :: bs := by rw [hsp]; simp
  refine C108_written_partial E hok hp hc ops1 ops2 (h1 k hk) (h2 k hk) hn1 hn2 hsp ?_
  intro j hj
  have hjm : j ∈ b :: bs := by rw [hsp]; exact List.mem_append_left _ hj
  have hjk : j ≠ k := by
    intro h
    subst h
    rw [hsp] at hnd
    exact (List.nodup_append.mp hnd).2.2 j hj j (by simp) rfl
  obtain ⟨e, he⟩ := hfail j hj
  have hr := hok j hjm
  have hpj : E.parse (s.1 j).here name = .ok pt := by rw [hr.here]; exact hp
  have habs : lookup (s.1 j) pt = none := by
    cases hlk : lookup (s.1 j) pt with
    | none => rfl
    | some f =>
      exfalso
      obtain ⟨a, ha, rfl⟩ := Option.map_eq_some_iff.mp hlk
      obtain ⟨_, _, d, hd⟩ := hr.inv.wf.bound pt a ha
      obtain ⟨w', h, ho, _⟩ := openFile_of_lookup hpj hlk hd
      obtain ⟨h', hh⟩ := hwhole j hjm ⟨h, by rw [ho]⟩
      rw [he] at hh
      cases hh
  have habs1 : lookup (s1.1 j) pt = none := by
    have := (C17_failure_frame_partial E hr hl hi (name := name) (by rw [he]; intro _ h; cases h)).1 pt hroot
    rw [he] at this
    rw [this, habs]
  have hr1 : Reached E i (s1.1 j) := by
    have := hr.step (o := .create name) trivial
    simp only [step, he] at this
    exact this
  obtain ⟨os, e1, c1, _⟩ := srun_layer E b bs j 0 (ops1 ++ .inLayer k (.close id) :: ops2) s1
  have hall : ∀ o ∈ os, o.HostOk ∧ ¬ o.touches E i pt := by
    intro o ho
    obtain ⟨o', ho', hoo⟩ := c1 o ho
    rcases List.mem_append.mp ho' with ho' | ho'
    · exact h1 j hjm o' ho' o hoo
    · rcases List.mem_cons.mp ho' with rfl | ho'
      · simp [SOp.callsOn, Ne.symm hjk] at hoo
      · exact h2 j hjm o' ho' o hoo
  have hget := (keepsBinding_of_touches E os hr1.inv.heap hr1.here hall).get
  have hnone : AMap.get (s1.1 j).files pt = none := Option.map_eq_none_iff.mp habs1
  rw [hnone] at hget
  rw [e1]
  refine ⟨.notExist, ?_⟩
  have hh := (hr1.run os (fun o ho => (hall o ho).1)).here
  simp only [openFile, parse, hh, hp, hget]

/-- The statement of **C108**, for one chunk and no other calls. -/
def C108_statement (E : Env) : Prop :=
  ∀ (i : Info) (s s1 : Store Unit) (b : Nat) (bs : List Nat) (name : Str) (pt : Path) (f : Nat × Nat) (data : Str),
    (b :: bs).Nodup → LayersOk E i s (b :: bs) → E.parse i name = .ok pt →
    (memStack E b bs).create name s = (s1, .ok f) →
    ∃ s3 g, (memStack E b bs).openFile name
        (srun E (memStack E b bs) s1 [.inLayer f.1 (.write f.2 data), .inLayer f.1 (.close f.2)]) = (s3, .ok g) ∧
      Delivers (s3.1 g.1) g.2 data

/-- The calls that leave a file behind whose directory is gone. -/
def orphanOps : List Op :=
  [.mkdirAll (b! "/d") 0o755, .create (b! "/d/a"), .write 2 (b! "old"), .close 2, .remove (b! "/d")]

/-- Layer 1 has `/d/a` but not `/d`, all others have the directory `/d` only. -/
def orphaned (n : Nat) : World :=
  if n = 1 then Demo.after orphanOps else Demo.after [.mkdirAll (b! "/d") 0o755]

theorem orphaned_reached (n : Nat) : Reached Demo.env Demo.info (orphaned n) := by
  unfold orphaned
  split
  · exact Reached.ofNew 1000 _ (by
      intro o ho; simp [orphanOps] at ho
      rcases ho with rfl | rfl | rfl | rfl | rfl <;> trivial)
  · exact Reached.ofNew 1000 _ (by intro o ho; simp at ho; subst ho; trivial)

/-- The bytes up to the first 9 that the opened file delivers. -/
def nineOf (r : Store Unit × Res (Nat × Nat)) : Option (Nat × Str) :=
  match r.2 with
  | .ok f => some (f.1, delivered (readMany (r.1.1 f.1) f.2 [9]))
  | _ => none

/-- **C108 is false**: the newest layer has the file but not its directory, so the file is made in the older one; what
was written is not what is read. -/
theorem C108_refuted : ¬ C108_statement Demo.env := by
  intro h
  have hc : ((memStack Demo.env 1 [0]).create (b! "/d/a") (orphaned, ())).2 = .ok (0, 2) := by decide +kernel
  obtain ⟨s3, g, ho, hd⟩ := h Demo.info (orphaned, ())
    ((memStack Demo.env 1 [0]).create (b! "/d/a") (orphaned, ())).1 1 [0] (b! "/d/a") ⟨b! "app", b! "/d/a"⟩ (0, 2) (b! "new") (by decide)
    (fun n _ => orphaned_reached n) (by decide +kernel) (Prod.ext rfl hc)
  have hn : nineOf ((memStack Demo.env 1 [0]).openFile (b! "/d/a")
      (srun Demo.env (memStack Demo.env 1 [0]) ((memStack Demo.env 1 [0]).create (b! "/d/a") (orphaned, ())).1
        [.inLayer 0 (.write 2 (b! "new")), .inLayer 0 (.close 2)])) = some (1, b! "old") := by decide +kernel
  rw [ho] at hn
  have := hd [9]
  simp only [nineOf, this, Option.some.injEq, Prod.mk.injEq] at hn
  exact absurd hn.2 (by decide)

/-- Layer 1 over layer 0, both with `/a`: `Create` works on layer 1; the writes are interleaved with a `MkdirAll` on both
layers, a file in the new directory and a `Remove` of it; `Open` delivers what was written. -/
example :
    let x : Pkger (Store Unit) (Nat × Nat) := memStack Demo.env 1 [0]
    let s1 := (x.create (b! "/a") (twoLayers, ())).1
    let ops1 : List SOp := [.inLayer 1 (.write 5 (b! "he")), .mkdirAll (b! "/d") 0o755, .create (b! "/d/x"),
      .inLayer 1 (.write 8 (b! "zz")), .inLayer 1 (.write 5 (b! "llo")), .openFile (b! "/c"), .inLayer 0 (.write 5 (b! "no"))]
    (x.create (b! "/a") (twoLayers, ())).2 = .ok (1, 5) ∧
    (writtenTo (1, 5) ops1).flatten = b! "hello" ∧
    nineOf (x.openFile (b! "/a") (srun Demo.env x s1 ops1)) = some (1, []) ∧
    nineOf (x.openFile (b! "/a") (srun Demo.env x s1 (ops1 ++ [.inLayer 1 (.close 5), .remove (b! "/d/x")]))) =
      some (1, b! "hello") := by decide +kernel

/-- Layer 1 without the directory over layer 0 with it: `/d/x` is made in layer 0, and read from there. -/
example :
    let x : Pkger (Store Unit) (Nat × Nat) := memStack Demo.env 1 [0]
    let s1 := (x.create (b! "/d/x") (orphaned, ())).1
    (x.create (b! "/d/x") (orphaned, ())).2 = .ok (0, 2) ∧
    (openFile Demo.env ((srun Demo.env x s1 [.inLayer 0 (.write 2 (b! "new")), .inLayer 0 (.close 2)]).1 1) (b! "/d/x")).2 =
      .err .notExist ∧
    nineOf (x.openFile (b! "/d/x") (srun Demo.env x s1 [.inLayer 0 (.write 2 (b! "new")), .inLayer 0 (.close 2)])) =
      some (0, b! "new") := by decide +kernel

/-- The first example meets the hypotheses of the last theorem: both layers that have `/a` let it be created again, and none of
the calls on layer 1 names it. -/
example : (∀ j ∈ [1, 0], ∃ h, (create Demo.env (twoLayers j) (b! "/a")).2 = .ok h) ∧
    (∀ n ∈ [1, 0], Leaves Demo.env Demo.info n ⟨b! "app", b! "/a"⟩
      [.inLayer 1 (.write 5 (b! "he")), .openFile (b! "/c"), .inLayer 0 (.write 5 (b! "no")), .remove (b! "/b")]) := by
  constructor
  · intro j hj
    simp at hj
    rcases hj with rfl | rfl
    · exact ⟨5, by decide +kernel⟩
    · exact ⟨5, by decide +kernel⟩
  · intro n hn o ho o' ho'
    simp at ho
    rcases ho with rfl | rfl | rfl | rfl
    · refine ⟨?_, ?_⟩ <;> (simp only [SOp.callsOn] at ho'; split at ho' <;> simp at ho'; subst ho'; first | trivial | exact fun h => h)
    · simp [SOp.callsOn] at ho'; subst ho'; exact ⟨trivial, fun h => h⟩
    · refine ⟨?_, ?_⟩ <;> (simp only [SOp.callsOn] at ho'; split at ho' <;> simp at ho'; subst ho'; first | trivial | exact fun h => h)
    · simp [SOp.callsOn] at ho'
      subst ho'
      refine ⟨trivial, ?_⟩
      show ¬ Demo.env.parse Demo.info (b! "/b") = .ok ⟨b! "app", b! "/a"⟩
      have : Demo.env.parse Demo.info (b! "/b") = .ok ⟨b! "app", b! "/b"⟩ := by decide +kernel
      rw [this]
      intro h
      injection h with h
      exact absurd h (by decide)

/-! ### C109 -/

/-- The statement of **C109**: what `Open` finds in a directory of a stack, `pkger.Dir` of that directory finds too. -/
def C109_statement (E : Env) : Prop :=
  ∀ (i : Info) (s : Store Unit) (b : Nat) (bs : List Nat) (ds cs : List Str), (b :: bs).Nodup → LayersOk E i s (b :: bs) →
    Plain (ds ++ cs) →
    (∃ f, ((memStack E b bs).openFile (GoPath.mk ds) s).2 = .ok f) →
    (∃ f, ((memStack E b bs).openFile (GoPath.mk (ds ++ cs)) s).2 = .ok f) →
    ∃ f, (dirOpen E (memStack E b bs) (GoPath.mk ds) (GoPath.mk cs) s).2 = .ok f

/-- **C109 is false**: the directory is the one of the newest layer that has it, and hides the files of the older ones. -/
theorem C109_refuted : ¬ C109_statement Demo.env := by
  intro h
  obtain ⟨f, hf⟩ := h Demo.info (twoLayers, ()) 1 [0] [] [b! "c"] (by decide) (fun n _ => twoLayers_reached n) (by decide)
    ⟨(1, 4), by decide +kernel⟩ ⟨(0, 4), by decide +kernel⟩
  have : (dirOpen Demo.env (memStack Demo.env 1 [0]) (GoPath.mk []) (GoPath.mk [b! "c"]) (twoLayers, ())).2 =
      .err .notExist := by decide +kernel
  rw [this] at hf
  cases hf

/-- **C109** (what holds).  `pkger.Dir(d)` of a stack is `pkger.Dir(d)` of the newest layer that has `d`, alone, whatever
the other layers have: the same answer for every name, the same change to this layer and none to the others. -/
theorem C109_one_layer_partial {C : Type} (E : Env) {s : Store C} {b : Nat} {bs newer older : List Nat} {k : Nat} (d name : Str)
    (hl : b :: bs = newer ++ k :: older) (hnew : ∀ j ∈ newer, ∃ e, (openFile E (s.1 j) d).2 = .err e)
    {w : World} {id : Nat} (hk : openFile E (s.1 k) d = (w, .ok id)) :
    (dirOpen E (memStack E b bs) d name s).2 = mapRes (fun h => (k, h)) (fileOpen E w id name).2 ∧
    (dirOpen E (memStack E b bs) d name s).1.1 k = (fileOpen E w id name).1 ∧
    (∀ m, m ≠ k → (dirOpen E (memStack E b bs) d name s).1.1 m = s.1 m) ∧
    ∀ count, handleReaddir E (k, id) count ((memStack E b bs).openFile d s).1 = readdir E w id count := by
  have ho := open_chosen E newer b bs s hl hnew ⟨id, by rw [hk]⟩
  rw [hk] at ho
  refine ⟨?_, ?_, ?_, ?_⟩
  · simp only [dirOpen, ho, mapRes, handleOpen, upd, if_true]
  · simp only [dirOpen, ho, mapRes, handleOpen, upd, if_true]
  · intro m hm; simp only [dirOpen, ho, mapRes, handleOpen, upd, hm, if_false]
  · intro count; simp only [ho, handleReaddir, upd, if_true]

/-- `pkger.Dir("/")` of the two layers opens `/b`, not `/c`, and lists the files of layer 1 only. -/
example :
    let x : Pkger (Store Unit) (Nat × Nat) := memStack Demo.env 1 [0]
    let dir := x.openFile (b! "/") (twoLayers, ())
    dir.2 = .ok (1, 4) ∧
    nineOf (dirOpen Demo.env x (b! "/") (b! "/a") (twoLayers, ())) = some (1, b! "new") ∧
    nineOf (x.openFile (b! "/c") (twoLayers, ())) = some (0, []) ∧
    (dirOpen Demo.env x (b! "/") (b! "/c") (twoLayers, ())).2 = .err .notExist ∧
    (match handleReaddir Demo.env (1, 4) 0 dir.1 with
      | .ok ds => ds.map (·.name)
      | _ => []) = [b! "a", b! "b"] := by decide +kernel

end Props
end Verif
