import Verif.Spec.Cursor
import Verif.Spec.Demo
import Verif.Spec.Reach
import Verif.Lemmas.Observe

/-! C05, C06, C07: reading and seeking. -/

namespace Verif
namespace Props

open Mem Spec

/-- A call on handle `id`. -/
def callHandle (w : World) (id : Nat) : Cmd → World × Out
  | .read n => ((read w id n).1, .read (read w id n).2.1 (read w id n).2.2)
  | .seek off whence => ((seek w id off whence).1, .seek (seek w id off whence).2.1 (seek w id off whence).2.2)

/-- Calls on handle `id`, interleaved with any other API calls. -/
inductive Act where
  | self (c : Cmd)
  | other (o : Op)

/-- The results of the calls on handle `id`. -/
def runActs (E : Env) (w : World) (id : Nat) : List Act → List Out
  | [] => []
  | .self c :: as => (callHandle w id c).2 :: runActs E (callHandle w id c).1 id as
  | .other o :: as => runActs E (step E w o) id as

/-- The calls on the handle itself. -/
def selfCmds : List Act → List Cmd
  | [] => []
  | .self c :: as => c :: selfCmds as
  | .other _ :: as => selfCmds as

/-- The object `f` stands for the cursor over `content` at `pos`. -/
def AtPos (f : FileObj) (content : Str) (pos : Int) : Prop :=
  f.bytes = content ∧ 0 ≤ pos ∧
    ((f.reader = none ∧ pos = 0) ∨ f.reader = some (content, pos))

theorem ensureReader_atPos {f : FileObj} {content : Str} {pos : Int} (hne : content ≠ [])
    (h : AtPos f content pos) : (ensureReader f).reader = some (content, pos) := by
  obtain ⟨h1, h2, h3 | h3⟩ := h
  · have : 0 < content.length := List.length_pos_iff.mpr hne
    unfold ensureReader
    rw [h3.1]
    simp only [h1, this, if_true, gt_iff_lt]
    simp [h3.2]
  · unfold ensureReader
    rw [h3]
    exact h3

theorem readerSeek_spec (content : Str) (pos off whence : Int) :
    readerSeek content pos off whence =
      ((cursorStep content pos (.seek off whence)).1,
        match (cursorStep content pos (.seek off whence)).2 with
        | .seek r e => (r, e)
        | .read _ e => (0, e)) := by
  unfold readerSeek cursorStep
  by_cases h0 : whence = 0
  · subst h0
    simp only [seekTarget, if_true]
    by_cases h : off < 0
    · simp [h, Int.not_le.mpr h]
    · simp [h, Int.not_lt.mp h]
  · by_cases h1 : whence = 1
    · subst h1
      simp only [seekTarget, if_true, if_neg h0]
      by_cases h : pos + off < 0
      · simp [h, Int.not_le.mpr h]
      · simp [h, Int.not_lt.mp h]
    · by_cases h2 : whence = 2
      · subst h2
        simp only [seekTarget, if_true, if_neg h0, if_neg h1]
        by_cases h : (content.length : Int) + off < 0
        · simp [h, Int.not_le.mpr h]
        · simp [h, Int.not_lt.mp h]
      · have : seekTarget content.length pos off whence = none := by
          unfold seekTarget; split <;> simp_all
        simp [h0, h1, h2, this]

theorem callHandle_spec {w : World} {id : Nat} {content : Str} {pos : Int} (hne : content ≠ [])
    (h : AtPos (w.heap id) content pos) (c : Cmd) :
    (callHandle w id c).2 = (cursorStep content pos c).2 ∧
      AtPos ((callHandle w id c).1.heap id) content (cursorStep content pos c).1 := by
  have hr := ensureReader_atPos hne h
  have hb := (ensureReader_bytes (w.heap id)).trans h.1
  cases c with
  | read n =>
    simp only [callHandle, Mem.read, readObj, hr, readerRead, cursorStep, setObj, upd_self]
    by_cases hp : pos < content.length
    · have hp' : ¬ (pos ≥ content.length) := by omega
      simp only [hp, hp', if_true, if_false]
      refine ⟨trivial, hb, ?_, Or.inr rfl⟩
      have := h.2.1
      omega
    · have hp' : pos ≥ content.length := by omega
      simp only [hp, hp', if_true, if_false]
      exact ⟨trivial, hb, h.2.1, Or.inr rfl⟩
  | seek off whence =>
    simp only [callHandle, seek, seekObj, hr, setObj, upd_self]
    rw [readerSeek_spec]
    have hpos : 0 ≤ (cursorStep content pos (.seek off whence)).1 := by
      simp only [cursorStep]
      split
      · exact h.2.1
      · split
        · assumption
        · exact h.2.1
    refine ⟨?_, hb, hpos, Or.inr rfl⟩
    simp only [cursorStep]
    cases seekTarget (content.length : Int) pos off whence with
    | none => rfl
    | some t => by_cases ht : 0 ≤ t <;> simp [ht]

theorem runActs_spec (E : Env) {content : Str} (hne : content ≠ []) :
    ∀ (acts : List Act) {w : World} {id : Nat} {pos : Int}, HeapOk w → id < w.next →
      AtPos (w.heap id) content pos →
      (∀ o, Act.other o ∈ acts → o.HostOk ∧ o.target ≠ some id) →
      runActs E w id acts = cursorRun content pos (selfCmds acts)
  | [], _, _, _, _, _, _, _ => rfl
  | .self c :: as, w, id, pos, hw, hid, h, ho => by
    have hs := callHandle_spec hne h c
    have hw' : HeapOk (callHandle w id c).1 := by
      cases c with
      | read n => exact heapOk_step E hw (.read id n) trivial
      | seek off whence => exact heapOk_step E hw (.seek id off whence) trivial
    have hid' : id < (callHandle w id c).1.next := by
      cases c with
      | read n => exact hid
      | seek off whence => exact hid
    simp only [runActs, selfCmds, cursorRun]
    rw [hs.1, runActs_spec E hne as hw' hid' hs.2 (fun o h' => ho o (List.mem_cons_of_mem _ h'))]
  | .other o :: as, w, id, pos, hw, hid, h, ho => by
    have ho1 := ho o (by simp)
    simp only [runActs, selfCmds]
    exact runActs_spec E hne as (heapOk_step E hw o ho1.1)
      (Nat.lt_of_lt_of_le hid (next_step E hw o ho1.1))
      (by rw [heap_frame E hw o ho1.1 hid ho1.2]; exact h)
      (fun o h' => ho o (List.mem_cons_of_mem _ h'))

/-- **C06.** A handle just returned by `Open` on a non-empty file behaves, under any interleaving of
`Seek` and `Read` calls on it with arbitrary other calls (on the Pkger and on other handles), exactly
like a cursor over the content at position 0. -/
theorem C06_seek_read_cursor (E : Env) {w w1 : World} {i : Info} (hr : Reached E i w) {name : Str} {id : Nat}
    (hopen : openFile E w name = (w1, .ok id)) {d : Details} {content : Str}
    (hc : openView E w name = .ok (d, content)) (hne : content ≠ []) (acts : List Act)
    (hothers : ∀ o, Act.other o ∈ acts → o.HostOk ∧ o.target ≠ some id) :
    runActs E w1 id acts = cursorRun content 0 (selfCmds acts) := by
  have hw := hr.inv.heap
  have hw1 : HeapOk w1 := by
    have := heapOk_prims (prims_openFile E hw name) hw
    rwa [hopen] at this
  obtain ⟨d', hv, _⟩ := openView_of_openFile hopen
  rw [hv] at hc
  simp only [Res.ok.injEq, Prod.mk.injEq] at hc
  obtain ⟨pt, i, dd, h1, h2, h3, h4, h5⟩ := openFile_ok hopen
  have hobj : w1.heap id = openedObj (w.heap i) dd := by rw [h5, h4]; simp [alloc]
  refine runActs_spec E hne acts hw1 (by rw [h5, h4]; simp [alloc]) ⟨hc.2, Int.le_refl 0, Or.inl ?_⟩ hothers
  rw [hobj]
  exact ⟨rfl, rfl⟩

/-- A reader over the remaining bytes `rest`, asked for blocks of the given sizes. -/
def specReads : Str → List Nat → List (Str × Option Err)
  | _, [] => []
  | rest, n :: ns =>
    if rest = [] then ([], some .eof) :: specReads [] ns
    else (rest.take n, none) :: specReads (rest.drop n) ns

theorem readMany_eq_runActs (E : Env) (w : World) (id : Nat) (ns : List Nat) :
    runActs E w id (ns.map fun n => .self (.read n)) =
      (readMany w id ns).map fun r => Out.read r.1 r.2 := by
  induction ns generalizing w with
  | nil => rfl
  | cons n ns ih =>
    simp only [List.map_cons, runActs, readMany, callHandle]
    rw [ih]

theorem cursorRun_reads (content : Str) (ns : List Nat) :
    ∀ pos : Nat, pos ≤ content.length →
      cursorRun content pos (ns.map .read) =
        (specReads (content.drop pos) ns).map fun r => Out.read r.1 r.2 := by
  induction ns with
  | nil => intro pos _; rfl
  | cons n ns ih =>
    intro pos hpos
    simp only [List.map_cons, cursorRun, specReads, cursorStep]
    by_cases hlt : pos < content.length
    · have hlt' : (pos : Int) < (content.length : Int) := by omega
      have hne : content.drop pos ≠ [] := by simp [hlt]
      simp only [hlt', if_true, hne, if_false, List.map_cons, Int.toNat_natCast]
      congr 1
      have hlen : ((content.drop pos).take n).length = min n (content.length - pos) := by simp
      rw [show (pos : Int) + (((content.drop pos).take n).length : Int) =
        ((pos + ((content.drop pos).take n).length : Nat) : Int) by push_cast; rfl]
      rw [ih _ (by rw [hlen]; omega), hlen]
      congr 2
      rw [List.drop_drop]
      by_cases hn : n ≤ content.length - pos
      · rw [Nat.min_eq_left hn]
      · rw [Nat.min_eq_right (by omega)]
        rw [List.drop_eq_nil_of_le (by omega), List.drop_eq_nil_of_le (by omega)]
    · have hlt' : ¬ (pos : Int) < (content.length : Int) := by omega
      have he : content.drop pos = [] := by simp; omega
      simp only [hlt', if_false, he, if_true, List.map_cons]
      congr 1
      have := ih pos hpos
      rw [he] at this
      exact this

theorem selfCmds_reads (ns : List Nat) :
    selfCmds (ns.map fun n => Act.self (.read n)) = ns.map .read := by
  induction ns with
  | nil => rfl
  | cons n ns ih => simp [selfCmds, ih]

theorem specReads_nil (ns : List Nat) : specReads [] ns = ns.map fun _ => ([], some .eof) := by
  induction ns with
  | nil => rfl
  | cons n ns ih => simp [specReads, ih]

theorem specReads_err (rest : Str) (ns : List Nat) (k : Nat) (hk : k < ns.length) :
    ∃ out, (specReads rest ns)[k]? = some (out,
      if rest.length ≤ (ns.take k).sum then some .eof else none) := by
  induction ns generalizing rest k with
  | nil => simp at hk
  | cons n ns ih =>
    by_cases hr : rest = []
    · subst hr
      rw [specReads_nil]
      refine ⟨[], ?_⟩
      rw [List.getElem?_map, List.getElem?_eq_getElem hk]
      simp
    · simp only [specReads, hr, if_false]
      cases k with
      | zero =>
        refine ⟨rest.take n, ?_⟩
        have : ¬ rest.length ≤ 0 := by
          have := List.length_pos_iff.mpr hr; omega
        simp [hr]
      | succ k =>
        obtain ⟨out, ho⟩ := ih (rest.drop n) k (by simpa using hk)
        refine ⟨out, ?_⟩
        rw [List.getElem?_cons_succ, ho]
        have hiff : (rest.drop n).length ≤ (ns.take k).sum ↔
            rest.length ≤ ((n :: ns).take (k + 1)).sum := by
          rw [List.take_succ_cons, List.sum_cons, List.length_drop]; omega
        by_cases h : (rest.drop n).length ≤ (ns.take k).sum
        · rw [if_pos h, if_pos (hiff.mp h)]
        · rw [if_neg h, if_neg (fun h' => h (hiff.mpr h'))]

theorem specReads_delivered (rest : Str) (ns : List Nat) :
    delivered (specReads rest ns) = rest.take ns.sum := by
  induction ns generalizing rest with
  | nil => simp [specReads, delivered]
  | cons n ns ih =>
    by_cases hr : rest = []
    · subst hr
      have := ih []
      simp only [specReads, delivered, if_true, List.map_cons, List.flatten_cons, List.nil_append] at this ⊢
      rw [this]; simp
    · have := ih (rest.drop n)
      simp only [specReads, delivered, hr, if_false, List.map_cons, List.flatten_cons, List.sum_cons] at this ⊢
      rw [this, List.take_add]

/-- **C05.** Reading a fresh handle of a non-empty file with any buffer sizes `ns`: there is one result
per read; together they deliver the first `sum ns` bytes of the content (all of it once enough space
was offered, nothing duplicated, dropped or reordered); and a read reports EOF exactly when the reads
before it had already offered space for everything, and otherwise reports no error. -/
theorem C05_reads_yield_content (E : Env) {w w1 : World} {i : Info} (hr : Reached E i w) {name : Str} {id : Nat}
    (hopen : openFile E w name = (w1, .ok id)) {d : Details} {content : Str}
    (hc : openView E w name = .ok (d, content)) (hne : content ≠ []) (ns : List Nat) :
    (readMany w1 id ns).length = ns.length ∧
    delivered (readMany w1 id ns) = content.take ns.sum ∧
    ∀ k, k < ns.length → ∃ out, (readMany w1 id ns)[k]? = some (out,
      if content.length ≤ (ns.take k).sum then some .eof else none) := by
  have h := C06_seek_read_cursor E hr hopen hc hne (ns.map fun n => .self (.read n))
    (by intro o ho; simp at ho)
  rw [readMany_eq_runActs, selfCmds_reads] at h
  have h2 := cursorRun_reads content ns 0 (by omega)
  simp only [List.drop_zero] at h2
  rw [show ((0 : Nat) : Int) = 0 from rfl] at h2
  rw [h2] at h
  have hinj : readMany w1 id ns = specReads content ns := by
    have := congrArg (List.map fun o : Out => match o with | .read b e => (b, e) | .seek _ e => ([], e)) h
    simpa [List.map_map, Function.comp_def] using this
  rw [hinj]
  refine ⟨?_, specReads_delivered content ns, fun k hk => specReads_err content ns k hk⟩
  have : ∀ (r : Str) (l : List Nat), (specReads r l).length = l.length := by
    intro r l
    induction l generalizing r with
    | nil => rfl
    | cons n l ih => simp only [specReads]; split <;> simp [ih]
  exact this content ns

/-- A stored file with content `hello`, and an open handle on it (number 2). -/
def helloOps : List Op :=
  [.create (b! "/hello.txt"), .write 1 (b! "hel"), .write 1 (b! "lo"), .close 1]

example :
    let w := Demo.after helloOps
    (∃ d, openView Demo.env w (b! "/hello.txt") = .ok (d, b! "hello")) ∧
    (openFile Demo.env w (b! "/hello.txt")).2 = .ok 2 ∧
    readMany (openFile Demo.env w (b! "/hello.txt")).1 2 [2, 0, 2, 5, 5] =
      [(b! "he", none), ([], none), (b! "ll", none), (b! "o", none), ([], some .eof)] := by
  refine ⟨⟨⟨b! "hello.txt", 5, 0o644, 1000, false⟩, ?_⟩, ?_, ?_⟩ <;> decide +kernel

/-- The statement of **C07**: reading an empty regular file reports end of file. -/
def C07_statement (E : Env) : Prop :=
  ∀ (i : Info) (t : Int) (ops : List Op) (name : Str) (w1 : World) (id : Nat) (d : Details),
    openFile E (run E (new i t) ops) name = (w1, .ok id) →
    openView E (run E (new i t) ops) name = .ok (d, []) → d.isDir = false →
    ∀ n, (read w1 id n).2 = ([], some .eof)

/-- **C07 is false**: the first `Read` of an empty file fails with "unable to read" instead of EOF. -/
theorem C07_empty_read_eof_refuted : ¬ C07_statement Demo.env := by
  intro h
  have := h Demo.info 1000 [.create (b! "/empty.txt")] (b! "/empty.txt") _ 2
    ⟨b! "empty.txt", 0, 0o644, 1000, false⟩ rfl (by decide +kernel) rfl 1
  revert this
  decide +kernel

/-- **C07** (how far it fails): on *every* handle holding no bytes and never read, `Read` delivers no
byte and always fails with the non-EOF error, and changes nothing, so it can never report EOF. -/
theorem C07_empty_read_partial (w : World) (id : Nat) (hb : (w.heap id).bytes = [])
    (hr : (w.heap id).reader = none) (ns : List Nat) :
    readMany w id ns = ns.map fun _ => ([], some .unableToRead) := by
  induction ns with
  | nil => rfl
  | cons n ns ih =>
    have hens : ensureReader (w.heap id) = w.heap id := by simp [ensureReader, hr, hb]
    have hstep : read w id n = (setObj w id (w.heap id), [], some .unableToRead) := by
      simp [Mem.read, readObj, hens, hr]
    simp only [readMany, hstep, List.map_cons]
    rw [readMany_congr (w := w) (by simp [setObj]), ih]

example : ((Demo.after [.create (b! "/empty.txt")]).heap 1).bytes = [] ∧
    ((Demo.after [.create (b! "/empty.txt")]).heap 1).reader = none := by decide +kernel

end Props
end Verif
