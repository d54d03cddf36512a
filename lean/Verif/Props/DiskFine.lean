import Verif.Lemmas.DiskTurns
import Verif.Props.DiskHttp

/-! C98, C99: programs that read from the disk at the same time, among them the answers to requests; what they know of packages. -/

namespace Verif
namespace Props

open Spec Site
open Disk (Node)
open Disk.Node (WF)
open Http (Server Request Resp Source)
open DiskClient (Io Own Serves)
open Client (Prog)
open Stdos (Host)
open DiskFine (State Thread Acts progA)

variable {S : Type} {O : Host S} {I : Io S} {disk : Node} {α : Type}

/-- What the proofs know of a program that runs alone: on every operating system that shows the disk, if the Pkger is of
the package `c`, this is known of packages and no file is open, the operating system remains in order, and `Q` holds of the
result and the files left open. -/
def RightAlone (E : Env) (disk : Node) (tool : Str → Except Err Info) (c : Info) (told : Str → Except Err Info) (fs : List Stdos.File)
    (p : Prog α) (Q : α → (Nat → Option (Node × Nat)) → Prop) : Prop :=
  ∀ (S : Type) (O : Host S) (I : Io S) (P : Posix O I disk) (w : Stdos.World S), P.tool = tool → w.here = c →
    (∀ q, P.told w q = told q) → P.ok w.host → (∀ fd, P.holds w.host fd = none) →
    P.ok (DiskClient.exec E O I p w fs).1.host ∧
      Q (DiskClient.exec E O I p w fs).2.2 (P.holds (DiskClient.exec E O I p w fs).1.host)

/-- Goroutine `t` is to carry out `p t`. -/
def start (E : Env) (w : Stdos.World S) (fs : List Stdos.File) (p : Nat → Prog α) : State S α :=
  ⟨w, fun t => .run (progA E w.here (p t) fs)⟩

/-- Goroutine `t` is done. -/
def Done (s : State S α) (t : Nat) (r : α) : Prop := s.threads t = .run (.ret r)

/-- **C98** (all programs).  Goroutines carry out programs that open files and directories, read and seek in them, list and
close them; whatever can be shown of each of them when it runs alone, whatever the operating system, holds of it in every
interleaving of their system calls and of their accesses to the map of packages.  No two have the same file open, and the
other files are left as they were. -/
theorem C98_programs {E : Env} {P : Posix O I disk} {w : Stdos.World S} (hok : P.ok w.host) {fs : List Stdos.File}
    {p : Nat → Prog α} {Q : Nat → α → (Nat → Option (Node × Nat)) → Prop}
    (hp : ∀ t, RightAlone E disk P.tool w.here (P.told w) fs (p t) (Q t)) (sched : List Nat) :
    let s := (start E w fs p).run O I sched
    s.w.here = w.here ∧ (∀ q, P.told s.w q = P.told w q) ∧ P.ok s.w.host ∧
    ∃ held : Nat → Nat → Option (Node × Nat),
      (∀ t r, Done s t r → Q t r (held t)) ∧
      (∀ t fd, held t fd ≠ none → P.holds s.w.host fd = held t fd ∧ P.holds w.host fd = none ∧ ∀ t', t' ≠ t → held t' fd = none) ∧
      ∀ fd, (∀ t, held t fd = none) → P.holds s.w.host fd = P.holds w.host fd := by
  refine DiskFine.together hok (fun t => ?_) sched
  intro S' O' I' P' w' h1 h2 h3 h4 h5
  have := hp t S' O' I' P' w' h1 h2 h3 h4 h5
  rw [DiskFine.Right, ← h2, DiskFine.exec_progA]
  exact this

/-! ### Goroutines that are let run come to an end -/

/-- The first `n` steps of an infinite schedule. -/
def firsts (σ : Nat → Nat) (n : Nat) : List Nat := (List.range n).map σ

/-- It is always again the goroutine's turn. -/
def Again (σ : Nat → Nat) (t : Nat) : Prop := ∀ n, ∃ m, n ≤ m ∧ σ m = t

theorem firsts_add (σ : Nat → Nat) (n m : Nat) : firsts σ (n + m) = firsts σ n ++ firsts (fun i => σ (n + i)) m := by
  simp [firsts, List.range_add, Function.comp_def]

theorem run_append (s : State S α) (a b : List Nat) : s.run O I (a ++ b) = (s.run O I a).run O I b := by
  simp [State.run, List.foldl_append]

theorem Again.later {σ : Nat → Nat} {t : Nat} (h : Again σ t) (k : Nat) : Again (fun i => σ (k + i)) t := by
  intro n
  obtain ⟨m, h1, h2⟩ := h (k + n)
  exact ⟨m - k, by omega, by simpa only [show k + (m - k) = m from by omega] using h2⟩

theorem others_leave (s : State S α) (t : Nat) : ∀ sched : List Nat, t ∉ sched → (s.run O I sched).threads t = s.threads t
  | [], _ => rfl
  | u :: us, h => by
    simp only [List.mem_cons, not_or] at h
    show ((s.step O I u).run O I us).threads t = _
    rw [others_leave (s.step O I u) t us h.2]
    simp [State.step, Mem.upd, h.1]

/-- In some state later on it is done. -/
def Ends (O : Host S) (I : Io S) (s : State S α) (σ : Nat → Nat) (t : Nat) : Prop := ∃ n r, Done (s.run O I (firsts σ n)) t r

theorem first_turn {σ : Nat → Nat} {t : Nat} : ∀ m, σ m = t → ∃ n, σ n = t ∧ t ∉ firsts σ n := by
  intro m
  induction m using Nat.strongRecOn with
  | ind m ih =>
    intro h
    by_cases hm : t ∈ firsts σ m
    · simp only [firsts, List.mem_map, List.mem_range] at hm
      obtain ⟨k, h1, h2⟩ := hm
      exact ih k h1 h2
    · exact ⟨m, h, hm⟩

theorem ends_of_next {s : State S α} {t : Nat} {σ : Nat → Nat} (hf : Again σ t)
    (h : ∀ (w : Stdos.World S) (s' : State S α) (σ' : Nat → Nat), s'.threads t = ((s.threads t).next O I w).2 → Again σ' t → Ends O I s' σ' t) :
    Ends O I s σ t := by
  obtain ⟨m, _, hm⟩ := hf 0
  obtain ⟨n, h1, h2⟩ := first_turn m hm
  obtain ⟨k, r, hk⟩ := h (s.run O I (firsts σ n)).w ((s.run O I (firsts σ n)).step O I t) (fun i => σ (n + 1 + i))
    (by simp [State.step, Mem.upd, others_leave s t _ h2]) (hf.later (n + 1))
  refine ⟨n + 1 + k, r, ?_⟩
  rw [firsts_add, run_append]
  have : s.run O I (firsts σ (n + 1)) = (s.run O I (firsts σ n)).step O I t := by
    rw [firsts_add, run_append]
    simp [firsts, State.run, h1]
  rw [this]
  exact hk

theorem ends_run {t : Nat} : ∀ (a : Acts α) (s : State S α) (σ : Nat → Nat), s.threads t = .run a → Again σ t → Ends O I s σ t := by
  intro a
  induction a with
  | ret r => intro s σ hs _; exact ⟨0, r, hs⟩
  | sys c k ih =>
    intro s σ hs hf
    refine ends_of_next hf fun w s' σ' h hf' => ?_
    rw [hs] at h
    exact ih _ s' σ' h hf'
  | info p k ih =>
    intro s σ hs hf
    refine ends_of_next hf fun w s' σ' h hf' => ?_
    rw [hs] at h
    simp only [Thread.next] at h
    cases hg : AMap.get w.infos p with
    | some i => rw [hg] at h; exact ih _ s' σ' h hf'
    | none =>
      rw [hg] at h
      refine ends_of_next hf' fun w2 s2 σ2 h2 hf2 => ?_
      rw [h] at h2
      simp only [Thread.next] at h2
      rcases hp : O.package p w2.host with ⟨h', e | i⟩
      · rw [hp] at h2; exact ih _ s2 σ2 h2 hf2
      · rw [hp] at h2
        refine ends_of_next hf2 fun w3 s3 σ3 h3 hf3 => ?_
        rw [h2] at h3
        exact ih _ s3 σ3 h3 hf3

/-- **C98** (they end).  Whatever the operating system answers, and whatever the others do, a goroutine that is always let run
again comes to an end. -/
theorem C98_ends (E : Env) (O : Host S) (I : Io S) (w : Stdos.World S) (fs : List Stdos.File) (p : Nat → Prog α) {σ : Nat → Nat} {t : Nat}
    (hf : Again σ t) : ∃ n r, Done ((start E w fs p).run O I (firsts σ n)) t r :=
  ends_run (progA E w.here (p t) fs) (start E w fs p) σ rfl hf

/-! ### Requests -/

/-- What goroutine `t` is to do: answer request `t`, if there is one. -/
def serves (C : Server) (src : Source) (rs : List Request) (t : Nat) : Prog Resp :=
  match rs[t]? with
  | some r => Http.serve C src r
  | none => .ret (.status 0)

/-- What it should answer. -/
def RightAnswer (disk : Node) (m ds : List Str) (site : Node) (r : Request) (resp : Resp) : Prop :=
  (¬ BelowFile disk (m ++ (ds ++ elemsOf r)) → resp = answer site r) ∧
  (BelowFile disk (m ++ (ds ++ elemsOf r)) → Str.hasSuffix (rootedPath r.path) (b! "/index.html") = false → resp = .status 500)

theorem serves_alone (E : Env) {tool : Str → Except Err Info} {C : Server} (hC : C.Ok) {c : Info} (hl : ParseLaws E c)
    {told : Str → Except Err Info} {m : List Str} (hm : GoPath.Good m) {root : Info} (hroot : told c.module.path = .ok root)
    (hdir : root.dir = GoPath.mk m) {src : Source} {fs : List Stdos.File} {ds : List Str} (hs : Serves E c fs ds src)
    (hg : GoPath.Good ds) {site : Node} (hsite : disk.find (m ++ ds) = some site) (hw : WF site) (hn : Named site)
    {rs : List Request} (hrs : ∀ r ∈ rs, Ordered c ds r) (t : Nat) :
    RightAlone E disk tool c told fs (serves C src rs t) fun resp held =>
      (∀ r, rs[t]? = some r → RightAnswer disk m ds site r resp) ∧ (src = .handle ∨ rs.length ≤ t → ∀ fd, held fd = none) := by
  intro S O I P w _ h2 h3 h4 h5
  unfold serves
  cases ht : rs[t]? with
  | none => exact ⟨h4, fun r hr => (by cases hr), fun _ => h5⟩
  | some r =>
    have own : Own P c m w := ⟨h2, ⟨root, (h3 _).trans hroot, hdir⟩, hm⟩
    obtain ⟨w', fs', resp, e1, e2, e3, _, e5, e6⟩ := C82_request E P hC hl own h4 hs hg hsite hw hn (hrs r (List.mem_of_getElem? ht))
    simp only [e1]
    refine ⟨e5, ?_, ?_⟩
    · intro r' hr'
      cases hr'
      exact ⟨e2, e3⟩
    · rintro (h | h) fd
      · rw [e6 fd (Or.inl h)]; exact h5 fd
      · rw [List.getElem?_eq_none h] at ht; cases ht

/-- **C98** (requests).  A package's directory is served from the disk, through a handle or as `pkger.Dir`; any number of
requests are in progress at once.  In every interleaving of their system calls and of their accesses to the map of packages
each request that has been answered was answered as it should be for the files there, as if it had been alone; 500 for what is
below a regular file.  The files that were open are as before; with a handle no others are open when all requests are
answered. -/
theorem C98_requests (E : Env) (P : Posix O I disk) {C : Server} (hC : C.Ok) {c : Info} (hl : ParseLaws E c)
    {m : List Str} {w : Stdos.World S} (h : Own P c m w) (hok : P.ok w.host) {src : Source} {fs : List Stdos.File} {ds : List Str}
    (hs : Serves E c fs ds src) (hg : GoPath.Good ds) {site : Node} (hsite : disk.find (m ++ ds) = some site)
    (hw : WF site) (hn : Named site) {rs : List Request} (hrs : ∀ r ∈ rs, Ordered c ds r) (sched : List Nat) :
    let s := (start E w fs (serves C src rs)).run O I sched
    (∀ t r resp, rs[t]? = some r → Done s t resp → RightAnswer disk m ds site r resp) ∧
    Own P c m s.w ∧ P.ok s.w.host ∧ (∀ fd, P.holds w.host fd ≠ none → P.holds s.w.host fd = P.holds w.host fd) ∧
    (src = .handle → (∀ t, t < rs.length → ∃ resp, Done s t resp) → P.holds s.w.host = P.holds w.host) := by
  obtain ⟨root, hroot, hdir⟩ := h.root
  have ha := serves_alone E (tool := P.tool) hC hl h.good hroot hdir hs hg hsite hw hn hrs
  rw [← h.here] at ha
  obtain ⟨h1, h2, h3, held, h4, h5, h6⟩ := C98_programs hok ha sched
  refine ⟨fun t r resp ht hd => (h4 t resp hd).1 r ht, h.left h1 h2, h3, fun fd hfd => ?_, fun hsrc hall => ?_⟩
  · refine h6 fd fun t => Classical.byContradiction fun hne => ?_
    exact hfd (h5 t fd hne).2.1
  · funext fd
    refine h6 fd fun t => ?_
    by_cases ht : t < rs.length
    · obtain ⟨resp, hd⟩ := hall t ht
      exact (h4 t resp hd).2 (Or.inl hsrc) fd
    · have hidle : ∀ (sched : List Nat) (s : State S Resp), s.threads t = .run (.ret (.status 0)) →
          (s.run O I sched).threads t = .run (.ret (.status 0)) := by
        intro sched
        induction sched with
        | nil => intro s hs; exact hs
        | cons u us ih =>
          intro s hs
          refine ih (s.step O I u) ?_
          by_cases hu : t = u
          · subst hu
            simp [State.step, Mem.upd, hs, Thread.next]
          · simp [State.step, Mem.upd, hu, hs]
      have hd := hidle sched (start E w fs (serves C src rs)) (by
        simp [start, serves, List.getElem?_eq_none (Nat.le_of_not_lt ht), progA])
      exact (h4 t _ hd).2 (Or.inr (Nat.le_of_not_lt ht)) fd

/-! ### Examples -/

/-- The requests of the example: for a file, for a directory with an index page, and for a directory's entries. -/
def threeRequests : List Request := [getReq (b! "/a.txt"), getReq (b! "/doc/"), getReq (b! "/")]

/-- They take turns. -/
def takingTurns : List Nat := (List.range 40).flatMap fun _ => [0, 2, 1]

/-- What a goroutine has returned. -/
def returned : Thread α → Option α
  | .run (.ret r) => some r
  | _ => none

theorem done_of_returned {s : State S α} {t : Nat} {r : α} (h : returned (s.threads t) = some r) : Done s t r := by
  unfold Done
  cases ht : s.threads t with
  | run a =>
    cases a with
    | ret x => rw [ht] at h; cases h; rfl
    | info p k => rw [ht] at h; cases h
    | sys c k => rw [ht] at h; cases h
  | asking p k => rw [ht] at h; cases h
  | storing p i k => rw [ht] at h; cases h

/-- The Pkger of a package below the root of its module, which has opened `/www`, as `pkger serve /www` does, and then has lost
what it knew of the module's root package. -/
def wwwOpened : Stdos.World Table × Except Err Stdos.File :=
  Stdos.openFile Demo.env (host (siteDisk siteApp) Demo.pkgInfo) (Stdos.new cmdInfo Table.empty) (b! "/www")

@[inherit_doc wwwOpened] def wwwWorld : Stdos.World Table := { wwwOpened.1 with infos := [] }

@[inherit_doc wwwOpened] def wwwFile : Stdos.File := ⟨0, none, Demo.info, ⟨b! "app", b! "/www"⟩⟩

/-- The end of the example. -/
def turnsTaken : State Table Resp :=
  (start Demo.env wwwWorld [wwwFile] (serves demoServer .handle threeRequests)).run (host (siteDisk siteApp) Demo.pkgInfo) io takingTurns

theorem wwwWorld_ok : (posix (siteDisk siteApp) Demo.pkgInfo).ok wwwWorld.host := by
  have hnext : wwwWorld.host.next = 1 := by decide +kernel
  intro fd hfd
  rw [hnext] at hfd
  have : wwwWorld.host.at_ = fun g => if g = 0 then some ((siteApp.2.find [b! "www"]).get rfl, 0) else none := rfl
  rw [this]
  simp [show fd ≠ 0 by omega]

theorem threeRequests_ordered : ∀ r ∈ threeRequests, Ordered cmdInfo [b! "www"] r := by
  intro r hr
  simp only [threeRequests, List.mem_cons, List.not_mem_nil, or_false] at hr
  rcases hr with rfl | rfl | rfl <;> exact ⟨getReq_ok _, by decide +kernel, by decide +kernel⟩

theorem wwwWorld_own : Own (posix (siteDisk siteApp) Demo.pkgInfo) cmdInfo [b! "src", b! "app"] wwwWorld :=
  ⟨rfl, ⟨Demo.info, rfl, rfl⟩, by decide⟩

/-- A case of `C98_requests`, in which all three goroutines ask the Go tool for the same package: while they take turns, all
three are answered, and answered right, and in the end only the served directory is open. -/
example : Done turnsTaken 0 (.content 200 5 none (b! "hello")) ∧ Done turnsTaken 1 (.content 200 3 none (b! "<p>")) ∧
    Done turnsTaken 2 (.page [b! "a.txt", b! "doc/", b! "img/", b! "www"]) ∧
    turnsTaken.w.host.at_ = wwwWorld.host.at_ ∧ (wwwWorld.host.at_ 0).map (·.1.details.name) = some (b! "www") := by
  have h0 : returned (turnsTaken.threads 0) = some (.content 200 5 none (b! "hello")) := by decide +kernel
  have h1 : returned (turnsTaken.threads 1) = some (.content 200 3 none (b! "<p>")) := by decide +kernel
  have h2 : returned (turnsTaken.threads 2) = some (.page [b! "a.txt", b! "doc/", b! "img/", b! "www"]) := by decide +kernel
  have hd : ∀ t, t < threeRequests.length → ∃ resp, Done turnsTaken t resp := by
    intro t ht
    match t, ht with
    | 0, _ => exact ⟨_, done_of_returned h0⟩
    | 1, _ => exact ⟨_, done_of_returned h1⟩
    | 2, _ => exact ⟨_, done_of_returned h2⟩
  have hall := (C98_requests Demo.env (posix (siteDisk siteApp) Demo.pkgInfo) demoServer_ok
    (HereParse.lawful cmdInfo_ok _ _ _ _) wwwWorld_own wwwWorld_ok (src := .handle) (fs := [wwwFile]) (ds := [b! "www"])
    ⟨wwwFile, rfl, rfl⟩ (by decide) (site := (siteApp.2.find [b! "www"]).get rfl) rfl (by decide +kernel)
    (DiskClient.named_find [b! "www"] siteApp_ok.named rfl) threeRequests_ordered takingTurns).2.2.2.2 rfl hd
  have hat : ∀ h, (posix (siteDisk siteApp) Demo.pkgInfo).holds h = h.at_ := fun _ => rfl
  rw [hat, hat, ← turnsTaken] at hall
  exact ⟨done_of_returned h0, done_of_returned h1, done_of_returned h2, hall, by decide +kernel⟩

/-- A case of `C98_ends`: two goroutines that take turns. -/
example : Again (fun n => n % 2) 1 := fun n => ⟨2 * n + 1, by omega, by simp only; omega⟩

/-- **C98** for goroutines that share an open file: each gets what it would get alone. -/
def C98_shared_statement : Prop :=
  ∀ (S : Type) (O : Host S) (I : Io S) (disk : Node) (P : Posix O I disk) (E : Env) (w : Stdos.World S) (f : Stdos.File)
    (p : Nat → Prog Str) (sched : List Nat) (t : Nat) (r : Str), P.ok w.host →
    Done ((start E w [f] p).run O I sched) t r → r = (DiskClient.exec E O I (p t) w [f]).2.2

/-- What one `Read` of the shared file returns. -/
def readShared : Prog Str := .step (.read 0 3) fun
  | .bytes b _ => .ret b
  | _ => .ret []

/-- A Pkger that has opened `/www/a.txt`. -/
def textOpened : Stdos.World Table :=
  (Stdos.openFile Demo.env (host (siteDisk siteApp)) siteStdos (b! "/www/a.txt")).1

/-- It is **false** if the file is shared: two goroutines that read the same file get different parts of it. -/
theorem C98_shared_refuted : ¬ C98_shared_statement := by
  intro h
  have hr : returned ((((start Demo.env textOpened [wwwFile] fun _ => readShared).run (host (siteDisk siteApp)) io [0, 1])).threads 1) =
      some (b! "lo") := by decide +kernel
  have hx : (DiskClient.exec Demo.env (host (siteDisk siteApp)) io readShared textOpened [wwwFile]).2.2 = b! "hel" := by decide +kernel
  have hok : (posix (siteDisk siteApp)).ok textOpened.host := by
    have hnext : textOpened.host.next = 1 := by decide +kernel
    intro fd hfd
    rw [hnext] at hfd
    have : textOpened.host.at_ = fun g => if g = 0 then some ((siteApp.2.find [b! "www", b! "a.txt"]).get rfl, 0) else none := rfl
    rw [this]
    simp [show fd ≠ 0 by omega]
  have := h Table (host (siteDisk siteApp)) io (siteDisk siteApp) (posix (siteDisk siteApp)) Demo.env textOpened wwwFile
    (fun _ => readShared) [0, 1] 1 (b! "lo") hok (done_of_returned hr)
  rw [hx] at this
  revert this
  decide

/-! ### C99 -/

/-- **C99**: what the Pkger knows of a package does not change any more, whatever the goroutines do. -/
def C99_statement : Prop :=
  ∀ (S : Type) (O : Host S) (I : Io S) (E : Env) (w : Stdos.World S) (fs : List Stdos.File) (p : Nat → Prog Unit)
    (sched sched' : List Nat) (q : Str) (i : Info),
    AMap.get ((start E w fs p).run O I sched).w.infos q = some i →
    AMap.get ((start E w fs p).run O I (sched ++ sched')).w.infos q = some i

/-- The goroutine has begun `Info` of the package without finding it in the map. -/
def LooksUp (q : Str) : Thread α → Prop
  | .run _ => False
  | .asking p _ => p = q
  | .storing p _ _ => p = q

theorem next_known {w : Stdos.World S} {th : Thread α} {q : Str} {i : Info} (h : AMap.get w.infos q = some i)
    (hn : ¬ LooksUp q th) : AMap.get (th.next O I w).1.infos q = some i ∧ ¬ LooksUp q (th.next O I w).2 := by
  cases th with
  | run a =>
    cases a with
    | ret r => exact ⟨h, hn⟩
    | sys c k => exact ⟨h, id⟩
    | info p k =>
      simp only [Thread.next]
      cases hg : AMap.get w.infos p with
      | some j => exact ⟨h, id⟩
      | none =>
        refine ⟨h, fun hp => ?_⟩
        rw [show p = q from hp, h] at hg
        cases hg
  | asking p k =>
    simp only [Thread.next]
    rcases hp : O.package p w.host with ⟨h', e | j⟩
    · exact ⟨h, id⟩
    · exact ⟨h, hn⟩
  | storing p j k =>
    refine ⟨?_, id⟩
    simp only [Thread.next]
    rw [AMap.get_set_ne _ _ (fun e => hn e.symm)]
    exact h

/-- **C99** (what holds).  Once the map knows a package and no goroutine is looking it up, what it knows does not change any
more, and the Go tool is never asked about the package again, whatever the goroutines do, in whatever order, and whatever the
operating system answers. -/
theorem C99_stays_partial {s : State S α} {q : Str} {i : Info} (h : AMap.get s.w.infos q = some i) (hn : ∀ t, ¬ LooksUp q (s.threads t))
    (sched : List Nat) : AMap.get (s.run O I sched).w.infos q = some i ∧ ∀ t, ¬ LooksUp q ((s.run O I sched).threads t) := by
  induction sched generalizing s with
  | nil => exact ⟨h, hn⟩
  | cons u us ih =>
    obtain ⟨h1, h2⟩ := next_known (O := O) (I := I) h (hn u)
    refine ih (s := s.step O I u) h1 fun t => ?_
    by_cases ht : t = u
    · subst ht; simp only [State.step, Mem.upd, if_true]; exact h2
    · simp only [State.step, Mem.upd, ht, if_false]; exact hn t

/-- **C99** (never forgotten).  A package once known remains known. -/
theorem C99_known {s : State S α} {q : Str} (h : AMap.get s.w.infos q ≠ none) (sched : List Nat) :
    AMap.get (s.run O I sched).w.infos q ≠ none := by
  induction sched generalizing s with
  | nil => exact h
  | cons u us ih =>
    refine ih (s := s.step O I u) ?_
    simp only [State.step]
    generalize s.threads u = th
    cases th with
    | run a =>
      cases a with
      | ret r => exact h
      | sys c k => exact h
      | info p k =>
        simp only [Thread.next]
        cases AMap.get s.w.infos p <;> exact h
    | asking p k =>
      simp only [Thread.next]
      rcases O.package p s.w.host with ⟨h', e | j⟩ <;> exact h
    | storing p j k =>
      simp only [Thread.next]
      rw [AMap.get_set]
      split
      · simp
      · exact h

/-- **C99** (nothing invented).  What the map says of a package it said in the beginning, or the Go tool has said it. -/
theorem C99_said (E : Env) (O : Host S) (I : Io S) (w : Stdos.World S) (fs : List Stdos.File) (p : Nat → Prog α) (sched : List Nat)
    {q : Str} {i : Info} (h : AMap.get ((start E w fs p).run O I sched).w.infos q = some i) :
    AMap.get w.infos q = some i ∨ ∃ h h', O.package q h = (h', .ok i) := by
  have key : ∀ (sched : List Nat) (s : State S α),
      (∀ q i, AMap.get s.w.infos q = some i → AMap.get w.infos q = some i ∨ ∃ h h', O.package q h = (h', .ok i)) →
      (∀ t q i k, s.threads t = .storing q i k → ∃ h h', O.package q h = (h', .ok i)) →
      ∀ q i, AMap.get (s.run O I sched).w.infos q = some i → AMap.get w.infos q = some i ∨ ∃ h h', O.package q h = (h', .ok i) := by
    intro sched
    induction sched with
    | nil => intro s h1 _; exact h1
    | cons u us ih =>
      intro s h1 h2
      refine ih (s.step O I u) ?_ ?_
      · intro q i hq
        simp only [State.step] at hq
        have h2u := h2 u
        revert hq
        generalize hth : s.threads u = th
        rw [hth] at h2u
        cases th with
        | run a =>
          cases a with
          | ret r => exact h1 q i
          | sys c k => exact h1 q i
          | info p k =>
            simp only [Thread.next]
            cases AMap.get s.w.infos p <;> exact h1 q i
        | asking p k =>
          simp only [Thread.next]
          rcases O.package p s.w.host with ⟨h', e | j⟩ <;> exact h1 q i
        | storing p j k =>
          simp only [Thread.next]
          by_cases hqp : q = p
          · subst hqp
            rw [AMap.get_set_self]
            intro hji
            cases hji
            exact Or.inr (h2u q i k rfl)
          · rw [AMap.get_set_ne _ _ hqp]
            exact h1 q i
      · intro t q i k ht
        by_cases htu : t = u
        · subst htu
          simp only [State.step, Mem.upd, if_true] at ht
          revert ht
          have h2u := h2 t
          generalize s.threads t = th
          cases th with
          | run a =>
            cases a with
            | ret r => intro ht; cases ht
            | sys c k => intro ht; cases ht
            | info p k =>
              simp only [Thread.next]
              cases AMap.get s.w.infos p <;> (intro ht; cases ht)
          | asking p k =>
            simp only [Thread.next]
            rcases hp : O.package p s.w.host with ⟨h', e | j⟩
            · intro ht; cases ht
            · intro ht
              cases ht
              exact ⟨_, _, hp⟩
          | storing p j k => intro ht; cases ht
        · simp only [State.step, Mem.upd, htu, if_false] at ht
          exact h2 t q i k ht
  refine key sched _ (fun q i h => Or.inl h) ?_ q i h
  intro t q i k ht
  cases ht

/-- **C99** (alone).  A program that runs alone never changes what is known of a package. -/
theorem C99_alone (E : Env) (O : Host S) (I : Io S) (p : Prog α) (w : Stdos.World S) (fs : List Stdos.File) {q : Str} {i : Info}
    (h : AMap.get w.infos q = some i) : AMap.get (DiskClient.exec E O I p w fs).1.infos q = some i := by
  have key : ∀ (a : Acts α) (w : Stdos.World S), AMap.get w.infos q = some i → AMap.get (a.exec O I w).1.infos q = some i := by
    intro a
    induction a with
    | ret r => intro w h; exact h
    | sys c k ih => intro w h; exact ih _ _ h
    | info p k ih =>
      intro w h
      refine ih _ _ ?_
      unfold Stdos.info
      cases hg : AMap.get w.infos p with
      | some j => exact h
      | none =>
        rcases O.package p w.host with ⟨h', e | j⟩
        · exact h
        · simp only
          rw [AMap.get_set_ne _ _ (by rintro rfl; rw [h] at hg; cases hg)]
          exact h
  have := key (progA E w.here p fs) w h
  rw [DiskFine.exec_progA] at this
  exact this

/-- A Go tool that finds the package somewhere else every time it is asked. -/
def movingHost : Host Nat where
  create _ n := (n, .error (.other 20))
  openFile _ n := (n, .error (.other 20))
  fstat _ n := (n, .error (.other 20))
  readdir _ _ n := (n, .error (.other 20))
  close _ n := (n, none)
  stat _ n := (n, .error (.other 20))
  mkdirAll _ _ n := (n, some (.other 20))
  remove _ n := (n, some (.other 20))
  removeAll _ n := (n, some (.other 20))
  tree _ n := (n, .error (.other 20))
  package _ n := (n + 1, .ok { Demo.libInfo with dir := if n = 0 then b! "/old" else b! "/new" })

/-- Nothing is read there. -/
def noIo : Io Nat := ⟨fun _ _ n => (n, [], none), fun _ _ _ n => (n, 0, none)⟩

/-- `Stat("lib:/x")`. -/
def looksAt : Prog Unit := .step (.stat (b! "lib:/x")) fun _ => .ret ()

/-- **C99 is false** while two goroutines look up the same package: both ask the Go tool, and the second answer replaces the
first, after the first has been used. -/
theorem C99_refuted : ¬ C99_statement := by
  intro h
  have h1 : (AMap.get ((start Demo.env (Stdos.new Demo.info 0) [] fun _ => looksAt).run movingHost noIo
      [0, 1, 0, 1, 0]).w.infos (b! "lib")).map (·.dir) = some (b! "/old") := by decide +kernel
  have h2 : (AMap.get ((start Demo.env (Stdos.new Demo.info 0) [] fun _ => looksAt).run movingHost noIo
      ([0, 1, 0, 1, 0] ++ [1])).w.infos (b! "lib")).map (·.dir) = some (b! "/new") := by decide +kernel
  rw [Option.map_eq_some_iff] at h1
  obtain ⟨i, e1, e2⟩ := h1
  rw [h _ _ _ _ _ _ _ _ [1] _ i e1] at h2
  simp only [Option.map_some, e2] at h2
  revert h2
  decide

/-- A case of `C99_stays_partial`: after a goroutine has looked up the package, another finds it. -/
example : let s := (start Demo.env (Stdos.new Demo.info 0) [] fun _ => looksAt).run movingHost noIo [0, 0, 0, 0]
    (∀ t, ¬ LooksUp (b! "lib") (s.threads t)) ∧ (AMap.get s.w.infos (b! "lib")).map (·.dir) = some (b! "/old") ∧
    AMap.get (s.run movingHost noIo [1, 1, 1]).w.infos (b! "lib") =
      AMap.get s.w.infos (b! "lib") := by
  intro s
  have hd : (AMap.get s.w.infos (b! "lib")).map (·.dir) = some (b! "/old") := by decide +kernel
  have hn : ∀ t, ¬ LooksUp (b! "lib") (s.threads t) := by
    intro t
    match t with
    | 0 => exact id
    | t + 1 => exact id
  refine ⟨hn, hd, ?_⟩
  cases hg : AMap.get s.w.infos (b! "lib") with
  | none => rw [hg] at hd; cases hd
  | some i => exact (C99_stays_partial hg hn [1, 1, 1]).1

end Props
end Verif
