import Verif.Spec.Site
import Verif.Props.Http
import Verif.Lemmas.DiskSkip
import Verif.Lemmas.Stdos

/-! How the file server's programs run on the disk. -/

namespace Verif
namespace DiskClient

open Mem (Details newFileInfo)
open Client (Prog)
open Disk (Node)
open Disk.Node (WF)
open Stdos (Host World File)
open Http (Server Request Resp)
open Site

variable {S : Type} {O : Host S} {I : Io S} {disk : Node}

/-- From one state to another nothing has changed but, possibly, the open file `fd`. -/
structure Apart (P : Posix O I disk) (fd : Nat) (w w' : World S) : Prop where
  here : w'.here = w.here
  infos : ∀ p, P.told w' p = P.told w p
  ok : P.ok w'.host
  rest : ∀ g, g ≠ fd → P.holds w'.host g = P.holds w.host g

theorem Apart.refl {P : Posix O I disk} {fd : Nat} {w : World S} (h : P.ok w.host) : Apart P fd w w :=
  ⟨rfl, fun _ => rfl, h, fun _ _ => rfl⟩

theorem Apart.trans {P : Posix O I disk} {fd : Nat} {w w' w'' : World S} (h : Apart P fd w w') (h' : Apart P fd w' w'') :
    Apart P fd w w'' :=
  ⟨h'.here.trans h.here, fun p => (h'.infos p).trans (h.infos p), h'.ok, fun g hg => (h'.rest g hg).trans (h.rest g hg)⟩

/-! ### Single calls -/

theorem exec_read (E : Env) (O : Host S) (I : Io S) {w : World S} {fs : List File} {k : Nat} {f : File}
    (h : fs[k]? = some f) (n : Nat) :
    exec E O I (Client.read k n) w fs =
      ({ w with host := (I.read f.fd n w.host).1 }, fs, ((I.read f.fd n w.host).2.1, (I.read f.fd n w.host).2.2)) := by
  simp [Client.read, exec, call, withFile, h]

theorem exec_seekStart (E : Env) (O : Host S) (I : Io S) {w : World S} {fs : List File} {k : Nat} {f : File}
    (h : fs[k]? = some f) (off : Int) :
    exec E O I (Client.seekStart k off) w fs =
      ({ w with host := (I.seek f.fd off 0 w.host).1 }, fs, (I.seek f.fd off 0 w.host).2.2) := by
  simp [Client.seekStart, exec, call, withFile, h]

theorem set_same {α : Type} : ∀ {l : List α} {k : Nat} {a : α}, l[k]? = some a → l.set k a = l
  | [], k, a, h => by simp at h
  | b :: l, 0, a, h => by simp at h; simp [h]
  | b :: l, k + 1, a, h => by simp at h; simp [set_same h]

theorem exec_stat (E : Env) (O : Host S) (I : Io S) {w : World S} {fs : List File} {k : Nat} {f : File}
    (h : fs[k]? = some f) {d : Details} (hd : f.info = some d) : exec E O I (Client.stat k) w fs = (w, fs, .ok d) := by
  simp [Client.stat, exec, call, withFile, h, Stdos.fileStat, hd, res, set_same h]

theorem exec_readdir (E : Env) (O : Host S) (I : Io S) {w : World S} {fs : List File} {k : Nat} {f : File}
    (h : fs[k]? = some f) (n : Int) :
    exec E O I (Client.readdir k n) w fs =
      ((Stdos.fileReaddir O w f n).1, fs, res (Stdos.fileReaddir O w f n).2) := by
  simp [Client.readdir, exec, call, withFile, h]

theorem exec_close (E : Env) (O : Host S) (I : Io S) {w : World S} {fs : List File} {k : Nat} {f : File}
    (h : fs[k]? = some f) : exec E O I (Client.close k) w fs = ((Stdos.closeFile O w f).1, fs, ()) := by
  simp [Client.close, exec, call, withFile, h]

/-! ### Reading from a position -/

theorem readFull_exec (E : Env) (P : Posix O I disk) {fs : List File} {k : Nat} {f : File} (hk : fs[k]? = some f)
    {d : Details} {b : Str} : ∀ (fuel n : Nat) {w : World S} {p : Nat}, P.ok w.host →
      P.holds w.host f.fd = some (.file d b, p) →
      ∃ w' x p', exec E O I (Http.readFull k fuel n) w fs = (w', fs, x) ∧ Apart P f.fd w w' ∧
        P.holds w'.host f.fd = some (.file d b, p')
  | 0, n, w, p, hok, h => ⟨w, [], p, rfl, Apart.refl hok, h⟩
  | fuel + 1, n, w, p, hok, h => by
    unfold Http.readFull
    by_cases hn : n = 0
    · rw [if_pos hn]; exact ⟨w, [], p, rfl, Apart.refl hok, h⟩
    · rw [if_neg hn, exec_bind, exec_read E O I hk]
      by_cases hp : p < b.length
      · obtain ⟨h', m, e1, e2, e3, e4, e5, e6, e7⟩ := P.read w.host f.fd d b p n hok h (by omega) hp
        simp only [e1]
        obtain ⟨w2, x, p2, q1, q2, q3⟩ := readFull_exec E P hk fuel (n - ((b.drop p).take m).length)
          (w := { w with host := h' }) e5 e6
        refine ⟨w2, (b.drop p).take m ++ x, p2, ?_, Apart.trans (w' := { w with host := h' }) ⟨rfl, fun _ => rfl, e5, e7⟩ q2, q3⟩
        rw [exec_bind, q1]
        rfl
      · obtain ⟨h', e1, e2, e3⟩ := P.readEnd w.host f.fd d b p n hok h (by omega) hp
        simp only [e1]
        exact ⟨_, [], p, rfl, ⟨rfl, fun _ => rfl, e2, fun g _ => by rw [e3]⟩, by simp only [e3]; exact h⟩

theorem copyN_exec (E : Env) (P : Posix O I disk) {C : Server} (hC : C.Ok) {fs : List File} {k : Nat} {f : File}
    (hk : fs[k]? = some f) {d : Details} {b : Str} : ∀ (fuel n : Nat) {w : World S} {p : Nat}, P.ok w.host →
      P.holds w.host f.fd = some (.file d b, p) → n ≤ fuel → p + n ≤ b.length →
      ∃ w', exec E O I (Http.copyN C k fuel n) w fs = (w', fs, (b.drop p).take n) ∧ Apart P f.fd w w' ∧
        P.holds w'.host f.fd = some (.file d b, p + n)
  | 0, n, w, p, hok, h, hf, _ => by
    have : n = 0 := by omega
    subst this
    exact ⟨w, by simp [Http.copyN], Apart.refl hok, by simpa using h⟩
  | fuel + 1, n, w, p, hok, h, hf, hle => by
    unfold Http.copyN
    by_cases hn : n = 0
    · subst hn; rw [if_pos rfl]; exact ⟨w, by simp, Apart.refl hok, by simpa using h⟩
    · rw [if_neg hn, exec_bind, exec_read E O I hk]
      obtain ⟨c1, c2⟩ := hC n (by omega)
      obtain ⟨h', m, e1, e2, e3, e4, e5, e6, e7⟩ := P.read w.host f.fd d b p (C.chunk n) hok h c1 (by omega)
      simp only [e1]
      have hlen : ((b.drop p).take m).length = m := by rw [List.length_take, List.length_drop]; omega
      rw [hlen]
      obtain ⟨w2, q1, q2, q3⟩ := copyN_exec E P hC hk fuel (n - m) (w := { w with host := h' }) e5 e6 (by omega) (by omega)
      refine ⟨w2, ?_, Apart.trans (w' := { w with host := h' }) ⟨rfl, fun _ => rfl, e5, e7⟩ q2, ?_⟩
      · rw [exec_bind, q1]
        have : n = m + (n - m) := by omega
        simp only [exec_pure]
        rw [← List.drop_drop]
        conv => rhs; rw [this, List.take_add]
      · rw [q3]
        have : p + m + (n - m) = p + n := by omega
        rw [this]

theorem seek_exec (E : Env) (P : Posix O I disk) {fs : List File} {k : Nat} {f : File} (hk : fs[k]? = some f)
    {d : Details} {b : Str} {w : World S} {p : Nat} (hok : P.ok w.host) (h : P.holds w.host f.fd = some (.file d b, p))
    {off : Int} (h0 : 0 ≤ off) :
    ∃ w', exec E O I (Client.seekStart k off) w fs = (w', fs, none) ∧ Apart P f.fd w w' ∧
      P.holds w'.host f.fd = some (.file d b, off.toNat) := by
  obtain ⟨h', e1, e2, e3, e4⟩ := P.seek w.host f.fd d b p off hok h h0
  refine ⟨{ w with host := h' }, ?_, ⟨rfl, fun _ => rfl, e2, e4⟩, e3⟩
  rw [exec_seekStart E O I hk, e1]

theorem copyParts_exec (E : Env) (P : Posix O I disk) {C : Server} (hC : C.Ok) {fs : List File} {k : Nat} {f : File}
    (hk : fs[k]? = some f) {d : Details} {b : Str} : ∀ (rs : List (Int × Int)) {w : World S} {p : Nat}, P.ok w.host →
      P.holds w.host f.fd = some (.file d b, p) → RangesOk b.length rs →
      ∃ w' p', exec E O I (Http.copyParts C k rs) w fs = (w', fs, rs.map fun r => (r, slice b r)) ∧ Apart P f.fd w w' ∧
        P.holds w'.host f.fd = some (.file d b, p')
  | [], w, p, hok, h, _ => ⟨w, p, rfl, Apart.refl hok, h⟩
  | (s, l) :: rs, w, p, hok, h, hr => by
    obtain ⟨r1, r2, r3⟩ := hr (s, l) (by simp)
    simp only at r1 r2 r3
    obtain ⟨w1, e1, e2, e3⟩ := seek_exec E P hk hok h r1
    unfold Http.copyParts
    rw [exec_bind, e1]
    simp only
    obtain ⟨w2, q1, q2, q3⟩ := copyN_exec E P hC hk l.toNat l.toNat e2.ok e3 (Nat.le_refl _) (by omega)
    rw [exec_bind, q1]
    have hlen : ¬ ((b.drop s.toNat).take l.toNat).length < l.toNat := by
      rw [List.length_take, List.length_drop]; omega
    simp only [if_neg hlen]
    obtain ⟨w3, p3, t1, t2, t3⟩ := copyParts_exec E P hC hk rs q2.ok q3 (fun r h' => hr r (List.mem_cons_of_mem _ h'))
    refine ⟨w3, p3, ?_, (e2.trans q2).trans t2, t3⟩
    rw [exec_bind, t1]
    rfl

theorem body_exec (E : Env) (P : Posix O I disk) {C : Server} (hC : C.Ok) {r : Request} {fs : List File} {k : Nat}
    {f : File} (hk : fs[k]? = some f) {d : Details} {b : Str} {w : World S} {p : Nat} (hok : P.ok w.host)
    (h : P.holds w.host f.fd = some (.file d b, p)) {n : Int} (hn : 0 ≤ n) (hle : p + n ≤ b.length) :
    ∃ w' p', exec E O I (Http.body C r k n) w fs = (w', fs, if r.head then [] else slice b (p, n)) ∧ Apart P f.fd w w' ∧
      P.holds w'.host f.fd = some (.file d b, p') := by
  unfold Http.body
  by_cases hh : r.head = true
  · exact ⟨w, p, by simp [hh], Apart.refl hok, h⟩
  · obtain ⟨w1, e1, e2, e3⟩ := copyN_exec E P hC hk n.toNat n.toNat hok h (Nat.le_refl _) (by omega)
    refine ⟨w1, _, ?_, e2, e3⟩
    simp only [hh, Bool.false_eq_true, if_false]
    rw [e1]
    rfl

theorem sendContent_exec (E : Env) (P : Posix O I disk) {C : Server} (hC : C.Ok) {r : Request} (hr : RequestOk r)
    {fs : List File} {k : Nat} {f : File} (hk : fs[k]? = some f) {d : Details} {b : Str}
    (hsize : d.size = (b.length : Int)) {w : World S} (hok : P.ok w.host)
    (h : P.holds w.host f.fd = some (.file d b, 0)) (hcond : r.cond d.modTime = none) :
    ∃ w' p', exec E O I (Http.sendContent C r k d) w fs = (w', fs, fileAnswer r d b) ∧ Apart P f.fd w w' ∧
      P.holds w'.host f.fd = some (.file d b, p') := by
  unfold Http.sendContent fileAnswer
  simp only [hcond]
  cases hrs : r.ranges d.modTime d.size with
  | bad => exact ⟨w, 0, rfl, Apart.refl hok, h⟩
  | ok rs =>
    have hall : RangesOk b.length (if (rs.map (·.2)).sum > (b.length : Int) then [] else rs) := by
      split
      · intro r hr; cases hr
      · have := hr _ _ rs hrs
        rw [hsize] at this
        simpa using this
    simp only [hsize, Http.total]
    revert hall
    generalize (if (rs.map (·.2)).sum > (b.length : Int) then [] else rs) = l
    intro hall
    match l, hall with
    | [], _ =>
      obtain ⟨w1, p1, e1, e2, e3⟩ := body_exec E P hC (r := r) hk hok h (n := (b.length : Int)) (by omega) (by omega)
      refine ⟨w1, p1, ?_, e2, e3⟩
      simp only [exec_bind, e1, exec_pure, contentAnswer]
      simp [slice]
    | [(s, n)], hall =>
      obtain ⟨h1, h2, h3⟩ := hall (s, n) (by simp)
      simp only at h1 h2 h3
      obtain ⟨w1, e1, e2, e3⟩ := seek_exec E P hk hok h h1
      obtain ⟨w2, p2, q1, q2, q3⟩ := body_exec E P hC (r := r) hk e2.ok e3 h2 (by omega)
      refine ⟨w2, p2, ?_, e2.trans q2, q3⟩
      simp only [exec_bind, e1, q1, exec_pure, contentAnswer]
      have : ((s.toNat : Nat) : Int) = s := by omega
      rw [this]
    | a :: c :: l, hall =>
      simp only [contentAnswer]
      by_cases hh : r.head = true
      · exact ⟨w, 0, by simp [hh], Apart.refl hok, h⟩
      · obtain ⟨w1, p1, e1, e2, e3⟩ := copyParts_exec E P hC hk (a :: c :: l) hok h hall
        refine ⟨w1, p1, ?_, e2, e3⟩
        simp only [hh, Bool.false_eq_true, if_false, exec_bind, e1, exec_pure]

theorem serveContent_exec (E : Env) (P : Posix O I disk) {C : Server} (hC : C.Ok) {r : Request} (hr : RequestOk r)
    {fs : List File} {k : Nat} {f : File} (hk : fs[k]? = some f) {d : Details} {b : Str}
    (hsize : d.size = (b.length : Int)) {w : World S} (hok : P.ok w.host)
    (h : P.holds w.host f.fd = some (.file d b, 0)) :
    ∃ w' p', exec E O I (Http.serveContent C r k d) w fs = (w', fs, fileAnswer r d b) ∧ Apart P f.fd w w' ∧
      P.holds w'.host f.fd = some (.file d b, p') := by
  unfold Http.serveContent
  cases hcond : r.cond d.modTime with
  | some code => exact ⟨w, 0, by simp [fileAnswer, hcond], Apart.refl hok, h⟩
  | none =>
    simp only
    by_cases ht : C.typed d.name = true
    · rw [if_pos ht]; exact sendContent_exec E P hC hr hk hsize hok h hcond
    · rw [if_neg ht]
      obtain ⟨w1, x, p1, e1, e2, e3⟩ := readFull_exec E P hk 512 512 hok h
      obtain ⟨w2, q1, q2, q3⟩ := seek_exec E P hk e2.ok e3 (Int.le_refl 0)
      obtain ⟨w3, p3, t1, t2, t3⟩ := sendContent_exec E P hC hr hk hsize q2.ok q3 hcond
      refine ⟨w3, p3, ?_, (e2.trans q2).trans t2, t3⟩
      simp only [exec_bind, e1, q1, t1]

/-- Sorting does not depend on the order of what is sorted. -/
theorem sortBy_map {α β : Type} (key : α → Str) (g : β → α) (l : List β) :
    sortBy key (l.map g) = (sortBy (fun x => key (g x)) l).map g := by
  have ins : ∀ (b : β) (l : List β), insertBy key (g b) (l.map g) = (insertBy (fun x => key (g x)) b l).map g := by
    intro b l
    induction l with
    | nil => rfl
    | cons a l ih =>
      simp only [List.map_cons, insertBy]
      split
      · rfl
      · simp [ih]
  induction l with
  | nil => rfl
  | cons a l ih => simp only [List.map_cons, sortBy, ih, ins]

theorem nodup_key {α : Type} (key : α → Str) : ∀ {l : List α}, (l.map key).Nodup → ∀ x ∈ l, ∀ y ∈ l, key x = key y → x = y
  | [], _, x, hx, _, _, _ => by cases hx
  | a :: l, h, x, hx, y, hy, he => by
    simp only [List.map_cons, List.nodup_cons] at h
    rcases List.mem_cons.mp hx with h1 | h1 <;> rcases List.mem_cons.mp hy with h2 | h2
    · rw [h1, h2]
    · exact absurd (by rw [← h1, he]; exact List.mem_map_of_mem h2) h.1
    · exact absurd (by rw [← h2, ← he]; exact List.mem_map_of_mem h1) h.1
    · exact nodup_key key h.2 x h1 y h2 he

theorem named_isDir {n : Node} (h : Named n) : n.details.isDir = n.isDir := by
  cases h with
  | file d b h1 h2 => exact h1
  | dir d kids h1 h2 h3 => exact h1

/-- The links of a page, from the entries in any order. -/
theorem links_eq {d : Details} {kids : List (Str × Node)} (hn : Named (.dir d kids)) (hw : (kids.map (·.1)).Nodup)
    {l : List Details} (hp : l.Perm (kids.map (·.2.details))) :
    (sortBy (·.name) l).map Http.linkText = (sortBy (·.1) kids).map fun e => if e.2.isDir then e.1 ++ [Str.slash] else e.1 := by
  cases hn with
  | dir _ _ h1 h2 h3 =>
    have hnames : (kids.map (·.2.details)).map (·.name) = kids.map (·.1) := by
      rw [List.map_map]
      exact List.map_congr_left h2
    have hinj : ∀ x ∈ kids.map (·.2.details), ∀ y ∈ kids.map (·.2.details), x.name = y.name → x = y := by
      refine nodup_key (fun x : Details => x.name) ?_
      rw [hnames]
      exact hw
    rw [sortBy_unique (fun x : Details => x.name) hinj (sortBy_sorted _ l) ((sortBy_perm _ l).trans hp), sortBy_map]
    have hkey : sortBy (fun x : Str × Node => x.2.details.name) kids = sortBy (·.1) kids := by
      refine sortBy_unique (fun x : Str × Node => x.1) (nodup_key (fun x : Str × Node => x.1) hw) ?_ (sortBy_perm _ _)
      refine List.Pairwise.imp_of_mem ?_ (sortBy_sorted (fun x : Str × Node => x.2.details.name) kids)
      intro a b ha hb hab
      rw [h2 a ((mem_sortBy _ _ _).mp ha), h2 b ((mem_sortBy _ _ _).mp hb)] at hab
      exact hab
    rw [hkey, List.map_map]
    refine List.map_congr_left ?_
    intro e he
    have he := (mem_sortBy _ _ _).mp he
    simp only [Function.comp, Http.linkText]
    rw [named_isDir (h3 e he), h2 e he]

theorem finish_exec (E : Env) (P : Posix O I disk) {C : Server} (hC : C.Ok) {r : Request} (hr : RequestOk r)
    {fs : List File} {k : Nat} {f : File} (hk : fs[k]? = some f) {n : Node} (hn : Named n) (hw : n.WF)
    {w : World S} (hok : P.ok w.host) (h : P.holds w.host f.fd = some (n, 0)) :
    ∃ w' p', exec E O I (Http.finish C r k n.details) w fs = (w', fs, found r n) ∧ Apart P f.fd w w' ∧
      P.holds w'.host f.fd = some (n, p') := by
  unfold Http.finish
  rw [named_isDir hn]
  cases n with
  | file d b =>
    cases hn with
    | file _ _ h1 h2 =>
      simp only [Node.isDir, Bool.false_eq_true, if_false]
      exact serveContent_exec E P hC hr hk h2 hok h
  | dir d kids =>
    simp only [Node.isDir, if_true, Node.details, found, pageAnswer]
    cases hcond : r.cond d.modTime with
    | some code => exact ⟨w, 0, rfl, Apart.refl hok, h⟩
    | none =>
      obtain ⟨h', l, p, e1, e2, e3, e4, e5⟩ := P.readdir w.host f.fd d kids (-1) hok h (by decide)
      refine ⟨{ w with host := h' }, p, ?_, ⟨rfl, fun _ => rfl, e3, e5⟩, e4⟩
      have hrd : Stdos.fileReaddir O w f (-1) = ({ w with host := h' }, .ok l) := by simp [Stdos.fileReaddir, e1]
      simp only [Http.dirList, exec_bind, exec_readdir E O I hk, hrd, res, exec_pure]
      rw [links_eq hn hw.1 e2]
      rfl

/-! ### Opening -/

/-- From one state to another nothing has changed, except that files may have been left open if `pkger.Dir` is
served. -/
structure Left (P : Posix O I disk) (src : Http.Source) (w w' : World S) : Prop where
  here : w'.here = w.here
  infos : ∀ p, P.told w' p = P.told w p
  ok : P.ok w'.host
  rest : ∀ g, (src = .handle ∨ P.holds w.host g ≠ none) → P.holds w'.host g = P.holds w.host g

theorem Left.refl {P : Posix O I disk} {src : Http.Source} {w : World S} (h : P.ok w.host) : Left P src w w :=
  ⟨rfl, fun _ => rfl, h, fun _ _ => rfl⟩

theorem Left.trans {P : Posix O I disk} {src : Http.Source} {w w' w'' : World S} (h : Left P src w w')
    (h' : Left P src w' w'') : Left P src w w'' :=
  ⟨h'.here.trans h.here, fun p => (h'.infos p).trans (h.infos p), h'.ok, fun g hg => by
    rw [h'.rest g (by rcases hg with hg | hg
                      · exact Or.inl hg
                      · exact Or.inr (by rw [h.rest g (Or.inr hg)]; exact hg)), h.rest g hg]⟩

/-- As `Left`, with the new open file `fd`. -/
structure Opened (P : Posix O I disk) (src : Http.Source) (fd : Nat) (w w' : World S) : Prop where
  here : w'.here = w.here
  infos : ∀ p, P.told w' p = P.told w p
  ok : P.ok w'.host
  fresh : P.holds w.host fd = none
  rest : ∀ g, g ≠ fd → (src = .handle ∨ P.holds w.host g ≠ none) → P.holds w'.host g = P.holds w.host g

/-- Use of the new file. -/
theorem Opened.apart {P : Posix O I disk} {src : Http.Source} {fd : Nat} {w w' w'' : World S} (h : Opened P src fd w w')
    (h' : Apart P fd w' w'') : Opened P src fd w w'' :=
  ⟨h'.here.trans h.here, fun p => (h'.infos p).trans (h.infos p), h'.ok, h.fresh, fun g hg hs => (h'.rest g hg).trans (h.rest g hg hs)⟩

/-- Other opens and closes in between. -/
theorem Opened.left {P : Posix O I disk} {src : Http.Source} {fd : Nat} {w w' w'' : World S} (h : Opened P src fd w w')
    (h' : Left P src w' w'') : Opened P src fd w w'' :=
  ⟨h'.here.trans h.here, fun p => (h'.infos p).trans (h.infos p), h'.ok, h.fresh, fun g hg hs => by
    rw [h'.rest g (by rcases hs with hs | hs
                      · exact Or.inl hs
                      · exact Or.inr (by rw [h.rest g hg (Or.inr hs)]; exact hs)), h.rest g hg hs]⟩

/-- Closing the new file. -/
theorem Opened.close {P : Posix O I disk} {src : Http.Source} {f : File} {w w' : World S} (h : Opened P src f.fd w w')
    {x : Node × Nat} (hx : P.holds w'.host f.fd = some x) : Left P src w (Stdos.closeFile O w' f).1 := by
  obtain ⟨h', e1, e2, e3, e4⟩ := P.close w'.host f.fd x h.ok hx
  simp only [Stdos.closeFile, e1]
  refine ⟨h.here, h.infos, e2, ?_⟩
  intro g hg
  by_cases hgf : g = f.fd
  · rw [hgf, e3, h.fresh]
  · simp only
    rw [e4 g hgf, h.rest g hgf hg]

/-- `Info` answers what is known, and what is known stays the same. -/
theorem info_told (P : Posix O I disk) {w : World S} (hok : P.ok w.host) (p : Str) :
    ∃ w', Stdos.info O w p = (w', P.told w p) ∧ w'.here = w.here ∧ (∀ q, P.told w' q = P.told w q) ∧ P.ok w'.host ∧
      P.holds w'.host = P.holds w.host := by
  cases hc : AMap.get w.infos p with
  | some i => exact ⟨w, by simp [Stdos.info, Posix.told, hc], rfl, fun _ => rfl, hok, rfl⟩
  | none =>
    obtain ⟨h', e1, e2, e3⟩ := P.package w.host p hok
    cases ht : P.tool p with
    | error e =>
      rw [ht] at e1
      exact ⟨{ w with host := h' }, by simp [Stdos.info, Posix.told, hc, e1, ht], rfl, fun _ => rfl, e2, e3⟩
    | ok i =>
      rw [ht] at e1
      refine ⟨{ w with host := h', infos := AMap.set w.infos p i }, by simp [Stdos.info, Posix.told, hc, e1, ht], rfl, ?_, e2, e3⟩
      intro q
      simp only [Posix.told, AMap.get_set]
      by_cases hq : q = p
      · subst hq
        simp [hc, ht]
      · simp [hq]

/-- The Pkger of the package `c`, in a module whose root package, as far as is known, has the directory `/m₁/.../mₙ`. -/
structure Own (P : Posix O I disk) (c : Info) (m : List Str) (w : World S) : Prop where
  here : w.here = c
  root : ∃ r, P.told w c.module.path = .ok r ∧ r.dir = GoPath.mk m
  good : GoPath.Good m

theorem Own.left {P : Posix O I disk} {c : Info} {m : List Str} {w w' : World S} (h : Own P c m w) (h1 : w'.here = w.here)
    (h2 : ∀ p, P.told w' p = P.told w p) : Own P c m w' := ⟨by rw [h1]; exact h.here, by rw [h2]; exact h.root, h.good⟩

theorem Own.locate {P : Posix O I disk} {c : Info} {m : List Str} {w : World S} (h : Own P c m w) (hok : P.ok w.host) (E : Env)
    {es : List Str} {name : Str} (hp : E.parse c name = .ok ⟨c.module.path, GoPath.mk es⟩) (hg : GoPath.Good es) :
    ∃ w' r, Stdos.locate E O w name = (w', .ok (⟨c.module.path, GoPath.mk es⟩, r)) ∧
      GoPath.join2 r.dir (GoPath.mk es) = GoPath.mk (m ++ es) ∧ w'.here = w.here ∧ (∀ p, P.told w' p = P.told w p) ∧
      P.ok w'.host ∧ P.holds w'.host = P.holds w.host := by
  obtain ⟨r, h1, h2⟩ := h.root
  obtain ⟨w', e1, e2, e3, e4, e5⟩ := info_told P hok c.module.path
  refine ⟨w', r, ?_, by rw [h2]; exact GoPath.join2_mk h.good hg, e2, e3, e4, e5⟩
  unfold Stdos.locate Stdos.parse
  rw [h.here, hp]
  simp only [e1, h1]

theorem openFile_exec (E : Env) (P : Posix O I disk) (src : Http.Source) {c : Info} {m : List Str}
    {w : World S} (h : Own P c m w) (hok : P.ok w.host) {es : List Str} {name : Str}
    (hp : E.parse c name = .ok ⟨c.module.path, GoPath.mk es⟩) (hges : GoPath.Good es) :
    (disk.find (m ++ es) = none → ∃ w' e, Stdos.openFile E O w name = (w', .error e) ∧ Left P src w w' ∧
      (e.isNotExist = true ↔ ¬ BelowFile disk (m ++ es))) ∧
    (∀ k, disk.find (m ++ es) = some k → ∃ w' f, Stdos.openFile E O w name = (w', .ok f) ∧ Opened P src f.fd w w' ∧
      f.info = some k.details ∧ f.path.name = GoPath.mk es ∧ P.holds w'.host f.fd = some (k, 0)) := by
  obtain ⟨w0, r, h1, h2, h3, h4, h5, h6⟩ := h.locate hok E hp hges
  have hg : GoPath.Good (m ++ es) := GoPath.good_append.mpr ⟨h.good, hges⟩
  constructor
  · intro hf
    obtain ⟨h', e, e1, e2, e3, e4⟩ := P.openAbsent w0.host (m ++ es) h5 hg hf
    refine ⟨{ w0 with host := h' }, e, ?_, ⟨h3, h4, e2, fun g _ => by simp only [e3, h6]⟩, e4⟩
    simp [Stdos.openFile, h1, h2, e1]
  · intro k hf
    obtain ⟨h', fd, e1, e2, e3, e4, e5⟩ := P.openThere w0.host (m ++ es) k h5 hg hf
    obtain ⟨h'', q1, q2, q3⟩ := P.fstat h' fd k 0 e2 e4
    refine ⟨{ w0 with host := h'' }, ⟨fd, some (newFileInfo k.details), r, ⟨c.module.path, GoPath.mk es⟩⟩, ?_,
      ⟨h3, h4, q2, by rw [← h6]; exact e3, fun g hg _ => by simp only [q3]; rw [e5 g hg, h6]⟩, rfl, rfl,
      by simp only [q3]; exact e4⟩
    simp [Stdos.openFile, h1, h2, e1, Stdos.wrapFile, q1]

/-- The directory `/d₁/.../dₙ` of the package is served: through a handle of it, the program's first, or as `pkger.Dir`
with a name of it. -/
def Serves (E : Env) (c : Info) (fs : List File) (ds : List Str) : Http.Source → Prop
  | .handle => ∃ f, fs[0]? = some f ∧ f.path.name = GoPath.mk ds
  | .dir d => E.parse c d = .ok ⟨c.module.path, GoPath.mk ds⟩

theorem exec_openIn (E : Env) (O : Host S) (I : Io S) {w : World S} {fs : List File} {k : Nat} {f : File}
    (h : fs[k]? = some f) (name : Str) :
    exec E O I (Client.openIn k name) w fs =
      ((Stdos.fileOpen E O w f name).1, match (Stdos.fileOpen E O w f name).2 with
        | .ok g => (fs ++ [g], .ok fs.length)
        | .error e => (fs, .err e)) := by
  simp only [Client.openIn, exec, call, withFile, h]
  generalize Stdos.fileOpen E O w f name = x
  obtain ⟨w', r⟩ := x
  cases r <;> rfl

theorem exec_openFile (E : Env) (O : Host S) (I : Io S) (w : World S) (fs : List File) (name : Str) :
    exec E O I (Client.openFile name) w fs =
      ((Stdos.openFile E O w name).1, match (Stdos.openFile E O w name).2 with
        | .ok g => (fs ++ [g], .ok fs.length)
        | .error e => (fs, .err e)) := by
  simp only [Client.openFile, exec, call]
  generalize Stdos.openFile E O w name = x
  obtain ⟨w', r⟩ := x
  cases r <;> rfl

theorem snoc_last {α : Type} (l : List α) (x : α) : (l ++ [x])[l.length]? = some x := by simp

theorem snoc_keep {α : Type} {l : List α} {x y : α} {j : Nat} (h : l[j]? = some y) : (l ++ [x])[j]? = some y := by
  rw [List.getElem?_append_left (List.getElem?_eq_some_iff.mp h).1]
  exact h

/-- Opening through a handle of the directory. -/
theorem openIn_exec (E : Env) (P : Posix O I disk) (src : Http.Source) {c : Info} (hl : ParseLaws E c) {m : List Str}
    {w : World S} (h : Own P c m w) (hok : P.ok w.host) {fs : List File} {j : Nat} {f0 : File} (hj : fs[j]? = some f0)
    {ds cs : List Str} (hd : f0.path.name = GoPath.mk ds) (hg : GoPath.Good (ds ++ cs))
    (hn : Ordinary c (GoPath.mk (ds ++ cs))) :
    (disk.find (m ++ (ds ++ cs)) = none → ∃ w' e, exec E O I (Client.openIn j (GoPath.mk cs)) w fs = (w', fs, .err e) ∧
      Left P src w w' ∧ (e.isNotExist = true ↔ ¬ BelowFile disk (m ++ (ds ++ cs)))) ∧
    (∀ k, disk.find (m ++ (ds ++ cs)) = some k → ∃ w' f, exec E O I (Client.openIn j (GoPath.mk cs)) w fs =
        (w', fs ++ [f], .ok fs.length) ∧ Opened P src f.fd w w' ∧ f.info = some k.details ∧
        P.holds w'.host f.fd = some (k, 0)) := by
  obtain ⟨g1, g2⟩ := GoPath.good_append.mp hg
  obtain ⟨h1, h2⟩ := openFile_exec E P src h hok
    (by rw [hn.parse hl, GoPath.rootedElems_mk hg]) hg
  have hfo : Stdos.fileOpen E O w f0 (GoPath.mk cs) = Stdos.openFile E O w (GoPath.mk (ds ++ cs)) := by
    unfold Stdos.fileOpen
    rw [hd, GoPath.join2_mk g1 g2]
  rw [exec_openIn E O I hj, hfo]
  constructor
  · intro hf
    obtain ⟨w', e, e1, e2, e3⟩ := h1 hf
    exact ⟨w', e, by rw [e1], e2, e3⟩
  · intro k hf
    obtain ⟨w', f, e1, e2, e3, _, e5⟩ := h2 k hf
    exact ⟨w', f, by rw [e1], e2, e3, e5⟩

/-- Opening through what is served. -/
theorem openBy_exec (E : Env) (P : Posix O I disk) {src : Http.Source} {c : Info} (hl : ParseLaws E c) {m : List Str}
    {w : World S} (h : Own P c m w) (hok : P.ok w.host) {fs : List File} {ds cs : List Str} (hs : Serves E c fs ds src)
    {site : Node} (hsite : disk.find (m ++ ds) = some site) (hg : GoPath.Good (ds ++ cs))
    (hn : Ordinary c (GoPath.mk (ds ++ cs))) :
    (site.find cs = none → ∃ w' fs' e, exec E O I (Http.openBy src (GoPath.mk cs)) w fs = (w', fs', .err e) ∧
      Left P src w w' ∧ (∀ (j : Nat) (f : File), fs[j]? = some f → fs'[j]? = some f) ∧
      (e.isNotExist = true ↔ ¬ BelowFile disk (m ++ (ds ++ cs)))) ∧
    (∀ k, site.find cs = some k → ∃ w' fs' i f, exec E O I (Http.openBy src (GoPath.mk cs)) w fs = (w', fs', .ok i) ∧
        (∀ (j : Nat) (f : File), fs[j]? = some f → fs'[j]? = some f) ∧ fs'[i]? = some f ∧
        Opened P src f.fd w w' ∧ f.info = some k.details ∧ P.holds w'.host f.fd = some (k, 0)) := by
  have hfind : disk.find (m ++ (ds ++ cs)) = site.find cs := by
    rw [← List.append_assoc, Disk.find_append, hsite]
  cases src with
  | handle =>
    obtain ⟨f0, h0, hd⟩ := hs
    obtain ⟨h1, h2⟩ := openIn_exec E P .handle hl h hok h0 hd hg hn
    rw [hfind] at h1 h2
    constructor
    · intro hf
      obtain ⟨w', e, e1, e2, e3⟩ := h1 hf
      exact ⟨w', fs, e, e1, e2, fun _ _ h => h, e3⟩
    · intro k hf
      obtain ⟨w', f, e1, e2, e3, e4⟩ := h2 k hf
      exact ⟨w', fs ++ [f], _, f, e1, fun j x hx => snoc_keep hx, snoc_last _ _, e2, e3, e4⟩
  | dir d =>
    obtain ⟨w0, f0, a1, a2, a3, a4, a5⟩ := (openFile_exec E P (.dir d) h hok hs
      (GoPath.good_append.mp hg).1).2 site hsite
    have hown := h.left a2.here a2.infos
    obtain ⟨h1, h2⟩ := openIn_exec E P (.dir d) hl hown a2.ok (fs := fs ++ [f0]) (snoc_last fs f0) a4 hg hn
    rw [hfind] at h1 h2
    have hrest : ∀ g, P.holds w.host g ≠ none → g ≠ f0.fd := by
      intro g hg he
      rw [he] at hg
      exact hg a2.fresh
    constructor
    · intro hf
      obtain ⟨w', e, e1, e2, e3⟩ := h1 hf
      refine ⟨w', fs ++ [f0], e, ?_, ⟨e2.here.trans a2.here, fun p => (e2.infos p).trans (a2.infos p), e2.ok, ?_⟩,
        fun j x hx => snoc_keep hx, e3⟩
      · simp only [Http.openBy, exec_bind, exec_openFile, a1]
        exact e1
      · intro g hs
        rcases hs with hs | hs
        · cases hs
        · have := a2.rest g (hrest g hs) (Or.inr hs)
          rw [e2.rest g (Or.inr (by rw [this]; exact hs)), this]
    · intro k hf
      obtain ⟨w', f, e1, e2, e3, e4⟩ := h2 k hf
      refine ⟨w', fs ++ [f0] ++ [f], _, f, ?_, fun j x hx => snoc_keep (snoc_keep hx), snoc_last _ _,
        ⟨e2.here.trans a2.here, fun p => (e2.infos p).trans (a2.infos p), e2.ok, ?_, ?_⟩, e3, e4⟩
      · simp only [Http.openBy, exec_bind, exec_openFile, a1]
        exact e1
      · cases hh : P.holds w.host f.fd with
        | none => rfl
        | some x =>
          exfalso
          have hne : P.holds w.host f.fd ≠ none := by rw [hh]; simp
          have := a2.rest f.fd (hrest _ hne) (Or.inr hne)
          rw [e2.fresh] at this
          exact hne this.symm
      · intro g hgf hs
        rcases hs with hs | hs
        · cases hs
        · have := a2.rest g (hrest g hs) (Or.inr hs)
          rw [e2.rest g hgf (Or.inr (by rw [this]; exact hs)), this]

theorem named_find : ∀ (cs : List Str) {n k : Node}, Named n → n.find cs = some k → Named k
  | [], n, k, h, hf => by simp only [Node.find, Option.some.injEq] at hf; exact hf ▸ h
  | c :: cs, .file _ _, k, h, hf => by simp [Node.find] at hf
  | c :: cs, .dir d kids, k, h, hf => by
    cases h with
    | dir _ _ h1 h2 h3 =>
      simp only [Node.find] at hf
      cases hfi : kids.find? (fun e => e.1 == c) with
      | none => rw [hfi] at hf; cases hf
      | some e =>
        obtain ⟨nm, n⟩ := e
        rw [hfi] at hf
        exact named_find cs (h3 _ (List.mem_of_find?_eq_some hfi)) hf

/-! ### Serving -/

theorem serve_exec (E : Env) (P : Posix O I disk) {C : Server} (hC : C.Ok) {r : Request} (hr : RequestOk r)
    {src : Http.Source} {c : Info} (hl : ParseLaws E c) {m : List Str} {w : World S} (h : Own P c m w) (hok : P.ok w.host)
    {fs : List File} {ds : List Str} (hs : Serves E c fs ds src) {site : Node} (hsite : disk.find (m ++ ds) = some site)
    (hw : site.WF) (hnm : Named site) (hg : GoPath.Good ds)
    (hn : Ordinary c (GoPath.mk (ds ++ GoPath.rootedElems (rootedPath r.path))))
    (hni : Ordinary c (GoPath.mk (ds ++ (GoPath.rootedElems (rootedPath r.path) ++ [b! "index.html"]))))  :
    ∃ w' fs' resp, exec E O I (Http.serve C src r) w fs = (w', fs', resp) ∧ Left P src w w' ∧
      (¬ BelowFile disk (m ++ (ds ++ GoPath.rootedElems (rootedPath r.path))) → resp = answer site r) ∧
      (BelowFile disk (m ++ (ds ++ GoPath.rootedElems (rootedPath r.path))) →
        Str.hasSuffix (rootedPath r.path) (b! "/index.html") = false → resp = .status 500) := by
  have hg1 : GoPath.Good (ds ++ GoPath.rootedElems (rootedPath r.path)) :=
    GoPath.good_append.mpr ⟨hg, GoPath.good_rootedElems _⟩
  have hg2 : GoPath.Good (ds ++ (GoPath.rootedElems (rootedPath r.path) ++ [b! "index.html"])) := by
    rw [← List.append_assoc]
    exact GoPath.good_append.mpr ⟨hg1, by decide⟩
  have hclean : GoPath.clean (rootedPath r.path) = GoPath.mk (GoPath.rootedElems (rootedPath r.path)) :=
    GoPath.clean_of_rooted (Props.rooted_rootedPath r.path)
  have hserve : Http.serve C src r = Http.serveFile C src r (rootedPath r.path)
      (GoPath.mk (GoPath.rootedElems (rootedPath r.path))) := by
    rw [← hclean]; rfl
  rw [hserve]
  have hidx := Props.index_name (GoPath.good_rootedElems (rootedPath r.path))
  unfold Http.serveFile answer
  generalize hcs : GoPath.rootedElems (rootedPath r.path) = cs at *
  by_cases hsuf : Str.hasSuffix (rootedPath r.path) Http.indexPage = true
  · rw [if_pos hsuf]
    have hsuf' : Str.hasSuffix (rootedPath r.path) (b! "/index.html") = true := hsuf
    exact ⟨w, fs, _, rfl, Left.refl hok, fun _ => by simp [hsuf'], fun _ h => by rw [hsuf'] at h; cases h⟩
  rw [if_neg hsuf]
  have hsuf' : Str.hasSuffix (rootedPath r.path) (b! "/index.html") = false := by
    exact Bool.eq_false_iff.mpr hsuf
  simp only [hsuf', Bool.false_eq_true, if_false, hcs]
  obtain ⟨o1, o2⟩ := openBy_exec E P hl h hok hs hsite hg1 hn
  cases hf : site.find cs with
  | none =>
    obtain ⟨w1, fs1, e, e1, e2, _, e4⟩ := o1 hf
    refine ⟨w1, fs1, .status (Http.errCode e), ?_, e2, ?_, ?_⟩
    · simp only [exec_bind, e1, exec_pure]
    · intro hb; simp [Http.errCode, e4.mpr hb]
    · intro hb _
      have : e.isNotExist = false := by
        cases hx : e.isNotExist with
        | false => rfl
        | true => exact absurd hb (e4.mp hx)
      simp [Http.errCode, this]
  | some k =>
    have hnb : ¬ BelowFile disk (m ++ (ds ++ cs)) := by
      rintro ⟨a, b, n, h1, h2, h3, h4⟩
      have : disk.find (m ++ (ds ++ cs)) = some k := by rw [← List.append_assoc, Disk.find_append, hsite]; exact hf
      rw [h1, Disk.find_append, h3] at this
      cases n with
      | file d x =>
        cases b with
        | nil => exact h2 rfl
        | cons b bs => simp [Node.find] at this
      | dir d kids => cases h4
    obtain ⟨w1, fs1, i, f, e1, e2, e3, e4, e5, e6⟩ := o2 k hf
    have hnk := named_find cs hnm hf
    have hwk : Node.WF k := Disk.find_wf _ hw hf
    have hstat : exec E O I (Client.stat i) w1 fs1 = (w1, fs1, .ok k.details) := exec_stat E O I e3 e5
    have hdir := named_isDir hnk
    -- what remains is to run `serveOpened` and to close the file
    have key : ∀ resp, (∃ w2 fs2 p, exec E O I (Http.serveOpened C src r (rootedPath r.path) (GoPath.mk cs) i k.details) w1 fs1 =
        (w2, fs2, resp) ∧ Opened P src f.fd w w2 ∧ P.holds w2.host f.fd = some (k, p) ∧ fs2[i]? = some f) →
        ∃ w' fs' resp', exec E O I (Http.openBy src (GoPath.mk cs) >>= fun
          | .panic => pure .panicked
          | .err e => pure (.status (Http.errCode e))
          | .ok k =>
            Client.stat k >>= fun
              | .panic => Client.close k >>= fun _ => pure .panicked
              | .err e => Client.close k >>= fun _ => pure (.status (Http.errCode e))
              | .ok d => Http.serveOpened C src r (rootedPath r.path) (GoPath.mk cs) k d >>= fun resp =>
                  Client.close k >>= fun _ => pure resp) w fs = (w', fs', resp') ∧ Left P src w w' ∧ resp' = resp := by
      rintro resp ⟨w2, fs2, p, q1, q2, q3, q4⟩
      refine ⟨(Stdos.closeFile O w2 f).1, fs2, resp, ?_, q2.close q3, rfl⟩
      simp only [exec_bind, e1, hstat, q1, exec_close E O I q4, exec_pure]
    suffices hh : ∃ w2 fs2 p, exec E O I (Http.serveOpened C src r (rootedPath r.path) (GoPath.mk cs) i k.details) w1 fs1 =
        (w2, fs2, match some k with
          | none => .status 404
          | some (.file d data) =>
            if (rootedPath r.path).getLast? = some Str.slash then .redirect (b! "../" ++ GoPath.base (rootedPath r.path))
            else fileAnswer r d data
          | some (.dir d kids) =>
            if (rootedPath r.path).getLast? = some Str.slash then
              match (Node.dir d kids).find [b! "index.html"] with
              | some n => found r n
              | none => pageAnswer r d kids
            else .redirect (GoPath.base (rootedPath r.path) ++ [Str.slash])) ∧
        Opened P src f.fd w w2 ∧ P.holds w2.host f.fd = some (k, p) ∧ fs2[i]? = some f by
      obtain ⟨w', fs', resp', a1, a2, a3⟩ := key _ hh
      exact ⟨w', fs', resp', a1, a2, fun _ => a3, fun hb => absurd hb hnb⟩
    unfold Http.serveOpened
    rw [hdir]
    cases k with
    | file d b =>
      simp only [Node.isDir, Bool.false_eq_true, false_and, if_false, true_and]
      by_cases hsl : (rootedPath r.path).getLast? = some Str.slash
      · simp only [if_pos hsl]
        exact ⟨w1, fs1, 0, rfl, e4, e6, e3⟩
      · simp only [if_neg hsl]
        obtain ⟨w2, p2, q1, q2, q3⟩ := finish_exec E P hC hr e3 hnk hwk e4.ok e6
        exact ⟨w2, fs1, p2, q1, e4.apart q2, q3, e3⟩
    | dir d kids =>
      simp only [Node.isDir, true_and, Bool.true_eq_false, false_and, if_false, if_true]
      by_cases hsl : (rootedPath r.path).getLast? = some Str.slash
      · simp only [hsl, ne_eq, not_true_eq_false, if_false, if_true]
        rw [hidx]
        have hs1 : Serves E c fs1 ds src := by
          cases src with
          | handle => obtain ⟨f0, a1, a2⟩ := hs; exact ⟨f0, e2 0 f0 a1, a2⟩
          | dir d => exact hs
        obtain ⟨o3, o4⟩ := openBy_exec E P hl (h.left e4.here e4.infos) e4.ok hs1 hsite hg2 hni
        have hfi : site.find (cs ++ [b! "index.html"]) = (Node.dir d kids).find [b! "index.html"] := by
          rw [Disk.find_append, hf]
        rw [hfi] at o3 o4
        have hne : P.holds w1.host f.fd ≠ none := by rw [e6]; simp
        cases hix : (Node.dir d kids).find [b! "index.html"] with
        | none =>
          obtain ⟨w2, fs2, e, q1, q2, q3, _⟩ := o3 hix
          have h2 : P.holds w2.host f.fd = some (.dir d kids, 0) := by rw [q2.rest _ (Or.inr hne)]; exact e6
          obtain ⟨w3, p3, t1, t2, t3⟩ := finish_exec E P hC hr (q3 i f e3) hnk hwk q2.ok h2
          refine ⟨w3, fs2, p3, ?_, (e4.left q2).apart t2, t3, q3 i f e3⟩
          simp only [exec_bind, q1, t1]
          rfl
        | some n =>
          obtain ⟨w2, fs2, i2, f2, q1, q2, q3, q4, q5, q6⟩ := o4 n hix
          have hn2 : Named n := named_find _ hnk hix
          have hw2 : Node.WF n := Disk.find_wf _ hwk hix
          have hstat2 : exec E O I (Client.stat i2) w2 fs2 = (w2, fs2, .ok n.details) := exec_stat E O I q3 q5
          obtain ⟨w3, p3, t1, t2, t3⟩ := finish_exec E P hC hr q3 hn2 hw2 q4.ok q6
          have hl3 := (q4.apart t2).close t3
          refine ⟨(Stdos.closeFile O w3 f2).1, fs2, 0, ?_, e4.left hl3, ?_, q2 i f e3⟩
          · simp only [exec_bind, q1, hstat2, t1, exec_close E O I q3, exec_pure]
          · rw [hl3.rest _ (Or.inr hne)]; exact e6
      · simp only [ne_eq, hsl, not_false_eq_true, if_true]
        exact ⟨w1, fs1, 0, rfl, e4, e6, e3⟩

end DiskClient
end Verif
