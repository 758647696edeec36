import Verif.Spec.Factorization
import Verif.Props.Assembly
import Verif.Props.Gmres

/-!
# C100: the preconditioner by factorization solves the system of the step
-/

namespace WxVerif.Props.Factorization

open WxVerif.Assembly WxVerif.Factorization SpecAssembly SpecFactorization

variable {R : Type} [CommRing R]

theorem mulVec_block {mv : Operator R} {size n k : Nat} (hk : k < size) (hl : Linear mv size n) (x : Nat → R) {i : Nat} (hi : i < n) :
    mulVec (genLocal mv size n k) x i = mv (only k x) k i := by
  have hb := Assembly.C94_local hk hl
  rw [hb.entries (only k x) i hi (fun r' hr j => by unfold only; rw [if_neg hr])]
  unfold mulVec
  rw [hb.cols]
  refine Finset.sum_congr rfl fun j _ => ?_
  unfold only
  rw [if_pos rfl]

theorem factorizeAll_ok {lib : Library R} {type : String} {mat : Nat → Mat R} {f : Nat → Option ((Nat → R) → Nat → R)} :
    ∀ size, (∀ k, k < size → factorize lib type (mat k) = .ok (f k)) →
      ∃ g, factorizeAll lib type mat size = .ok g ∧ ∀ k, k < size → g k = f k
  | 0, _ => ⟨_, rfl, fun k hk => absurd hk (Nat.not_lt_zero k)⟩
  | size + 1, hf => by
    obtain ⟨g, hg, hgk⟩ := factorizeAll_ok size fun k hk => hf k (by omega)
    refine ⟨fun k => if k = size then f size else g k, ?_, fun k hk => ?_⟩
    · unfold factorizeAll
      rw [hg]
      dsimp only
      rw [hf size (by omega)]
    · dsimp only
      split_ifs with h
      · rw [h]
      · exact hgk k (by omega)

/-- with the blocks of a regular operator as matrices, all processes solve their part -/
theorem withMatrices_solves {lib : Library R} (hlib : Correct lib) {mv : Operator R} {size n : Nat} (hl : Linear mv size n)
    (hreg : ∀ k, k < size → Regular mv k n) {mat : Nat → Mat R} (hm : ∀ k, k < size → mat k = genLocal mv size n k) :
    ∃ p, withMatrices lib "lu" size mat = .ok (some p) ∧ p.mat = mat ∧ ∀ k, k < size → SolvesPart mv k n (apply (some p) k) := by
  have hs : ∀ k, ∃ s : (Nat → R) → Nat → R, k < size → lib.splu (mat k) = .ok s ∧ ∀ v i, i < n → mv (only k (s v)) k i = v i := by
    intro k
    by_cases hk : k < size
    · have hb := Assembly.C94_local hk hl
      have hr : (mat k).rows = n := by rw [hm k hk]; exact hb.rows
      have hc : (mat k).cols = n := by rw [hm k hk]; exact hb.cols
      have hmul : ∀ x i, i < n → mulVec (mat k) x i = mv (only k x) k i := fun x i hi => by rw [hm k hk]; exact mulVec_block hk hl x hi
      obtain ⟨s, h1, h2⟩ := hlib (mat k) (hr.trans hc.symm)
        (fun v => by
          obtain ⟨x, hx⟩ := (hreg k hk).1 v
          exact ⟨x, fun i hi => (hmul x i (hr ▸ hi)).trans (hx i (hr ▸ hi))⟩)
        (fun x y h i hi => (hreg k hk).2 x y (fun i hi => by rw [← hmul x i hi, ← hmul y i hi]; exact h i (hr.symm ▸ hi)) i (hr ▸ hi))
      exact ⟨s, fun _ => ⟨h1, fun v i hi => by rw [← hmul _ i hi]; exact h2 v i (hr.symm ▸ hi)⟩⟩
    · exact ⟨fun v => v, fun h => absurd h hk⟩
  choose s hs using hs
  obtain ⟨g, hg, hgk⟩ := factorizeAll_ok (lib := lib) (type := "lu") (mat := mat) (f := fun k => some (s k)) size fun k hk => by
    unfold factorize
    rw [if_pos rfl, (hs k hk).1]
    rfl
  refine ⟨⟨mat, g⟩, ?_, rfl, fun k hk v => ⟨s k v, ?_, (hs k hk).2 v⟩⟩
  · unfold withMatrices
    rw [hg]
  · unfold apply
    dsimp only
    rw [hgk k hk]

theorem absent_of {f : File R} (h : f.isAbsent = true) : f = .absent := by cases f <;> simp_all [File.isAbsent]

/-- the case without files -/
theorem prepare_absent (h : Hashes) (lib : Library R) (r : Run R) (mv : Operator R) {disk : Disk R} (ha : ∀ k, k < r.size → disk (r.file h k) = .absent) :
    prepare h lib r mv none disk = (withMatrices lib r.config.preconditioner r.size (genLocal mv r.size r.n), saveAll h r mv disk) := by
  unfold prepare
  dsimp only
  rw [if_neg, if_pos]
  · simp only [List.all_eq_true, List.mem_range]
    intro k hk
    rw [ha k hk]; rfl
  · simp only [List.any_eq_true, List.mem_range, not_exists, not_and]
    intro k hk
    rw [ha k hk]
    simp [File.isBroken]

/-- the case with all files -/
theorem prepare_whole (h : Hashes) (lib : Library R) (r : Run R) (mv : Operator R) {disk : Disk R} {m : Nat → Mat R} (hs : 0 < r.size)
    (ha : ∀ k, k < r.size → disk (r.file h k) = .whole (m k)) :
    prepare h lib r mv none disk =
      (withMatrices lib r.config.preconditioner r.size (fun k => (disk (r.file h k)).matrix), disk) := by
  unfold prepare
  dsimp only
  rw [if_neg, if_neg, if_neg]
  · simp only [List.any_eq_true, List.mem_range, not_exists, not_and]
    intro k hk
    rw [ha k hk]
    simp [File.isAbsent]
  · simp only [List.all_eq_true, List.mem_range]
    intro hall
    have := hall 0 hs
    rw [ha 0 hs] at this
    simp [File.isAbsent] at this
  · simp only [List.any_eq_true, List.mem_range, not_exists, not_and]
    intro k hk
    rw [ha k hk]
    simp [File.isBroken]

/-- once prepared, nothing changes in later steps -/
theorem steps_some (h : Hashes) (lib : Library R) (r : Run R) (p : Prepared R) (d : Disk R) : ∀ L, steps h lib r L (some p) d = (.ok (some p), d)
  | [] => rfl
  | mv :: L => by
    unfold steps
    show (match prepare h lib r mv (some p) d with | (.ok s', d') => steps h lib r L s' d' | (.raised e, d') => (.raised e, d') | (.hang, d') => (.hang, d')) = _
    show steps h lib r L (some p) d = _
    exact steps_some h lib r p d L

theorem withMatrices_some {lib : Library R} {type : String} {size : Nat} {mat : Nat → Mat R} {s : Option (Prepared R)}
    (h : withMatrices lib type size mat = .ok s) : ∃ p, s = some p ∧ p.mat = mat := by
  unfold withMatrices at h
  split at h
  · cases h; exact ⟨_, rfl, rfl⟩
  · cases h
  · cases h

/-- `prepare` ends with a factorization or not at all -/
theorem prepare_some {h : Hashes} {lib : Library R} {r : Run R} {mv : Operator R} {st s : Option (Prepared R)} {d : Disk R}
    (he : (prepare h lib r mv st d).1 = .ok s) : ∃ p, s = some p := by
  unfold prepare at he
  split at he
  · cases he; exact ⟨_, rfl⟩
  · split_ifs at he
    · exact (withMatrices_some he).imp fun p hp => hp.1
    · exact (withMatrices_some he).imp fun p hp => hp.1

/-- files are changed by the first step only, and the result is that of the first step -/
theorem steps_cons (h : Hashes) (lib : Library R) (r : Run R) (mv : Operator R) (L : List (Operator R)) (d : Disk R) :
    steps h lib r (mv :: L) none d = prepare h lib r mv none d := by
  rw [steps]
  generalize hp : prepare h lib r mv none d = q
  obtain ⟨q1, q2⟩ := q
  cases q1 with
  | raised e => rfl
  | hang => rfl
  | ok s =>
    obtain ⟨p, rfl⟩ := prepare_some (s := s) (by rw [hp])
    exact steps_some h lib r p q2 L

/-- without files of that name in the directory, the first step has a preconditioner that solves its system, on every process -/
theorem C100_first_step {lib : Library R} (hlib : Correct lib) (h : Hashes) (r : Run R) (hty : r.config.preconditioner = "lu") (mv : Operator R)
    (hl : Linear mv r.size r.n) (hreg : ∀ k, k < r.size → Regular mv k r.n) (disk : Disk R) (ha : ∀ k, k < r.size → disk (r.file h k) = .absent) :
    ∃ s d, steps h lib r [mv] none disk = (.ok s, d) ∧ ∀ k, k < r.size → SolvesPart mv k r.n (apply s k) := by
  obtain ⟨p, h1, _, h3⟩ := withMatrices_solves hlib hl hreg (mat := genLocal mv r.size r.n) fun _ _ => rfl
  refine ⟨some p, saveAll h r mv disk, ?_, h3⟩
  rw [steps_cons, prepare_absent h lib r mv ha, hty, h1]

theorem file_same {h : Hashes} {a b : Run R} {i j : Nat} (he : a.file h i = b.file h j) (k : Nat) : a.file h k = b.file h k := by
  unfold Run.file matrixFile at *
  simp only [Prod.mk.injEq] at he ⊢
  exact ⟨he.1, he.2.1, trivial⟩

theorem file_rank {h : Hashes} {a b : Run R} {i j : Nat} (he : a.file h i = b.file h j) : i = j := by
  unfold Run.file matrixFile at he
  simp only [Prod.mk.injEq] at he
  exact he.2.2

/-- the name of a file written by a run -/
theorem saved_name {h : Hashes} {r : Run R} {nm : Name} (hn : nm = r.file h nm.2.2) {b : Run R} {k : Nat} (hb : nm = b.file h k) : nm.2.2 = k := by
  rw [hb]; rfl

/-- a run changes a file only if it had none of its own -/
theorem play_run (h : Hashes) (lib : Library R) (r : Run R) (disk : Disk R) :
    (steps h lib r r.ops none disk).2 = disk ∨
    ∃ mv L, r.ops = mv :: L ∧ (∀ k, k < r.size → disk (r.file h k) = .absent) ∧ (steps h lib r r.ops none disk).2 = saveAll h r mv disk := by
  cases hops : r.ops with
  | nil => exact Or.inl rfl
  | cons mv L =>
    rw [steps_cons]
    by_cases ha : ∀ k, k < r.size → disk (r.file h k) = .absent
    · exact Or.inr ⟨mv, L, rfl, ha, by rw [prepare_absent h lib r mv ha]⟩
    · left
      unfold prepare
      dsimp only
      split_ifs with h1 h2 h3
      · rfl
      · exact absurd (fun k hk => absent_of (List.all_eq_true.1 h2 k (List.mem_range.2 hk))) ha
      · rfl
      · rfl

theorem play_killed (h : Hashes) (lib : Library R) (r : Run R) (left : Nat → Left) (disk : Disk R) :
    play h lib disk (.killed r left) = disk ∨
    ∃ mv L, r.ops = mv :: L ∧ (∀ k, k < r.size → disk (r.file h k) = .absent) ∧ play h lib disk (.killed r left) = killedAt h r mv left disk := by
  have hp : play h lib disk (.killed r left) = match r.ops with
    | [] => disk
    | mv :: _ => if (List.range r.size).all (fun k => (disk (r.file h k)).isAbsent) then killedAt h r mv left disk else disk := rfl
  rw [hp]
  cases hops : r.ops with
  | nil => exact Or.inl rfl
  | cons mv L =>
    dsimp only
    by_cases h2 : (List.range r.size).all (fun k => (disk (r.file h k)).isAbsent) = true
    · rw [if_pos h2]
      exact Or.inr ⟨mv, L, rfl, fun k hk => absent_of (List.all_eq_true.1 h2 k (List.mem_range.2 hk)), rfl⟩
    · rw [if_neg h2]
      exact Or.inl rfl

/-- where a matrix in a file comes from -/
def From (h : Hashes) (runs : List (Run R)) (nm : Name) (m : Mat R) : Prop :=
  ∃ r ∈ runs, ∃ mv L, r.ops = mv :: L ∧ nm.2.2 < r.size ∧ r.file h nm.2.2 = nm ∧ m = genLocal mv r.size r.n nm.2.2

theorem from_event {h : Hashes} {lib : Library R} {runs : List (Run R)} {disk : Disk R} (hd : ∀ nm m, disk nm = .whole m → From h runs nm m)
    (e : Event R) (nm : Name) (m : Mat R) (hw : play h lib disk e nm = .whole m) : From h (runs ++ [e.theRun]) nm m := by
  have keep : disk nm = .whole m → From h (runs ++ [e.theRun]) nm m := fun hw => by
    obtain ⟨r, hr, rest⟩ := hd nm m hw
    exact ⟨r, List.mem_append_left _ hr, rest⟩
  cases e with
  | run r =>
    rcases play_run h lib r disk with h0 | ⟨mv, L, h1, _, h3⟩
    · exact keep (by rw [← hw]; exact (congrFun h0 nm).symm)
    · have hw' : saveAll h r mv disk nm = .whole m := by rw [← hw]; exact (congrFun h3 nm).symm
      unfold saveAll at hw'
      split_ifs at hw' with hc
      · refine ⟨r, by simp [Event.theRun], mv, L, h1, hc.1, hc.2.symm, ?_⟩
        injection hw' with hw'
        exact hw'.symm
      · exact keep hw'
  | killed r left =>
    rcases play_killed h lib r left disk with h0 | ⟨mv, L, h1, _, h3⟩
    · exact keep (by rw [← hw]; exact (congrFun h0 nm).symm)
    · have hw' : killedAt h r mv left disk nm = .whole m := by rw [← hw]; exact (congrFun h3 nm).symm
      unfold killedAt at hw'
      split_ifs at hw' with hc
      · cases hl : left nm.2.2 <;> rw [hl] at hw' <;> try cases hw'
        exact ⟨r, by simp [Event.theRun], mv, L, h1, hc.1, hc.2.symm, rfl⟩
      · exact keep hw'

theorem from_history {h : Hashes} {lib : Library R} : ∀ (H : List (Event R)) (runs : List (Run R)) (disk : Disk R),
    (∀ nm m, disk nm = .whole m → From h runs nm m) → ∀ nm m, playAll h lib disk H nm = .whole m → From h (runs ++ H.map Event.theRun) nm m
  | [], runs, disk, hd, nm, m, hw => by simpa using hd nm m hw
  | e :: H, runs, disk, hd, nm, m, hw => by
    have := from_history (lib := lib) H (runs ++ [e.theRun]) (play h lib disk e) (fun nm m hw => from_event hd e nm m hw) nm m hw
    simpa using this

/-- after every history of runs, completed or killed, and in every step, the matrix in use is the block of the operator of the *first* step of this
run or of an earlier run with the same file name -/
theorem C100_provenance (h : Hashes) (lib : Library R) (H : List (Event R)) (r : Run R) (p : Prepared R)
    (he : (steps h lib r r.ops none (playAll h lib empty H)).1 = .ok (some p)) (k : Nat) (hk : k < r.size) :
    ∃ r' ∈ allRuns H r, ∃ mv L, r'.ops = mv :: L ∧ k < r'.size ∧ r'.file h k = r.file h k ∧ p.mat k = genLocal mv r'.size r'.n k := by
  have hin : r ∈ allRuns H r := by unfold allRuns; simp
  cases hops : r.ops with
  | nil => rw [hops] at he; cases he
  | cons mv L =>
    rw [hops, steps_cons] at he
    by_cases ha : ∀ k, k < r.size → playAll h lib empty H (r.file h k) = .absent
    · rw [prepare_absent h lib r mv ha] at he
      obtain ⟨p', h1, h2⟩ := withMatrices_some he
      cases h1
      exact ⟨r, hin, mv, L, hops, hk, rfl, by rw [h2]⟩
    · unfold prepare at he
      dsimp only at he
      split_ifs at he with h1 h2 h3
      · exact absurd (fun k hk => absent_of (List.all_eq_true.1 h2 k (List.mem_range.2 hk))) ha
      · obtain ⟨p', e1, e2⟩ := withMatrices_some he
        cases e1
        have hb : (playAll h lib empty H (r.file h k)).isBroken = false := by
          by_contra hc
          exact h1 (List.any_eq_true.2 ⟨k, List.mem_range.2 hk, by simpa using hc⟩)
        have hn : (playAll h lib empty H (r.file h k)).isAbsent = false := by
          by_contra hc
          exact h3 (List.any_eq_true.2 ⟨k, List.mem_range.2 hk, by simpa using hc⟩)
        cases hf : playAll h lib empty H (r.file h k) with
        | absent => rw [hf] at hn; cases hn
        | broken => rw [hf] at hb; cases hb
        | whole m =>
          obtain ⟨r', hr', mv', L', a1, a2, a3, a4⟩ := from_history (lib := lib) H [] empty (fun nm m hw => by cases hw) _ m hf
          refine ⟨r', ?_, mv', L', a1, a2, a3, ?_⟩
          · unfold allRuns
            exact List.mem_append_left _ (by simpa using hr')
          · rw [e2]
            dsimp only
            rw [hf]
            exact a4

/-- the files of a run are all there with the blocks of `mv`, or none is -/
def AllOrNone (h : Hashes) (r : Run R) (mv : Operator R) (disk : Disk R) : Prop :=
  (∀ k, k < r.size → disk (r.file h k) = .absent) ∨ ∀ k, k < r.size → disk (r.file h k) = .whole (genLocal mv r.size r.n k)

theorem allOrNone_run {h : Hashes} {lib : Library R} {r : Run R} {mv : Operator R} {disk : Disk R} (hd : AllOrNone h r mv disk) (r' : Run R)
    (hsame : r'.file h 0 = r.file h 0 → r'.size = r.size ∧ r'.n = r.n ∧ ∀ op ∈ r'.ops, op = mv) :
    AllOrNone h r mv (steps h lib r' r'.ops none disk).2 := by
  rcases play_run h lib r' disk with h0 | ⟨mv', L, h1, h2, h3⟩
  · rw [h0]; exact hd
  · rw [h3]
    by_cases hf : r'.file h 0 = r.file h 0
    · obtain ⟨e1, e2, e3⟩ := hsame hf
      have em : mv' = mv := e3 mv' (by rw [h1]; exact List.mem_cons_self)
      right
      intro k hk
      unfold saveAll
      have hr : (r.file h k).2.2 = k := rfl
      rw [if_pos ⟨by rw [hr, e1]; exact hk, by rw [hr]; exact (file_same hf k).symm⟩, hr, em, e1, e2]
    · have hne : ∀ k, k < r.size → saveAll h r' mv' disk (r.file h k) = disk (r.file h k) := by
        intro k _
        unfold saveAll
        rw [if_neg]
        rintro ⟨_, hc⟩
        exact hf (file_same hc.symm 0)
      rcases hd with hd | hd
      · exact Or.inl fun k hk => (hne k hk).trans (hd k hk)
      · exact Or.inr fun k hk => (hne k hk).trans (hd k hk)

theorem allOrNone_history {h : Hashes} {lib : Library R} {r : Run R} {mv : Operator R} : ∀ (H : List (Event R)) (disk : Disk R), NoKill H →
    (∀ e ∈ H, e.theRun.file h 0 = r.file h 0 → e.theRun.size = r.size ∧ e.theRun.n = r.n ∧ ∀ op ∈ e.theRun.ops, op = mv) →
    AllOrNone h r mv disk → AllOrNone h r mv (playAll h lib disk H)
  | [], _, _, _, hd => hd
  | e :: H, disk, hk, hs, hd => by
    obtain ⟨r', rfl⟩ := hk e List.mem_cons_self
    exact allOrNone_history H _ (fun e he => hk e (List.mem_cons_of_mem _ he)) (fun e he => hs e (List.mem_cons_of_mem _ he))
      (allOrNone_run hd r' (hs (.run r') List.mem_cons_self))

/-- if no run was killed while saving, and all runs with the same file names have the same system in all their steps, then every step of every run has
a preconditioner that solves its system -/
theorem C100_same_system_partial {lib : Library R} (hlib : Correct lib) (h : Hashes) (H : List (Event R)) (hk : NoKill H) (r : Run R)
    (hty : r.config.preconditioner = "lu") (hsize : 0 < r.size) (hops : r.ops ≠ []) (mv : Operator R)
    (hsame : ∀ r' ∈ allRuns H r, r'.file h 0 = r.file h 0 → r'.size = r.size ∧ r'.n = r.n ∧ ∀ op ∈ r'.ops, op = mv)
    (hl : Linear mv r.size r.n) (hreg : ∀ k, k < r.size → Regular mv k r.n) :
    ∃ s d, steps h lib r r.ops none (playAll h lib empty H) = (.ok s, d) ∧ ∀ k, k < r.size → SolvesPart mv k r.n (apply s k) := by
  have hd : AllOrNone h r mv (playAll h lib empty H) := allOrNone_history H empty hk
    (fun e he => hsame e.theRun (by unfold allRuns; exact List.mem_append_left _ (List.mem_map_of_mem he))) (Or.inl fun _ _ => rfl)
  have hr := (hsame r (by unfold allRuns; simp) rfl).2.2
  cases hop : r.ops with
  | nil => exact absurd hop hops
  | cons op L =>
    have hop' : op = mv := hr op (by rw [hop]; exact List.mem_cons_self)
    rw [steps_cons, hop']
    rcases hd with hd | hd
    · obtain ⟨p, h1, _, h3⟩ := withMatrices_solves hlib hl hreg (mat := genLocal mv r.size r.n) fun _ _ => rfl
      exact ⟨some p, _, by rw [prepare_absent h lib r mv hd, hty, h1], h3⟩
    · obtain ⟨p, h1, _, h3⟩ := withMatrices_solves hlib hl hreg
        (mat := fun k => (playAll h lib empty H (r.file h k)).matrix) fun k hk => by rw [hd k hk]; rfl
      exact ⟨some p, _, by rw [prepare_whole h lib r mv hsize hd, hty, h1], h3⟩

/-- the preconditioner made in the first step solves the system of a later step exactly if the systems agree on the process -/
theorem C100_later_iff {lib : Library R} (hlib : Correct lib) (h : Hashes) (r : Run R) (hty : r.config.preconditioner = "lu") (mv mv' : Operator R)
    (L : List (Operator R)) (hops : r.ops = mv :: L) (_hlast : mv' ∈ L) (hl : Linear mv r.size r.n) (hl' : Linear mv' r.size r.n)
    (hreg : ∀ k, k < r.size → Regular mv k r.n) (disk : Disk R) (ha : ∀ k, k < r.size → disk (r.file h k) = .absent) (s : Option (Prepared R))
    (hs : (steps h lib r r.ops none disk).1 = .ok s) (k : Nat) (hk : k < r.size) :
    SolvesPart mv' k r.n (apply s k) ↔ ∀ x i, i < r.n → mv' (only k x) k i = mv (only k x) k i := by
  obtain ⟨s', d, h1, h2⟩ := C100_first_step hlib h r hty mv hl hreg disk ha
  have hsp : SolvesPart mv k r.n (apply s k) := by
    rw [hops, steps_cons] at hs
    rw [steps_cons] at h1
    rw [h1] at hs
    cases hs
    exact h2 k hk
  constructor
  · intro hsp' x i hi
    obtain ⟨y, hy1, hy2⟩ := hsp (mv (only k x) k)
    obtain ⟨y', hy1', hy2'⟩ := hsp' (mv (only k x) k)
    rw [hy1] at hy1'
    cases hy1'
    have hxy := (hreg k hk).2 y x hy2
    rw [← hy2' i hi]
    have := hl'.own (only k x) (only k y) fun a j _ hj => by
      unfold only
      split_ifs
      · exact (hxy j hj).symm
      · rfl
    rw [this]
  · intro hag v
    obtain ⟨y, hy1, hy2⟩ := hsp v
    exact ⟨y, hy1, fun i hi => (hag y i hi).trans (hy2 i hi)⟩

/-- a number times the vector, on one process with one value -/
def times (c : ℚ) : Operator ℚ := fun Q a j => if a = 0 ∧ j = 0 then c * Q 0 0 else 0

theorem times_linear (c : ℚ) : Linear (times c) 1 1 := by
  refine ⟨fun Q Q' r i => ?_, fun x Q r i => ?_, fun Q Q' h => ?_⟩
  · unfold times; split_ifs <;> ring
  · unfold times; split_ifs <;> ring
  · funext r i
    unfold times
    split_ifs
    · rw [h 0 0 (by norm_num) (by norm_num)]
    · rfl

theorem times_apply (c : ℚ) (x : Nat → ℚ) {i : Nat} (hi : i < 1) : times c (only 0 x) 0 i = c * x 0 := by
  obtain rfl : i = 0 := by omega
  simp [times, only]

theorem times_regular {c : ℚ} (hc : c ≠ 0) : ∀ k, k < 1 → Regular (times c) k 1 := by
  intro k hk
  obtain rfl : k = 0 := by omega
  refine ⟨fun v => ⟨fun _ => v 0 / c, fun i hi => ?_⟩, fun x y hxy i hi => ?_⟩
  · rw [times_apply c _ hi]
    obtain rfl : i = 0 := by omega
    field_simp
  · have := hxy 0 (by norm_num)
    rw [times_apply c x (by norm_num), times_apply c y (by norm_num)] at this
    obtain rfl : i = 0 := by omega
    exact mul_left_cancel₀ hc this

/-- options of the examples -/
def sampleConfig : Config := ⟨"lu", "results", 10, 5, "shallow_water", "cubed_sphere", "complex", 4, 3, 1, 0, "ros2", 1 / 1000⟩

/-- a library that is correct -/
theorem correct_exists : ∃ lib : Library R, Correct lib := by
  classical
  refine ⟨⟨fun m => if hx : ∀ v : Nat → R, ∃ x, ∀ i, i < m.rows → mulVec m x i = v i then .ok fun v => (hx v).choose else .error "RuntimeError",
    fun _ => .error "RuntimeError"⟩, fun m _ hx _ => ⟨fun v => (hx v).choose, ?_, fun v i hi => (hx v).choose_spec i hi⟩⟩
  dsimp only
  rw [dif_pos hx]

/-- the hypotheses of `C100_same_system_partial` can be met after an earlier run of two steps -/
example (lib : Library ℚ) (hlib : Correct lib) (h : Hashes) : ∃ s d,
    steps h lib ⟨sampleConfig, 1, 1, [times 2, times 2, times 2]⟩ [times 2, times 2, times 2] none
      (playAll h lib empty [.run ⟨sampleConfig, 1, 1, [times 2, times 2]⟩]) = (.ok s, d) ∧
    ∀ k, k < 1 → SolvesPart (times 2) k 1 (apply s k) :=
  C100_same_system_partial hlib h [.run ⟨sampleConfig, 1, 1, [times 2, times 2]⟩] (by intro e he; exact ⟨_, by simpa using he⟩)
    ⟨sampleConfig, 1, 1, [times 2, times 2, times 2]⟩ rfl (by norm_num) (by simp) (times 2)
    (by
      intro r' hr' _
      simp only [allRuns, Event.theRun, List.map_cons, List.map_nil, List.cons_append, List.nil_append, List.mem_cons, List.not_mem_nil, or_false] at hr'
      rcases hr' with rfl | rfl
      · exact ⟨rfl, rfl, by simp⟩
      · exact ⟨rfl, rfl, by simp⟩)
    (times_linear 2) (times_regular (by norm_num))

/-- the system changes from step to step, the preconditioner does not: a run of two steps, in an empty directory -/
theorem C100_later_step_fails (lib : Library ℚ) (hlib : Correct lib) (h : Hashes) :
    ∃ (r : Run ℚ) (mv : Operator ℚ) (s : Option (Prepared ℚ)) (d : Disk ℚ), r.ops = [times 2, mv] ∧ Linear mv r.size r.n ∧
      (∀ k, k < r.size → Regular mv k r.n) ∧ r.config.preconditioner = "lu" ∧ steps h lib r r.ops none empty = (.ok s, d) ∧
      ¬ SolvesPart mv 0 r.n (apply s 0) := by
  obtain ⟨s, d, h1, _⟩ := C100_first_step hlib h ⟨sampleConfig, 1, 1, [times 2, times 3]⟩ rfl (times 2) (times_linear 2)
    (times_regular (by norm_num)) empty fun _ _ => rfl
  have h2 : steps h lib ⟨sampleConfig, 1, 1, [times 2, times 3]⟩ [times 2, times 3] none empty = (.ok s, d) := by
    rw [steps_cons] at h1 ⊢; exact h1
  refine ⟨⟨sampleConfig, 1, 1, [times 2, times 3]⟩, times 3, s, d, rfl, times_linear 3, times_regular (by norm_num), rfl, h2, fun hc => ?_⟩
  have := (C100_later_iff hlib h ⟨sampleConfig, 1, 1, [times 2, times 3]⟩ rfl (times 2) (times 3) [times 3] rfl (by simp) (times_linear 2)
    (times_linear 3) (times_regular (by norm_num)) empty (fun _ _ => rfl) s (by rw [h2]) 0 (by norm_num)).1 hc (fun _ => 1) 0 (by norm_num)
  rw [times_apply 3 _ (by norm_num), times_apply 2 _ (by norm_num)] at this
  norm_num at this

/-- the file of an earlier run that started from another state is used, and the preconditioner does not solve the system of the first step -/
theorem C100_earlier_run_fails (lib : Library ℚ) (hlib : Correct lib) (h : Hashes) :
    ∃ (old r : Run ℚ) (mv : Operator ℚ) (s : Option (Prepared ℚ)), r.ops = [mv] ∧ Linear mv r.size r.n ∧ (∀ k, k < r.size → Regular mv k r.n) ∧
      old.config = { r.config with startingStep := 0 } ∧ (steps h lib r r.ops none (playAll h lib empty [.run old])).1 = .ok s ∧
      ¬ SolvesPart mv 0 r.n (apply s 0) := by
  obtain ⟨s, d, h1, h2⟩ := C100_same_system_partial hlib h [.run ⟨sampleConfig, 1, 1, [times 2]⟩] (by intro e he; exact ⟨_, by simpa using he⟩)
    ⟨sampleConfig, 1, 1, [times 2]⟩ rfl (by norm_num) (by simp) (times 2)
    (by
      intro r' hr' _
      simp only [allRuns, Event.theRun, List.map_cons, List.map_nil, List.cons_append, List.nil_append, List.mem_cons, List.not_mem_nil, or_false] at hr'
      rcases hr' with rfl | rfl
      · exact ⟨rfl, rfl, by simp⟩
      · exact ⟨rfl, rfl, by simp⟩)
    (times_linear 2) (times_regular (by norm_num))
  have hw : ∀ k, k < 1 → playAll h lib empty [.run ⟨sampleConfig, 1, 1, [times 2]⟩] (Run.file h ⟨sampleConfig, 1, 1, [times 2]⟩ k) =
      .whole (genLocal (times 2) 1 1 k) := by
    intro k hk
    show (steps h lib ⟨sampleConfig, 1, 1, [times 2]⟩ [times 2] none empty).2 _ = _
    rw [steps_cons, prepare_absent h lib _ _ fun _ _ => rfl]
    show saveAll h ⟨sampleConfig, 1, 1, [times 2]⟩ (times 2) empty _ = _
    unfold saveAll
    rw [if_pos ⟨hk, rfl⟩]
    rfl
  refine ⟨⟨sampleConfig, 1, 1, [times 2]⟩, ⟨{ sampleConfig with startingStep := 100 }, 1, 1, [times 3]⟩, times 3, s, rfl, times_linear 3,
    times_regular (by norm_num), rfl, ?_, fun hc => ?_⟩
  · show (steps h lib ⟨{ sampleConfig with startingStep := 100 }, 1, 1, [times 3]⟩ [times 3] none _).1 = _
    rw [steps_cons, prepare_whole h lib _ _ (by norm_num) (m := genLocal (times 2) 1 1) hw]
    rw [steps_cons, prepare_whole h lib _ _ (by norm_num) hw] at h1
    exact congrArg Prod.fst h1
  · obtain ⟨x, hx1, hx2⟩ := hc fun _ => 1
    obtain ⟨y, hy1, hy2⟩ := h2 0 (by norm_num) fun _ => 1
    rw [hx1] at hy1
    cases hy1
    have e1 := hx2 0 (by norm_num)
    have e2 := hy2 0 (by norm_num)
    rw [times_apply 3 _ (by norm_num)] at e1
    rw [times_apply 2 _ (by norm_num)] at e2
    linarith

/-- the files of a directory that an event leaves alone: those whose name no run can write because one of its files is there -/
theorem broken_stays {h : Hashes} {lib : Library R} {disk : Disk R} {nm : Name} (hb : disk nm = .broken) (e : Event R) :
    play h lib disk e nm = .broken := by
  cases e with
  | run r =>
    rcases play_run h lib r disk with h0 | ⟨mv, L, _, h2, h3⟩
    · rw [← hb]; exact congrFun h0 nm
    · refine (congrFun h3 nm).trans ?_
      unfold saveAll
      split_ifs with hc
      · have := h2 nm.2.2 hc.1
        rw [← hc.2, hb] at this
        cases this
      · exact hb
  | killed r left =>
    rcases play_killed h lib r left disk with h0 | ⟨mv, L, _, h2, h3⟩
    · rw [← hb]; exact congrFun h0 nm
    · refine (congrFun h3 nm).trans ?_
      unfold killedAt
      split_ifs with hc
      · have := h2 nm.2.2 hc.1
        rw [← hc.2, hb] at this
        cases this
      · exact hb

theorem broken_history {h : Hashes} {lib : Library R} {nm : Name} : ∀ (H : List (Event R)) (disk : Disk R), disk nm = .broken →
    playAll h lib disk H nm = .broken
  | [], _, hb => hb
  | e :: H, disk, hb => broken_history H _ (broken_stays hb e)

theorem killed_effect (h : Hashes) (lib : Library R) (old : Run R) (left : Nat → Left) {disk : Disk R} (hops : old.ops ≠ [])
    (hfree : ∀ j, j < old.size → disk (old.file h j) = .absent) :
    ∃ mv, ∀ j, j < old.size → play h lib disk (.killed old left) (old.file h j) =
      match left j with | .nothing => File.absent | .part => File.broken | .all => File.whole (genLocal mv old.size old.n j) := by
  have hp : play h lib disk (.killed old left) = match old.ops with
    | [] => disk
    | mv :: _ => if (List.range old.size).all (fun k => (disk (old.file h k)).isAbsent) then killedAt h old mv left disk else disk := rfl
  rw [hp]
  cases hop : old.ops with
  | nil => exact absurd hop hops
  | cons mv L =>
    refine ⟨mv, fun j hj => ?_⟩
    dsimp only
    rw [if_pos]
    · unfold killedAt
      rw [if_pos ⟨hj, rfl⟩]
      rfl
    · rw [List.all_eq_true]
      intro j hj
      rw [hfree j (List.mem_range.1 hj)]
      rfl

/-- if a process was killed while it wrote its file, all later runs with this file name end with an exception, whatever happens in between -/
theorem C100_killed_writing_fails (h : Hashes) (lib : Library R) (H : List (Event R)) (old : Run R) (left : Nat → Left) (k : Nat)
    (hk : k < old.size) (hleft : left k = .part) (hops : old.ops ≠ []) (hfree : ∀ j, j < old.size → playAll h lib empty H (old.file h j) = .absent)
    (H' : List (Event R)) (r : Run R) (hr : r.ops ≠ []) (hsize : k < r.size) (hfile : r.file h k = old.file h k) :
    (steps h lib r r.ops none (playAll h lib empty (H ++ [.killed old left] ++ H'))).1 = .raised "BadZipFile" := by
  have hb : playAll h lib empty (H ++ [.killed old left] ++ H') (old.file h k) = .broken := by
    unfold playAll
    rw [List.foldl_append, List.foldl_append]
    refine broken_history (h := h) (lib := lib) H' _ ?_
    obtain ⟨mv, hmv⟩ := killed_effect h lib old left hops hfree
    have := hmv k hk
    rw [hleft] at this
    exact this
  cases hop : r.ops with
  | nil => exact absurd hop hr
  | cons mv L =>
    rw [steps_cons]
    unfold prepare
    dsimp only
    rw [if_pos]
    rw [List.any_eq_true]
    exact ⟨k, List.mem_range.2 hsize, by rw [hfile, hb]; rfl⟩

/-- the hypotheses can be met: the last of six processes was writing -/
example (h : Hashes) (lib : Library ℚ) (mv : Operator ℚ) (H' : List (Event ℚ)) :
    (steps h lib ⟨sampleConfig, 6, 48, [mv]⟩ [mv] none
      (playAll h lib empty ([] ++ [.killed ⟨sampleConfig, 6, 48, [mv]⟩ fun j => if j < 5 then .all else .part] ++ H'))).1 = .raised "BadZipFile" :=
  C100_killed_writing_fails h lib [] ⟨sampleConfig, 6, 48, [mv]⟩ _ 5 (by norm_num) rfl (by simp) (fun _ _ => rfl) H' ⟨sampleConfig, 6, 48, [mv]⟩
    (by simp) (by norm_num) rfl

/-- with the file of process 0 in place, no event changes a file with this number -/
theorem guarded {h : Hashes} {lib : Library R} {disk : Disk R} {r : Run R} {m : Mat R} (hm : disk (r.file h 0) = .whole m) (e : Event R) (k : Nat) :
    play h lib disk e (r.file h k) = disk (r.file h k) := by
  have no : ∀ r' : Run R, (∀ j, j < r'.size → disk (r'.file h j) = .absent) → ¬ (k < r'.size ∧ r.file h k = r'.file h k) := by
    rintro r' ha ⟨hk, hf⟩
    have := ha 0 (by omega)
    rw [file_same hf.symm 0, hm] at this
    cases this
  cases e with
  | run r' =>
    rcases play_run h lib r' disk with h0 | ⟨mv, L, _, h2, h3⟩
    · exact congrFun h0 _
    · refine (congrFun h3 _).trans ?_
      unfold saveAll
      rw [if_neg]
      exact no r' h2
  | killed r' left =>
    rcases play_killed h lib r' left disk with h0 | ⟨mv, L, _, h2, h3⟩
    · exact congrFun h0 _
    · refine (congrFun h3 _).trans ?_
      unfold killedAt
      rw [if_neg]
      exact no r' h2

theorem guarded_history {h : Hashes} {lib : Library R} {r : Run R} {m : Mat R} : ∀ (H : List (Event R)) (disk : Disk R), disk (r.file h 0) = .whole m →
    ∀ k, playAll h lib disk H (r.file h k) = disk (r.file h k)
  | [], _, _, _ => rfl
  | e :: H, disk, hm, k => by
    have := guarded_history (h := h) (lib := lib) (r := r) (m := m) H (play h lib disk e) ((guarded hm e 0).trans hm) k
    exact this.trans (guarded hm e k)

/-- if the processes were killed between the first and the last file, all later runs with these file names wait for ever -/
theorem C100_killed_between_fails (h : Hashes) (lib : Library R) (H : List (Event R)) (old : Run R) (left : Nat → Left) (k : Nat)
    (hk : k < old.size) (hleft0 : left 0 = .all) (hleft : left k = .nothing) (hpart : ∀ j, left j ≠ .part) (hops : old.ops ≠ [])
    (hfree : ∀ j, j < old.size → playAll h lib empty H (old.file h j) = .absent)
    (H' : List (Event R)) (r : Run R) (hr : r.ops ≠ []) (hsize : r.size = old.size) (hfile : r.file h 0 = old.file h 0) :
    (steps h lib r r.ops none (playAll h lib empty (H ++ [.killed old left] ++ H'))).1 = .hang := by
  obtain ⟨mv0, hd⟩ := killed_effect h lib old left hops hfree
  have h0 := hd 0 (by omega)
  rw [hleft0] at h0
  have hfin : ∀ j, j < old.size → playAll h lib empty (H ++ [.killed old left] ++ H') (r.file h j) =
      match left j with | .nothing => File.absent | .part => File.broken | .all => File.whole (genLocal mv0 old.size old.n j) := by
    intro j hj
    rw [file_same hfile j, ← hd j hj]
    unfold playAll
    rw [List.foldl_append, List.foldl_append]
    exact guarded_history (h := h) (lib := lib) H' _ h0 j
  cases hop : r.ops with
  | nil => exact absurd hop hr
  | cons mv L =>
    rw [steps_cons]
    unfold prepare
    dsimp only
    rw [if_neg, if_neg, if_pos]
    · rw [List.any_eq_true]
      exact ⟨k, List.mem_range.2 (hsize ▸ hk), by rw [hfin k hk, hleft]; rfl⟩
    · rw [List.all_eq_true]
      intro hall
      have := hall 0 (List.mem_range.2 (by omega))
      rw [hfin 0 (by omega), hleft0] at this
      cases this
    · rw [List.any_eq_true]
      rintro ⟨j, hj, hc⟩
      rw [hfin j (hsize ▸ List.mem_range.1 hj)] at hc
      cases hl : left j with
      | part => exact hpart j hl
      | nothing => rw [hl] at hc; cases hc
      | all => rw [hl] at hc; cases hc

/-- the hypotheses can be met: two of six processes are too late, in a directory where another run has completed -/
example (h : Hashes) (lib : Library ℚ) (mv : Operator ℚ) (H' : List (Event ℚ)) :
    (steps h lib ⟨sampleConfig, 6, 48, [mv]⟩ [mv] none
      (playAll h lib empty ([.run ⟨{ sampleConfig with outputDir := "other" }, 6, 48, [mv, mv]⟩] ++
        [.killed ⟨sampleConfig, 6, 48, [mv]⟩ fun j => if j < 4 then .all else .nothing] ++ H'))).1 = .hang := by
  refine C100_killed_between_fails h lib [.run ⟨{ sampleConfig with outputDir := "other" }, 6, 48, [mv, mv]⟩] ⟨sampleConfig, 6, 48, [mv]⟩ _ 5
    (by norm_num) rfl rfl ?_ (by simp) ?_ H' ⟨sampleConfig, 6, 48, [mv]⟩ (by simp) rfl rfl
  · intro j hc
    split_ifs at hc
  · intro j _
    show (steps h lib ⟨{ sampleConfig with outputDir := "other" }, 6, 48, [mv, mv]⟩ [mv, mv] none empty).2 _ = _
    rw [steps_cons, prepare_absent h lib _ _ fun _ _ => rfl]
    show saveAll h ⟨{ sampleConfig with outputDir := "other" }, 6, 48, [mv, mv]⟩ mv empty _ = _
    unfold saveAll
    rw [if_neg]
    · rfl
    · rintro ⟨_, hc⟩
      have : ("results" : String) = "other" := congrArg Prod.fst hc
      revert this
      decide +kernel

/-- if the hashes of two configurations do not collide, they share a file exactly if they are in one directory and agree on the time step, the case, the
number of processes, the equations, the grid, the method for the Jacobian, the number of points and the numbers of elements -/
theorem C100_file_iff (h : Hashes) (c c' : Config) (size size' rank rank' : Nat)
    (hs : ∀ f ∈ [Config.equations, Config.gridType, Config.jacobianMethod], h.str (f c) = h.str (f c') → f c = f c')
    (ht : h.tuple (values h c size) % 2 ^ 48 = h.tuple (values h c' size') % 2 ^ 48 → values h c size = values h c' size') :
    matrixFile h c size rank = matrixFile h c' size' rank' ↔
      c.outputDir = c'.outputDir ∧ c.dt = c'.dt ∧ c.caseNumber = c'.caseNumber ∧ size = size' ∧ c.equations = c'.equations ∧
      c.gridType = c'.gridType ∧ c.jacobianMethod = c'.jacobianMethod ∧ c.numSolpts = c'.numSolpts ∧ c.elemsHoriz = c'.elemsHoriz ∧
      c.elemsVert = c'.elemsVert ∧ rank = rank' := by
  constructor
  · intro he
    unfold matrixFile at he
    simp only [Prod.mk.injEq] at he
    obtain ⟨e1, e2, e3⟩ := he
    have e4 := ht (by
      have a1 := Int.emod_nonneg (h.tuple (values h c size)) (b := 2 ^ 48) (by norm_num)
      have a2 := Int.emod_nonneg (h.tuple (values h c' size')) (b := 2 ^ 48) (by norm_num)
      omega)
    unfold values at e4
    simp only [Values.mk.injEq] at e4
    obtain ⟨b1, b2, b3, b4, b5, b6, b7, b8, b9⟩ := e4
    exact ⟨e1, b1, b2, b3, hs _ (by simp) b4, hs _ (by simp) b5, hs _ (by simp) b6, b7, b8, b9, e3⟩
  · rintro ⟨e1, b1, b2, b3, b4, b5, b6, b7, b8, b9, e3⟩
    unfold matrixFile values
    rw [e1, b1, b2, b3, b4, b5, b6, b7, b8, b9, e3]

/-- the hypotheses can be met, by configurations with different time steps -/
example : ∃ h : Hashes, matrixFile h sampleConfig 6 0 ≠ matrixFile h { sampleConfig with dt := 20 } 6 0 ∧
    matrixFile h sampleConfig 6 0 = matrixFile h { sampleConfig with tolerance := 1, startingStep := 7 } 6 0 := by
  refine ⟨⟨String.length, fun v => v.dt.num⟩, fun he => ?_, ?_⟩
  · have := (C100_file_iff ⟨String.length, fun v => v.dt.num⟩ sampleConfig { sampleConfig with dt := 20 } 6 6 0 0 (by intro f hf _; simp at hf; rcases hf with rfl | rfl | rfl <;> rfl)
      (by intro hc; exfalso; revert hc; decide +kernel)).1 he
    exact absurd this.2.1 (by decide +kernel)
  · rfl

/-- an integrator that has no matrix of its own gets a preconditioner that raises when it is applied -/
theorem C100_no_matrix_fails (h : Hashes) (lib : Library R) (r : Run R) (disk : Disk R) (k : Nat) (v : Nat → R) :
    ∃ s, stepPrepare h lib r none none disk = (.ok s, disk) ∧ apply s k v = .error "ValueError" := ⟨none, rfl, rfl⟩

section
variable {n : Nat}

/-- the values of a process as a vector -/
noncomputable def toW (x : Nat → ℝ) : EuclideanSpace ℝ (Fin n) := WithLp.toLp 2 fun i => x i

/-- a vector as values of a process -/
def ofW (v : EuclideanSpace ℝ (Fin n)) : Nat → ℝ := fun i => if h : i < n then v ⟨i, h⟩ else 0

/-- a linear operator as the operator of a single process -/
noncomputable def lift (A : EuclideanSpace ℝ (Fin n) →ₗ[ℝ] EuclideanSpace ℝ (Fin n)) : Operator ℝ :=
  fun Q a i => if h : a = 0 ∧ i < n then (A (toW (Q 0))) ⟨i, h.2⟩ else 0

/-- the preconditioner as the Krylov solver calls it -/
noncomputable def asOperator (s : Option (Prepared ℝ)) (v : EuclideanSpace ℝ (Fin n)) : EuclideanSpace ℝ (Fin n) :=
  match apply s 0 (ofW v) with
  | .ok x => toW x
  | .error _ => 0

theorem lift_apply (A : EuclideanSpace ℝ (Fin n) →ₗ[ℝ] EuclideanSpace ℝ (Fin n)) (x : Nat → ℝ) {i : Nat} (hi : i < n) :
    lift A (only 0 x) 0 i = A (toW x) ⟨i, hi⟩ := by
  unfold lift
  rw [dif_pos ⟨rfl, hi⟩]
  rfl

theorem lift_linear (A : EuclideanSpace ℝ (Fin n) →ₗ[ℝ] EuclideanSpace ℝ (Fin n)) : Linear (lift A) 1 n := by
  refine ⟨fun Q Q' r i => ?_, fun x Q r i => ?_, fun Q Q' h => ?_⟩
  · unfold lift
    split_ifs with hc
    · have : (toW (fun b => Q 0 b + Q' 0 b) : EuclideanSpace ℝ (Fin n)) = toW (Q 0) + toW (Q' 0) := rfl
      rw [this, map_add]
      rfl
    · ring
  · unfold lift
    split_ifs with hc
    · have : (toW (fun b => x * Q 0 b) : EuclideanSpace ℝ (Fin n)) = x • toW (Q 0) := rfl
      rw [this, map_smul]
      rfl
    · ring
  · funext r i
    unfold lift
    split_ifs with hc
    · have : (toW (Q 0) : EuclideanSpace ℝ (Fin n)) = toW (Q' 0) := by
        unfold toW
        congr 1
        funext j
        exact h 0 j (by norm_num) j.2
      rw [this]
    · rfl

theorem lift_regular {A : EuclideanSpace ℝ (Fin n) →ₗ[ℝ] EuclideanSpace ℝ (Fin n)} (hA : Function.Injective A) :
    ∀ k, k < 1 → Regular (lift A) k n := by
  intro k hk
  obtain rfl : k = 0 := by omega
  refine ⟨fun v => ?_, fun x y hxy i hi => ?_⟩
  · obtain ⟨w, hw⟩ := (LinearMap.injective_iff_surjective.1 hA) (toW v)
    refine ⟨ofW w, fun i hi => ?_⟩
    rw [lift_apply A _ hi]
    have : (toW (ofW w) : EuclideanSpace ℝ (Fin n)) = w := by
      ext j
      show ofW w j = w j
      unfold ofW
      rw [dif_pos j.2]
    rw [this, hw]
    rfl
  · have : A (toW x) = A (toW y) := by
      ext j
      have := hxy j j.2
      rw [lift_apply A x j.2, lift_apply A y j.2] at this
      exact this
    have := congrArg (fun w => w ⟨i, hi⟩) (hA this)
    exact this

/-- on one process, with the matrix of the step itself, the cycle of FGMRES finds the exact solution of a linear system -/
theorem C100_exact_cycle {lib : Library ℝ} (hlib : Correct lib) (h : Hashes) (r : Run ℝ) (hty : r.config.preconditioner = "lu") (hsize : r.size = 1)
    (hn : r.n = n) (A : EuclideanSpace ℝ (Fin n) →ₗ[ℝ] EuclideanSpace ℝ (Fin n)) (hA : Function.Injective A) (disk : Disk ℝ)
    (ha : disk (r.file h 0) = .absent) (s : Option (Prepared ℝ)) (hs : (steps h lib r [lift A] none disk).1 = .ok s)
    (r0 : EuclideanSpace ℝ (Fin n)) (hr : r0 ≠ 0) (tolRel : ℝ) (htol : 0 < tolRel) (restart : Nat) (hre : 1 ≤ restart)
    (c : Nat × Gmres.Arr (EuclideanSpace ℝ (Fin n)) × Gmres.Small) (hc : Gmres.cycle A (asOperator s) tolRel restart r0 = c)
    (y : Nat → ℝ) (hy : Gmres.Solves c.1 c.2.2 y) : A (Gmres.update c y) = r0 := by
  obtain ⟨s', d, h1, h2⟩ := C100_first_step hlib h r hty (lift A) (by rw [hsize, hn]; exact lift_linear A) (by rw [hsize, hn]; exact lift_regular hA) disk
    (by rw [hsize]; intro k hk; obtain rfl : k = 0 := by omega
        exact ha)
  rw [h1] at hs
  cases hs
  have hinv : ∀ v, A (asOperator s v) = v := by
    intro v
    obtain ⟨x, hx1, hx2⟩ := h2 0 (by omega) (ofW v)
    unfold asOperator
    rw [hx1]
    ext j
    have := hx2 j (by rw [hn]; exact j.2)
    rw [lift_apply A x j.2] at this
    refine this.trans ?_
    unfold ofW
    rw [dif_pos j.2]
  have hM : asOperator s = ((LinearEquiv.ofInjectiveEndo A hA).symm : EuclideanSpace ℝ (Fin n) →ₗ[ℝ] EuclideanSpace ℝ (Fin n)) := by
    funext v
    apply hA
    rw [hinv v]
    exact ((LinearEquiv.ofInjectiveEndo A hA).apply_symm_apply v).symm
  rw [hM] at hc
  have := Gmres.C33_krylov_minimum A ((LinearEquiv.ofInjectiveEndo A hA).symm : EuclideanSpace ℝ (Fin n) →ₗ[ℝ] EuclideanSpace ℝ (Fin n)) r0 hr tolRel htol
    restart hre c hc y hy (fun k => if k = 0 then 1 else 0)
  have e : (∑ k ∈ Finset.range (c.1 + 1), (if k = 0 then (1 : ℝ) else 0) •
      ((A ∘ₗ ((LinearEquiv.ofInjectiveEndo A hA).symm : EuclideanSpace ℝ (Fin n) →ₗ[ℝ] EuclideanSpace ℝ (Fin n))) ^ k) r0) = r0 := by
    rw [Finset.sum_eq_single 0]
    · simp
    · intro b _ hb
      rw [if_neg hb, zero_smul]
    · intro hb
      exact absurd (Finset.mem_range.2 (by omega)) hb
  rw [e] at this
  have e2 : A ((LinearEquiv.ofInjectiveEndo A hA).symm r0) = r0 := (LinearEquiv.ofInjectiveEndo A hA).apply_symm_apply r0
  have e3 : ‖r0 - A (Gmres.update c y)‖ ≤ 0 := by
    refine this.trans ?_
    show ‖r0 - A ((LinearEquiv.ofInjectiveEndo A hA).symm r0)‖ ≤ 0
    rw [e2, sub_self, norm_zero]
  exact (sub_eq_zero.1 (norm_eq_zero.1 (le_antisymm e3 (norm_nonneg _)))).symm

/-- the hypotheses can be met: twice the identity in the plane -/
example (lib : Library ℝ) (hlib : Correct lib) (h : Hashes) : ∃ s d,
    steps h lib ⟨sampleConfig, 1, 2, []⟩ [lift ((2 : ℝ) • (LinearMap.id : EuclideanSpace ℝ (Fin 2) →ₗ[ℝ] EuclideanSpace ℝ (Fin 2)))] none empty =
      (.ok s, d) := by
  obtain ⟨s, d, h1, _⟩ := C100_first_step hlib h ⟨sampleConfig, 1, 2, []⟩ rfl
    (lift ((2 : ℝ) • (LinearMap.id : EuclideanSpace ℝ (Fin 2) →ₗ[ℝ] EuclideanSpace ℝ (Fin 2)))) (lift_linear _)
    (lift_regular (by intro x y hxy; simpa using hxy)) empty (fun _ _ => rfl)
  exact ⟨s, d, h1⟩

end

end WxVerif.Props.Factorization
