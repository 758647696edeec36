/-
C51: statistics database rows identify their step.
-/
import Verif.Model.Stats
import Verif.Spec.Stats
import Mathlib.Tactic.Ring
import Mathlib.Data.List.Nodup
import Mathlib.Data.List.Induction

namespace WxVerif.Props.Stats

open WxVerif.Stats WxVerif.Spec.Stats

theorem foldl_max (l : List Nat) (a : Nat) : a ≤ l.foldl max a ∧ ∀ x ∈ l, x ≤ l.foldl max a := by
  induction l generalizing a with
  | nil => simp
  | cons y l ih =>
    obtain ⟨h1, h2⟩ := ih (max a y)
    refine ⟨by simp only [List.foldl_cons]; omega, fun x hx => ?_⟩
    simp only [List.foldl_cons]
    rcases List.mem_cons.1 hx with rfl | hx
    · omega
    · exact h2 x hx

theorem entry_lt (rows : List ParamRow) (r : ParamRow) (hr : r ∈ rows) : r.entry < nextKey rows := by
  have := (foldl_max (rows.map ParamRow.entry) 0).2 r.entry (List.mem_map_of_mem hr)
  unfold nextKey; omega

theorem nextKey_append (rows : List ParamRow) (r : ParamRow) : nextKey (rows ++ [r]) = max (nextKey rows) (r.entry + 1) := by
  simp [nextKey]

theorem rows_append {α : Type*} (steps : List (List α)) (s : List α) :
    rows (steps ++ [s]) = rows steps ++ s.zipIdx.map fun v => (steps.length, v.2, v.1) := by
  simp [rows, List.zipIdx_append]

/-- the run number a call writes -/
def runOf (rows : List ParamRow) (w : Writer) : Int := if w.run < 0 then (nextKey rows : Int) else w.run

/-- the times a call stores -/
def stored {T : Type*} (t : Option (List (List T))) : List (List T) :=
  match t with
  | some (t :: ts) => if t.length = numEntries then t :: ts else []
  | _ => []

theorem write_spec {R T : Type*} (db : Db R T) (w : Writer) (res : List R) (times : Option (List (List T))) (st : Db R T × Writer)
    (h : write db w res times = some st) :
    st.1.params = db.params ++ [⟨nextKey db.params, runOf db.params w, w.step⟩] ∧
    st.1.data = db.data ++ res.zipIdx.map (fun r => ⟨runOf db.params w, w.step, r.2, r.1⟩) ∧
    st.1.timing = db.timing ++ (stored times).zipIdx.map (fun r => ⟨runOf db.params w, w.step, r.2, r.1⟩) ∧
    st.2 = ⟨runOf db.params w, w.step + 1⟩ := by
  have hp : (if w.run < 0 then ((db.params ++ [(⟨nextKey db.params, w.run, w.step⟩ : ParamRow)]).map fun r : ParamRow =>
      if r.entry = nextKey db.params then { r with run := (nextKey db.params : Int) } else r, (nextKey db.params : Int))
      else (db.params ++ [⟨nextKey db.params, w.run, w.step⟩], w.run)) =
      (db.params ++ [⟨nextKey db.params, runOf db.params w, w.step⟩], runOf db.params w) := by
    unfold runOf
    by_cases hw : w.run < 0
    · simp only [if_pos hw, List.map_append, List.map_cons, List.map_nil, if_true]
      congr 2
      conv_rhs => rw [← List.map_id db.params]
      apply List.map_congr_left
      intro r hr
      have := entry_lt db.params r hr
      rw [if_neg (by omega)]; rfl
    · simp only [if_neg hw]
  unfold write at h
  simp only [hp] at h
  cases times with
  | none => simp only [Option.some.injEq] at h; subst h; simp [stored]
  | some l =>
    cases l with
    | nil => simp at h
    | cons t ts =>
      simp only at h
      split_ifs at h with h1 h2
      · simp only [Option.some.injEq] at h; subst h; simp [stored, h1]
      · simp only [Option.some.injEq] at h; subst h; simp [stored, h1]

/-- the calls of one program, oldest first -/
def own {R T : Type*} (i : Nat) (h : List (Call R T)) : List (Call R T) := (h.filter fun c => c.who = i).reverse

theorem own_cons {R T : Type*} (i : Nat) (c : Call R T) (h : List (Call R T)) :
    own i (c :: h) = if c.who = i then own i h ++ [c] else own i h := by
  unfold own
  by_cases hc : c.who = i <;> simp [List.filter_cons, hc]

/-- what holds after every history -/
structure Inv {R T : Type*} (h : List (Call R T)) (db : Db R T) (ws : Nat → Writer) : Prop where
  idle : ∀ i, own i h = [] → ws i = newWriter
  active : ∀ i, own i h ≠ [] → 0 < (ws i).run ∧ (ws i).run < nextKey db.params
  count : ∀ i, (ws i).step = (own i h).length
  distinct : ∀ i j, own i h ≠ [] → own j h ≠ [] → (ws i).run = (ws j).run → i = j
  params : ∀ i, own i h ≠ [] → (db.params.filter fun r => r.run = (ws i).run).map ParamRow.step = List.range (own i h).length
  data : ∀ i, own i h ≠ [] → (db.data.filter fun r => r.run = (ws i).run).map (fun r => (r.step, r.iter, r.val)) =
    rows ((own i h).map Call.residuals)
  timing : ∀ i, own i h ≠ [] → (db.timing.filter fun r => r.run = (ws i).run).map (fun r => (r.step, r.iter, r.val)) =
    rows ((own i h).map fun c => stored c.times)
  pbelong : ∀ r ∈ db.params, ∃ i, own i h ≠ [] ∧ r.run = (ws i).run
  dbelong : ∀ r ∈ db.data, ∃ i, own i h ≠ [] ∧ r.run = (ws i).run
  tbelong : ∀ r ∈ db.timing, ∃ i, own i h ≠ [] ∧ r.run = (ws i).run

theorem filter_add {α : Type*} (l : List (DataRow α)) (run x : Int) (step : Nat) (vs : List α) :
    (((l ++ vs.zipIdx.map fun r => (⟨run, step, r.2, r.1⟩ : DataRow α)).filter fun r => r.run = x).map fun r => (r.step, r.iter, r.val)) =
    ((l.filter fun r => r.run = x).map fun r => (r.step, r.iter, r.val)) ++
      if run = x then vs.zipIdx.map fun v => (step, v.2, v.1) else [] := by
  rw [List.filter_append, List.map_append]
  congr 1
  rw [List.filter_map]
  by_cases h : run = x
  · rw [if_pos h, List.filter_eq_self.2 (by intro a _; simp [h])]
    simp
  · rw [if_neg h, List.filter_eq_nil_iff.2 (by intro a _; simp [h])]
    rfl

theorem history_inv {R T : Type*} (h : List (Call R T)) (db : Db R T) (ws : Nat → Writer) (hh : history h = some (db, ws)) :
    Inv h db ws := by
  induction h generalizing db ws with
  | nil =>
    simp only [history, Option.some.injEq, Prod.mk.injEq] at hh
    obtain ⟨rfl, rfl⟩ := hh
    refine ⟨fun _ _ => rfl, ?_, ?_, ?_, ?_, ?_, ?_, ?_, ?_, ?_⟩ <;> simp [own, newWriter]
  | cons c h ih =>
    rw [history, Option.bind_eq_some_iff] at hh
    obtain ⟨⟨db0, ws0⟩, h0, hh⟩ := hh
    rw [Option.map_eq_some_iff] at hh
    obtain ⟨⟨db1, w1⟩, hw, hh⟩ := hh
    simp only [Prod.mk.injEq] at hh
    obtain ⟨rfl, rfl⟩ := hh
    have I := ih db0 ws0 h0
    obtain ⟨e1, e2, e3, e4⟩ := write_spec _ _ _ _ _ hw
    simp only at e1 e2 e3 e4
    set k := c.who with hk
    set run := runOf db0.params (ws0 k) with hrun
    have hkey : (0 : Int) < nextKey db0.params := by unfold nextKey; omega
    -- the run number of the program: its own if it has one, a new one otherwise
    have hold : own k h ≠ [] → run = (ws0 k).run := by
      intro hne
      rw [hrun, runOf, if_neg (by have := (I.active k hne).1; omega)]
    have hnew : own k h = [] → run = nextKey db0.params := by
      intro he
      rw [hrun, runOf, I.idle k he]; rfl
    have hpos : 0 < run := by
      by_cases he : own k h = []
      · rw [hnew he]; exact hkey
      · rw [hold he]; exact (I.active k he).1
    have hnk : (nextKey db1.params : Int) = nextKey db0.params + 1 := by
      rw [e1, nextKey_append]; push_cast; simp
    have hlt : run < nextKey db1.params := by
      rw [hnk]
      by_cases he : own k h = []
      · rw [hnew he]; omega
      · rw [hold he]; have := (I.active k he).2; omega
    have hother : ∀ i, i ≠ k → own i h ≠ [] → run ≠ (ws0 i).run := by
      intro i hik hi heq
      by_cases he : own k h = []
      · rw [hnew he] at heq; have := (I.active i hi).2; omega
      · rw [hold he] at heq; exact hik (I.distinct i k hi he heq.symm)
    have hown : ∀ i, i ≠ k → own i (c :: h) = own i h := by
      intro i hik; rw [own_cons, if_neg (fun e => hik e.symm)]
    have hownk : own k (c :: h) = own k h ++ [c] := by rw [own_cons, if_pos rfl]
    have hws : ∀ i, i ≠ k → (if i = k then w1 else ws0 i) = ws0 i := fun i hi => if_neg hi
    have hwk : (if k = k then w1 else ws0 k) = ⟨run, (ws0 k).step + 1⟩ := by rw [if_pos rfl, e4]
    have hfresh : ∀ x : Int, own k h = [] → x = run → (∀ r ∈ db0.params, r.run ≠ x) ∧ (∀ r ∈ db0.data, r.run ≠ x) ∧
        (∀ r ∈ db0.timing, r.run ≠ x) := by
      rintro x he rfl
      refine ⟨fun r hr hx => ?_, fun r hr hx => ?_, fun r hr hx => ?_⟩
      · obtain ⟨i, hi, hri⟩ := I.pbelong r hr
        rw [hx, hnew he] at hri; have := (I.active i hi).2; omega
      · obtain ⟨i, hi, hri⟩ := I.dbelong r hr
        rw [hx, hnew he] at hri; have := (I.active i hi).2; omega
      · obtain ⟨i, hi, hri⟩ := I.tbelong r hr
        rw [hx, hnew he] at hri; have := (I.active i hi).2; omega
    have hstep := I.count k
    refine ⟨?_, ?_, ?_, ?_, ?_, ?_, ?_, ?_, ?_, ?_⟩
    · intro i hi
      have hik : i ≠ k := by rintro rfl; rw [hownk] at hi; simp at hi
      rw [hown i hik] at hi
      beta_reduce
      rw [hws i hik, I.idle i hi]
    · intro i hi
      beta_reduce
      by_cases hik : i = k
      · subst hik; rw [hwk]; exact ⟨hpos, hlt⟩
      · rw [hown i hik] at hi
        rw [hws i hik, hnk]
        have := I.active i hi
        omega
    · intro i
      beta_reduce
      by_cases hik : i = k
      · subst hik; rw [hwk, hownk]; simp [hstep]
      · rw [hown i hik, hws i hik]; exact I.count i
    · intro i j hi hj hij
      beta_reduce at hij
      by_cases hik : i = k <;> by_cases hjk : j = k
      · rw [hik, hjk]
      · subst hik
        rw [hwk, hws j hjk] at hij
        rw [hown j hjk] at hj
        exact absurd hij (hother j hjk hj)
      · subst hjk
        rw [hwk, hws i hik] at hij
        rw [hown i hik] at hi
        exact absurd hij.symm (hother i hik hi)
      · rw [hws i hik, hws j hjk] at hij
        rw [hown i hik] at hi
        rw [hown j hjk] at hj
        exact I.distinct i j hi hj hij
    · intro i hi
      beta_reduce
      by_cases hik : i = k
      · subst hik
        rw [hwk, hownk, e1]
        rw [List.filter_append, List.map_append]
        simp only [List.length_append, List.length_cons, List.length_nil, List.range_succ, Nat.add_zero]
        congr 1
        · by_cases he : own k h = []
          · rw [List.filter_eq_nil_iff.2 (by intro r hr; simpa using (hfresh run he rfl).1 r hr), he]; rfl
          · have := I.params k he
            rw [← hold he] at this
            exact this
        · simp [hstep]
      · rw [hown i hik] at hi ⊢
        rw [hws i hik, e1, List.filter_append, List.map_append]
        have := hother i hik hi
        rw [List.filter_cons, if_neg (by simpa using this)]
        simpa using I.params i hi
    · intro i hi
      beta_reduce
      by_cases hik : i = k
      · subst hik
        rw [hwk, hownk, e2, filter_add, if_pos rfl, List.map_append, List.map_cons, List.map_nil, rows_append]
        congr 1
        · by_cases he : own k h = []
          · rw [List.filter_eq_nil_iff.2 (by intro r hr; simpa using (hfresh run he rfl).2.1 r hr), he]; rfl
          · have := I.data k he
            rw [← hold he] at this
            exact this
        · rw [hstep, List.length_map]
      · rw [hown i hik] at hi ⊢
        rw [hws i hik, e2, filter_add, if_neg (hother i hik hi), List.append_nil]
        exact I.data i hi
    · intro i hi
      beta_reduce
      by_cases hik : i = k
      · subst hik
        rw [hwk, hownk, e3, filter_add, if_pos rfl, List.map_append, List.map_cons, List.map_nil, rows_append]
        congr 1
        · by_cases he : own k h = []
          · rw [List.filter_eq_nil_iff.2 (by intro r hr; simpa using (hfresh run he rfl).2.2 r hr), he]; rfl
          · have := I.timing k he
            rw [← hold he] at this
            exact this
        · rw [hstep, List.length_map]
      · rw [hown i hik] at hi ⊢
        rw [hws i hik, e3, filter_add, if_neg (hother i hik hi), List.append_nil]
        exact I.timing i hi
    all_goals
      intro r hr
      beta_reduce
      first | rw [e1] at hr | rw [e2] at hr | rw [e3] at hr
      rcases List.mem_append.1 hr with hr | hr
      · obtain ⟨i, hi, hri⟩ : ∃ i, own i h ≠ [] ∧ r.run = (ws0 i).run := by
          first | exact I.pbelong r hr | exact I.dbelong r hr | exact I.tbelong r hr
        by_cases hik : i = k
        · subst hik
          refine ⟨k, by rw [hownk]; simp, ?_⟩
          rw [hwk, hri, ← hold hi]
        · exact ⟨i, by rw [hown i hik]; exact hi, by rw [hws i hik]; exact hri⟩
      · refine ⟨k, by rw [hownk]; simp, ?_⟩
        rw [hwk]
        simp only [List.mem_singleton, List.mem_map] at hr
        first
          | (rw [hr])
          | (obtain ⟨a, -, rfl⟩ := hr; rfl)

/-- **C51** After any sequence of calls by any number of programs on one database, every program that wrote has a run id of its own; the
parameter rows with that id are those of its calls, with step ids 0, 1, 2, …; the residual rows with that id are exactly those of its
calls, step by step and iteration by iteration, and so are the timing rows; and there are no other rows. -/
theorem C51_rows {R T : Type*} (h : List (Call R T)) (db : Db R T) (ws : Nat → Writer) (hh : history h = some (db, ws)) :
    ∃ run : Nat → Int, (∀ i j, own i h ≠ [] → own j h ≠ [] → run i = run j → i = j) ∧
      (∀ i, own i h ≠ [] →
        (db.params.filter fun r => r.run = run i).map ParamRow.step = List.range (own i h).length ∧
        (db.data.filter fun r => r.run = run i).map (fun r => (r.step, r.iter, r.val)) = rows ((own i h).map Call.residuals) ∧
        (db.timing.filter fun r => r.run = run i).map (fun r => (r.step, r.iter, r.val)) = rows ((own i h).map fun c => stored c.times)) ∧
      (∀ r ∈ db.params, ∃ i, own i h ≠ [] ∧ r.run = run i) ∧ (∀ r ∈ db.data, ∃ i, own i h ≠ [] ∧ r.run = run i) ∧
      (∀ r ∈ db.timing, ∃ i, own i h ≠ [] ∧ r.run = run i) := by
  have I := history_inv h db ws hh
  exact ⟨fun i => (ws i).run, I.distinct, fun i hi => ⟨I.params i hi, I.data i hi, I.timing i hi⟩, I.pbelong, I.dbelong, I.tbelong⟩

theorem rows_step_lt {α : Type*} (steps : List (List α)) (x : Nat × Nat × α) (hx : x ∈ rows steps) : x.1 < steps.length := by
  unfold rows at hx
  rw [List.mem_flatMap] at hx
  obtain ⟨s, hs, hx⟩ := hx
  rw [List.mem_map] at hx
  obtain ⟨v, -, rfl⟩ := hx
  have := List.mem_zipIdx hs
  simp only at this ⊢
  omega

theorem zipIdx_snd_nodup {α : Type*} (l : List α) (k : Nat) : ((l.zipIdx k).map fun v => v.2).Nodup := by
  rw [show ((l.zipIdx k).map fun v => v.2) = List.range' k l.length from List.zipIdx_map_snd k l]
  exact List.nodup_range'

/-- the pairs of the specification are unique -/
theorem rows_nodup {α : Type*} (steps : List (List α)) : ((rows steps).map fun r => (r.1, r.2.1)).Nodup := by
  induction steps using List.reverseRecOn with
  | nil => simp [rows]
  | append_singleton steps s ih =>
    rw [rows_append, List.map_append, List.nodup_append]
    refine ⟨ih, ?_, ?_⟩
    · rw [List.map_map]
      have := (zipIdx_snd_nodup s 0).map (f := fun n => (steps.length, n)) (fun a b h => (Prod.mk.inj h).2)
      rw [List.map_map] at this
      exact this
    · intro a ha b hb hab
      rw [List.mem_map] at ha hb
      obtain ⟨x, hx, rfl⟩ := ha
      obtain ⟨y, hy, rfl⟩ := hb
      rw [List.mem_map] at hy
      obtain ⟨v, -, rfl⟩ := hy
      have := rows_step_lt steps x hx
      simp only [Prod.mk.injEq] at hab
      omega

/-- **C51** In each run the pair (step, iteration) identifies a residual row, and a timing row. -/
theorem C51_unique {R T : Type*} (h : List (Call R T)) (db : Db R T) (ws : Nat → Writer) (hh : history h = some (db, ws)) (run : Int) :
    ((db.data.filter fun r => r.run = run).map fun r => (r.step, r.iter)).Nodup ∧
    ((db.timing.filter fun r => r.run = run).map fun r => (r.step, r.iter)).Nodup := by
  have I := history_inv h db ws hh
  constructor
  · by_cases hr : ∃ r ∈ db.data, r.run = run
    · obtain ⟨r, hr, rfl⟩ := hr
      obtain ⟨i, hi, hri⟩ := I.dbelong r hr
      have := rows_nodup ((own i h).map Call.residuals)
      rw [← I.data i hi, List.map_map] at this
      rw [hri]; exact this
    · push Not at hr
      rw [List.filter_eq_nil_iff.2 (by intro r h; simpa using hr r h)]; simp
  · by_cases hr : ∃ r ∈ db.timing, r.run = run
    · obtain ⟨r, hr, rfl⟩ := hr
      obtain ⟨i, hi, hri⟩ := I.tbelong r hr
      have := rows_nodup ((own i h).map fun c => stored c.times)
      rw [← I.timing i hi, List.map_map] at this
      rw [hri]; exact this
    · push Not at hr
      rw [List.filter_eq_nil_iff.2 (by intro r h; simpa using hr r h)]; simp

/-- **C51** No call raises as long as the times are absent or a non-empty list of nine times per evaluation, which is what the
right-hand side hands over (nine time stamps give eight intervals and their sum). -/
theorem C51_no_exception {R T : Type*} (h : List (Call R T))
    (ht : ∀ c ∈ h, c.times = none ∨ ∃ l, c.times = some l ∧ l ≠ [] ∧ ∀ t ∈ l, t.length = 9) : ∃ st, history h = some st := by
  induction h with
  | nil => exact ⟨_, rfl⟩
  | cons c h ih =>
    obtain ⟨st, hst⟩ := ih fun c hc => ht c (List.mem_cons_of_mem _ hc)
    rw [history, hst, Option.bind_some]
    have : ∃ r, write st.1 (st.2 c.who) c.residuals c.times = some r := by
      rcases ht c List.mem_cons_self with h1 | ⟨l, h1, h2, h3⟩
      · rw [h1]; exact ⟨_, rfl⟩
      · rw [h1]
        cases l with
        | nil => exact absurd rfl h2
        | cons t ts =>
          unfold write
          simp only
          rw [if_pos (show t.length = numEntries from h3 t List.mem_cons_self), if_pos]
          · exact ⟨_, rfl⟩
          · rw [List.all_eq_true]
            intro u hu
            simpa [numEntries] using h3 u (List.mem_cons_of_mem _ hu)
    obtain ⟨r, hr⟩ := this
    rw [hr]
    exact ⟨_, rfl⟩

/-- two programs interleaved; the second one with the times of two evaluations -/
example : ∃ st, history (R := String) (T := Nat)
    [⟨1, ["c"], none⟩, ⟨0, ["b"], none⟩, ⟨1, [], some [List.range 9, List.range 9]⟩, ⟨0, ["x", "y"], none⟩] = some st ∧
    st.1.params.map (fun r => (r.entry, r.run, r.step)) = [(1, 1, 0), (2, 2, 0), (3, 1, 1), (4, 2, 1)] ∧
    st.1.data.map (fun r => (r.run, r.step, r.iter, r.val)) = [(1, 0, 0, "x"), (1, 0, 1, "y"), (1, 1, 0, "b"), (2, 1, 0, "c")] := by
  exact ⟨_, rfl, rfl, rfl⟩

/-! ## The times of the evaluations -/

theorem foldl_evaluate {T : Type*} (evals : List T) (s : Rhs T) (u : T) (hs : s.stamps = some u) :
    evals.foldl evaluate s = ⟨some (evals.getLastD u), s.timings ++ (u :: evals).dropLast⟩ := by
  induction evals generalizing s u with
  | nil => simp [← hs]
  | cons t ts ih =>
    rw [List.foldl_cons, ih (evaluate s t) t (by simp [evaluate, hs])]
    simp only [evaluate, hs, List.append_assoc]
    congr 1
    · cases ts with
      | nil => simp
      | cons a l => simp [List.getLast?_eq_some_getLast]

theorem foldl_evaluate_new {T : Type*} (t : T) (ts : List T) :
    (t :: ts).foldl evaluate newRhs = ⟨some (ts.getLastD t), (t :: ts).dropLast⟩ := by
  rw [List.foldl_cons, foldl_evaluate ts _ t rfl]
  rfl

theorem drop_last {T : Type*} (u : T) (l : List T) : (u :: l).dropLast ++ [l.getLastD u] = u :: l := by
  have := List.dropLast_append_getLast (l := u :: l) (by simp)
  conv_rhs => rw [← this]
  congr 2
  cases l with
  | nil => rfl
  | cons a l =>
    have h : (a :: l).getLast? = some ((a :: l).getLast (by simp)) := List.getLast?_eq_some_getLast _
    rw [List.getLast_cons (by simp), List.getLastD_eq_getLast?, h]
    rfl

/-- the times stored by the steps after the first: all that was stored before, then the times of the last evaluation before the step,
then those of the step -/
theorem stepTimes_run {T : Type*} (steps : List (List T)) (s : Rhs T) (u : T) (hs : s.stamps = some u) :
    ∃ l, stepTimes s steps = some l ∧ l.length = steps.length ∧
      ∀ k, ∀ hk : k < steps.length, ∃ pre, l[k]? = some (pre ++ steps[k]) ∧ s.timings.length + 1 ≤ pre.length ∧
        (k = 0 → pre = s.timings ++ [u]) := by
  induction steps generalizing s u with
  | nil => exact ⟨[], rfl, rfl, fun k hk => absurd hk (by simp)⟩
  | cons e rest ih =>
    have h1 : endStep (e.foldl evaluate s) = some (⟨some (e.getLastD u), s.timings ++ [u] ++ e⟩, s.timings ++ [u] ++ e) := by
      rw [foldl_evaluate e s u hs]
      simp only [endStep, Option.map_some, List.append_assoc]
      rw [drop_last]
      simp
    obtain ⟨l, hl, hlen, hk⟩ := ih ⟨some (e.getLastD u), s.timings ++ [u] ++ e⟩ (e.getLastD u) rfl
    refine ⟨(s.timings ++ [u] ++ e) :: l, by rw [stepTimes, h1, Option.bind_some, hl]; rfl, by simp [hlen], fun k hk' => ?_⟩
    cases k with
    | zero => exact ⟨s.timings ++ [u], by simp, by simp, fun _ => rfl⟩
    | succ k =>
      obtain ⟨pre, h2, h3, -⟩ := hk k (by simpa using hk')
      refine ⟨pre, by simpa using h2, ?_, by omega⟩
      simp only [List.length_append, List.length_cons, List.length_nil] at h3
      omega

/-- **C51** (part) The timing rows of the first step are those of the evaluations of that step.  Missing: every later step. -/
theorem C51_timing_partial {T : Type*} (e : List T) (he : e ≠ []) (rest : List (List T)) :
    ∃ l, stepTimes newRhs (e :: rest) = some (e :: l) := by
  cases e with
  | nil => exact absurd rfl he
  | cons t ts =>
    have h1 : endStep ((t :: ts).foldl evaluate newRhs) = some (⟨some (ts.getLastD t), t :: ts⟩, t :: ts) := by
      rw [foldl_evaluate_new]
      simp only [endStep, Option.map_some]
      rw [drop_last]
    obtain ⟨l, hl, -⟩ := stepTimes_run rest ⟨some (ts.getLastD t), t :: ts⟩ (ts.getLastD t) rfl
    exact ⟨l, by rw [stepTimes, h1, Option.bind_some, hl]; rfl⟩

/-- **C51 is violated** by the timing rows of every step but the first: before the times of its own evaluations each step stores again
everything the steps before it stored, and the times of the last evaluation before it a second time. -/
theorem C51_timing_fails {T : Type*} (t : T) (ts : List T) (rest : List (List T)) (k : Nat) (hk : k < rest.length) :
    ∃ l pre, stepTimes newRhs ((t :: ts) :: rest) = some l ∧ l[k + 1]? = some (pre ++ rest[k]) ∧ ts.length + 2 ≤ pre.length ∧
      (k = 0 → pre = (t :: ts) ++ [ts.getLastD t]) ∧ l[k + 1]? ≠ some rest[k] := by
  have h1 : endStep ((t :: ts).foldl evaluate newRhs) = some (⟨some (ts.getLastD t), t :: ts⟩, t :: ts) := by
    rw [foldl_evaluate_new]
    simp only [endStep, Option.map_some]
    rw [drop_last]
  obtain ⟨l, hl, -, hp⟩ := stepTimes_run rest ⟨some (ts.getLastD t), t :: ts⟩ (ts.getLastD t) rfl
  obtain ⟨pre, h2, h3, h4⟩ := hp k hk
  simp only [List.length_cons] at h3
  refine ⟨(t :: ts) :: l, pre, by rw [stepTimes, h1, Option.bind_some, hl]; rfl, by simpa using h2, by omega, h4, ?_⟩
  rw [List.getElem?_cons_succ, h2]
  intro h
  have := congrArg List.length (Option.some.inj h)
  simp only [List.length_append] at this
  omega

/-- three steps: the third one stores seven rows for its one evaluation -/
example : stepTimes newRhs [["a", "b"], ["c", "d"], ["e"]] = some [["a", "b"], ["a", "b", "b", "c", "d"], ["a", "b", "b", "c", "d", "d", "e"]] := rfl

end WxVerif.Props.Stats
