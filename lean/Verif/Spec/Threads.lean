/-!
Parallel execution: the threads of a launch run their operations in any order that respects the order within each thread; launches follow one
another.
-/

namespace WxVerif.Threads

/-- `trace` is an interleaving of the operation lists of the threads -/
inductive Interleaves {α : Type} : List (List α) → List α → Prop
  | done (threads : List (List α)) (h : ∀ p ∈ threads, p = []) : Interleaves threads []
  | step (before : List (List α)) (op : α) (rest : List α) (after : List (List α)) (trace : List α) :
      Interleaves (before ++ rest :: after) trace → Interleaves (before ++ (op :: rest) :: after) (op :: trace)

/-- `trace` is an execution of the launches, one after the other, each with its threads interleaved in some way -/
inductive Executes {α : Type} : List (List (List α)) → List α → Prop
  | nil : Executes [] []
  | cons (launch : List (List α)) (launches : List (List (List α))) (trace traces : List α) :
      Interleaves launch trace → Executes launches traces → Executes (launch :: launches) (trace ++ traces)

/-- position of entry `(v, i, j, k)` in an array of shape `(_, s1, s2, s3)` stored row by row -/
def rowMajor (s1 s2 s3 v i j k : Nat) : Nat := ((v * s1 + i) * s2 + j) * s3 + k

/-- position of entry `(v, i, j, k, l)` in an array of shape `(_, s1, s2, s3, s4)` stored row by row -/
def rowMajor5 (s1 s2 s3 s4 v i j k l : Nat) : Nat := (((v * s1 + i) * s2 + j) * s3 + k) * s4 + l

/-- the spatial symbols are stored for `b ≤ c` only, after the three rotation symbols: 11, 12, 13, 22, 23, 33 -/
def symbolRow (b c : Fin 3) : Nat :=
  match (b : Nat), (c : Nat) with
  | 0, 0 => 3
  | 0, 1 => 4 | 1, 0 => 4
  | 0, 2 => 5 | 2, 0 => 5
  | 1, 1 => 6
  | 1, 2 => 7 | 2, 1 => 7
  | _, _ => 8

end WxVerif.Threads
