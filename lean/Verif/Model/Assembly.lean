/-!
# Assembling the matrix of an operator, and storing sets of matrices
`solvers/eigenvalue_util.py`

The operator acts on all processes at once: `mv q` is what the processes obtain when process `r` calls it with the
vector `q r` (it exchanges messages inside). Sparse and dense storage of the columns are not distinguished, the
progress messages and the saving of the finished matrix with `scipy.sparse.save_npz` are left out.
-/

namespace WxVerif.Assembly

/-- a matrix: its size and its entries -/
structure Mat (R : Type) where
  rows : Nat
  cols : Nat
  entry : Nat → Nat → R

/-- what the loop of `gen_matrix` changes: `Qid` and `columns` of every process, and `idx`
    (`solvers/eigenvalue_util.py` lines 63, 72, 74) -/
structure Progress (R : Type) where
  q : Nat → Nat → R
  columns : Nat → Nat → Option (Nat → R)
  idx : Nat

/-- the state before the loops (`solvers/eigenvalue_util.py` lines 63, 72–74) -/
def fresh {R : Type} [Zero R] : Progress R := ⟨fun _ _ => 0, fun _ _ => none, 0⟩

/-- `Q[i] = x` -/
def assign {R : Type} (Q : Nat → R) (i : Nat) (x : R) : Nat → R := fun k => if k = i then x else Q k

/-- one pass of the inner loop, on all processes (`solvers/eigenvalue_util.py` lines 79–85) -/
def pass {R : Type} [Zero R] [One R] (mv : (Nat → Nat → R) → Nat → Nat → R) (r i : Nat) (s : Progress R) : Progress R :=
  let q := fun rank => if rank = r then assign (s.q rank) i 1 else s.q rank
  let col := mv q
  { q := fun rank => assign (q rank) i 0
    columns := fun rank => fun c => if c = s.idx then some (col rank) else s.columns rank c
    idx := s.idx + 1 }

/-- the two loops (`solvers/eigenvalue_util.py` lines 75–85) -/
def columns {R : Type} [Zero R] [One R] (mv : (Nat → Nat → R) → Nat → Nat → R) (size n : Nat) : Progress R :=
  (List.range size).foldl (fun s r => (List.range n).foldl (fun s i => pass mv r i s) s) fresh

/-- `scipy.sparse.hstack(columns)` of process `rank` (`solvers/eigenvalue_util.py` line 87); a missing column counts as zero -/
def hstack {R : Type} [Zero R] (n total : Nat) (cs : Nat → Option (Nat → R)) : Mat R :=
  ⟨n, total, fun i c => match cs c with | some v => v i | none => 0⟩

/-- `scipy.sparse.vstack` (`solvers/eigenvalue_util.py` line 104) -/
def vstack {R : Type} [Zero R] : List (Mat R) → Mat R
  | [] => ⟨0, 0, fun _ _ => 0⟩
  | [A] => A
  | A :: B :: L => ⟨A.rows + (vstack (B :: L)).rows, A.cols, fun i j => if i < A.rows then A.entry i j else (vstack (B :: L)).entry (i - A.rows) j⟩

/-- `J_tile` of process `rank` -/
def tile {R : Type} [Zero R] [One R] (mv : (Nat → Nat → R) → Nat → Nat → R) (size n rank : Nat) : Mat R :=
  hstack n (n * size) ((columns mv size n).columns rank)

/-- `gen_matrix(matvec, local=True)` on process `rank` (`solvers/eigenvalue_util.py` lines 90–97) -/
def genLocal {R : Type} [Zero R] [One R] (mv : (Nat → Nat → R) → Nat → Nat → R) (size n rank : Nat) : Mat R :=
  let J := tile mv size n rank
  ⟨J.rows, n * (rank + 1) - n * rank, fun i j => J.entry i (n * rank + j)⟩

/-- `gen_matrix(matvec)`: the result on process `rank` (`solvers/eigenvalue_util.py` lines 99–112) -/
def genGlobal {R : Type} [Zero R] [One R] (mv : (Nat → Nat → R) → Nat → Nat → R) (size n rank : Nat) : Option (Mat R) :=
  if rank = 0 then some (vstack ((List.range size).map (tile mv size n))) else none

/-! ## Files of matrices -/

/-- the compressed formats of scipy -/
inductive CFmt where
  | csc | csr | bsr
  deriving DecidableEq

def CFmt.name : CFmt → String
  | .csc => "csc" | .csr => "csr" | .bsr => "bsr"

/-- a sparse matrix of scipy with the arrays its format has; `A` are the one-dimensional arrays -/
inductive Sparse (A : Type) where
  | compressed (fmt : CFmt) (data indices indptr : A) (shape : Nat × Nat)
  | dia (data offsets : A) (shape : Nat × Nat)
  | coo (data row col : A) (shape : Nat × Nat)
  /-- `lil`, `dok`, … -/
  | other (fmt : String)

/-- what a name in an archive of `numpy.savez` refers to -/
inductive Stored (A : Type) where
  | array (a : A)
  /-- the array of shape `(1, n)` made from the tuple `(a,)` -/
  | nested (a : A)
  | bytes (s : String)
  | shape (s : Nat × Nat)

inductive Error where
  | notImplemented | valueError | keyError | typeError | unpickling | indexError
  deriving DecidableEq

abbrev Archive (A : Type) := List (String × Stored A)

/-- `f"{prefix}{num}"` -/
def label (pre : String) (num : Nat) : String := pre ++ Nat.repr num

/-- the names added for one matrix (`solvers/eigenvalue_util.py` lines 119–132); later assignments come first -/
def saveOne {A : Type} (num : Nat) (m : Sparse A) (d : Archive A) : Except Error (Archive A) :=
  match m with
  | .compressed f data indices indptr shape =>
    .ok ((label "data" num, .array data) :: (label "shape" num, .shape shape) :: (label "format" num, .bytes f.name) ::
      (label "indptr" num, .array indptr) :: (label "indices" num, .array indices) :: d)
  | .dia data offsets shape =>
    .ok ((label "data" num, .array data) :: (label "shape" num, .shape shape) :: (label "format" num, .bytes "dia") ::
      (label "offsets" num, .array offsets) :: d)
  | .coo data row col shape =>
    .ok ((label "data" num, .array data) :: (label "shape" num, .shape shape) :: (label "format" num, .bytes "coo") ::
      (label "col" num, .array col) :: (label "row" num, .nested row) :: d)
  | .other _ => .error .notImplemented

/-- the loop of `save_matrices` (`solvers/eigenvalue_util.py` lines 116–136) -/
def saveFrom {A : Type} : Nat → List (Sparse A) → Archive A → Except Error (Archive A)
  | _, [], d => .ok d
  | num, m :: L, d => match saveOne num m d with
    | .error e => .error e
    | .ok d' => saveFrom (num + 1) L d'

def saveMatrices {A : Type} (L : List (Sparse A)) : Except Error (Archive A) := saveFrom 0 L []

/-- `loaded[name]` where a one-dimensional array is required by the constructor of scipy (external: it raises
    `ValueError` for an array of two dimensions) -/
def array {A : Type} (d : Archive A) (name : String) : Except Error A :=
  match d.lookup name with
  | none => .error .keyError
  | some (.array a) => .ok a
  | some _ => .error .valueError

def shapeOf {A : Type} (d : Archive A) (name : String) : Except Error (Nat × Nat) :=
  match d.lookup name with
  | none => .error .keyError
  | some (.shape s) => .ok s
  | some _ => .error .valueError

/-- `loaded[f"format{num}"]` -/
def formatOf {A : Type} (d : Archive A) (num : Nat) : Option String :=
  match d.lookup (label "format" num) with
  | some (.bytes s) => some s
  | _ => none

/-- a matrix of a compressed format (`solvers/eigenvalue_util.py` lines 166–172) -/
def loadCompressed {A : Type} (d : Archive A) (num : Nat) (f : CFmt) : Except Error (Sparse A) := do
  let data ← array d (label "data" num)
  let indices ← array d (label "indices" num)
  let indptr ← array d (label "indptr" num)
  let shape ← shapeOf d (label "shape" num)
  return .compressed f data indices indptr shape

/-- `solvers/eigenvalue_util.py` lines 173–176 -/
def loadDia {A : Type} (d : Archive A) (num : Nat) : Except Error (Sparse A) := do
  let data ← array d (label "data" num)
  let offsets ← array d (label "offsets" num)
  let shape ← shapeOf d (label "shape" num)
  return .dia data offsets shape

/-- `solvers/eigenvalue_util.py` lines 177–183 -/
def loadCoo {A : Type} (d : Archive A) (num : Nat) : Except Error (Sparse A) := do
  let data ← array d (label "data" num)
  let row ← array d (label "row" num)
  let col ← array d (label "col" num)
  let shape ← shapeOf d (label "shape" num)
  return .coo data row col shape

/-- the choice between them (`solvers/eigenvalue_util.py` lines 161–185) -/
def loadOne {A : Type} (d : Archive A) (num : Nat) (f : String) : Except Error (Sparse A) :=
  if f = "csc" then loadCompressed d num .csc
  else if f = "csr" then loadCompressed d num .csr
  else if f = "bsr" then loadCompressed d num .bsr
  else if f = "dia" then loadDia d num
  else if f = "coo" then loadCoo d num
  else .error .notImplemented

/-- the loop of `load_matrices` (`solvers/eigenvalue_util.py` lines 148–189), with at most `fuel` passes -/
def loadFrom {A : Type} (d : Archive A) : Nat → Nat → Except Error (List (Sparse A))
  | 0, _ => .ok []
  | fuel + 1, num => match formatOf d num with
    | none => .ok []
    | some f => match loadOne d num f with
      | .error e => .error e
      | .ok m => match loadFrom d fuel (num + 1) with
        | .error e => .error e
        | .ok L => .ok (m :: L)

/-- `load_matrices` (`solvers/eigenvalue_util.py` lines 142–189); an archive has fewer matrices than names -/
def loadMatrices {A : Type} (d : Archive A) : Except Error (List (Sparse A)) :=
  match formatOf d 0 with
  | none => .error .valueError
  | some _ => loadFrom d (d.length + 1) 0

/-! ## Sets of matrices -/

/-- a value of the dictionary `matrix_set`: the entry of a right-hand side with its four fields, a matrix, or something that is pickled -/
inductive Item (A P : Type) where
  | entry (rhs rhsP : A) (matrix matrixP : Sparse A)
  | mat (m : Sparse A)
  | plain (p : P)

/-- what is written to the file, one after the other -/
inductive Rec (A P : Type) where
  | pickle (i : Item A P)
  | keys (l : List String)
  | npy (a : A)
  | npz (d : Archive A)

/-- `ignore_list` (`solvers/eigenvalue_util.py` line 192) -/
def ignoreList : List String := ["param", "permutation", "precond", "precond_p"]

/-- a matrix that is the value of a key -/
def matrixAt {A P : Type} (S : List (String × Item A P)) (key : String) : Except Error (Sparse A) :=
  match S.lookup key with
  | none => .error .keyError
  | some (.mat m) => .ok m
  | some _ => .error .typeError

/-- the loop over the keys of `store_matrix_set` (`solvers/eigenvalue_util.py` lines 202–209): the arrays written and the matrices collected -/
def storeKeys {A P : Type} (S : List (String × Item A P)) : List String → Except Error (List (Rec A P) × List (Sparse A))
  | [] => .ok ([], [])
  | key :: L =>
    if key ∈ ignoreList then storeKeys S L
    else match S.lookup key with
      | some (.entry rhs rhsP m mP) => match storeKeys S L with
        | .error e => .error e
        | .ok (R, M) => .ok (.npy rhs :: .npy rhsP :: R, m :: mP :: M)
      | some _ => .error .typeError
      | none => .error .keyError

/-- the preconditioner (`solvers/eigenvalue_util.py` lines 211–213) -/
def storePrecond {A P : Type} (S : List (String × Item A P)) : Except Error (List (Sparse A)) :=
  if "precond" ∈ S.map Prod.fst then
    match matrixAt S "precond" with
    | .error e => .error e
    | .ok m => match matrixAt S "precond_p" with
      | .error e => .error e
      | .ok mP => .ok [m, mP]
  else .ok []

/-- the records of the file (`solvers/eigenvalue_util.py` lines 196–215) -/
def records {A P : Type} (S : List (String × Item A P)) : Except Error (List (Rec A P)) := do
  let some param := S.lookup "param" | throw .keyError
  let some perm := S.lookup "permutation" | throw .keyError
  let keys := S.map Prod.fst
  let (R, M) ← storeKeys S keys
  let M' ← storePrecond S
  let d ← saveMatrices (M ++ M')
  return .pickle param :: .pickle perm :: .keys keys :: (R ++ [.npz d])

/-- the first loop over the keys of `load_matrix_set` (`solvers/eigenvalue_util.py` lines 226–231): keys with their arrays, and the rest of the file -/
def loadKeys {A P : Type} : List String → List (Rec A P) → Except Error (List (String × A × A) × List (Rec A P))
  | [], F => .ok ([], F)
  | key :: L, F =>
    if key ∈ ignoreList then loadKeys L F
    else match F with
      | .npy rhs :: .npy rhsP :: F' => match loadKeys L F' with
        | .error e => .error e
        | .ok (E, F'') => .ok ((key, rhs, rhsP) :: E, F'')
      | _ => .error .valueError

/-- the second loop (`solvers/eigenvalue_util.py` lines 235–240), with `M` the matrices from `num_mat` on: the entries and the matrices left -/
def attach {A P : Type} : List (String × A × A) → List (Sparse A) → Except Error (List (String × Item A P) × List (Sparse A))
  | [], M => .ok ([], M)
  | (key, rhs, rhsP) :: E, m :: mP :: M => match attach E M with
    | .error e => .error e
    | .ok (D, M') => .ok ((key, .entry rhs rhsP m mP) :: D, M')
  | _ :: _, _ => .error .indexError

/-- the preconditioner (`solvers/eigenvalue_util.py` lines 242–244) -/
def loadPrecond {A P : Type} (keys : List String) (M : List (Sparse A)) : Except Error (List (String × Item A P)) :=
  if "precond" ∈ keys then
    match M with
    | m :: mP :: _ => .ok [("precond", .mat m), ("precond_p", .mat mP)]
    | _ => .error .indexError
  else .ok []

/-- what follows the three pickled values (`solvers/eigenvalue_util.py` lines 226–246) -/
def loadRest {A P : Type} (param perm : Item A P) (keys : List String) (F : List (Rec A P)) : Except Error (List (String × Item A P)) :=
  match loadKeys keys F with
  | .error e => .error e
  | .ok (E, .npz d :: _) => match loadMatrices d with
    | .error e => .error e
    | .ok M => match attach E M with
      | .error e => .error e
      | .ok (D, M') => match loadPrecond keys M' with
        | .error e => .error e
        | .ok T => .ok (("param", param) :: ("permutation", perm) :: (D ++ T))
  | .ok (_, _) => .error .valueError

/-- `load_matrix_set` (`solvers/eigenvalue_util.py` lines 220–246). The keys of the result are in an order of their own; only what a key
    refers to matters. -/
def loadSet {A P : Type} : List (Rec A P) → Except Error (List (String × Item A P))
  | .pickle param :: .pickle perm :: .keys keys :: F => loadRest param perm keys F
  | _ => .error .unpickling

/-- `store_matrix_set` (`solvers/eigenvalue_util.py` lines 195–217): the file, which is read once at the end to see whether it can be -/
def storeSet {A P : Type} (S : List (String × Item A P)) : Except Error (List (Rec A P)) :=
  match records S with
  | .error e => .error e
  | .ok F => match loadSet F with
    | .error e => .error e
    | .ok _ => .ok F

end WxVerif.Assembly
