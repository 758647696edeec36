import Mathlib.Data.Nat.Digits.Defs
import Mathlib.Algebra.Order.Field.Basic
import Mathlib.Algebra.Order.Floor.Ring

/-!
# Model of file names, state files and duration printing

`wx_factory/output/output_manager.py` (19-36, 77-97) and `wx_factory/output/state.py`.  Texts are lists of characters.
-/

namespace WxVerif.Output

/-! ## File names -/

/-- Digits of `n` in base `b`, most significant first, `[0]` for zero: what Python's `d` and `x` formats print. -/
def digitsMsf (b n : Nat) : List Nat := if n = 0 then [0] else (Nat.digits b n).reverse

/-- Python's zero-padded formats `f"{n:0{w}d}"` (`b = 10`) and `f"{n:0{w}x}"` (`b = 16`) for a natural number. -/
def fmt (b w n : Nat) : List Char :=
  (List.replicate (w - (digitsMsf b n).length) 0 ++ digitsMsf b n).map Nat.digitChar

/-- `self.config_hash = state_params.__hash__() & 0xFFFFFFFFFFFF` (output_manager.py:84).  `h` is Python's hash, an
arbitrary integer; `&` with `2^48 - 1` is the remainder modulo `2^48` (two's complement). -/
def configHash (h : Int) : Nat := (h % 2 ^ 48).toNat

/-- `state_file_name(step_id)` (output_manager.py:93-97). -/
def stateFileName (outputDir : List Char) (hash : Int) (step : Nat) : List Char :=
  outputDir ++ "/state_vector_".toList ++ fmt 16 12 (configHash hash) ++ ".".toList ++ fmt 10 8 step ++ ".npy".toList

/-! ## State files -/

/-- The external array format: `numpy.save` appends bytes to the file, `numpy.load` consumes them.  UTF-8 is taken as
transparent: files are lists of characters. -/
structure Codec (A : Type*) where
  save : A → List Char
  load : List Char → Option (A × List Char)

/-- `input_file.readline()`: up to and including the first newline. -/
def readline : List Char → List Char × List Char
  | [] => ([], [])
  | c :: cs => if c = '\n' then ([c], cs) else ((c :: (readline cs).1), (readline cs).2)

/-- `input_file.readlines()`: lines keep their newline; an incomplete last line is kept, an empty one is not. -/
def readlines : List Char → List (List Char)
  | [] => []
  | c :: cs =>
    if c = '\n' then [c] :: readlines cs
    else match readlines cs with
      | [] => [[c]]
      | l :: ls => (c :: l) :: ls

/-- `"\n".join(lines)` -/
def join : List (List Char) → List Char
  | [] => []
  | [l] => l
  | l :: l' :: ls => l ++ '\n' :: join (l' :: ls)

/-- `text.strip()`, `isSpace` being Python's notion of white space. -/
def strip (isSpace : Char → Bool) (t : List Char) : List Char :=
  ((t.dropWhile isSpace).reverse.dropWhile isSpace).reverse

/-- `save_state` (state.py:9-16): array, version line, configuration text. -/
def saveState {A : Type*} (codec : Codec A) (state : A) (version content : List Char) : List Char :=
  codec.save state ++ (version ++ ['\n']) ++ content

/-- `load_state` (state.py:19-33): array and text from which the configuration is rebuilt. -/
def loadState {A : Type*} (codec : Codec A) (isSpace : Char → Bool) (file : List Char) : Option (A × List Char) :=
  (codec.load file).map fun (state, rest) => (state, strip isSpace (join (readlines (readline rest).2)))

/-- `readfile` (common/readfile.py:1-5): how configuration files are read in the first place. -/
def readfile (file : List Char) : List Char := join (readlines file)

/-! ## Durations -/

/-- A Python number: `int` or `float` (exact values of an ordered field). -/
inductive PyNum (K : Type*) where
  | int (n : Int)
  | float (x : K)

variable {K : Type*} [Field K] [LinearOrder K] [FloorRing K]

/-- its value -/
def PyNum.val : PyNum K → K
  | .int n => n
  | .float x => x

/-- The text printed, without the decimal rendering of numbers: number and unit. -/
inductive Duration (K : Type*) where
  | zero
  | ns (x : K)
  | us (x : K)
  | ms (x : K)
  | plain (x : K)
  | hms (h m s : Int)

/-- `f"{x:02d}"`: a `ValueError` for a `float`. -/
def fmt02d : PyNum K → Option Int
  | .int n => some n
  | .float _ => none

/-- `_readable_time(seconds)` (output_manager.py:19-36); `none` is the `ValueError` of the format `02d`.  In the last
branch `h` is always an `int`; `rem = seconds - int(seconds)` has the type of `seconds`. -/
def readableTime (seconds : PyNum K) : Option (Duration K) :=
  let x := seconds.val
  if x = 0 then some .zero
  else if x < 1 / 1000000 then some (.ns (x * 1000000000))
  else if x < 1 / 1000 then some (.us (x * 1000000))
  else if x < 1 then some (.ms (x * 1000))
  else if x > 1000 then
    let h := ⌊x⌋ / 3600
    let rem : PyNum K := match seconds with | .int n => .int (n - n) | .float y => .float (y - (⌊y⌋ : K))
    let m : PyNum K := match rem with | .int r => .int (r / 60) | .float r => .float (⌊r / 60⌋ : K)
    let s : PyNum K := match rem with | .int r => .int (r % 60) | .float r => .float (r - 60 * (⌊r / 60⌋ : K))
    match fmt02d m, fmt02d s with
    | some m, some s => some (.hms h m s)
    | _, _ => none
  else some (.plain x)

end WxVerif.Output
