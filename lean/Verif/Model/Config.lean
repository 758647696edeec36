import Mathlib.Order.Defs.LinearOrder
import Mathlib.Algebra.Field.Defs
import Mathlib.Algebra.Order.Floor.Ring

/-!
# Model of `wx_factory/common/`: configuration schema, expressions, 24-bit angles
-/

namespace WxVerif.Config

/-! ## Ranges and single options -/

/-- Value of an option: a scalar or a list of scalars (configuration_schema.py:41).  Scalars of one field all have the
same Python type, which is totally ordered. -/
inductive Value (α : Type*) where
  | scalar (a : α)
  | list (l : List α)
  deriving DecidableEq, Repr

/-- `ConfigFieldRange` attributes (configuration_schema.py:77-82). -/
structure Range (α : Type*) where
  min : Option α
  max : Option α
  selectables : Option (List α)

variable {α : Type*} [LinearOrder α]

/-- Does `ConfigFieldRange.__init__` accept the range (configuration_schema.py:84-89)? -/
def Range.constructible (r : Range α) : Bool :=
  !(r.selectables.isSome && !(r.min.isNone && r.max.isNone)) &&
  !(match r.min, r.max with | some a, some b => decide (b < a) | _, _ => false)

/-- `_make_base_validate` (configuration_schema.py:91-102); `none` is Python's `None`. -/
def Range.baseValidate (r : Range α) : Option (α → Bool) :=
  match r.selectables, r.min, r.max with
  | some sel, _, _ => some fun a => decide (a ∈ sel)
  | none, some lo, some hi => some fun a => decide (lo ≤ a) && decide (a ≤ hi)
  | none, some lo, none => some fun a => decide (lo ≤ a)
  | none, none, some hi => some fun a => decide (a ≤ hi)
  | none, none, none => none

/-- `make_validate` (configuration_schema.py:104-117). -/
def Range.validate (r : Range α) (v : Value α) : Bool :=
  match r.baseValidate with
  | none => true
  | some f => match v with | .list l => l.all f | .scalar a => f a

/-- Errors while reading one option. -/
inductive Err where
  /-- `ConfigValueError`, the named error shown to the user -/
  | configValue
  /-- any exception that `read` lets through (e.g. `TypeError` from iterating over a JSON number) -/
  | other
  deriving DecidableEq, Repr

/-- Exceptions of a conversion from text: `ValueError` (including `JSONDecodeError`) or another one. -/
inductive ConvErr where
  | valueError
  | other
  deriving DecidableEq, Repr

/-- A `ConfigurationField` (configuration_schema.py:138-164): the conversions of its type are parameters.
`conv` is `self.type`, `json` is `json.loads` followed by iteration (one conversion per element follows). -/
structure Field (α : Type*) where
  default : Option (Value α)
  isList : Bool
  range : Range α
  conv : String → Except ConvErr α
  jsonItems : String → Except ConvErr (List (Except ConvErr α))

/-- `[self.type(x) for x in items]`: the first failing conversion raises. -/
def convAll : List (Except ConvErr α) → Except ConvErr (List α)
  | [] => .ok []
  | .error e :: _ => .error e
  | .ok a :: rest => (convAll rest).map (a :: ·)

/-- `_read_list` / `_read_single` on a present text (configuration_schema.py:166-175). -/
def Field.convert (f : Field α) (text : String) : Except ConvErr (Value α) :=
  if f.isList then
    match f.conv text with
    | .ok a => .ok (.list [a])
    | .error .valueError => ((f.jsonItems text).bind convAll).map .list
    | .error .other => .error .other
  else (f.conv text).map .scalar

/-- Is the field accepted by `ConfigurationField.__init__` (configuration_schema.py:160-164)? -/
def Field.constructible (f : Field α) : Bool :=
  f.range.constructible && (match f.default with | none => true | some d => f.range.validate d)

/-- `ConfigurationField.read(parser)` (configuration_schema.py:177-199).  `text = none` stands for `NoOptionError` and
`NoSectionError`. -/
def Field.read (f : Field α) (text : Option String) : Except Err (Value α) :=
  let value : Except Err (Value α) :=
    match text with
    | none => match f.default with | none => .error .configValue | some d => .ok d
    | some t =>
      match f.convert t with
      | .ok v => .ok v
      | .error .valueError => .error .configValue
      | .error .other => .error .other
  match value with
  | .error e => .error e
  | .ok v => if f.range.validate v then .ok v else .error .configValue

/-! ## The whole configuration -/

/-- The part of a field that matters for the order of reading: name, section, dependency, and the outcome of `read`
on the given file. -/
structure Opt (V : Type*) where
  name : String
  section_ : String
  dependency : Option (String × List V)
  read : Except Err V

variable {V : Type*} [DecidableEq V]

/-- `sort_fields_by_dependency` (configuration_schema.py:240-260): one pass filling two lists. -/
def sortFields (fields : List (Opt V)) : List (Opt V) :=
  let (sorted, remainder) := fields.foldl
    (fun (acc : List (Opt V) × List (Opt V)) f =>
      if f.dependency.isNone then (acc.1 ++ [f], acc.2) else (acc.1, acc.2 ++ [f])) ([], [])
  remainder.foldl (fun acc f => acc ++ [f]) sorted

/-- Attributes of a `Configuration`: `none` = attribute does not exist. -/
abbrev Attrs (V : Type*) := String → Option V

/-- Errors of the constructor: a failing option or a dependency on a missing attribute (`ValueError`). -/
inductive CfgErr where
  | option (e : Err)
  | missingDependency (name : String)
  deriving DecidableEq, Repr

/-- `_get_option(field)` (configuration.py:58-74): new attributes and the names of options recorded in `sections`
(in order, as pairs). -/
def getOption (st : Attrs V × List (String × String)) (f : Opt V) :
    Except CfgErr (Attrs V × List (String × String)) :=
  let proceed : Except CfgErr Bool :=
    match f.dependency with
    | none => .ok true
    | some (parent, values) =>
      match st.1 parent with
      | none => .error (.missingDependency parent)
      | some v => .ok (decide (v ∈ values))
  match proceed with
  | .error e => .error e
  | .ok false => .ok st
  | .ok true =>
    match f.read with
    | .error e => .error (.option e)
    | .ok v => .ok (fun n => if n = f.name then some v else st.1 n, st.2 ++ [(f.section_, f.name)])

/-- `for field in schema.fields: self._get_option(field)` (configuration.py:30-31). -/
def readOptions : Attrs V × List (String × String) → List (Opt V) →
    Except CfgErr (Attrs V × List (String × String))
  | st, [] => .ok st
  | st, f :: fs => match getOption st f with | .error e => .error e | .ok st' => readOptions st' fs

/-- `Configuration.__init__` up to the options (configuration.py:16-31), for the schema built from `fields`
(configuration_schema.py:286). `preset` are the attributes set before reading (configuration.py:18-28). -/
def configure (preset : Attrs V) (fields : List (Opt V)) : Except CfgErr (Attrs V × List (String × String)) :=
  readOptions (preset, []) (sortFields fields)

/-! ## Expressions -/

/-- Operators of Python's `ast` (binary and unary). -/
inductive BinOp where
  | add | sub | mult | div
  /-- `Pow`, `Mod`, `FloorDiv`, `BitXor`, ... -/
  | unsupported
  deriving DecidableEq, Repr

/-- Unary operators of Python's `ast`. -/
inductive UnOp where
  | usub
  /-- `UAdd`, `Not`, `Invert` -/
  | unsupported
  deriving DecidableEq, Repr

/-- Python expression trees, as far as `_eval` distinguishes them (eval_expr.py:25-39). -/
inductive Ast (K : Type*) where
  /-- literal `int`/`float` -/
  | num (x : K)
  /-- literal of another type -/
  | otherConst
  | name (n : String)
  | bin (l : Ast K) (op : BinOp) (r : Ast K)
  | un (op : UnOp) (e : Ast K)
  /-- calls, subscripts, comparisons, ... -/
  | other

/-- Exceptions of the evaluator. -/
inductive EvalErr where
  | keyError | typeError | zeroDivision
  deriving DecidableEq, Repr

/-- `_operators[type(op)](l, r)` (eval_expr.py:7-15, 34) on evaluated operands; the operator is looked up first. -/
def applyBin {K : Type*} [_root_.Field K] [DecidableEq K] (op : BinOp) (l r : Except EvalErr K) : Except EvalErr K :=
  match op with
  | .unsupported => .error .keyError
  | _ =>
    match l with
    | .error e => .error e
    | .ok a =>
      match r with
      | .error e => .error e
      | .ok b =>
        match op with
        | .add => .ok (a + b)
        | .sub => .ok (a - b)
        | .mult => .ok (a * b)
        | _ => if b = 0 then .error .zeroDivision else .ok (a / b)

/-- `_eval(node)` (eval_expr.py:25-39) with exact arithmetic; `pi` is the value of `math.pi`. -/
def eval {K : Type*} [_root_.Field K] [DecidableEq K] (pi : K) : Ast K → Except EvalErr K
  | .num x => .ok x
  | .otherConst => .error .typeError
  | .name n => if n.toLower = "pi" then .ok pi else .error .keyError
  | .bin l op r => applyBin op (eval pi l) (eval pi r)
  | .un op e =>
    match op with
    | .unsupported => .error .keyError
    | .usub => match eval pi e with | .error e => .error e | .ok a => .ok (-a)
  | .other => .error .typeError

/-! ## Angles -/

section angle
variable {K : Type*} [_root_.Field K] [LinearOrder K] [FloorRing K]

/-- Python's `round(x)`: to the nearest integer, ties to even. -/
def pyRound (x : K) : Int :=
  let n := ⌊x⌋
  let d := x - n
  if d < 1 / 2 then n else if d > 1 / 2 then n + 1 else if n % 2 = 0 then n else n + 1

/-- `_INTERVAL` (angle24.py:8). -/
def interval (pi : K) : K := 2 * pi / 16777216

/-- First loop of `encode` (angle24.py:17-19), at most `fuel` rounds; `none` if it has not ended. -/
def wrapDown (pi : K) : Nat → K → Option K
  | 0, _ => none
  | n + 1, f => if f ≥ pi then wrapDown pi n (f - 2 * pi) else some f

/-- Second loop of `encode` (angle24.py:20-22). -/
def wrapUp (pi : K) : Nat → K → Option K
  | 0, _ => none
  | n + 1, f => if f < -pi then wrapUp pi n (f + 2 * pi) else some f

/-- `encode(f64)` (angle24.py:11-25), `fuel` bounding the number of loop rounds; exact arithmetic.
`& 0xFFFFFF` is the remainder modulo `2^24`. -/
def encode (pi : K) (fuel : Nat) (f : K) : Option Int :=
  ((wrapDown pi fuel f).bind (wrapUp pi fuel)).map fun f => (pyRound (f / interval pi) + 8388608) % 16777216

/-- `decode(u64)` (angle24.py:28-33). -/
def decode (pi : K) (u : Int) : K := ((u % 16777216 - 8388608 : Int) : K) * interval pi

end angle

end WxVerif.Config
