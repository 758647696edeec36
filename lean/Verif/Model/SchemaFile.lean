import Verif.Model.Config
import Mathlib.Data.Rat.Defs

/-!
# Model of the loading of the description of the options — `wx_factory/common/configuration_schema.py`

A JSON text has been parsed (`json.loads` is external); what is modelled is everything that `ConfigurationSchema` does with the result.
-/

namespace WxVerif.SchemaFile

open WxVerif.Config (Value Range)

/-- what `json.loads` returns -/
inductive Json where
  | null
  | bool (b : Bool)
  | int (z : Int)
  | real (q : ℚ)
  | str (s : String)
  | arr (l : List Json)
  | obj (o : List (String × Json))

/-- a JSON object; if a key were repeated the first entry would count (Python keeps one entry per key) -/
abbrev Obj := List (String × Json)

/-- the types an option can have — `configuration_schema.py` 349-361.  All are classes except `bool`, which is the function `str_to_bool`
(37-38). -/
inductive Ty where
  | int | float | float32 | angle24 | bool | csStr | lcStr
  deriving DecidableEq, Repr

/-- `issubclass(t, str)` for the types that are classes — `configuration_schema.py` 19-34 -/
def Ty.isStr : Ty → Bool
  | .csStr | .lcStr => true
  | _ => false

/-- the table of type names and aliases — `configuration_schema.py` 349-361 -/
def classes : List (String × Ty) :=
  [("int", .int), ("float", .float), ("float32", .float32), ("float64", .float), ("angle24", .angle24), ("bool", .bool),
    ("case-sensitive-str", .csStr), ("cs-str", .csStr), ("lower-case-str", .lcStr), ("lc-str", .lcStr), ("str", .lcStr)]

/-- What is external: the evaluator of expressions (`eval_expr`, see C22; `none` when it raises), the constructors of the option types
(`t(x)`, `none` when they raise), and `str(x)`. -/
structure Python (α : Type) where
  evalExpr : String → Option Json
  call : Ty → Json → Option α
  text : Json → String

/-- exceptions of the constructor of the schema -/
inductive LoadErr where
  /-- `KeyError`: a mandatory attribute is missing — `configuration_schema.py` 307-308 -/
  | missing (name : String)
  /-- `KeyError`: the type is not in the table — `configuration_schema.py` 364, 367 -/
  | unknownType (t : String)
  /-- `ValueError("Field …")`: anything wrong in the default, range, dependency or description — `configuration_schema.py` 382-383 -/
  | field (name : String)
  /-- `ValueError`: the default is not in the range — `configuration_schema.py` 160-164 -/
  | badDefault (name : String)
  /-- an object was expected — `dict(x)` raises -/
  | notObject
  deriving DecidableEq, Repr

/-- an option as described in the file — `configuration_schema.py` 138-158, `ConfigurationField` -/
structure Loaded (α : Type) where
  name : String
  section_ : String
  default : Option (Value α)
  type : Ty
  isList : Bool
  range : Range α
  dependency : Option (String × List Json)
  description : Option String

variable {α : Type} (P : Python α)

/-- `name in attributes`, `attributes[name]` — `configuration_schema.py` 306, 311 -/
def lookup (name : String) (o : Obj) : Option Json := (o.find? fun e => e.1 = name).map (·.2)

/-- `__get_attribute(name, o, str)` — `configuration_schema.py` 293-323 -/
def getText (name : String) (o : Obj) : Except LoadErr String :=
  match lookup name o with
  | none => .error (.missing name)
  | some j => .ok (P.text j)

/-- `__get_attribute(name, o, str, optional=True)` — `configuration_schema.py` 293-323 -/
def getTextOpt (name : String) (o : Obj) : Option String := (lookup name o).map P.text

/-- the attribute as a list — `configuration_schema.py` 318-319 -/
def asList : Json → List Json
  | .arr l => l
  | j => [j]

/-- `dict(x)` — a JSON object is copied, the empty list gives the empty object.  Simplification: a list of pairs, which Python would also accept,
is refused. -/
def toObj : Json → Option Obj
  | .obj o => some o
  | .arr [] => some []
  | _ => none

/-- `__get_attribute(name, o, dict, is_list=True, optional=True)` — `configuration_schema.py` 293-323.  A text is evaluated as an expression and the number cannot be made
an object. -/
def getObjs (name : String) (o : Obj) : Except LoadErr (Option (List Obj)) :=
  match lookup name o with
  | none => .ok none
  | some (.str _) => .error .notObject
  | some j => match (asList j).mapM toObj with | none => .error .notObject | some l => .ok (some l)

/-- The attribute converted to the type of the option, or to a list — `configuration_schema.py` 317-323 after the test of 314.  `issubclass` refuses the function that stands
for `bool`. -/
def convertTyped (t : Ty) (isList : Bool) (j : Json) : Option (Value α) :=
  if isList then
    if t = .bool then none else ((asList j).mapM (P.call t)).map .list
  else (P.call t j).map .scalar

/-- `__get_attribute(name, o, t, optional=True, is_list)` for the type of an option — `configuration_schema.py` 293-323: `none` when it raises.  A text is evaluated as an
expression unless the type is a text; the result is then converted to a scalar, also when a list is asked for. -/
def getTyped (t : Ty) (name : String) (o : Obj) (isList : Bool) : Option (Option (Value α)) :=
  match lookup name o with
  | none => some none
  | some (.str s) =>
    if t = .bool then none
    else if t.isStr then (convertTyped P t isList (.str s)).map some
    else (P.evalExpr s).bind fun v => (P.call t v).map fun a => some (.scalar a)
  | some j => (convertTyped P t isList j).map some

/-- a scalar attribute -/
def getScalar (t : Ty) (name : String) (o : Obj) : Option (Option α) :=
  (getTyped P t name o false).map fun v => v.bind fun v => match v with | .scalar a => some a | .list _ => none

/-- `selectables` — `configuration_schema.py` 337.  Simplification: for a numeric type given as one text the code ends up with a number where a list is needed and raises
when the first value is tested; here it raises at once. -/
def getSelectables (t : Ty) (o : Obj) : Option (Option (List α)) :=
  (getTyped P t "selectables" o true).bind fun v => match v with | none => some none | some (.list l) => some (some l) | some (.scalar _) => none

/-- `__get_range` and the checks of `ConfigFieldRange` — `configuration_schema.py` 333-339, 84-89 -/
def getRange [LinearOrder α] (t : Ty) (o : Obj) : Option (Range α) :=
  (getScalar P t "min" o).bind fun lo => (getScalar P t "max" o).bind fun hi => (getSelectables P t o).bind fun sel =>
    if Range.constructible ⟨lo, hi, sel⟩ then some ⟨lo, hi, sel⟩ else none

/-- the dependency — `configuration_schema.py` 373-378 and, for the attribute `values`, 293-323: a text would be evaluated as an expression, and a number cannot be made a
list. -/
def getDependency (o : Obj) : Option (Option (String × List Json)) :=
  match lookup "dependency" o with
  | none => some none
  | some (.str _) => none
  | some j => (toObj j).bind fun d =>
    match lookup "name" d, lookup "values" d with
    | some _, some (.str _) => none
    | some n, some v => some (some (P.text n, asList v))
    | _, _ => none

/-- the type and whether a list of it is meant — `configuration_schema.py` 346, 362-367 -/
def getType (s : String) : Except LoadErr (Bool × Ty) :=
  let isList := decide (s.toList.take 5 = "list-".toList)
  let key := if isList then String.ofList (s.toList.drop 5) else s
  match classes.find? fun e => e.1 = key with
  | none => .error (.unknownType key)
  | some e => .ok (isList, e.2)

/-- the section: that of the group, or the one named in the description — `configuration_schema.py` 344-345 -/
def getSection (o : Obj) (sectionName : String) : Except LoadErr String :=
  if sectionName = "" then getText P "section" o else .ok sectionName

/-- `__extract_field` and `ConfigurationField.__init__` — `configuration_schema.py` 341-387, 138-164 -/
def extractField [LinearOrder α] (o : Obj) (sectionName : String) : Except LoadErr (Loaded α) := do
  let name ← getText P "name" o
  let sec ← getSection P o sectionName
  let typeName ← getText P "type" o
  let (isList, t) ← getType typeName
  match getTyped P t "default" o isList, getRange P t o, getDependency P o with
  | some default, some range, some dependency =>
    match default with
    | none => .ok ⟨name, sec, none, t, isList, range, dependency, getTextOpt P "description" o⟩
    | some d =>
      if range.validate d then .ok ⟨name, sec, some d, t, isList, range, dependency, getTextOpt P "description" o⟩ else .error (.badDefault name)
  | _, _, _ => .error (.field name)

/-- `__extract_section` — `configuration_schema.py` 325-331 -/
def extractSection [LinearOrder α] (o : Obj) : Except LoadErr (List (Loaded α)) := do
  let name ← getText P "name" o
  match ← getObjs "fields" o with
  | none => .error (.missing "fields")
  | some l => l.mapM fun f => extractField P f name

/-- `sort_fields_by_dependency` — `configuration_schema.py` 240-260 -/
def sortFields (fields : List (Loaded α)) : List (Loaded α) :=
  let r := fields.foldl (fun (acc : List (Loaded α) × List (Loaded α)) f =>
    if f.dependency.isNone then (acc.1 ++ [f], acc.2) else (acc.1, acc.2 ++ [f])) ([], [])
  r.2.foldl (fun acc f => acc ++ [f]) r.1

/-- `ConfigurationSchema.__init__` — `configuration_schema.py` 273-291: the version and the fields in the order in which they are read -/
def load [LinearOrder α] (o : Obj) : Except LoadErr (String × List (Loaded α)) := do
  let version ← getText P "version" o
  let sections ← getObjs "sections" o
  let fieldList ← getObjs "fields" o
  let inSections ← (sections.getD []).mapM (extractSection P)
  let flat ← (fieldList.getD []).mapM fun f => extractField P f ""
  .ok (version, sortFields (inSections.flatten ++ flat))

/-! ## The printed description -/

/-- `make_str` — `configuration_schema.py` 50-70: items with their widths; texts as lists of characters -/
def makeStr (markdown header : Bool) (items : List (List Char × Nat)) : List Char :=
  let r := items.foldl (fun (acc : List Char × Nat) it =>
    let desired := acc.2 + it.2
    let r := acc.1 ++ (if markdown then " | ".toList else [])
    let r := r ++ (if markdown && header then "**".toList ++ it.1 ++ "** ".toList else it.1 ++ [' '])
    (r ++ List.replicate (desired - r.length) ' ', desired)) ([], 0)
  r.1 ++ (if markdown then " | ".toList else [])

/-- one step of the loop of `to_string` over the fields: `sections` is a dictionary in order of first insertion — `configuration_schema.py` 391-397 -/
def addToSections {β : Type*} (sec : β → String) (acc : List (String × List β)) (f : β) : List (String × List β) :=
  if acc.any fun e => e.1 = sec f then acc.map fun e => if e.1 = sec f then (e.1, e.2 ++ [f]) else e
  else acc ++ [(sec f, [f])]

/-- `to_string`: the sections and the fields listed under each — `configuration_schema.py` 390-402 -/
def listing {β : Type*} (sec : β → String) (fields : List β) : List (String × List β) := fields.foldl (addToSections sec) []

end WxVerif.SchemaFile
