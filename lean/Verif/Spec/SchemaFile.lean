import Verif.Model.SchemaFile
import Verif.Spec.Config

/-!
# Specification: files that describe options

What a description of one option means, and the two ways of writing the same descriptions in a file.
-/

namespace WxVerif.SchemaSpec

open WxVerif.SchemaFile
open WxVerif.Config (Value Range)
open WxVerif.ConfigSpec (Allowed)

/-- the names of the types -/
def typeNames : Ty → List String
  | .int => ["int"]
  | .float => ["float", "float64"]
  | .float32 => ["float32"]
  | .angle24 => ["angle24"]
  | .bool => ["bool"]
  | .csStr => ["case-sensitive-str", "cs-str"]
  | .lcStr => ["lower-case-str", "lc-str", "str"]

/-- a file with the options grouped in sections -/
def sectioned (version : String) (secs : List (String × List Obj)) : Obj :=
  [("version", .str version),
    ("sections", .arr (secs.map fun s => .obj [("name", .str s.1), ("fields", .arr (s.2.map .obj))]))]

/-- a file with one list of options, each with the name of its section -/
def flat (version : String) (secs : List (String × List Obj)) : Obj :=
  [("version", .str version),
    ("fields", .arr (secs.flatMap fun s => s.2.map fun f => .obj (("section", .str s.1) :: f)))]

variable {α : Type} [LinearOrder α] (P : Python α)

/-- is a text -/
def IsText : Json → Prop
  | .str _ => True
  | _ => False

/-- the JSON value `j` written for an option of type `t` stands for the value `a`: it is converted by the type; a text is first evaluated as an
expression, unless the type is a text -/
inductive StandsFor (t : Ty) : Json → α → Prop
  | plain {j a} : ¬IsText j ∨ t.isStr = true → P.call t j = some a → StandsFor t j a
  | expression {s v a} : t.isStr = false → P.evalExpr s = some v → P.call t v = some a → StandsFor t (.str s) a

/-- the option `l` is what the description `o`, in section `sec`, says -/
structure Describes (sec : String) (o : Obj) (l : Loaded α) : Prop where
  section_ : l.section_ = sec
  name : ∃ j, lookup "name" o = some j ∧ l.name = P.text j
  type : ∃ j, lookup "type" o = some j ∧ ∃ n ∈ typeNames l.type,
    (l.isList = false ∧ P.text j = n) ∨ (l.isList = true ∧ P.text j = "list-" ++ n)
  noDefault : l.default = none ↔ lookup "default" o = none
  min : ∀ a, l.range.min = some a ↔ ∃ j, lookup "min" o = some j ∧ StandsFor P l.type j a
  max : ∀ a, l.range.max = some a ↔ ∃ j, lookup "max" o = some j ∧ StandsFor P l.type j a
  selectables : ∀ js, lookup "selectables" o = some (.arr js) →
    ∃ sel, l.range.selectables = some sel ∧ List.Forall₂ (fun j a => P.call l.type j = some a) js sel
  noSelectables : l.range.selectables = none ↔ lookup "selectables" o = none
  scalar : l.isList = false → ∀ j, lookup "default" o = some j → ∃ a, StandsFor P l.type j a ∧ l.default = some (.scalar a)
  list : l.isList = true → ∀ js, lookup "default" o = some (.arr js) →
    ∃ as, List.Forall₂ (fun j a => P.call l.type j = some a) js as ∧ l.default = some (.list as)
  one : l.isList = true → ∀ j, lookup "default" o = some j → (∀ js, j ≠ .arr js) → (IsText j → l.type.isStr = true) →
    ∃ a, P.call l.type j = some a ∧ l.default = some (.list [a])
  noDependency : l.dependency = none ↔ lookup "dependency" o = none
  dependency : ∀ p vs, l.dependency = some (p, vs) →
    ∃ d n, lookup "dependency" o = some (.obj d) ∧ lookup "name" d = some n ∧ p = P.text n ∧
      ∃ v, lookup "values" d = some v ∧ (v = .arr vs ∨ (vs = [v] ∧ ∀ js, v ≠ .arr js) ∧ ¬IsText v)
  description : l.description = (lookup "description" o).map P.text

end WxVerif.SchemaSpec
