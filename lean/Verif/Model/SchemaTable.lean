import Verif.Model.SchemaFile

/-!
# Model of the cells of the printed list of options — `wx_factory/common/configuration_schema.py`, `scripts/wx_config.py`

`python3 scripts/wx_config.py --list` prints one line per option with its name, type, default, range of valid values and description; the text
of the range is also part of the error shown when a value is refused.  Texts are lists of characters; the text `str(a)` of a single value is a
parameter `sh`.
-/

namespace WxVerif.SchemaTable

open WxVerif.Config (Value Range)
open WxVerif.SchemaFile (Ty)

variable {α : Type}

/-- `", ".join(texts)` -/
def joined (texts : List (List Char)) : List Char := List.intercalate [',', ' '] texts

/-- `ConfigFieldRange.__str__` — `configuration_schema.py` 118-128 -/
def rangeText (sh : α → List Char) (r : Range α) : List Char :=
  match r.selectables with
  | some sel => '{' :: (joined (sel.map sh) ++ ['}'])
  | none =>
    if r.min.isSome || r.max.isSome then
      let minStr := match r.min with | none => ['-', 'i', 'n', 'f'] | some a => sh a
      let maxStr := match r.max with | none => ['i', 'n', 'f'] | some a => sh a
      '[' :: (minStr ++ ',' :: ' ' :: (maxStr ++ [']']))
    else []

/-- `t.__name__` for the types an option can have — `configuration_schema.py` 19-38, 349-361 -/
def typeName : Ty → String
  | .int => "int"
  | .float => "float"
  | .float32 => "float32"
  | .angle24 => "angle24"
  | .bool => "str_to_bool"
  | .csStr => "CaseSensitiveStr"
  | .lcStr => "LowerCaseStr"

/-- an option of the table: its type and the field that reads it — `configuration_schema.py` 138-158 -/
structure Row (α : Type) where
  name : String
  type : Ty
  field : WxVerif.Config.Field α
  description : Option String

/-- the third cell, `'[none]' if self.field_default is None else str(self.field_default)` — `configuration_schema.py` 221; `shv` is `str` of a
value -/
def defaultText (shv : Value α → List Char) (d : Option (Value α)) : List Char :=
  match d with | none => "[none]".toList | some v => shv v

/-- the cells of `ConfigurationField.to_string` with their widths — `configuration_schema.py` 215-226 (the range is never `None`) -/
def cells (sh : α → List Char) (shv : Value α → List Char) (o : Row α) : List (List Char × Nat) :=
  [(o.name.toList, 24), ((typeName o.type).toList, 8), (defaultText shv o.field.default, 12), (rangeText sh o.field.range, 35),
    ((o.description.getD "").toList, 0)]

/-- `ConfigurationField.to_string(markdown)` — `configuration_schema.py` 215-226 -/
def line (sh : α → List Char) (shv : Value α → List Char) (markdown : Bool) (o : Row α) : List Char :=
  WxVerif.SchemaFile.makeStr markdown false (cells sh shv o)

/-- one line of `type_hints`, `f"{f.name}: {f.type.__name__}"` — `configuration_schema.py` 408-409 -/
def hint (o : Row α) : List Char := o.name.toList ++ [':', ' '] ++ (typeName o.type).toList

end WxVerif.SchemaTable
