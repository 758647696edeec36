import Mathlib.Order.Defs.LinearOrder

/-!
# How someone reads the range printed for an option

The notation is the usual one: an empty text allows everything, `[a, b]` allows what lies between the two bounds, where `-inf` and `inf` mean
that there is no bound, and `{a, b, c}` allows what is listed.
-/

namespace WxVerif.Spec.SchemaTable

/-- the text of a lower bound is respected by `a` -/
def AboveText {α : Type} [LinearOrder α] (sh : α → List Char) (text : List Char) (a : α) : Prop :=
  text = ['-', 'i', 'n', 'f'] ∨ ∃ lo, text = sh lo ∧ lo ≤ a

/-- the text of an upper bound is respected by `a` -/
def BelowText {α : Type} [LinearOrder α] (sh : α → List Char) (text : List Char) (a : α) : Prop :=
  text = ['i', 'n', 'f'] ∨ ∃ hi, text = sh hi ∧ a ≤ hi

/-- a text without comma, and not empty -/
def Word (w : List Char) : Prop := w ≠ [] ∧ ',' ∉ w

/-- the text of a range allows the value `a` -/
def Allows {α : Type} [LinearOrder α] (sh : α → List Char) (text : List Char) (a : α) : Prop :=
  text = [] ∨
  (∃ l u, Word l ∧ Word u ∧ text = ['['] ++ l ++ [',', ' '] ++ u ++ [']'] ∧ AboveText sh l a ∧ BelowText sh u a) ∨
  (∃ words, (∀ w ∈ words, Word w) ∧ text = ['{'] ++ List.intercalate [',', ' '] words ++ ['}'] ∧ sh a ∈ words)

end WxVerif.Spec.SchemaTable
