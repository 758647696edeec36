import Verif.Model.Machine
import Mathlib.Order.Interval.Finset.Nat

/-!
# Specification: words in a line of text, devices of a node
-/

namespace WxVerif.Spec.Machine

open WxVerif.Machine (isWord)

/-- letters, digits and `_` are the characters of words -/
def WordChar (c : Char) : Prop := c.isAlphanum = true ∨ c = '_'

/-- `w` stands in the text at the start of a word -/
def AtWordStart (text w : List Char) : Prop := ∃ pre post, text = pre ++ w ++ post ∧ ∀ c ∈ pre.getLast?, ¬ WordChar c

/-- `w` stands in the text as a whole word -/
def AsWord (text w : List Char) : Prop := ∃ pre post, text = pre ++ w ++ post ∧ (∀ c ∈ pre.getLast?, ¬ WordChar c) ∧ ∀ c ∈ post.head?, ¬ WordChar c

/-- the name of a vendor that is known -/
def HasVendor (text : List Char) : Prop := AsWord text "intel".toList ∨ AsWord text "amd".toList

/-- a number of at least four digits at the start of a word -/
def HasNumber (text : List Char) : Prop := ∃ d : List Char, d.length = 4 ∧ (∀ c ∈ d, c.isDigit = true) ∧ AtWordStart text d

/-- `x` is the number of one of `n` devices -/
def IsDevice (n : Nat) (x : Int) : Prop := 0 ≤ x ∧ x < n

/-- how many of the processes `first, …, first + count - 1` use position `i` of a list of `len` devices -/
def load (first count len i : Nat) : Nat := ((Finset.Ico first (first + count)).filter fun r => r % len = i).card

end WxVerif.Spec.Machine
