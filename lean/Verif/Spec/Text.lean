/-!
# Specification: lines of a text
-/

namespace WxVerif.Text

/-- the text cut at its newlines (newlines removed) -/
def lines : List Char → List (List Char)
  | [] => [[]]
  | c :: cs =>
    if c = '\n' then [] :: lines cs
    else match lines cs with
      | [] => [[c]]
      | l :: ls => (c :: l) :: ls

/-- the lines that are not empty, in order -/
def nonEmptyLines (t : List Char) : List (List Char) := (lines t).filter (· ≠ [])

/-- `s` is `t` without white space at both ends -/
def IsTrimmed (isSpace : Char → Bool) (t s : List Char) : Prop :=
  ∃ a b, t = a ++ s ++ b ∧ (∀ c ∈ a, isSpace c) ∧ (∀ c ∈ b, isSpace c) ∧
    (∀ c, s.head? = some c → isSpace c = false) ∧ (∀ c, s.getLast? = some c → isSpace c = false)

end WxVerif.Text
