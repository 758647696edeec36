/-!
# How a person reads a printed configuration

A small reader that knows nothing of column widths: lines starting with two spaces name a section between dashes, lines
starting with ` |` hold entries `name: value` between bars.
-/

namespace WxVerif.ConfigPrintSpec

/-- the pieces of a text between the separators `c` -/
def pieces (c : Char) : List Char → List (List Char)
  | [] => [[]]
  | x :: xs =>
    if x = c then [] :: pieces c xs
    else match pieces c xs with
      | [] => [[x]]
      | p :: ps => (x :: p) :: ps

/-- without the given character at the end -/
def trimEnd (c : Char) (t : List Char) : List Char := (t.reverse.dropWhile (· = c)).reverse

/-- an entry ` name  : value  `, if there is a colon -/
def entry (t : List Char) : Option (List Char × List Char) :=
  if ':' ∈ t then
    some (trimEnd ' ' ((t.takeWhile (· ≠ ':')).drop 1), trimEnd ' ' ((t.dropWhile (· ≠ ':')).drop 2))
  else none

/-- the entries of a line -/
def entries (line : List Char) : List (List Char × List Char) := (pieces '|' line).filterMap entry

/-- the name in a section line `  ---- name ----  ` -/
def title (line : List Char) : List Char :=
  ((trimEnd '-' (((line.drop 2).dropLast.dropLast).dropWhile (· = '-'))).drop 1).dropLast

/-- reads lines from the last to the first: the entries not yet under a section, and the sections -/
def readLines : List (List Char) → List (List Char × List Char) × List (List Char × List (List Char × List Char))
  | [] => ([], [])
  | line :: rest =>
    let r := readLines rest
    match line with
    | ' ' :: ' ' :: _ => ([], (title line, r.1) :: r.2)
    | ' ' :: '|' :: _ => (entries line ++ r.1, r.2)
    | _ => r

/-- sections with their entries, as read from a printed configuration -/
def readBack (text : List Char) : List (List Char × List (List Char × List Char)) := (readLines (pieces '\n' text)).2

/-- a value text that the layout cannot confuse: no line break, no bar, no space at the end -/
def CleanValue (t : List Char) : Prop := '\n' ∉ t ∧ '|' ∉ t ∧ trimEnd ' ' t = t

/-- the same for the name of an option, which has no colon either -/
def CleanName (t : List Char) : Prop := CleanValue t ∧ ':' ∉ t

end WxVerif.ConfigPrintSpec
