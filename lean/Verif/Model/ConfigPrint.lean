import Verif.Model.Config
import Mathlib.Data.Rat.Floor

/-!
# Model of the printed configuration (`wx_factory/common/configuration.py`)

Text is a list of characters; Python's `len` of a string is its length.
-/

namespace WxVerif.ConfigPrint

open WxVerif.Config

/-- Text. -/
abbrev Text := List Char

/-- `f"{t:25s}"` and `f"{t:13s}"`: filled up with spaces on the right to the width `w` (configuration.py:90, 97). -/
def pad (w : Nat) (t : Text) : Text := t ++ List.replicate (w - t.length) ' '

/-- `f"{t:-^80s}"`: centred between dashes, the odd dash to the right (configuration.py:79). -/
def centre (w : Nat) (t : Text) : Text :=
  List.replicate ((w - t.length) / 2) '-' ++ t ++ List.replicate (w - t.length - (w - t.length) / 2) '-'

/-- How values turn into text: `isinstance(v, float)`, `f"{v:.6g}"` and `str(v)` (configuration.py:83-87). -/
structure Texts (V : Type*) where
  isFloat : V → Bool
  sixDigits : V → Text
  str : V → Text

variable {V : Type*}

/-- The text `val` of a value (configuration.py:84-87). -/
def Texts.text (t : Texts V) (v : V) : Text := if t.isFloat v then t.sixDigits v else t.str v

/-- `getattr(self, option)` turned into text (configuration.py:83-87).  The attribute exists for every recorded option
(configuration.py:67-72), so the empty text stands for a case that does not occur. -/
def valueOf (t : Texts V) (attrs : Attrs V) (option : String) : Text :=
  match attrs option with
  | some v => t.text v
  | none => []

/-- `self.sections[section].append(name)`, the key being created first if it is missing (configuration.py:70-72); a
dictionary is the list of its items in the order of insertion. -/
def record (sections : List (String × List String)) (section_ name : String) : List (String × List String) :=
  if section_ ∈ sections.map Prod.fst then
    sections.map fun s => if s.1 = section_ then (s.1, s.2 ++ [name]) else s
  else sections ++ [(section_, [name])]

/-- The dictionary `sections` after the options in the list (section and name, in the order they were read) have been
recorded (configuration.py:19, 70-72). -/
def sectionsOf (recorded : List (String × String)) : List (String × List String) :=
  recorded.foldl (fun d r => record d r.1 r.2) []

/-- `long_options[option] = val` (configuration.py:93): an existing key keeps its place. -/
def setLong (long : List (String × Text)) (option : String) (val : Text) : List (String × Text) :=
  if option ∈ long.map Prod.fst then long.map fun e => if e.1 = option then (e.1, val) else e
  else long ++ [(option, val)]

/-- One round of `for option in section_options` (configuration.py:82-93): the text so far, the long options and the
counter `i`. -/
def optionStep (value : String → Text) (st : Text × List (String × Text) × Nat) (option : String) :
    Text × List (String × Text) × Nat :=
  let val := value option
  if option.toList.length < 26 ∧ val.length < 14 then
    (st.1 ++ (if st.2.2 % 2 = 0 then ['\n'] else []) ++ (" | ".toList ++ pad 25 option.toList ++ ": ".toList ++ pad 13 val),
      st.2.1, st.2.2 + 1)
  else (st.1, setLong st.2.1 option val, st.2.2)

/-- One round of `for section_name, section_options in self.sections.items()` (configuration.py:77-99). -/
def sectionText (value : String → Text) (s : String × List String) : Text :=
  let head := ['\n'] ++ ("  ".toList ++ centre 80 ([' '] ++ s.1.toList ++ [' ']) ++ "  ".toList)
  let st := s.2.foldl (optionStep value) (head, [], 0)
  let out := st.1 ++ (if st.2.2 % 2 = 1 then " |".toList else [])
  st.2.1.foldl (fun out e => out ++ ("\n | ".toList ++ pad 25 e.1.toList ++ ": ".toList ++ e.2)) out ++ ['\n']

/-- `Configuration.__str__` (configuration.py:75-101) for the given attributes and dictionary of sections. -/
def printSections (value : String → Text) (sections : List (String × List String)) : Text :=
  sections.foldl (fun out s => out ++ sectionText value s) "Configuration: \n".toList

/-- The printed configuration that was built with the given attributes and recorded options (configuration.py:70-101). -/
def printed (t : Texts V) (attrs : Attrs V) (recorded : List (String × String)) : Text :=
  printSections (valueOf t attrs) (sectionsOf recorded)

/-- `f"{q:.6g}"` for `1 ≤ q < 10`, the only range modelled (configuration.py:85): five decimals after rounding, without
the zeros at the end, and without the point if nothing follows it. -/
def sixDigits (q : ℚ) : Text :=
  let n := (pyRound (q * 100000)).toNat
  let dec := (Nat.toDigits 10 (n % 100000))
  let frac := ((List.replicate (5 - dec.length) '0' ++ dec).reverse.dropWhile (· = '0')).reverse
  Nat.toDigits 10 (n / 100000) ++ (if frac = [] then [] else '.' :: frac)

end WxVerif.ConfigPrint
