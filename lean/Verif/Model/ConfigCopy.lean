import Mathlib.Data.List.Basic

/-!
# Copies of a configuration

Source: `wx_factory/common/configuration.py` (`Configuration.__deepcopy__`), used by `output/solver_stats.py` (`_sanitize_params`), which
changes its copy.  Python's objects are modelled with a heap: an attribute holds an immutable value (a number, a string) or a reference
to a list of immutable values.  Simplification: the three attributes that hold nested objects (`schema`, `parser`, `sections`), which
nothing assigns to or changes after the configuration has been read, are left out.
-/

namespace WxVerif.ConfigCopy

/-- what an attribute holds -/
inductive Val (A : Type) where
  | atom (a : A)
  | ref (n : Nat)
deriving DecidableEq

/-- the lists that exist, by address; addresses from `next` on are free -/
structure Heap (A : Type) where
  cells : Nat → List A
  next : Nat

/-- `vars(self)`: attributes and what they hold, in order -/
abbrev Config (A : Type) := List (String × Val A)

/-- a new list -/
def alloc {A : Type} (h : Heap A) (l : List A) : Heap A × Nat :=
  (⟨fun n => if n = h.next then l else h.cells n, h.next + 1⟩, h.next)

/-- `memo`: address of an object that has been copied, and the address of its copy -/
abbrev Memo := List (Nat × Nat)

/-- `copy.deepcopy(v, memo)`: immutable values are returned as they are, a list that has been copied before gives the same copy again -/
def deepcopyVal {A : Type} (h : Heap A) (memo : Memo) : Val A → Heap A × Memo × Val A
  | .atom a => (h, memo, .atom a)
  | .ref n =>
    match memo.lookup n with
    | some n' => (h, memo, .ref n')
    | none =>
      let r := alloc h (h.cells n)
      (r.1, (n, r.2) :: memo, .ref r.2)

/-- the loop of `__deepcopy__` (`configuration.py` 53–55) over the attributes; nothing is exempt (`do_not_deepcopy` is empty) -/
def copyLoop {A : Type} (h : Heap A) (memo : Memo) : Config A → Heap A × Config A
  | [] => (h, [])
  | (k, v) :: rest =>
    let r := deepcopyVal h memo v
    let s := copyLoop r.1 r.2.1 rest
    (s.1, (k, r.2.2) :: s.2)

/-- `copy.deepcopy(config)` (`configuration.py` 50–56): `copy.copy` makes an object with the same attributes (52), of which each is then
    set to a deep copy -/
def deepcopy {A : Type} (h : Heap A) (c : Config A) : Heap A × Config A := copyLoop h [] c

/-- `setattr(config, k, v)`: an existing attribute is replaced, a new one is added -/
def setattr {A : Type} (k : String) (v : Val A) : Config A → Config A
  | [] => [(k, v)]
  | (k', v') :: rest => if k' = k then (k, v) :: rest else (k', v') :: setattr k v rest

/-- what a program can do to a configuration: assign an immutable value or a new list to an attribute, or change in place the list that an
    attribute holds -/
inductive Op (A : Type) where
  | assign (k : String) (a : A)
  | assignList (k : String) (l : List A)
  | inPlace (k : String) (f : List A → List A)

/-- one such change -/
def apply {A : Type} (h : Heap A) (c : Config A) : Op A → Heap A × Config A
  | .assign k a => (h, setattr k (.atom a) c)
  | .assignList k l => let r := alloc h l; (r.1, setattr k (.ref r.2) c)
  | .inPlace k f =>
    match c.lookup k with
    | some (.ref n) => (⟨fun m => if m = n then f (h.cells n) else h.cells m, h.next⟩, c)
    | _ => (h, c)

/-- several changes in turn -/
def applyAll {A : Type} (h : Heap A) (c : Config A) : List (Op A) → Heap A × Config A
  | [] => (h, c)
  | op :: ops => let r := apply h c op; applyAll r.1 r.2 ops

/-- what reading an attribute gives: nothing, an immutable value, or the contents of a list -/
def look {A : Type} (h : Heap A) (c : Config A) (k : String) : Option (A ⊕ List A) :=
  match c.lookup k with
  | none => none
  | some (.atom a) => some (.inl a)
  | some (.ref n) => some (.inr (h.cells n))

end WxVerif.ConfigCopy
