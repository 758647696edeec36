import Verif.Model.SchemaTable
import Verif.Spec.SchemaTable
import Mathlib.Data.List.Basic
import Mathlib.Order.Fin.Basic

/-!
# C108: the printed list of options says what is accepted
-/

namespace WxVerif.Props.SchemaTable

open WxVerif.Config (Value Range Field)
open WxVerif.SchemaFile (Ty)
open WxVerif.SchemaTable WxVerif.Spec.SchemaTable

theorem split_comma : ∀ (l l' x x' : List Char), ',' ∉ l → ',' ∉ l' → l ++ ',' :: x = l' ++ ',' :: x' → l = l' ∧ x = x'
  | [], [], _, _, _, _, h => by simpa using h
  | [], c :: l', _, _, _, h', h => by
    simp only [List.nil_append, List.cons_append, List.cons.injEq] at h
    exact absurd (by simp [← h.1]) h'
  | c :: l, [], _, _, h', _, h => by
    simp only [List.nil_append, List.cons_append, List.cons.injEq] at h
    exact absurd (by simp [h.1]) h'
  | c :: l, c' :: l', x, x', h1, h2, h => by
    simp only [List.cons_append, List.cons.injEq] at h
    simp only [List.mem_cons, not_or] at h1 h2
    obtain ⟨e1, e2⟩ := split_comma l l' x x' h1.2 h2.2 h.2
    exact ⟨by rw [h.1, e1], e2⟩

theorem inter_cons (x y : List Char) (r : List (List Char)) :
    List.intercalate [',', ' '] (x :: y :: r) = x ++ ',' :: ' ' :: List.intercalate [',', ' '] (y :: r) := by
  simp [List.intercalate]

theorem inter_one (x : List Char) : List.intercalate [',', ' '] [x] = x := by simp [List.intercalate]

theorem inter_inj : ∀ (a b : List (List Char)), (∀ w ∈ a, Word w) → (∀ w ∈ b, Word w) →
    List.intercalate [',', ' '] a = List.intercalate [',', ' '] b → a = b
  | [], [], _, _, _ => rfl
  | [], [y], _, hb, h => by
    rw [inter_one] at h
    exact absurd h.symm (hb y (by simp)).1
  | [], y :: z :: r, _, _, h => by
    rw [inter_cons] at h
    simp [List.intercalate] at h
  | [x], [], ha, _, h => by
    rw [inter_one] at h
    exact absurd h (ha x (by simp)).1
  | x :: z :: r, [], _, _, h => by
    rw [inter_cons] at h
    simp [List.intercalate] at h
  | [x], [y], _, _, h => by
    rw [inter_one, inter_one] at h
    rw [h]
  | [x], y :: z :: r, ha, _, h => by
    rw [inter_one, inter_cons] at h
    exact absurd (by rw [h]; simp) (ha x (by simp)).2
  | x :: z :: r, [y], _, hb, h => by
    rw [inter_one, inter_cons] at h
    exact absurd (by rw [← h]; simp) (hb y (by simp)).2
  | x :: z :: r, y :: z' :: r', ha, hb, h => by
    rw [inter_cons, inter_cons] at h
    obtain ⟨e1, e2⟩ := split_comma x y _ _ (ha x (by simp)).2 (hb y (by simp)).2 h
    simp only [List.cons.injEq, true_and] at e2
    have := inter_inj (z :: r) (z' :: r') (fun w hw => ha w (by simp only [List.mem_cons] at hw ⊢; tauto))
      (fun w hw => hb w (by simp only [List.mem_cons] at hw ⊢; tauto)) e2
    rw [e1, this]

variable {α : Type} [LinearOrder α]

/-- **C108 (ranges).** The range printed for an option says exactly which values are accepted: whatever bounds or pool of values an option
has, a value passes its check if and only if the printed text, read in the usual notation, allows it; for a list, if and only if it allows
every element.  The texts of single values are supposed to be different for different values, not empty and without comma, and none of them is
`inf` or `-inf`. -/
theorem C108_range (sh : α → List Char) (hinj : ∀ a b, sh a = sh b → a = b) (hword : ∀ a, Word (sh a))
    (hninf : ∀ a, sh a ≠ ['-', 'i', 'n', 'f']) (hinf : ∀ a, sh a ≠ ['i', 'n', 'f']) (r : Range α) :
    (∀ a, r.validate (.scalar a) = true ↔ Allows sh (rangeText sh r) a) ∧
    (∀ l, r.validate (.list l) = true ↔ ∀ a ∈ l, Allows sh (rangeText sh r) a) := by
  have wneg : Word ['-', 'i', 'n', 'f'] := ⟨by simp, by decide⟩
  have winf : Word ['i', 'n', 'f'] := ⟨by simp, by decide⟩
  -- a text in brackets is read in one way
  have bracket : ∀ (l u : List Char) (a : α), Word l → Word u →
      (Allows sh ('[' :: (l ++ ',' :: ' ' :: (u ++ [']']))) a ↔ AboveText sh l a ∧ BelowText sh u a) := by
    intro l u a hl hu
    constructor
    · rintro (h | ⟨l', u', hl', hu', h, h1, h2⟩ | ⟨words, _, h, _⟩)
      · cases h
      · simp only [List.cons_append, List.nil_append, List.append_assoc, List.cons.injEq, true_and] at h
        obtain ⟨e1, e2⟩ := split_comma l l' _ _ hl.2 hl'.2 h
        simp only [List.cons.injEq, true_and] at e2
        have e3 : u = u' := List.append_cancel_right e2
        subst e1 e3
        exact ⟨h1, h2⟩
      · simp at h
    · rintro ⟨h1, h2⟩
      exact .inr (.inl ⟨l, u, hl, hu, by simp, h1, h2⟩)
  have above : ∀ lo a, AboveText sh (sh lo) a ↔ lo ≤ a := fun lo a => by
    constructor
    · rintro (h | ⟨lo', h, hle⟩)
      · exact absurd h (hninf lo)
      · rw [hinj _ _ h]; exact hle
    · exact fun h => .inr ⟨lo, rfl, h⟩
  have below : ∀ hi a, BelowText sh (sh hi) a ↔ a ≤ hi := fun hi a => by
    constructor
    · rintro (h | ⟨hi', h, hle⟩)
      · exact absurd h (hinf hi)
      · rw [hinj _ _ h]; exact hle
    · exact fun h => .inr ⟨hi, rfl, h⟩
  have pool : ∀ (sel : List α) a, Allows sh ('{' :: (joined (sel.map sh) ++ ['}'])) a ↔ a ∈ sel := by
    intro sel a
    have hw : ∀ w ∈ sel.map sh, Word w := by
      intro w hw
      obtain ⟨b, _, rfl⟩ := List.mem_map.1 hw
      exact hword b
    constructor
    · rintro (h | ⟨l', u', hl', hu', h, h1, h2⟩ | ⟨words, hws, h, hm⟩)
      · cases h
      · simp at h
      · simp only [List.cons_append, List.nil_append, List.cons.injEq, true_and] at h
        have := inter_inj _ _ hw hws (List.append_cancel_right h)
        rw [← this] at hm
        obtain ⟨b, hb, he⟩ := List.mem_map.1 hm
        rw [← hinj _ _ he]; exact hb
    · exact fun h => .inr (.inr ⟨sel.map sh, hw, by simp [joined], List.mem_map.2 ⟨a, h, rfl⟩⟩)
  have none_ : ∀ a, Allows sh [] a := fun a => .inl rfl
  obtain ⟨mn, mx, sel⟩ := r
  rcases sel with _ | sel
  · rcases mn with _ | lo <;> rcases mx with _ | hi
    · simp [Range.validate, Range.baseValidate, rangeText, none_]
    · have e : ∀ a, Allows sh (rangeText sh ⟨none, some hi, none⟩) a ↔ a ≤ hi := fun a => by
        rw [← below hi a]
        exact (bracket _ _ a wneg (hword hi)).trans ⟨fun h => h.2, fun h => ⟨.inl rfl, h⟩⟩
      simp [Range.validate, Range.baseValidate, e]
    · have e : ∀ a, Allows sh (rangeText sh ⟨some lo, none, none⟩) a ↔ lo ≤ a := fun a => by
        rw [← above lo a]
        exact (bracket _ _ a (hword lo) winf).trans ⟨fun h => h.1, fun h => ⟨h, .inl rfl⟩⟩
      simp [Range.validate, Range.baseValidate, e]
    · simp [Range.validate, Range.baseValidate, rangeText, bracket _ _ _ (hword lo) (hword hi), above, below]
  · simp [Range.validate, Range.baseValidate, rangeText, pool]

/-- **C108 (types).** The type printed for an option identifies the type of its values. -/
theorem C108_type_partial (sh : α → List Char) (shv : Value α → List Char) (o o' : Row α)
    (h : (cells sh shv o).map (·.1) = (cells sh shv o').map (·.1)) : o.name = o'.name ∧ o.type = o'.type := by
  simp only [cells, List.map_cons, List.cons.injEq] at h
  refine ⟨String.toList_inj.1 h.1, ?_⟩
  have h2 := h.2.1
  revert h2
  generalize o.type = t
  generalize o'.type = t'
  cases t <;> cases t' <;> decide

/-- **C108 (defaults).** An option that the user must set shows `[none]` as default, and, if no default is itself written `[none]`, every
option that shows `[none]` must be set: leaving it out of the file is refused. -/
theorem C108_mandatory (sh : α → List Char) (shv : Value α → List Char) (hv : ∀ v, shv v ≠ "[none]".toList) (o : Row α)
    (hok : o.field.constructible = true) :
    ((cells sh shv o).map (·.1))[2]? = some "[none]".toList ↔ ∃ e, o.field.read none = .error e := by
  simp only [Field.constructible, Bool.and_eq_true] at hok
  simp only [cells, List.map_cons, List.getElem?_cons_succ, List.getElem?_cons_zero, Option.some.injEq, Field.read]
  rcases hd : o.field.default with _ | d
  · simp [defaultText]
  · rw [hd] at hok
    have := hv d
    simp only [defaultText, this, hok.2, false_iff]
    simp

/-- **C108 (types, failure).** The printed line does not say whether an option takes a list: for any name, type and way of printing, an option
for one value and one for a list of values can have the same line and the same hint, while `[1, 2]` is accepted by one and refused by the other. -/
theorem C108_list_fails (sh : ℤ → List Char) (shv : Value ℤ → List Char) (name : String) (description : Option String) :
    ∃ o o' : Row ℤ, o.name = name ∧ o'.name = name ∧ o.type = .int ∧ o'.type = .int ∧
      o.description = description ∧ o'.description = description ∧
      (∀ markdown, line sh shv markdown o = line sh shv markdown o') ∧ hint o = hint o' ∧
      o.field.read (some "[1, 2]") = .error .configValue ∧ o'.field.read (some "[1, 2]") = .ok (.list [1, 2]) := by
  refine ⟨⟨name, .int, ⟨none, false, ⟨none, none, none⟩, fun t => if t = "[1, 2]" then .error .valueError else .ok 0,
      fun _ => .ok [.ok 1, .ok 2]⟩, description⟩,
    ⟨name, .int, ⟨none, true, ⟨none, none, none⟩, fun t => if t = "[1, 2]" then .error .valueError else .ok 0,
      fun _ => .ok [.ok 1, .ok 2]⟩, description⟩, rfl, rfl, rfl, rfl, rfl, rfl, fun _ => rfl, rfl, rfl, rfl⟩

/-! ## The hypotheses are met -/

/-- the digits as texts of the numbers below ten -/
def digit (a : Fin 10) : List Char := [Char.ofNat (48 + a.val)]

example : (∀ a b, digit a = digit b → a = b) ∧ (∀ a, digit a ≠ [] ∧ ',' ∉ digit a) ∧ (∀ a, digit a ≠ ['-', 'i', 'n', 'f']) ∧
    ∀ a, digit a ≠ ['i', 'n', 'f'] := by decide +kernel

/-- a pool, two bounds, one bound, nothing -/
example : rangeText digit ⟨none, none, some [1, 3, 9]⟩ = "{1, 3, 9}".toList ∧ rangeText digit ⟨some 2, some 5, none⟩ = "[2, 5]".toList ∧
    rangeText digit ⟨some 1, none, none⟩ = "[1, inf]".toList ∧ rangeText digit ⟨none, some 4, none⟩ = "[-inf, 4]".toList ∧
    rangeText digit ⟨none, none, none⟩ = [] := by decide +kernel

/-- the line of an option -/
example : line (α := Fin 10) digit (fun v => match v with | .scalar a => digit a | .list _ => ['?']) false
    ⟨"nbsolpts", .int, ⟨some (.scalar 4), false, ⟨some 1, none, none⟩, fun _ => .ok 0, fun _ => .ok []⟩, some "Points"⟩ =
    "nbsolpts                int     4           [1, inf]                           Points ".toList := by decide +kernel

/-- and the hypotheses of `C108_mandatory` hold for it -/
example : (⟨some (.scalar 4), false, ⟨some 1, none, none⟩, fun _ => .ok 0, fun _ => .ok []⟩ : WxVerif.Config.Field (Fin 10)).constructible = true ∧
    (⟨none, false, ⟨some 1, none, none⟩, fun _ => .ok 0, fun _ => .ok []⟩ : WxVerif.Config.Field (Fin 10)).constructible = true := by decide +kernel

end WxVerif.Props.SchemaTable
