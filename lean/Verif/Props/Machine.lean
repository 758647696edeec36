import Verif.Model.Machine
import Verif.Spec.Machine
import Mathlib.Data.List.GetD
import Mathlib.Tactic.Linarith

/-!
# C86: every process of a run gets its kernels and a device
-/

namespace WxVerif.Props.Machine

open WxVerif.Machine WxVerif.Spec.Machine

/-! ## Name of the processor -/

theorem isWord_iff (c : Char) : isWord c = true ↔ WordChar c := by simp [isWord, WordChar]

/-- a match found by the search stands at the start of a word -/
theorem search_some {m : List Char → Option (List Char)} {p : Bool} {l v : List Char} (h : search m p l = some v) :
    ∃ pre rest, l = pre ++ rest ∧ m rest = some v ∧ (pre = [] → p = false) ∧ (∀ c ∈ pre.getLast?, ¬ WordChar c) := by
  induction l generalizing p with
  | nil => simp [search] at h
  | cons c cs ih =>
    unfold search at h
    split at h
    · rename_i w hw
      obtain rfl : w = v := by simpa using h
      cases p with
      | true => simp at hw
      | false => exact ⟨[], c :: cs, rfl, by simpa using hw, fun _ => rfl, by simp⟩
    · obtain ⟨pre, rest, e, hm, h0, hw⟩ := ih h
      refine ⟨c :: pre, rest, by rw [e]; rfl, hm, by simp, ?_⟩
      intro d hd
      cases pre with
      | nil =>
        obtain rfl : c = d := by simpa using hd
        rw [← isWord_iff, h0 rfl]
        simp
      | cons x xs => exact hw d (by rw [List.getLast?_cons_cons] at hd; exact hd)

/-- what stands at the start of a word is found -/
theorem search_isSome {m : List Char → Option (List Char)} {p : Bool} {pre rest : List Char} (hr : rest ≠ []) (hm : (m rest).isSome) (hp : pre = [] → p = false)
    (hw : ∀ c ∈ pre.getLast?, ¬ WordChar c) : (search m p (pre ++ rest)).isSome := by
  induction pre generalizing p with
  | nil =>
    obtain ⟨c, cs, rfl⟩ := List.exists_cons_of_ne_nil hr
    rw [List.nil_append]
    unfold search
    obtain ⟨v, hv⟩ := Option.isSome_iff_exists.1 hm
    simp [hp rfl, hv]
  | cons c cs ih =>
    rw [List.cons_append]
    unfold search
    split
    · rfl
    · refine ih (fun h => ?_) fun d hd => ?_
      · subst h
        have := hw c (by simp)
        rw [← isWord_iff] at this
        simpa using this
      · cases cs with
        | nil => simp at hd
        | cons x xs => exact hw d (by rw [List.getLast?_cons_cons]; exact hd)

theorem startsWord_false (l : List Char) : startsWord l = false ↔ ∀ c ∈ l.head?, ¬ WordChar c := by
  cases l with
  | nil => simp [startsWord]
  | cons c cs =>
    have := isWord_iff c
    simp only [startsWord, List.head?_cons, Option.mem_def, Option.some.injEq, forall_eq']
    rw [← this]
    simp

theorem vendorAt_eq (l : List Char) : (vendorAt l).isSome ↔ ∃ w post, l = w ++ post ∧ (w = "intel".toList ∨ w = "amd".toList) ∧ ∀ c ∈ post.head?, ¬ WordChar c := by
  unfold vendorAt
  constructor
  · intro h
    split at h
    · rename_i hc
      rw [Bool.and_eq_true, List.isPrefixOf_iff_prefix] at hc
      obtain ⟨⟨post, rfl⟩, hs⟩ := hc
      refine ⟨_, post, rfl, Or.inl rfl, (startsWord_false post).1 ?_⟩
      simpa using hs
    · split at h
      · rename_i hc
        rw [Bool.and_eq_true, List.isPrefixOf_iff_prefix] at hc
        obtain ⟨⟨post, rfl⟩, hs⟩ := hc
        refine ⟨_, post, rfl, Or.inr rfl, (startsWord_false post).1 ?_⟩
        simpa using hs
      · simp at h
  · rintro ⟨w, post, rfl, rfl | rfl, hp⟩
    · have := (startsWord_false post).2 hp
      simp [List.isPrefixOf, this]
    · have := (startsWord_false post).2 hp
      simp [List.isPrefixOf, this]

theorem numberAt_isSome (l : List Char) : (numberAt l).isSome ↔ ∃ d post, l = d ++ post ∧ d.length = 4 ∧ ∀ c ∈ d, c.isDigit = true := by
  unfold numberAt
  dsimp only
  constructor
  · intro h
    split at h
    · rename_i hl
      rw [List.length_take] at hl
      refine ⟨l.take 4, l.drop 4, (List.take_append_drop 4 l).symm, ?_, fun c hc => ?_⟩
      · have := (List.takeWhile_prefix Char.isDigit (l := l)).length_le
        rw [List.length_take]
        omega
      · obtain ⟨t, ht⟩ := List.takeWhile_prefix Char.isDigit (l := l)
        have e : l.take 4 = (l.takeWhile Char.isDigit).take 4 := by
          conv_lhs => rw [← ht]
          rw [List.take_append_of_le_length (by omega)]
        rw [e] at hc
        exact List.all_takeWhile |> List.all_eq_true.1 |> fun h => h c (List.mem_of_mem_take hc)
    · simp at h
  · rintro ⟨d, post, rfl, hd, hdig⟩
    rw [List.takeWhile_append_of_pos hdig, if_pos]
    · rfl
    · rw [List.length_take, List.length_append]
      omega

theorem vendor_found (l : List Char) : (search vendorAt false l).isSome ↔ HasVendor l := by
  constructor
  · intro h
    obtain ⟨v, hv⟩ := Option.isSome_iff_exists.1 h
    obtain ⟨pre, rest, rfl, hm, -, hw⟩ := search_some hv
    obtain ⟨w, post, rfl, hx, hp⟩ := (vendorAt_eq rest).1 (by rw [hm]; rfl)
    rcases hx with rfl | rfl
    · exact Or.inl ⟨pre, post, by rw [List.append_assoc], hw, hp⟩
    · exact Or.inr ⟨pre, post, by rw [List.append_assoc], hw, hp⟩
  · rintro (⟨pre, post, rfl, hw, hp⟩ | ⟨pre, post, rfl, hw, hp⟩)
    · rw [List.append_assoc]
      exact search_isSome (by simp) ((vendorAt_eq _).2 ⟨_, post, rfl, Or.inl rfl, hp⟩) (fun _ => rfl) hw
    · rw [List.append_assoc]
      exact search_isSome (by simp) ((vendorAt_eq _).2 ⟨_, post, rfl, Or.inr rfl, hp⟩) (fun _ => rfl) hw

theorem number_found (l : List Char) : (search numberAt false l).isSome ↔ HasNumber l := by
  constructor
  · intro h
    obtain ⟨v, hv⟩ := Option.isSome_iff_exists.1 h
    obtain ⟨pre, rest, rfl, hm, -, hw⟩ := search_some hv
    obtain ⟨d, post, rfl, h4, hd⟩ := (numberAt_isSome rest).1 (by rw [hm]; rfl)
    exact ⟨d, h4, hd, pre, post, by rw [List.append_assoc], hw⟩
  · rintro ⟨d, h4, hd, pre, post, rfl, hw⟩
    rw [List.append_assoc]
    refine search_isSome (fun h => ?_) ((numberAt_isSome _).2 ⟨d, post, rfl, h4, hd⟩) (fun _ => rfl) hw
    rw [List.append_eq_nil_iff] at h
    rw [h.1] at h4
    simp at h4

/-- **C86** the program can name the processor exactly when the first "model name" line of `/proc/cpuinfo` (with text `t`, in lower case, after the colon) has
the word intel or amd and, at the start of a word, a number of four digits or more; the name is then made of one such vendor and number. -/
theorem C86_processor_name {lines : List (List Char)} {line t : List Char}
    (h : lines.find? (fun l => "model name".toList.isPrefixOf l) = some line) (ht : afterColon line = some t) :
    ((∃ s, processorName (some lines) = .name s) ↔ HasVendor (t.map Char.toLower) ∧ HasNumber (t.map Char.toLower)) ∧
    (processorName (some lines) = .raises ↔ ¬ (HasVendor (t.map Char.toLower) ∧ HasNumber (t.map Char.toLower))) := by
  have e : processorName (some lines) = nameOf line := by simp only [processorName, h]
  rw [e, ← vendor_found, ← number_found]
  unfold nameOf
  rw [ht]
  dsimp only
  cases search vendorAt false (t.map Char.toLower) <;> cases search numberAt false (t.map Char.toLower) <;> simp

def cpuinfo (s : String) : Option (List (List Char)) := some ["processor\t: 0\n".toList, ("model name\t: " ++ s ++ "\n").toList]

/-- concrete cases: a server processor of each vendor is named … -/
example : processorName (cpuinfo "Intel(R) Xeon(R) Platinum 8480+") = .name "intel_8480".toList ∧
    processorName (cpuinfo "AMD EPYC 7763 64-Core Processor") = .name "amd_7763".toList := by decide +kernel

/-- **C86** fails for processors without such a number or of other vendors: the program stops when it is imported.  The first is a laptop processor of 2023, the
second what a cloud machine reports. -/
theorem C86_processor_fails : processorName (cpuinfo "Intel(R) Core(TM) Ultra 7 155H") = .raises ∧
    processorName (cpuinfo "Intel(R) Xeon(R) CPU @ 2.20GHz") = .raises ∧ processorName (cpuinfo "QEMU Virtual CPU version 2.5+") = .raises ∧
    processorName (cpuinfo "AMD Ryzen AI 9 HX 370") = .raises := by decide +kernel

/-! ## Kernels -/

/-- a start in which nothing goes wrong with process `r` -/
def Started (m : Machine) (r : Nat) : Prop := start m r ≠ .failed

theorem importable_self {n : List Char} (hn : n ≠ []) (b : Backend) (built : List (List (List Char))) : importable (libDir n b :: built) n b = true := by
  unfold importable libDir modulePath
  cases n with
  | nil => exact absurd rfl hn
  | cons c cs => cases b <;> simp [Backend.text]

/-- **C86** on nodes that are alike — the same processor, named, and GPUs on all or on none — and with a compiler that works, every process starts, all with
the same kind of device: GPUs if they were asked for and exist, CPUs otherwise. -/
theorem C86_start_partial (m : Machine) {n : List Char} (hn : n ≠ []) (hname : ∀ r < m.size, processorName (m.cpuinfo r) = .name n)
    (hgpu : ∀ r < m.size, (0 < m.gpus r ↔ 0 < m.gpus 0)) (hc : m.compiles (backend m 0) = true) :
    ∀ r < m.size, start m r = if m.wantCuda = true ∧ 0 < m.gpus r then .gpu (chooseGpu (m.gpus r) m.devices r) else .cpu := by
  intro r hr
  have h0 := hname 0 (by omega)
  have hb : backend m r = backend m 0 := by
    unfold backend
    rw [decide_eq_decide.2 (hgpu r hr)]
  unfold start builtAfter
  rw [hname r hr, h0]
  simp only [nameText, hc, if_true, hb, importable_self hn]
  rw [← hb]
  unfold backend
  by_cases h1 : m.wantCuda = true <;> by_cases h2 : 0 < m.gpus r <;> simp [h1, h2]

/-- **C86** when a process starts, its library was there before, or it has the processor name and the kind of device of process 0. -/
theorem C86_start_needs (m : Machine) {r : Nat} (h : Started m r) : ∃ n, processorName (m.cpuinfo r) = .name n ∧ n ≠ [] ∧
    (libDir n (backend m r) ∈ m.built ∨ (processorName (m.cpuinfo 0) = .name n ∧ backend m r = backend m 0)) := by
  unfold Started start at h
  split at h
  · rename_i n built hn hb
    unfold builtAfter at hb
    split at hb
    · cases hb
    · rename_i n0 hn0
      split at hb
      · cases hb
        split at h
        · rename_i hi
          have hN : processorName (m.cpuinfo r) = .name n := by
            cases hp : processorName (m.cpuinfo r) with
            | name s => rw [hp] at hn; simp only [nameText, Option.some.injEq] at hn; rw [hn]
            | None => rw [hp] at hn; cases hn
            | raises => rw [hp] at hn; cases hn
          have hN0 : processorName (m.cpuinfo 0) = .name n0 := by
            cases hp : processorName (m.cpuinfo 0) with
            | name s => rw [hp] at hn0; simp only [nameText, Option.some.injEq] at hn0; rw [hn0]
            | None => rw [hp] at hn0; cases hn0
            | raises => rw [hp] at hn0; cases hn0
          unfold importable at hi
          rw [Bool.and_eq_true, List.contains_iff_mem, List.mem_cons] at hi
          have hne : n ≠ [] := by
            rintro rfl
            have := hi.1
            simp [modulePath] at this
          have hd : modulePath n (backend m r) = libDir n (backend m r) := by simp [modulePath, libDir, hne]
          refine ⟨n, hN, hne, ?_⟩
          rcases hi.2 with he | he
          · right
            unfold modulePath libDir at he
            by_cases h0 : n0 = []
            · simp [h0] at he
            · simp [h0] at he
              refine ⟨by rw [hN0, he.1], ?_⟩
              revert he
              cases backend m r <;> cases backend m 0 <;> simp [Backend.text]
          · left
            rw [← hd]
            exact he
        · exact absurd rfl h
      · cases hb
  · exact absurd rfl h

/-- **C86** a process with a named processor starts when process 0 could compile and its own library is the one compiled or was built before. -/
theorem C86_start_earlier (m : Machine) {r : Nat} {n n0 : List Char} (hn : processorName (m.cpuinfo r) = .name n) (hne : n ≠ [])
    (h0 : processorName (m.cpuinfo 0) = .name n0) (hc : m.compiles (backend m 0) = true)
    (h : libDir n (backend m r) ∈ m.built ∨ (n = n0 ∧ backend m r = backend m 0)) : Started m r := by
  have hd : modulePath n (backend m r) = libDir n (backend m r) := by simp [modulePath, libDir, hne]
  have hi : importable (libDir n0 (backend m 0) :: m.built) n (backend m r) = true := by
    rcases h with h | ⟨rfl, hb⟩
    · unfold importable
      rw [Bool.and_eq_true, List.contains_iff_mem, hd]
      refine ⟨?_, List.mem_cons_of_mem _ h⟩
      cases n with
      | nil => exact absurd rfl hne
      | cons c cs => cases backend m r <;> simp [libDir, Backend.text]
    · rw [hb]
      exact importable_self hne _ _
  unfold Started start builtAfter
  rw [hn, h0]
  simp only [nameText, hc, if_true, hi]
  split <;> simp

/-- **C86** fails on nodes that differ: a process whose processor has another name, or that sees no GPU while process 0 does (or the other way round), does not
find its library unless it was built before, although process 0 compiled one. -/
theorem C86_nodes_fails (m : Machine) {r : Nat} (hb : m.built = [])
    (h : processorName (m.cpuinfo r) ≠ processorName (m.cpuinfo 0) ∨ (m.wantCuda = true ∧ ¬(0 < m.gpus r ↔ 0 < m.gpus 0))) : start m r = .failed := by
  by_contra hs
  obtain ⟨n, hn, -, h1 | ⟨h1, h2⟩⟩ := C86_start_needs m hs
  · rw [hb] at h1
    cases h1
  · rcases h with h | ⟨hw, hg⟩
    · exact h (by rw [hn, h1])
    · apply hg
      unfold backend at h2
      by_cases a : 0 < m.gpus r <;> by_cases b : 0 < m.gpus 0 <;> simp [hw, a, b] at h2 ⊢

/-- **C86** fails without `/proc/cpuinfo` and where it has no "model name" line, as on ARM processors: no process starts, whatever was built. -/
theorem C86_unnamed_fails (m : Machine) {r : Nat}
    (h : m.cpuinfo r = none ∨ ∃ lines, m.cpuinfo r = some lines ∧ ∀ l ∈ lines, ¬ "model name".toList.isPrefixOf l = true) : start m r = .failed := by
  by_contra hs
  obtain ⟨n, hn, hne, -⟩ := C86_start_needs m hs
  rcases h with h | ⟨lines, h, hl⟩
  · rw [h] at hn
    simp only [processorName, Name.name.injEq] at hn
    exact hne hn.symm
  · rw [h] at hn
    have : lines.find? (fun l => "model name".toList.isPrefixOf l) = none := List.find?_eq_none.2 hl
    simp only [processorName, this] at hn
    cases hn

/-- a second processor whose library was built in an earlier run -/
example : ∃ m : Machine, processorName (m.cpuinfo 1) ≠ processorName (m.cpuinfo 0) ∧ Started m 1 := by
  let m : Machine := ⟨2, fun _ => 0, fun r => if r = 1 then cpuinfo "AMD EPYC 9654 96-Core Processor" else cpuinfo "Intel(R) Xeon(R) Platinum 8480+", false, [],
    [libDir "amd_9654".toList .cpp], fun _ => true⟩
  refine ⟨m, by decide +kernel, C86_start_earlier m (n := "amd_9654".toList) (n0 := "intel_8480".toList) (by decide +kernel) (by decide) (by decide +kernel) rfl
    (Or.inl ?_)⟩
  exact List.mem_singleton.2 rfl

/-! ## GPUs -/

/-- the devices a process chooses from -/
theorem choose_mem {avail : Nat} (ha : 0 < avail) (list : List Int) (rank : Nat) :
    (∃ x ∈ list, x < (avail : Int)) ∧ chooseGpu avail list rank ∈ list ∧ chooseGpu avail list rank < avail ∨
    (∀ x ∈ list, (avail : Int) ≤ x) ∧ IsDevice avail (chooseGpu avail list rank) := by
  unfold chooseGpu
  dsimp only
  by_cases h : ∃ x ∈ list, x < (avail : Int)
  · left
    obtain ⟨x, hx, hxa⟩ := h
    have hpos : 0 < (list.filter fun x => decide (x < (avail : Int))).length :=
      List.length_pos_of_mem (List.mem_filter.2 ⟨hx, by simpa using hxa⟩)
    rw [if_neg hpos.ne', List.getD_eq_getElem _ _ (Nat.mod_lt _ hpos)]
    have hm := List.getElem_mem (l := list.filter fun x => decide (x < (avail : Int))) (Nat.mod_lt rank hpos)
    rw [List.mem_filter] at hm
    exact ⟨⟨x, hx, hxa⟩, hm.1, by simpa using hm.2⟩
  · right
    have hall : ∀ x ∈ list, (avail : Int) ≤ x := fun x hx => not_lt.1 fun hlt => h ⟨x, hx, hlt⟩
    have h0 : list.filter (fun x => decide (x < (avail : Int))) = [] := by
      rw [List.filter_eq_nil_iff]
      intro x hx
      simpa using hall x hx
    refine ⟨hall, ?_⟩
    rw [h0]
    simp only [List.length_nil, if_true, List.length_map, List.length_range]
    rw [List.getD_eq_getElem _ _ (by simpa using Nat.mod_lt _ ha)]
    have := Nat.mod_lt rank ha
    simp only [List.getElem_map, List.getElem_range, IsDevice, Int.ofNat_eq_natCast]
    constructor <;> omega

/-- **C86** the GPU of a process is one of its node's, and one of the listed ones if any of them exists, provided no listed number is negative. -/
theorem C86_gpu_partial {avail : Nat} (ha : 0 < avail) {list : List Int} (hl : ∀ x ∈ list, 0 ≤ x) (rank : Nat) :
    IsDevice avail (chooseGpu avail list rank) ∧ ((∃ x ∈ list, IsDevice avail x) → chooseGpu avail list rank ∈ list) := by
  rcases choose_mem ha list rank with ⟨-, h1, h2⟩ | ⟨h1, h2⟩
  · exact ⟨⟨hl _ h1, h2⟩, fun _ => h1⟩
  · exact ⟨h2, fun ⟨x, hx, hd⟩ => absurd hd.2 (not_lt.2 (h1 x hx))⟩

/-- **C86** fails for a negative number, which passes the test of the list: the process asks for a device that does not exist although others are listed. -/
theorem C86_gpu_fails : chooseGpu 4 [2, -1] 1 = -1 ∧ ¬ IsDevice 4 (chooseGpu 4 [2, -1] 1) ∧ IsDevice 4 2 := by
  refine ⟨by decide, fun h => absurd h.1 (by decide), by decide, by decide⟩

/-- the position in the list is the rank modulo its length -/
theorem choose_pos {avail : Nat} {list : List Int} (hl : ∀ x ∈ list, IsDevice avail x) (hne : list ≠ []) (rank : Nat) :
    chooseGpu avail list rank = list.getD (rank % list.length) 0 := by
  unfold chooseGpu
  have e : list.filter (fun x => decide (x < (avail : Int))) = list := by
    rw [List.filter_eq_self]
    intro x hx
    simpa using (hl x hx).2
  dsimp only
  rw [e, if_neg (by simpa using hne)]

theorem load_window (first len i : Nat) (hi : i < len) : load first len len i = 1 := by
  unfold load
  rw [Finset.card_eq_one]
  have hlen : 0 < len := by omega
  have := Nat.div_add_mod first len
  have hm := Nat.mod_lt first hlen
  by_cases h : first % len ≤ i
  · refine ⟨len * (first / len) + i, ?_⟩
    ext r
    simp only [Finset.mem_filter, Finset.mem_Ico, Finset.mem_singleton]
    constructor
    · rintro ⟨⟨h1, h2⟩, h3⟩
      have e := Nat.div_add_mod r len
      rw [h3] at e
      have : r / len = first / len := by
        apply Nat.div_eq_of_lt_le
        · rw [mul_comm]; omega
        · rw [Nat.succ_mul, mul_comm]
          by_contra hcon
          have hge : len * (first / len + 1) + i ≤ r := by
            have h5 : first / len + 1 ≤ r / len := by
              rw [Nat.le_div_iff_mul_le hlen, Nat.succ_mul, mul_comm]
              omega
            have h6 : len * (first / len + 1) ≤ len * (r / len) := Nat.mul_le_mul_left _ h5
            omega
          rw [Nat.mul_succ] at hge
          omega
      rw [this] at e
      omega
    · rintro rfl
      refine ⟨⟨by omega, by omega⟩, ?_⟩
      rw [Nat.mul_add_mod, Nat.mod_eq_of_lt hi]
  · refine ⟨len * (first / len + 1) + i, ?_⟩
    have hs : len * (first / len + 1) = len * (first / len) + len := Nat.mul_succ _ _
    ext r
    simp only [Finset.mem_filter, Finset.mem_Ico, Finset.mem_singleton]
    constructor
    · rintro ⟨⟨h1, h2⟩, h3⟩
      have e := Nat.div_add_mod r len
      rw [h3] at e
      have h5 : first / len ≤ r / len := Nat.div_le_div_right h1
      have h6 : r / len < first / len + 2 := by
        rw [Nat.div_lt_iff_lt_mul hlen, Nat.add_mul, mul_comm]
        omega
      have h7 : r / len ≠ first / len := by
        intro h8
        rw [h8] at e
        omega
      have h8 : r / len = first / len + 1 := by omega
      rw [h8] at e
      omega
    · rintro rfl
      refine ⟨⟨by omega, by omega⟩, ?_⟩
      rw [Nat.mul_add_mod, Nat.mod_eq_of_lt hi]

theorem load_add (first a b len i : Nat) : load first (a + b) len i = load first a len i + load (first + a) b len i := by
  unfold load
  rw [← Finset.card_union_of_disjoint, ← Finset.filter_union, ← add_assoc, Finset.Ico_union_Ico_eq_Ico (by omega) (by omega)]
  exact Finset.disjoint_filter_filter (Finset.Ico_disjoint_Ico_consecutive _ _ _)

theorem load_mul (first q len i : Nat) (hi : i < len) : load first (q * len) len i = q := by
  induction q with
  | zero => simp [load]
  | succ q ih => rw [Nat.succ_mul, load_add, ih, load_window _ _ _ hi]

theorem load_small (first s len i : Nat) (hs : s ≤ len) (hi : i < len) : load first s len i ≤ 1 := by
  rw [← load_window first len i hi]
  unfold load
  exact Finset.card_le_card (Finset.filter_subset_filter _ (Finset.Ico_subset_Ico le_rfl (by omega)))

/-- **C86** consecutive processes are spread evenly over the listed devices: the numbers of processes on two of them differ by at most one.  (Positions of the
list; `C86_gpu_position` says which device a position is.) -/
theorem C86_balance_partial (first count len : Nat) {i j : Nat} (hi : i < len) (hj : j < len) : load first count len i ≤ load first count len j + 1 := by
  have e := Nat.div_add_mod' count len
  rw [← e, load_add, load_add, load_mul _ _ _ _ hi, load_mul _ _ _ _ hj]
  have := load_small (first + count / len * len) (count % len) len i (Nat.mod_lt _ (by omega)).le hi
  omega

/-- **C86** process `r` uses the device at position `r` modulo the length of the list; without a list, device `r` modulo the number of devices. -/
theorem C86_gpu_position {avail : Nat} {list : List Int} (hl : ∀ x ∈ list, IsDevice avail x) (r : Nat) :
    (∀ h : list ≠ [], chooseGpu avail list r = list[r % list.length]'(Nat.mod_lt _ (List.length_pos_iff.2 h))) ∧
    (0 < avail → chooseGpu avail [] r = (r % avail : Nat)) := by
  constructor
  · intro h
    rw [choose_pos hl h, List.getD_eq_getElem _ _ (Nat.mod_lt _ (List.length_pos_iff.2 h))]
  · intro ha
    unfold chooseGpu
    simp only [List.filter_nil, List.length_nil, if_true, List.length_map, List.length_range]
    rw [List.getD_eq_getElem _ _ (by simpa using Nat.mod_lt _ ha)]
    simp

/-- **C86** fails for processes dealt out to the nodes in turn: with two nodes of two GPUs, the processes of the first node are the even ones, and all of them
use device 0. -/
theorem C86_balance_fails (r : Nat) (h : r % 2 = 0) : chooseGpu 2 [] r = 0 := by
  rw [(C86_gpu_position (avail := 2) (list := []) (by simp) r).2 (by omega), h]
  rfl

/-! ## Concrete cases -/

/-- 24 processes on two nodes of two GPUs -/
def cluster : Machine where
  size := 24
  gpus _ := 2
  cpuinfo _ := cpuinfo "AMD EPYC 7763 64-Core Processor"
  wantCuda := true
  devices := [1, 0, 7]
  built := []
  compiles _ := true

example : (∀ r < 24, processorName (cluster.cpuinfo r) = .name "amd_7763".toList) ∧ start cluster 0 = .gpu 1 ∧ start cluster 5 = .gpu 0 := by
  have h : ∀ r, processorName (cluster.cpuinfo r) = .name "amd_7763".toList := fun _ => by
    show processorName (cpuinfo "AMD EPYC 7763 64-Core Processor") = _
    decide +kernel
  have s := C86_start_partial cluster (n := "amd_7763".toList) (by decide) (fun r _ => h r) (fun _ _ => Iff.rfl) rfl
  exact ⟨fun r _ => h r, by rw [s 0 (by decide)]; decide, by rw [s 5 (by decide)]; decide⟩

/-- process 1 has a processor of another name, process 2 has no GPU: they fail, process 0 starts -/
example : ∃ m : Machine, m.built = [] ∧ start m 0 = .gpu 0 ∧ start m 1 = .failed ∧ start m 2 = .failed := by
  let m : Machine := { cluster with
    devices := []
    gpus := fun r => if r = 2 then 0 else 2
    cpuinfo := fun r => if r = 1 then cpuinfo "AMD EPYC 9654 96-Core Processor" else cpuinfo "AMD EPYC 7763 64-Core Processor" }
  refine ⟨m, rfl, by decide +kernel, ?_, ?_⟩
  · exact C86_nodes_fails m rfl (Or.inl (by decide +kernel))
  · exact C86_nodes_fails m rfl (Or.inr ⟨rfl, by decide⟩)

example : load 8 8 3 0 = 3 ∧ load 8 8 3 1 = 2 ∧ load 8 8 3 2 = 3 := by decide

end WxVerif.Props.Machine
