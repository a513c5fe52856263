import Verif.Dns.Config
import Verif.Dns.PropsNames
import Verif.Dns.PropsAddress

/-!
# Properties of the resolver's configuration files

C70 to C76.
-/

namespace Verif.Dns

/-! ## C70 -/

/-- The options that should be in effect behind a line with the given words. -/
def optionsOfLine (o : Options) : List Text → Options
  | [] => o
  | word :: words => optionsOfLine (applyOption o word) words

/-- **C70, partial.** A line with one option has the effect of the option.  Missing for the full
statement: the other options of a line, see `C70_rest_violated`. -/
theorem C70_partial (u : Unicode) (r : Reading) (word : Text) :
    readLine u r ["options".toList, word]
      = .ok { r with options := optionsOfLine r.options [word] } := by
  simp [readLine, optionsOfLine]

/-- **C70 violated.** Whatever is behind the first option of a line has no effect. -/
theorem C70_rest_violated (u : Unicode) (r : Reading) (first : Text) (rest : List Text) :
    readLine u r ("options".toList :: first :: rest) = readLine u r ["options".toList, first] := by
  simp [readLine]

/-- **C70 violated.** `options rotate ndots:2` leaves `ndots` as it was. -/
theorem C70_violated (u : Unicode) :
    (match readLine u { options := .default } ["options".toList, "rotate".toList, "ndots:2".toList] with
      | .ok r => r.options
      | .error _ => .default) ≠ optionsOfLine .default ["rotate".toList, "ndots:2".toList] := by
  rw [C70_rest_violated, C70_partial]
  decide +kernel

/-- The names of the options that are on behind a file: those that were on, and those a line
names as its first option. -/
theorem applyOption_on (o : Options) (word : Text) (s : Switch) :
    s ∈ (applyOption o word).on ↔ s ∈ o.on ∨ (word, s) ∈ switchNames := by
  unfold applyOption
  split
  · rename_i key switch h
    have hm := List.mem_of_find?_eq_some h
    have hk : key = word := by simpa using List.find?_some h
    subst hk
    have huniq : (key, s) ∈ switchNames → s = switch := by
      have table : ∀ a ∈ switchNames, ∀ b ∈ switchNames, a.1 = b.1 → a.2 = b.2 := by decide +kernel
      exact fun h' => table _ h' _ hm rfl
    have hother : (key, s) ∈ switchNames ↔ s = switch := ⟨huniq, fun e => e ▸ hm⟩
    rw [hother]
    dsimp only
    split
    · rename_i hin
      exact ⟨Or.inl, fun h => h.elim id (fun e => e ▸ hin)⟩
    · simp
  · rename_i h
    have hn : (word, s) ∉ switchNames := by
      intro hm
      have := List.find?_eq_none.mp h _ hm
      simp at this
    have : ∀ o' : Options, o'.on = o.on → (s ∈ o'.on ↔ s ∈ o.on ∨ (word, s) ∈ switchNames) := by
      intro o' e
      rw [e]
      simp [hn]
    apply this
    dsimp only
    repeat' split
    all_goals rfl

theorem readLine_options (u : Unicode) (r r' : Reading) (line : List Text)
    (h : readLine u r line = .ok r') :
    r'.options = r.options ∨
      ∃ first rest, line = "options".toList :: first :: rest ∧ r'.options = applyOption r.options first := by
  unfold readLine at h
  split at h
  · cases h; exact Or.inl rfl
  · left
    repeat' split at h
    all_goals cases h; rfl
  · rename_i key first rest
    split at h
    · left
      split at h
      all_goals cases h; rfl
    split at h
    · left
      split at h
      · cases h
      · cases h; rfl
    split at h
    · left; cases h; rfl
    split at h
    · rename_i hk
      right
      cases h
      exact ⟨first, rest, by rw [hk], rfl⟩
    · left; cases h; rfl

/-- **C70, partial.** What is on behind a whole file: what was on, and what is named first on
an `options` line. -/
theorem C70_file_partial (u : Unicode) (c c' : Config) (lines : List (List Text))
    (h : updateFromFile u c lines = .ok c') (s : Switch) :
    s ∈ c'.options.on ↔ s ∈ c.options.on ∨
      ∃ name rest, ("options".toList :: name :: rest) ∈ lines ∧ (name, s) ∈ switchNames := by
  have key : ∀ (lines : List (List Text)) (r r' : Reading), readLines u r lines = .ok r' →
      (s ∈ r'.options.on ↔ s ∈ r.options.on ∨
        ∃ name rest, ("options".toList :: name :: rest) ∈ lines ∧ (name, s) ∈ switchNames) := by
    intro lines
    induction lines with
    | nil =>
      intro r r' h
      simp only [readLines, Except.ok.injEq] at h
      subst h
      simp
    | cons line lines ih =>
      intro r r' h
      simp only [readLines] at h
      split at h
      · cases h
      · rename_i r1 h1
        rw [ih _ _ h]
        rcases readLine_options u r r1 line h1 with e | ⟨first, rest, hl, e⟩
        · rw [e]
          constructor
          · rintro (h | ⟨n, rest, hm, hs⟩)
            · exact Or.inl h
            · exact Or.inr ⟨n, rest, List.mem_cons_of_mem _ hm, hs⟩
          · rintro (h | ⟨n, rest, hm, hs⟩)
            · exact Or.inl h
            · rcases List.mem_cons.mp hm with hm | hm
              · left
                rw [← e]
                subst hm
                simp [readLine] at h1
                rw [← h1]
                exact (applyOption_on _ _ _).mpr (Or.inr hs)
              · exact Or.inr ⟨n, rest, hm, hs⟩
        · rw [e, applyOption_on, hl]
          constructor
          · rintro ((h | h) | ⟨n, rest', hm, hs⟩)
            · exact Or.inl h
            · exact Or.inr ⟨first, rest, by simp, h⟩
            · exact Or.inr ⟨n, rest', List.mem_cons_of_mem _ hm, hs⟩
          · rintro (h | ⟨n, rest', hm, hs⟩)
            · exact Or.inl (Or.inl h)
            · rcases List.mem_cons.mp hm with hm | hm
              · simp only [List.cons.injEq, true_and] at hm
                exact Or.inl (Or.inr (hm.1 ▸ hs))
              · exact Or.inr ⟨n, rest', hm, hs⟩
  unfold updateFromFile at h
  split at h
  · cases h
  · rename_i r hr
    cases h
    exact key lines _ _ hr

/-! ## What the lines of a file add to the lists -/

/-- What a line says about the name servers: nothing, or a (possibly empty) list. -/
def saysServers : List Text → Option (List (IpType × Nat))
  | [] => none
  | [key] => if key = "nameserver".toList then some [] else none
  | key :: word :: _ =>
    if key = "nameserver".toList then
      match parseIp word with
      | (.none, _) => none
      | (ipType, ipValue) => some [(ipType, ipValue)]
    else none

/-- What a line says about the search domains. -/
def saysSearches (u : Unicode) : List Text → Option (List (List Bytes))
  | [] => none
  | key :: words =>
    if key = "search".toList then
      some (words.filterMap fun word =>
        match parseLabelsFromName u word with
        | .ok labels => labels
        | .error _ => none)
    else none

/-- What a line says about the sort list. -/
def saysSortList : List Text → Option (List Text)
  | [] => none
  | key :: words => if key = "sortlist".toList then some words else none

/-- What lines say together: nothing if none says anything, and otherwise all of it. -/
def together {α : Type} (said : List (Option (List α))) : Option (List α) :=
  if said.all Option.isNone then none else some (said.flatMap fun l => l.getD [])

/-- A list as far as it is read, and one more line. -/
def addTo {α : Type} (old new : Option (List α)) : Option (List α) :=
  match new with
  | none => old
  | some l => some (old.getD [] ++ l)

theorem together_addTo {α : Type} (old : Option (List α)) (said : List (Option (List α))) :
    said.foldl addTo old = together (old :: said) := by
  induction said generalizing old with
  | nil => cases old <;> simp [together]
  | cons l said ih =>
    rw [List.foldl_cons, ih]
    cases old <;> cases l <;> simp [addTo, together]

theorem readSearches_ok (u : Unicode) (words : List Text) (l : List (List Bytes))
    (h : readSearches u words = .ok l) :
    l = words.filterMap fun word =>
      match parseLabelsFromName u word with
      | .ok labels => labels
      | .error _ => none := by
  induction words generalizing l with
  | nil =>
    simp only [readSearches, Except.ok.injEq] at h
    subst h
    rfl
  | cons word words ih =>
    simp only [readSearches] at h
    split at h
    · cases h
    · rename_i labels hl
      split at h
      · cases h
      · rename_i rest hr
        cases h
        rw [ih _ hr]
        cases labels with
        | none => rw [List.filterMap_cons_none (by rw [hl])]; rfl
        | some labels => rw [List.filterMap_cons_some (by rw [hl])]; rfl

theorem key_facts : "search".toList ≠ "nameserver".toList ∧ "sortlist".toList ≠ "nameserver".toList ∧
    "sortlist".toList ≠ "search".toList ∧ "options".toList ≠ "nameserver".toList ∧
    "options".toList ≠ "search".toList ∧ "options".toList ≠ "sortlist".toList := by
  decide +kernel

/-- What a line that is read without an error does to the lists. -/
theorem readLine_lists (u : Unicode) (r r' : Reading) (line : List Text)
    (h : readLine u r line = .ok r') :
    r'.nameServers = addTo r.nameServers (saysServers line) ∧
    r'.searches = addTo r.searches (saysSearches u line) ∧
    r'.sortList = addTo r.sortList ((saysSortList line).map (List.map SortItem.text)) := by
  obtain ⟨k1, k2, k3, k4, k5, k6⟩ := key_facts
  generalize hns : "nameserver".toList = ns at *
  generalize hse : "search".toList = se at *
  generalize hso : "sortlist".toList = so at *
  generalize hop : "options".toList = op at *
  match line, h with
  | [], h =>
    simp only [readLine, Except.ok.injEq] at h
    subst h
    exact ⟨rfl, rfl, rfl⟩
  | [key], h =>
    simp only [readLine, hns, hse, hso] at h
    simp only [saysServers, saysSearches, saysSortList, hns, hse, hso]
    split at h
    · rename_i hk
      cases h
      rw [if_pos hk, if_neg (by rw [hk]; exact k1.symm), if_neg (by rw [hk]; exact k2.symm)]
      exact ⟨by simp [addTo], rfl, rfl⟩
    rename_i h1
    split at h
    · rename_i hk
      cases h
      rw [if_neg h1, if_pos hk, if_neg (by rw [hk]; exact k3.symm)]
      exact ⟨rfl, by simp [addTo], rfl⟩
    rename_i h2
    split at h
    · rename_i hk
      cases h
      rw [if_neg h1, if_neg h2, if_pos hk]
      exact ⟨rfl, rfl, by simp [addTo]⟩
    · rename_i h3
      cases h
      rw [if_neg h1, if_neg h2, if_neg h3]
      exact ⟨rfl, rfl, rfl⟩
  | key :: first :: rest, h =>
    simp only [readLine, hns, hse, hso, hop] at h
    simp only [saysServers, saysSearches, saysSortList, hns, hse, hso]
    split at h
    · rename_i hk
      rw [if_pos hk, if_neg (by rw [hk]; exact k1.symm), if_neg (by rw [hk]; exact k2.symm)]
      cases hp : parseIp first with
      | mk ipType ipValue =>
        rw [hp] at h
        cases ipType with
        | none => cases h; exact ⟨rfl, rfl, rfl⟩
        | v4 => cases h; exact ⟨rfl, rfl, rfl⟩
        | v6 => cases h; exact ⟨rfl, rfl, rfl⟩
    rename_i h1
    split at h
    · rename_i hk
      rw [if_neg h1, if_pos hk, if_neg (by rw [hk]; exact k3.symm)]
      split at h
      · cases h
      · rename_i searches hr
        cases h
        refine ⟨rfl, ?_, rfl⟩
        rw [readSearches_ok u _ _ hr]
        rfl
    rename_i h2
    split at h
    · rename_i hk
      cases h
      rw [if_neg h1, if_neg h2, if_pos hk]
      exact ⟨rfl, rfl, rfl⟩
    rename_i h3
    rw [if_neg h1, if_neg h2, if_neg h3]
    split at h
    · cases h
      exact ⟨rfl, rfl, rfl⟩
    · cases h
      exact ⟨rfl, rfl, rfl⟩

theorem readLines_lists (u : Unicode) (lines : List (List Text)) : ∀ (r r' : Reading),
    readLines u r lines = .ok r' →
    r'.nameServers = (lines.map saysServers).foldl addTo r.nameServers ∧
    r'.searches = (lines.map (saysSearches u)).foldl addTo r.searches ∧
    r'.sortList = (lines.map fun line => (saysSortList line).map (List.map SortItem.text)).foldl addTo
      r.sortList := by
  induction lines with
  | nil =>
    intro r r' h
    simp only [readLines, Except.ok.injEq] at h
    subst h
    exact ⟨rfl, rfl, rfl⟩
  | cons line lines ih =>
    intro r r' h
    simp only [readLines] at h
    split at h
    · cases h
    · rename_i r1 h1
      obtain ⟨a, b, c⟩ := ih _ _ h
      obtain ⟨a', b', c'⟩ := readLine_lists u r r1 line h1
      rw [a, b, c, a', b', c']
      exact ⟨rfl, rfl, rfl⟩

theorem together_none {α : Type} (said : List (Option (List α))) :
    together (none :: said) = together said := by
  simp [together]

/-- What is stored behind reading. -/
def storedOr {α : Type} (old : Option (List α)) : Option (List α) → Option (List α)
  | none => old
  | some l => stored l

/-! ## C73 -/

/-- **C73.** The name servers and the search domains behind reading a file are those the lines
of the file name, in the order of the lines; if the file says nothing about them they stay as
they were. -/
theorem C73_lists (u : Unicode) (c c' : Config) (lines : List (List Text))
    (h : updateFromFile u c lines = .ok c') :
    c'.nameServers = storedOr c.nameServers (together (lines.map saysServers)) ∧
    c'.searches = storedOr c.searches (together (lines.map (saysSearches u))) := by
  unfold updateFromFile at h
  split at h
  · cases h
  · rename_i r hr
    cases h
    obtain ⟨h1, h2, -⟩ := readLines_lists u lines _ _ hr
    rw [together_addTo, together_none] at h1 h2
    dsimp only
    rw [h1, h2]
    constructor
    · cases together (lines.map saysServers) <;> rfl
    · cases together (lines.map (saysSearches u)) <;> rfl

/-- Two name servers, the second line is none. -/
example : together ([["nameserver".toList, "8.8.8.8".toList], ["nameserver".toList, "x".toList],
    ["search".toList, "a".toList], ["nameserver".toList, "::1".toList]].map saysServers)
    = some [(.v4, 0x08080808), (.v6, 1)] := by decide +kernel

/-! ## C71 -/

/-- The elements the words of a file name. -/
def wantedSortList (lines : List (List Text)) : List Network :=
  (lines.flatMap fun line => (saysSortList line).getD []).filterMap parseSortListElement

/-- What is in the sort list as elements. -/
def elementsOf (items : Option (List SortItem)) : List SortListElement :=
  (items.getD []).filterMap fun
    | .element e => some e
    | .text _ => none

/-- **C71 violated.** The sort list a file names never has an element; and if it names at least
one, ordering any addresses fails. -/
theorem C71_violated (u : Unicode) (c c' : Config) (lines : List (List Text))
    (h : updateFromFile u c lines = .ok c') (hl : ∃ line ∈ lines, saysSortList line ≠ none) :
    elementsOf c'.sortList = [] ∧
    ((∃ line ∈ lines, ∃ word words, saysSortList line = some (word :: words)) →
      ∀ address addresses, orderItems (c'.sortList.getD []) (address :: addresses) = none) := by
  have hs : c'.sortList = stored ((lines.flatMap fun line => (saysSortList line).getD []).map SortItem.text) := by
    unfold updateFromFile at h
    split at h
    · cases h
    · rename_i r hr
      cases h
      obtain ⟨-, -, h3⟩ := readLines_lists u lines _ _ hr
      rw [together_addTo, together_none] at h3
      dsimp only
      have : together (lines.map fun line => (saysSortList line).map (List.map SortItem.text))
          = some ((lines.flatMap fun line => (saysSortList line).getD []).map SortItem.text) := by
        unfold together
        rw [if_neg]
        · congr 1
          rw [List.flatMap_map, List.map_flatMap]
          congr 1
          funext line
          cases saysSortList line <;> rfl
        · obtain ⟨line, hm, hne⟩ := hl
          intro hall
          rw [List.all_map, List.all_eq_true] at hall
          have := hall line hm
          cases hx : saysSortList line <;> simp_all
      rw [h3, this]
  rw [hs]
  generalize hw : (lines.flatMap fun line => (saysSortList line).getD []) = words
  constructor
  · cases words with
    | nil => rfl
    | cons w words =>
      simp [elementsOf, stored, List.filterMap_map]
  · rintro ⟨line, hm, word, rest, hline⟩ address addresses
    cases words with
    | nil =>
      have := List.flatMap_eq_nil_iff.mp hw line hm
      simp [hline] at this
    | cons w words => rfl

/-- A file for which an element was wanted. -/
example : wantedSortList [["sortlist".toList, "10.0.0.0/8".toList]] = [⟨.v4, 0x0A000000, 0xFF000000⟩] := by
  decide +kernel

/-- Elements that do not come from a file are ordered by as `addressesOrdered` says. -/
theorem C71_elements_partial (elements : List SortListElement) (addresses : List Address) :
    orderItems (elements.map SortItem.element) addresses = some (orderAll elements addresses) := by
  induction elements generalizing addresses with
  | nil => simp [orderItems, orderAll]
  | cons e elements ih =>
    cases addresses with
    | nil =>
      have : ∀ l : List SortListElement, orderAll l [] = [] := by
        intro l
        induction l with
        | nil => simp [orderAll]
        | cons e l ih => simp [orderAll, orderOne, ih]
      simp [orderItems, this]
    | cons a addresses =>
      simp only [List.map_cons, orderItems, orderAll]
      rw [ih]
      simp

/-! ## C72 -/

/-- The numbers are within their thresholds. -/
def Options.InRange (o : Options) : Prop :=
  (1 ≤ o.dots ∧ o.dots ≤ 30) ∧ (1 ≤ o.timeout ∧ o.timeout ≤ 30) ∧ (1 ≤ o.attempts ∧ o.attempts ≤ 5)

theorem clamp_range (lower upper value : Nat) (h : lower ≤ upper) :
    lower ≤ clamp lower upper value ∧ clamp lower upper value ≤ upper := by
  unfold clamp
  repeat' split
  all_goals omega

theorem applyOption_range (o : Options) (word : Text) (h : o.InRange) : (applyOption o word).InRange := by
  unfold applyOption
  split
  · exact h
  · dsimp only
    repeat' split
    all_goals first
      | exact h
      | exact ⟨clamp_range _ _ _ (by decide), h.2⟩
      | exact ⟨h.1, clamp_range _ _ _ (by decide), h.2.2⟩
      | exact ⟨h.1, h.2.1, clamp_range _ _ _ (by decide)⟩

/-- **C72.** Whatever is in the file, the numeric options stay within their thresholds. -/
theorem C72_range (u : Unicode) (c c' : Config) (lines : List (List Text))
    (h : updateFromFile u c lines = .ok c') (hc : c.options.InRange) : c'.options.InRange := by
  have key : ∀ (lines : List (List Text)) (r r' : Reading), readLines u r lines = .ok r' →
      r.options.InRange → r'.options.InRange := by
    intro lines
    induction lines with
    | nil =>
      intro r r' h hr
      simp only [readLines, Except.ok.injEq] at h
      exact h ▸ hr
    | cons line lines ih =>
      intro r r' h hr
      simp only [readLines] at h
      split at h
      · cases h
      · rename_i r1 h1
        refine ih _ _ h ?_
        rcases readLine_options u r r1 line h1 with e | ⟨first, rest, -, e⟩
        · exact e ▸ hr
        · exact e ▸ applyOption_range _ _ hr
  unfold updateFromFile at h
  split at h
  · cases h
  · rename_i r hr
    cases h
    exact key lines _ _ hr hc

theorem numeric_table : ∀ name ∈ ["ndots".toList, "timeout".toList, "attempts".toList], ∀ n, n < 31 →
    switchNames.find? (·.1 = name ++ ':' :: decimalText n) = none ∧
    name ++ ':' :: decimalText n ∉ ["ip6-bytestring".toList, "ip6-dotint".toList, "no-ip6-dotint".toList] ∧
    ':' ∈ name ++ ':' :: decimalText n ∧
    (name ++ ':' :: decimalText n).takeWhile (· ≠ ':') = name ∧
    ((name ++ ':' :: decimalText n).dropWhile (· ≠ ':')).drop 1 = decimalText n ∧
    isDecimal (decimalText n) = true ∧ decimalValue (decimalText n) = n := by
  decide +kernel

/-- **C72.** A value within the thresholds is taken over. -/
theorem C72_value (o : Options) (n : Nat) :
    (1 ≤ n → n ≤ 30 → applyOption o ("ndots".toList ++ ':' :: decimalText n) = { o with dots := n }) ∧
    (1 ≤ n → n ≤ 30 → applyOption o ("timeout".toList ++ ':' :: decimalText n) = { o with timeout := n }) ∧
    (1 ≤ n → n ≤ 5 → applyOption o ("attempts".toList ++ ':' :: decimalText n) = { o with attempts := n }) := by
  have names : "timeout".toList ≠ "ndots".toList ∧ "attempts".toList ≠ "ndots".toList ∧
      "attempts".toList ≠ "timeout".toList := by decide +kernel
  refine ⟨fun h1 h2 => ?_, fun h1 h2 => ?_, fun h1 h2 => ?_⟩
  · obtain ⟨t1, t2, t3, t4, t5, t6, t7⟩ := numeric_table "ndots".toList
      (List.mem_cons_self) n (by omega)
    unfold applyOption
    rw [t1]
    dsimp only
    rw [if_neg t2, if_neg (by exact fun h => h t3), t4, t5, if_neg (by simp [t6]), if_pos rfl, t7]
    simp only [clamp]
    rw [if_neg (by omega), if_neg (by omega)]
  · obtain ⟨t1, t2, t3, t4, t5, t6, t7⟩ := numeric_table "timeout".toList
      (List.mem_cons_of_mem _ List.mem_cons_self) n (by omega)
    unfold applyOption
    rw [t1]
    dsimp only
    rw [if_neg t2, if_neg (by exact fun h => h t3), t4, t5, if_neg (by simp [t6]), if_neg names.1,
      if_pos rfl, t7]
    simp only [clamp]
    rw [if_neg (by omega), if_neg (by omega)]
  · obtain ⟨t1, t2, t3, t4, t5, t6, t7⟩ := numeric_table "attempts".toList
      (List.mem_cons_of_mem _ (List.mem_cons_of_mem _ List.mem_cons_self)) n (by omega)
    unfold applyOption
    rw [t1]
    dsimp only
    rw [if_neg t2, if_neg (by exact fun h => h t3), t4, t5, if_neg (by simp [t6]), if_neg names.2.1,
      if_neg names.2.2, if_pos rfl, t7]
    simp only [clamp]
    rw [if_neg (by omega), if_neg (by omega)]

example : (applyOption .default "attempts:9".toList).attempts = 5 := by decide +kernel

/-! ## C74 -/

theorem readSearches_total (u : Unicode) (words : List Text)
    (h : ∀ word ∈ words, ∃ labels, parseLabelsFromName u word = .ok labels) :
    ∃ l, readSearches u words = .ok l := by
  induction words with
  | nil => exact ⟨[], rfl⟩
  | cons word words ih =>
    obtain ⟨labels, hl⟩ := h word (by simp)
    obtain ⟨l, hr⟩ := ih (fun w hw => h w (by simp [hw]))
    exact ⟨labels.toList ++ l, by simp only [readSearches, hl, hr]⟩

/-- **C74, partial.** If every search domain is a proper name then reading the file does not
raise.  Missing for the full statement: names that are not, see `C74_violated`. -/
theorem C74_partial (u : Unicode) (c : Config) (lines : List (List Text))
    (h : ∀ words, ("search".toList :: words) ∈ lines →
      ∀ word ∈ words, ∃ labels, parseLabelsFromName u word = .ok labels) :
    ∃ c', updateFromFile u c lines = .ok c' := by
  have key : ∀ (lines : List (List Text)) (r : Reading),
      (∀ words, ("search".toList :: words) ∈ lines →
        ∀ word ∈ words, ∃ labels, parseLabelsFromName u word = .ok labels) →
      ∃ r', readLines u r lines = .ok r' := by
    intro lines
    induction lines with
    | nil => exact fun r _ => ⟨r, rfl⟩
    | cons line lines ih =>
      intro r h
      have h1 : ∃ r1, readLine u r line = .ok r1 := by
        unfold readLine
        split
        · exact ⟨_, rfl⟩
        · repeat' split
          all_goals exact ⟨_, rfl⟩
        · rename_i key first rest
          split
          · split
            all_goals exact ⟨_, rfl⟩
          split
          · rename_i hk
            obtain ⟨l, hl⟩ := readSearches_total u (first :: rest) (h _ (by rw [hk]; simp))
            rw [hl]
            exact ⟨_, rfl⟩
          split
          · exact ⟨_, rfl⟩
          split
          · exact ⟨_, rfl⟩
          · exact ⟨_, rfl⟩
      obtain ⟨r1, h1⟩ := h1
      simp only [readLines, h1]
      exact ih r1 (fun words hm => h words (List.mem_cons_of_mem _ hm))
  obtain ⟨r, hr⟩ := key lines { options := c.options } h
  unfold updateFromFile
  rw [hr]
  exact ⟨_, rfl⟩

/-- **C74 violated.** A line `search a..b` raises, also behind the import of the package, which
reads `/etc/resolv.conf`; the configuration is then not changed but for the options of the
lines before. -/
theorem C74_violated (u : Unicode) (c : Config) :
    updateFromFile u c [["search".toList, "a..b".toList]] = .error .emptyLabel := by
  rfl

/-! ## C75 -/

theorem dictGet_set {α : Type} (d : List (Text × α)) (key other : Text) (value : α) :
    dictGet (dictSet d key value) other = if other = key then some value else dictGet d other := by
  unfold dictSet
  split
  · rename_i h
    induction d with
    | nil => simp [dictGet] at h
    | cons e d ih =>
      by_cases he : e.1 = key
      · by_cases ho : other = key
        · simp [dictGet, he, ho]
        · have hek : ¬ key = other := fun e => ho e.symm
          rw [if_neg ho]
          simp only [dictGet, List.map_cons, he, if_pos, List.find?_cons, hek, decide_false]
          have : ∀ d : List (Text × α), (List.find? (fun x => decide (x.1 = other))
              (d.map fun e => if e.1 = key then (key, value) else e)).map (·.2)
              = (List.find? (fun x => decide (x.1 = other)) d).map (·.2) := by
            intro d
            induction d with
            | nil => rfl
            | cons e d ih =>
              by_cases h1 : e.1 = key
              · simp only [List.map_cons, h1, if_pos, List.find?_cons, hek, decide_false]
                exact ih
              · by_cases h2 : e.1 = other
                · simp [h2, ho]
                · simp only [List.map_cons, if_neg h1, List.find?_cons, h2, decide_false]
                  exact ih
          exact this d
      · by_cases ho : e.1 = other
        · have : ¬ other = key := fun e' => he (ho.trans e')
          simp [dictGet, ho, this]
        · have h' : (dictGet d key).isSome = true := by
            simpa [dictGet, List.find?_cons, he] using h
          have := ih h'
          simp only [dictGet, List.map_cons, if_neg he, List.find?_cons, ho, decide_false] at this ⊢
          exact this
  · rename_i h
    have hn : dictGet d key = none := by simpa using h
    have hd : List.find? (fun x => decide (x.1 = key)) d = none := by
      simpa [dictGet] using hn
    simp only [dictGet, List.find?_append]
    by_cases ho : other = key
    · subst ho
      simp [hd]
    · have hek : ¬ key = other := fun e => ho e.symm
      simp [ho, hek]

/-- The value of a key of a section. -/
def lookup (d : Sections) (name key : Text) : Option Text := (dictGet d name).bind fun s => dictGet s key

/-- The later value wins unless it is empty. -/
def better (old new : Option Text) : Option Text :=
  match new with
  | some (c :: text) => some (c :: text)
  | some [] => if old.isSome then old else some []
  | none => old

theorem dictGet_cons {α : Type} (e : Text × α) (d : List (Text × α)) (key : Text) :
    dictGet (e :: d) key = if e.1 = key then some e.2 else dictGet d key := by
  by_cases h : e.1 = key <;> simp [dictGet, h]

theorem dictGet_notin {α : Type} (d : List (Text × α)) (key : Text) (h : key ∉ d.map (·.1)) :
    dictGet d key = none := by
  induction d with
  | nil => rfl
  | cons e d ih =>
    simp only [List.map_cons, List.mem_cons, not_or] at h
    rw [dictGet_cons, if_neg (fun e' => h.1 e'.symm), ih h.2]

theorem mergeSection_get (source : Section) : ∀ into : Section, (source.map (·.1)).Nodup → ∀ key,
    dictGet (mergeSection into source) key = better (dictGet into key) (dictGet source key) := by
  induction source with
  | nil => intro into _ key; rfl
  | cons e source ih =>
    intro into hn key
    obtain ⟨k, value⟩ := e
    simp only [List.map_cons, List.nodup_cons] at hn
    rw [mergeSection, ih _ hn.2, dictGet_cons]
    by_cases hk : k = key
    · subst hk
      rw [dictGet_notin source k hn.1, if_pos rfl]
      simp only [better]
      cases value with
      | nil =>
        simp only [ne_eq, not_true_eq_false, if_false]
        split
        · rfl
        · rw [dictGet_set, if_pos rfl]
      | cons c value =>
        rw [if_pos (by simp), dictGet_set, if_pos rfl]
    · rw [if_neg hk]
      congr 1
      have hk' : ¬ key = k := fun e => hk e.symm
      split
      · rw [dictGet_set, if_neg hk']
      · split
        · rfl
        · rw [dictGet_set, if_neg hk']

/-- **C75.** Behind merging the value of every key of every section is the one of the merged
configuration if that is not empty, and otherwise the one from before, if there is one. -/
theorem C75_merge (source : Sections) : ∀ into : Sections, (source.map (·.1)).Nodup →
    (∀ e ∈ source, (e.2.map (·.1)).Nodup) → ∀ name key,
    lookup (mergeConfiguration into source) name key = better (lookup into name key) (lookup source name key) := by
  induction source with
  | nil => intro into _ _ name key; simp [mergeConfiguration, lookup, dictGet, better]
  | cons e source ih =>
    intro into hn hs name key
    obtain ⟨k, sec⟩ := e
    simp only [List.map_cons, List.nodup_cons] at hn
    have hsec : (sec.map (·.1)).Nodup := hs (k, sec) (by simp)
    rw [mergeConfiguration, ih _ hn.2 (fun e he => hs e (by simp [he]))]
    by_cases hk : k = name
    · subst hk
      have h0 : lookup source k key = none := by
        simp [lookup, dictGet_notin source k hn.1]
      have h1 : lookup ((k, sec) :: source) k key = dictGet sec key := by
        simp [lookup, dictGet_cons]
      rw [h0, h1]
      show lookup _ k key = _
      cases hi : dictGet into k with
      | none =>
        have h2 : lookup into k key = none := by simp [lookup, hi]
        rw [h2]
        simp only [lookup, dictGet_set, if_pos, Option.bind_some]
        cases hx : dictGet sec key with
        | none => rfl
        | some t => cases t <;> rfl
      | some target =>
        have h2 : lookup into k key = dictGet target key := by simp [lookup, hi]
        rw [h2]
        simp only [lookup, dictGet_set, if_pos, Option.bind_some]
        exact mergeSection_get sec target hsec key
    · have hk' : ¬ name = k := fun e => hk e.symm
      have h1 : lookup ((k, sec) :: source) name key = lookup source name key := by
        simp [lookup, dictGet_cons, hk]
      rw [h1]
      congr 1
      cases hi : dictGet into k with
      | none => simp [lookup, dictGet_set, hk']
      | some target => simp [lookup, dictGet_set, hk']

example : lookup (mergeConfiguration
    [("R".toList, [("a".toList, "1".toList), ("b".toList, "2".toList)])]
    [("R".toList, [("a".toList, []), ("b".toList, "3".toList)])]) "R".toList "a".toList
    = some "1".toList := by decide +kernel

/-! ## C76 -/

/-- The value of a key of a section by the lines alone: the last one; `current` is the section
the lines are in. -/
def lastValue (name key : Text) : Text → List IniLine → Option Text
  | _, [] => none
  | _, .sectionName section' :: lines => lastValue name key section' lines
  | current, .entry k value :: lines =>
    match lastValue name key current lines with
    | some v => some v
    | none => if current = name ∧ k = key then some value else none

/-- **C76.** The value of a key of a section behind parsing a file is the one of the last line
that gives it in that section, also when the section is opened repeatedly. -/
theorem C76_last (lines : List IniLine) (name key : Text) :
    lookup (iniLines lines) name key = lastValue name key [] lines := by
  have keyed : ∀ (lines : List IniLine) (current : Text) (d : Sections),
      lookup (lines.foldl iniStep (current, d)).2 name key
        = match lastValue name key current lines with
          | some v => some v
          | none => lookup d name key := by
    intro lines
    induction lines with
    | nil => intro current d; rfl
    | cons line lines ih =>
      intro current d
      cases line with
      | sectionName n => simp only [List.foldl_cons, iniStep, ih, lastValue]
      | entry k value =>
        simp only [List.foldl_cons, iniStep, ih, lastValue]
        cases lastValue name key current lines with
        | some v => rfl
        | none =>
          dsimp only
          by_cases hc : current = name
          · subst hc
            by_cases hk : k = key
            · subst hk
              simp [lookup, dictGet_set]
            · have hk' : ¬ key = k := fun e => hk e.symm
              simp only [hk, and_false, if_false]
              simp only [lookup, dictGet_set, if_pos, Option.bind_some, if_neg hk']
              cases dictGet d current <;> simp [dictGet]
          · have hc' : ¬ name = current := fun e => hc e.symm
            simp [lookup, dictGet_set, hc, hc']
  rw [iniLines, keyed]
  cases lastValue name key [] lines <;> rfl

example : lookup (iniLines [.sectionName "R".toList, .entry "a".toList "1".toList,
    .sectionName "S".toList, .entry "a".toList "2".toList,
    .sectionName "R".toList, .entry "a".toList "3".toList]) "R".toList "a".toList
    = some "3".toList := by decide +kernel

end Verif.Dns
