import Verif.Dns.Names
import Verif.Dns.Props

/-!
# Domain names as text, search lists, address order and name servers: properties

* C45: names and labels survive a round trip.  **Violated** for the name `\@`.
* C47: the ordered addresses are a permutation of the given ones.
* C48: search domains are appended to the name.  **Violated**: they are put in front.
* C65: the name of a pointer record is the name its message holds.  **Violated** for names
  with compression and for malformed names.
* C66: every name server is asked at most once per query.
-/

namespace Verif.Dns

/-! ## C45 -/

/-- A label as host names have them: 1 to 63 ASCII bytes, and not `idna` encoded. -/
structure LabelOk (label : Bytes) : Prop where
  positive : 0 < label.length
  short : label.length ≤ 63
  ascii : ∀ byte ∈ label, byte.toNat < 128
  plain : ¬ [120, 110, 45, 45] <:+: label

theorem occursIn_infix (needle text : Bytes) (h : occursIn needle text = true) :
    needle <:+: text := by
  induction text with
  | nil =>
    simp only [occursIn, List.isEmpty_iff] at h
    subst h
    exact List.nil_infix
  | cons b rest ih =>
    simp only [occursIn, Bool.or_eq_true] at h
    rcases h with h | h
    · exact (List.isPrefixOf_iff_prefix.mp h).isInfix
    · exact List.infix_cons_iff.mpr (Or.inr (ih h))

theorem decodeLabel_ok (u : Unicode) (label : Bytes) (h : LabelOk label) :
    decodeLabel u label = some (label.map fun b => Char.ofNat b.toNat) := by
  have h1 : label.all (·.toNat < 128) = true := by
    simp only [List.all_eq_true, decide_eq_true_eq]
    exact h.ascii
  have h2 : occursIn [120, 110, 45, 45] label = false := by
    cases ho : occursIn [120, 110, 45, 45] label with
    | false => rfl
    | true => exact absurd (occursIn_infix _ _ ho) h.plain
  simp [decodeLabel, h1, h2]

/-- The three ways a character is written: as it is, behind a backslash, or as a number behind
a backslash. -/
def writtenAs (c : Char) : List Char → Bool
  | [x] => x == c && x != '.' && x != '\\'
  | [s, x] => s == '\\' && x == c && !isDigit x
  | [s, d, e, f] => s == '\\' && isDigit d && isDigit e && isDigit f
    && (digitValue d * 10 + digitValue e) * 10 + digitValue f == c.toNat
  | _ => false

/-- The tables for characters outside of ASCII do not matter for an ASCII character. -/
theorem writeChar_ascii (u v : Unicode) (c : Char) (h : c.toNat < 128) :
    writeChar u c = writeChar v c := by
  simp [writeChar, isAlnum, isPrintable, h]

def noUnicode : Unicode := ⟨fun _ => none, fun _ => none, fun _ => false, fun _ => false⟩

theorem writeChar_table : ∀ n, n < 128 →
    writtenAs (Char.ofNat n) (writeChar noUnicode (Char.ofNat n)) = true
      ∧ (Char.ofNat n).toNat = n := by
  decide +kernel

theorem writeChar_written (u : Unicode) (c : Char) (h : c.toNat < 128) :
    writtenAs c (writeChar u c) = true := by
  rw [writeChar_ascii u noUnicode c h]
  have := (writeChar_table c.toNat h).1
  rwa [Char.ofNat_toNat] at this

/-- A written character is read back. -/
theorem splitName_written (c : Char) (written rest part : List Char) (split : List (List Char))
    (hc : c.toNat < 128) (h : writtenAs c written = true) :
    splitName (written ++ rest) part split = splitName rest (part ++ [c]) split := by
  match written, h with
  | [x], h =>
    simp only [writtenAs, Bool.and_eq_true, beq_iff_eq, bne_iff_ne] at h
    obtain ⟨⟨rfl, h1⟩, h2⟩ := h
    simp only [List.cons_append, List.nil_append]
    conv => lhs; rw [splitName.eq_def]
    simp [h1, h2]
  | [s, x], h =>
    simp only [writtenAs, Bool.and_eq_true, beq_iff_eq, Bool.not_eq_true'] at h
    obtain ⟨⟨rfl, rfl⟩, h2⟩ := h
    simp only [List.cons_append, List.nil_append]
    conv => lhs; rw [splitName.eq_def]
    simp [h2]
  | [s, d, e, f], h =>
    simp only [writtenAs, Bool.and_eq_true, beq_iff_eq] at h
    obtain ⟨⟨⟨⟨rfl, h1⟩, h2⟩, h3⟩, h4⟩ := h
    simp only [List.cons_append, List.nil_append]
    conv => lhs; rw [splitName.eq_def]
    simp only [h1, h2, h3, h4, if_neg (show ¬ 255 < c.toNat by omega), Char.ofNat_toNat]
    simp

theorem splitName_text (u : Unicode) (text rest part : List Char) (split : List (List Char))
    (h : ∀ c ∈ text, c.toNat < 128) :
    splitName (text.flatMap (writeChar u) ++ rest) part split = splitName rest (part ++ text) split := by
  induction text generalizing part with
  | nil => simp
  | cons c text ih =>
    rw [List.flatMap_cons, List.append_assoc,
      splitName_written c _ _ _ _ (h c (by simp)) (writeChar_written u c (h c (by simp))),
      ih _ (fun d hd => h d (by simp [hd]))]
    simp

def labelText (label : Bytes) : List Char := label.map fun b => Char.ofNat b.toNat

theorem ofNat_toNat_byte (b : UInt8) (h : b.toNat < 128) : (Char.ofNat b.toNat).toNat = b.toNat :=
  (writeChar_table b.toNat h).2

theorem labelText_ascii (label : Bytes) (h : LabelOk label) :
    ∀ c ∈ labelText label, c.toNat < 128 := by
  intro c hc
  simp only [labelText, List.mem_map] at hc
  obtain ⟨b, hb, rfl⟩ := hc
  rw [ofNat_toNat_byte b (h.ascii b hb)]
  exact h.ascii b hb

theorem splitName_labels (u : Unicode) (labels : List Bytes) (hne : labels ≠ [])
    (h : ∀ label ∈ labels, LabelOk label) (split : List (List Char)) :
    ∃ name, writeLabels u labels = some name ∧
      splitName name [] split = .ok (split ++ labels.map labelText) := by
  induction labels generalizing split with
  | nil => exact absurd rfl hne
  | cons label labels ih =>
    have hl := h label (by simp)
    have ha := labelText_ascii label hl
    have htne : labelText label ≠ [] := by
      intro e
      have := congrArg List.length e
      simp only [labelText, List.length_map, List.length_nil] at this
      have := hl.positive
      omega
    cases labels with
    | nil =>
      refine ⟨(labelText label).flatMap (writeChar u), ?_, ?_⟩
      · simp [writeLabels, decodeLabel_ok u label hl, labelText]
      · have := splitName_text u (labelText label) [] [] split ha
        rw [List.append_nil] at this
        rw [this]
        simp [splitName, htne]
    | cons second more =>
      obtain ⟨name, hn, hs⟩ := ih (by simp) (fun l hl => h l (by simp [hl]))
        (split ++ [labelText label])
      refine ⟨(labelText label).flatMap (writeChar u) ++ '.' :: name, ?_, ?_⟩
      · simp [writeLabels, decodeLabel_ok u label hl, labelText, hn]
      · rw [splitName_text u (labelText label) _ _ _ ha]
        conv => lhs; rw [splitName.eq_def]
        simp [hs]

theorem encodePart_labelText (u : Unicode) (label : Bytes) (h : LabelOk label) :
    encodePart u (labelText label) = some label := by
  have h1 : allAscii (labelText label) = true := by
    simp only [allAscii, List.all_eq_true, decide_eq_true_eq]
    exact labelText_ascii label h
  rw [encodePart, if_pos h1]
  simp only [labelText, List.map_map]
  congr 1
  conv => rhs; rw [← List.map_id label]
  apply List.map_congr_left
  intro b hb
  simp only [Function.comp, ofNat_toNat_byte b (h.ascii b hb), id]
  exact UInt8.ofNat_toNat

theorem encodeParts_labels (u : Unicode) (labels : List Bytes) (h : ∀ label ∈ labels, LabelOk label) :
    encodeParts u (labels.map labelText) = .ok labels := by
  induction labels with
  | nil => rfl
  | cons label labels ih =>
    have hl := h label (by simp)
    have hs := hl.short
    simp only [List.map_cons, encodeParts, encodePart_labelText u label hl,
      if_neg (show ¬ 63 < label.length by omega), ih (fun l hl => h l (by simp [hl]))]

theorem labelText_at (label : Bytes) (h : LabelOk label) (e : labelText label = ['@']) :
    label = [64] := by
  have h1 := encodePart_labelText noUnicode label h
  rw [e] at h1
  have h2 : encodePart noUnicode ['@'] = some [64] := by decide
  rw [h2] at h1
  exact (Option.some.inj h1).symm

/-- **C45, partial.** Every non-empty list of valid labels other than the single label `@`
is written as a name, and the name is parsed into the same labels.  Missing for the full
statement: the single label `@`, see `C45_at_violated`. -/
theorem C45_partial (u : Unicode) (labels : List Bytes) (hne : labels ≠ [])
    (h : ∀ label ∈ labels, LabelOk label) (hat : labels ≠ [[64]]) :
    ∃ name, buildNameFromLabels u (some labels) = some name ∧
      parseLabelsFromName u name = .ok (some labels) := by
  obtain ⟨name, hn, hs⟩ := splitName_labels u labels hne h []
  refine ⟨name, hn, ?_⟩
  have hmem : [] ∉ labels.map labelText := by
    intro hm
    simp only [List.mem_map] at hm
    obtain ⟨l, hl, e⟩ := hm
    have := congrArg List.length e
    simp only [labelText, List.length_map, List.length_nil] at this
    have := (h l hl).positive
    omega
  have hspecial : ¬ (labels.map labelText = [] ∨ labels.map labelText = [['@']] ∨
      labels.map labelText = [[]]) := by
    rintro (e | e | e)
    · exact hne (List.map_eq_nil_iff.mp e)
    · cases labels with
      | nil => exact hne rfl
      | cons label rest =>
        simp only [List.map_cons, List.cons.injEq, List.map_eq_nil_iff] at e
        obtain ⟨e, rfl⟩ := e
        exact hat (by rw [labelText_at label (h label (by simp)) e])
    · rw [e] at hmem
      simp at hmem
  simp only [parseLabelsFromName, hs, List.nil_append, if_neg hspecial, if_neg hmem,
    encodeParts_labels u labels h]

/-- **C45.** The root (`None`) comes back, too. -/
theorem C45_root_partial (u : Unicode) : ∃ name, buildNameFromLabels u none = some name ∧
    parseLabelsFromName u name = .ok none := ⟨['@'], rfl, rfl⟩

/-- **C45 violated.** The single label `@` is a valid label, but the name that is written for
it is parsed as the root. -/
theorem C45_at_violated (u : Unicode) : LabelOk [64] ∧ ∃ name,
    buildNameFromLabels u (some [[64]]) = some name ∧ parseLabelsFromName u name = .ok none :=
  ⟨⟨by decide, by decide, by decide, by decide⟩, ['\\', '@'], rfl, rfl⟩

/-- `a.b`, space and `\` in labels are no problem. -/
example : buildNameFromLabels noUnicode (some [[97, 46, 32], [92, 127]])
    = some "a\\.\\032.\\\\\\127".toList := by decide

example : LabelOk [97, 46, 32] := ⟨by decide, by decide, by decide, by decide⟩

/-! ## C47 -/

theorem orderOne_perm (element : SortListElement) (kept addresses : List Address) :
    ((orderOne element kept addresses).1 ++ (orderOne element kept addresses).2).Perm
      (kept ++ addresses) := by
  induction addresses generalizing kept with
  | nil => simp [orderOne]
  | cons address rest ih =>
    unfold orderOne
    split
    · have := ih kept
      simp only [List.cons_append]
      exact (List.Perm.cons address this).trans List.perm_middle.symm
    · have := ih (kept ++ [address])
      rwa [List.append_assoc] at this

/-- **C47.** What is yielded is a permutation of the addresses that were given. -/
theorem C47_permutation (sortList : Option (List SortListElement)) (addresses : List Address) :
    (addressesOrdered sortList addresses).Perm addresses := by
  unfold addressesOrdered
  split
  · exact List.Perm.refl _
  · rename_i elements
    induction elements generalizing addresses with
    | nil => exact List.Perm.refl _
    | cons element elements ih =>
      have := orderOne_perm element [] addresses
      simp only [orderAll]
      exact ((List.Perm.append_left _ (ih _)).trans this)

theorem orderOne_eq (element : SortListElement) (kept addresses : List Address) :
    orderOne element kept addresses = (addresses.filter (matchesElement element),
      kept ++ addresses.filter (fun a => !matchesElement element a)) := by
  induction addresses generalizing kept with
  | nil => simp [orderOne]
  | cons address rest ih =>
    unfold orderOne
    cases hm : matchesElement element address with
    | true => simp [hm, ih]
    | false => simp [hm, ih]

/-- The position of the first element of the sort list whose network the address is in. -/
def rank : List SortListElement → Address → Nat
  | [], _ => 0
  | element :: elements, address =>
    if address.ipType = element.ipType ∧ address.ipValue &&& element.ipMask = element.ipValue then 0
    else rank elements address + 1

theorem matchesElement_iff (element : SortListElement) (address : Address) :
    matchesElement element address = true ↔
      address.ipType = element.ipType ∧ address.ipValue &&& element.ipMask = element.ipValue := by
  simp [matchesElement]

theorem mem_orderAll (elements : List SortListElement) (addresses : List Address) (a : Address) :
    a ∈ orderAll elements addresses ↔ a ∈ addresses :=
  (C47_permutation (some elements) addresses).mem_iff

theorem pairwise_of_forall {α : Type} {R : α → α → Prop} (h : ∀ a b, R a b) (l : List α) :
    l.Pairwise R := by
  induction l with
  | nil => exact .nil
  | cons a l ih => exact .cons (fun b _ => h a b) ih

/-- **C47.** The addresses come in the order of the sort list: an address whose first matching
element is earlier comes earlier, addresses that match none come last. -/
theorem C47_sorted (elements : List SortListElement) (addresses : List Address) :
    (addressesOrdered (some elements) addresses).Pairwise
      (fun a b => rank elements a ≤ rank elements b) := by
  show (orderAll elements addresses).Pairwise _
  induction elements generalizing addresses with
  | nil =>
    exact pairwise_of_forall (fun _ _ => Nat.le_refl 0) _
  | cons element elements ih =>
    simp only [orderAll, orderOne_eq, List.nil_append]
    have h0 : ∀ a ∈ addresses.filter (matchesElement element), rank (element :: elements) a = 0 := by
      intro a ha
      have := (matchesElement_iff element a).mp (List.mem_filter.mp ha).2
      simp [rank, this]
    have h1 : ∀ a ∈ orderAll elements (addresses.filter (fun a => !matchesElement element a)),
        rank (element :: elements) a = rank elements a + 1 := by
      intro a ha
      rw [mem_orderAll] at ha
      have hm := (List.mem_filter.mp ha).2
      have : ¬ (a.ipType = element.ipType ∧ a.ipValue &&& element.ipMask = element.ipValue) := by
        intro hc
        rw [← matchesElement_iff] at hc
        simp [hc] at hm
      simp only [rank, if_neg this]
    rw [List.pairwise_append]
    refine ⟨?_, ?_, ?_⟩
    · apply List.Pairwise.imp_of_mem (R := fun _ _ => True)
      · intro a b ha hb _
        rw [h0 a ha, h0 b hb]
        omega
      · exact pairwise_of_forall (fun _ _ => trivial) _
    · refine List.Pairwise.imp_of_mem ?_ (ih _)
      intro a b ha hb hab
      rw [h1 a ha, h1 b hb]
      omega
    · intro a ha b hb
      rw [h0 a ha]
      omega

theorem filter_filter_rank (elements : List SortListElement) (addresses : List Address) (k : Nat) :
    (orderAll elements addresses).filter (fun a => rank elements a = k)
      = addresses.filter (fun a => rank elements a = k) := by
  induction elements generalizing addresses k with
  | nil => rfl
  | cons element elements ih =>
    simp only [orderAll, orderOne_eq, List.nil_append, List.filter_append]
    have hm : ∀ a, rank (element :: elements) a
        = if matchesElement element a = true then 0 else rank elements a + 1 := by
      intro a
      simp only [rank, matchesElement_iff]
    simp only [hm]
    cases k with
    | zero =>
      have h1 : (orderAll elements (addresses.filter fun a => !matchesElement element a)).filter
          (fun a => decide ((if matchesElement element a = true then 0 else rank elements a + 1) = 0)) = [] := by
        rw [List.filter_eq_nil_iff]
        intro a ha
        rw [mem_orderAll] at ha
        have := (List.mem_filter.mp ha).2
        simp only [Bool.not_eq_true'] at this
        simp [this]
      rw [h1, List.append_nil, List.filter_filter]
      apply List.filter_congr
      intro a _
      cases matchesElement element a <;> simp
    | succ k =>
      have h1 : (addresses.filter (matchesElement element)).filter
          (fun a => decide ((if matchesElement element a = true then 0 else rank elements a + 1) = k + 1)) = [] := by
        rw [List.filter_eq_nil_iff]
        intro a ha
        have := (List.mem_filter.mp ha).2
        simp [this]
      have h2 : (orderAll elements (addresses.filter fun a => !matchesElement element a)).filter
          (fun a => decide ((if matchesElement element a = true then 0 else rank elements a + 1) = k + 1))
          = (orderAll elements (addresses.filter fun a => !matchesElement element a)).filter
            (fun a => decide (rank elements a = k)) := by
        apply List.filter_congr
        intro a ha
        rw [mem_orderAll] at ha
        have := (List.mem_filter.mp ha).2
        simp only [Bool.not_eq_true'] at this
        simp [this]
      rw [h1, h2, ih, List.nil_append, List.filter_filter]
      apply List.filter_congr
      intro a _
      cases hme : matchesElement element a <;> simp

/-- **C47.** Addresses with the same place in the sort list keep the order they were given
in. -/
theorem C47_stable (elements : List SortListElement) (addresses : List Address) (k : Nat) :
    (addressesOrdered (some elements) addresses).filter (fun a => rank elements a = k)
      = addresses.filter (fun a => rank elements a = k) :=
  filter_filter_rank elements addresses k

example : addressesOrdered (some [⟨1, 0x0A000000, 0xFF000000⟩, ⟨1, 0x7F000001, 0xFFFFFFFF⟩])
    [⟨1, 0x08080808, 0⟩, ⟨1, 0x7F000001, 1⟩, ⟨1, 0x0A000002, 2⟩, ⟨1, 0x0A000001, 3⟩]
    = [⟨1, 0x0A000002, 2⟩, ⟨1, 0x0A000001, 3⟩, ⟨1, 0x7F000001, 1⟩, ⟨1, 0x08080808, 0⟩] := by
  decide

/-! ## C48 -/

/-- The names that are to be looked up: for a name with too few labels the name followed by
each of the search domains, then the name itself. -/
def wantedNames (searches : List (List Bytes)) (dots : Nat) (name : List Bytes) :
    List (List Bytes) :=
  (if name.length ≤ dots then searches.map (fun domain => name ++ domain) else []) ++ [name]

/-- **C48 violated.** Whatever the name and the search domain are: when the two do not happen
to give the same text in both orders, the search domain is put in front of the name and the
name followed by the domain is never looked up. -/
theorem C48_prefix_violated (name domain : List Bytes) (dots : Nat) (h : name.length ≤ dots)
    (hd : domain ++ name ≠ name ++ domain) (hne : domain ≠ []) :
    labelsWithSearches (some [domain]) none dots (some name) = [domain ++ name, name] ∧
      name ++ domain ∉ labelsWithSearches (some [domain]) none dots (some name) ∧
      labelsWithSearches (some [domain]) none dots (some name) ≠ wantedNames [domain] dots name := by
  have e : labelsWithSearches (some [domain]) none dots (some name) = [domain ++ name, name] := by
    simp [labelsWithSearches, show ¬ dots < name.length by omega]
  refine ⟨e, ?_, ?_⟩
  · rw [e]
    simp [hne, Ne.symm hd]
  · rw [e]
    simp [wantedNames, h, hd]

/-- `host` with the search domain `example.com` is looked up as `example.com.host`. -/
example : labelsWithSearches (some [["example".toUTF8.toList, "com".toUTF8.toList]]) none 1
    (some ["host".toUTF8.toList])
    = [["example".toUTF8.toList, "com".toUTF8.toList, "host".toUTF8.toList],
       ["host".toUTF8.toList]] := by
  simp [labelsWithSearches]

/-- **C48, partial.** A name with more labels than the required number of dots is looked up
as it is; every other name is looked up once per search domain and then as it is; every name
looked up has exactly the labels of the name and of the domain.  Missing for the full
statement: the order of the two, see `C48_prefix_violated`. -/
theorem C48_partial (searches fallback : Option (List (List Bytes))) (dots : Nat)
    (name : List Bytes) :
    let domains := searches.getD (fallback.getD [])
    let got := labelsWithSearches searches fallback dots (some name)
    let wanted := wantedNames domains dots name
    got.length = wanted.length ∧ got.getLast? = some name ∧
      ∀ (k : Nat) (x y : List Bytes), got[k]? = some x → wanted[k]? = some y → x.Perm y := by
  intro domains got wanted
  have hgot : got = (if name.length ≤ dots then domains.map (fun d => d ++ name) else []) ++ [name] := by
    by_cases h : name.length ≤ dots
    · have : ¬ dots < name.length := by omega
      cases searches <;> simp [got, domains, labelsWithSearches, this, h]
    · have : dots < name.length := by omega
      simp [got, labelsWithSearches, this, h]
  refine ⟨?_, ?_, ?_⟩
  · rw [hgot]
    simp only [wanted, wantedNames, List.length_append]
    split <;> simp
  · rw [hgot]; simp
  · intro k x y hx hy
    rw [hgot] at hx
    simp only [wanted, wantedNames] at hy
    by_cases h : name.length ≤ dots
    · rw [if_pos h] at hx hy
      by_cases hk : k < domains.length
      · rw [List.getElem?_append_left (by simpa using hk)] at hx hy
        simp only [List.getElem?_map, List.getElem?_eq_getElem hk, Option.map_some,
          Option.some.injEq] at hx hy
        subst hx hy
        exact List.perm_append_comm
      · rw [List.getElem?_append_right (by simp; omega)] at hx hy
        simp only [List.length_map] at hx hy
        rw [hx] at hy
        rw [Option.some.inj hy]
    · rw [if_neg h] at hx hy
      rw [hx] at hy
      rw [Option.some.inj hy]

/-! ## C65 -/

/-- **C65, partial.** The name of a pointer record whose data is an encoded name of plain
labels (with nothing in front of it to point to) is the text of these labels.  Missing for
the full statement: names that use compression, `C65_compressed_violated`, and malformed
ones, `C65_raises_violated`. -/
theorem C65_partial (u : Unicode) (data : Bytes) (labels : List Bytes) (stop : Nat)
    (h : Encodes data 0 labels stop) (hok : ∀ label ∈ labels, LabelOk label) :
    Ends (fun fuel => parseDomainNamePointerData u fuel (some data))
      (if labels = [] then .absent else .name ((writeLabels u labels).getD [])) := by
  obtain ⟨n, hn⟩ := C64_compressed h
  refine ⟨n, fun fuel hf => ?_⟩
  have hp := hn fuel hf
  dsimp only at hp
  have hlen : ¬ data.length = 0 := by
    intro e
    have : data = [] := List.length_eq_zero_iff.mp e
    subst this
    cases h with
    | root z => simp at z
    | label z => simp at z
    | pointer z => simp at z
  cases labels with
  | nil => simp [parseDomainNamePointerData, hlen, hp]
  | cons label rest =>
    obtain ⟨name, hname, -⟩ := splitName_labels u (label :: rest) (by simp) hok []
    simp [parseDomainNamePointerData, hlen, hp, buildNameFromLabels, hname]

/-- A response to a reverse lookup: the question name is `a.b` (at 12), the answer's name
points to it, and the answer's data is `c` followed by a pointer to `b` (at 14), that is the
name `c.b`. -/
def reverseResponse : Bytes :=
  [0, 1, 0x81, 0x80, 0, 1, 0, 1, 0, 0, 0, 0]
    ++ [1, 97, 1, 98, 0, 0, 12, 0, 1]
    ++ [0xC0, 12, 0, 12, 0, 1, 0, 0, 0, 60, 0, 4, 1, 99, 0xC0, 14]

set_option maxRecDepth 8000 in
/-- **C65 violated.** In the message the data of the answer is the name `c.b` and nothing else,
the message is read without an error and the record keeps the four bytes of that name, but
asking for the name of the record raises `TypeError`: the pointer is looked up in the four
bytes instead of in the message. -/
theorem C65_compressed_violated (u : Unicode) :
    Encodes reverseResponse 33 [[99], [98]] 37 ∧
      (∃ result record, Ends (fun fuel => parseResultData fuel reverseResponse) (.ok result) ∧
        result.answers = some [record] ∧ record.data = some [1, 99, 0xC0, 14] ∧
        Ends (fun fuel => parseDomainNamePointerData u fuel record.data) .typeError) := by
  refine ⟨?_, ?_⟩
  · exact .label (length := 1) rfl rfl (by decide) (by decide) rfl
      (.pointer (high := 0xC0) (low := 14) (target := 14) rfl rfl (by decide) rfl
        (.label (length := 1) rfl rfl (by decide) (by decide) rfl (.root rfl)) (by decide))
  · refine ⟨⟨1, false, false, true, 0, some [⟨some [[97], [98]], 12, 1⟩],
      some [⟨some [[97], [98]], 12, 1, 60, some [1, 99, 0xC0, 14]⟩], none, none⟩,
      ⟨some [[97], [98]], 12, 1, 60, some [1, 99, 0xC0, 14]⟩, ⟨reverseResponse.length + 1, ?_⟩, rfl,
      rfl, ⟨5, ?_⟩⟩
    · intro fuel hf
      have h1 := C44_bound_partial reverseResponse fuel hf
      refine h1.trans ?_
      rfl
    · intro fuel hf
      obtain ⟨k, rfl⟩ : ∃ k, fuel = k + 2 := ⟨fuel - 2, by omega⟩
      rfl

/-- **C65 violated.** Whenever the labels cannot be read, for every non-empty data, a
`TypeError` is raised instead of "no name". -/
theorem C65_raises_violated (u : Unicode) (data : Bytes) (error : ParseError) (hne : data ≠ [])
    (h : Ends (fun fuel => parseLabels fuel data 0) (.error error)) :
    Ends (fun fuel => parseDomainNamePointerData u fuel (some data)) .typeError := by
  obtain ⟨n, hn⟩ := h
  refine ⟨n, fun fuel hf => ?_⟩
  have hp := hn fuel hf
  dsimp only at hp
  have hlen : ¬ data.length = 0 := fun e => hne (List.length_eq_zero_iff.mp e)
  simp [parseDomainNamePointerData, hlen, hp]

example : Ends (fun fuel => parseLabels fuel [5, 97] 0) (.error .labelReadEndOutOfBound) :=
  ⟨1, fun fuel hf => by obtain ⟨k, rfl⟩ : ∃ k, fuel = k + 1 := ⟨fuel - 1, by omega⟩; rfl⟩

/-! ## C66 -/

/-- **C66.** No name server is asked twice for a query, no more than the allowed number of
them are asked, all of them are asked when the attempts allow it, and they are asked in their
order from the first one, or with rotation from the one the transaction identifier picks. -/
theorem C66_servers (rotate : Bool) (transactionId attempts count : Nat) :
    let order := nameServerOrder rotate transactionId attempts count
    order.Nodup ∧ order.length = min attempts count ∧ (∀ k ∈ order, k < count) ∧
      (count ≤ attempts → ∀ k < count, k ∈ order) ∧
      (∀ k < order.length, order[k]? = some
        (((if rotate then transactionId else 0) % count + k) % count)) := by
  intro order
  have hlen : order.length = min attempts count := by simp [order, nameServerOrder]
  have hlt : ∀ k ∈ order, k < count := by
    intro k hk
    simp only [order, nameServerOrder, List.mem_map, List.mem_range] at hk
    obtain ⟨j, hj, rfl⟩ := hk
    exact Nat.mod_lt _ (by omega)
  have hnodup : order.Nodup := by
    simp only [order, nameServerOrder, List.Nodup, List.pairwise_map]
    refine List.Pairwise.imp_of_mem ?_ List.pairwise_lt_range
    intro a b ha hb hab
    rw [List.mem_range] at ha hb
    intro e
    have h1 := Nat.sub_mod_eq_zero_of_mod_eq e.symm
    rw [show (if rotate = true then transactionId else 0) + b
      - ((if rotate = true then transactionId else 0) + a) = b - a by omega,
      Nat.mod_eq_of_lt (by omega)] at h1
    omega
  refine ⟨hnodup, hlen, hlt, ?_, ?_⟩
  · intro hc k hk
    simp only [order, nameServerOrder, List.mem_map, List.mem_range]
    generalize (if rotate = true then transactionId else 0) = s
    have hs := Nat.mod_lt s (show 0 < count by omega)
    have hsd := Nat.div_add_mod s count
    by_cases hcase : s % count ≤ k
    · refine ⟨k - s % count, by omega, ?_⟩
      rw [Nat.add_mod, Nat.mod_eq_of_lt (a := k - s % count) (by omega),
        show s % count + (k - s % count) = k by omega, Nat.mod_eq_of_lt hk]
    · refine ⟨count + k - s % count, by omega, ?_⟩
      rw [Nat.add_mod, Nat.mod_eq_of_lt (a := count + k - s % count) (by omega),
        show s % count + (count + k - s % count) = count + k by omega, Nat.add_mod_left,
        Nat.mod_eq_of_lt hk]
  · intro k hk
    rw [hlen] at hk
    simp only [order, nameServerOrder, List.getElem?_map]
    rw [List.getElem?_range hk]
    simp [Nat.mod_add_mod]

example : nameServerOrder true 5 3 4 = [1, 2, 3] := by decide

end Verif.Dns
