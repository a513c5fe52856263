import Verif.UrlText.Back
import Verif.Url.Props

/-! C233: the text of a url reads back as the url. -/
namespace Verif.UrlText

variable {K : Classes}

theorem read_of {v : Text} {g : List (Nat × Text)} (h : (urlRp K).full v = some g) : read K v = ofGroups g := by
  unfold read
  rw [h]
  rfl

theorem empty_full : (urlRp K).full [] = some [] := by
  have no : ∀ {r : Re}, r.empty = false → ∀ (k : Pos → Option (List (Nat × Text))), r.run ⟨none, [], []⟩ k = none := by
    intro r he k
    refine run_none fun t ht => ?_
    exfalso
    obtain ⟨w, hw⟩ := eats _ _ _ ht
    exact absurd (List.append_eq_nil_iff.1 hw.rest.symm).1 (hw.some he)
  rw [urlRp_eq, full_eq, seq_run, scheme_eq, opt_run, no (by rfl), Option.none_or, seq_run, authority_eq, opt_run, no (by rfl), Option.none_or]
  exact rest5_some (pv := none) (p := none) (caps := []) (fun _ h => (by cases h))

/-! ### Numbers -/

theorem toString_digits (n : Nat) : digits n = Nat.toDigits 10 n := by
  simp [digits, toString, Nat.repr]

theorem digit_value : ∀ m, m < 10 → (Nat.digitChar m).toNat - 48 = m := by decide

theorem number_digits (n : Nat) : number (digits n) = n := by
  rw [toString_digits]
  induction n using Nat.strongRecOn with
  | ind n ih =>
    unfold number at ih ⊢
    by_cases hn : n < 10
    · rw [Nat.toDigits_of_lt_base hn]
      simp [digit_value n hn]
    · rw [Nat.toDigits_of_base_le (by decide) (by omega), List.foldl_append, ih (n / 10) (by omega)]
      simp only [List.foldl_cons, List.foldl_nil, digit_value (n % 10) (by omega)]
      omega

theorem digits_digit (hK : K.Fine) {n : Nat} : ∀ c ∈ digits n, K.digit c = true := by
  intro c hc
  rw [toString_digits] at hc
  have := Nat.isDigit_of_mem_toDigits (by decide) (by decide) hc
  simp only [Char.isDigit, Bool.and_eq_true, decide_eq_true_eq, ge_iff_le] at this
  have h1 : c.toNat ≤ 57 := this.2
  rw [hK.digit c (by omega)]
  simp only [isDigit, Bool.and_eq_true, decide_eq_true_eq]
  exact this

theorem digits_length {n : Nat} (h1 : 10 ≤ n) (h2 : n ≤ 99999) : 2 ≤ (digits n).length ∧ (digits n).length ≤ 5 := by
  rw [toString_digits]
  constructor
  · by_cases h : 2 ≤ (Nat.toDigits 10 n).length
    · exact h
    · have := (Nat.length_toDigits_le_iff (b := 10) (n := n) (k := 1) (by decide) (by decide)).mp (by omega)
      omega
  · exact (Nat.length_toDigits_le_iff (by decide) (by decide)).mpr (by omega)

/-! ### The parts -/

/-- A path which reads back alone: its parts are normal, of the characters of paths but slashes, and the first is not empty. -/
def GoodPath (p : Option (List Text)) : Prop :=
  ∀ l, p = some l → Url.normalizeParts l = .parts l ∧ l.head? ≠ some [] ∧ ∀ t ∈ l, ∀ c ∈ t, isPath c = true ∧ c ≠ '/'

/-- A query which reads back alone, without spaces and `#`. -/
def GoodQuery (K : Classes) (q : Option Url.Query) : Prop :=
  ∀ d, q = some d → ∃ t, Url.serializeQuery d false = some t ∧ Url.parseQuery (some t) false = some d ∧ ∀ c ∈ t, K.space c = false ∧ c ≠ '#'

/-- A fragment which is not empty, without spaces. -/
def GoodFragment (K : Classes) (f : Option Text) : Prop := ∀ t, f = some t → t ≠ [] ∧ ∀ c ∈ t, K.space c = false

theorem path_text (u : Url) (h : GoodPath u.path) : ∃ p, u.pathText = '/' :: p ∧ (∀ c ∈ p, isPath c = true) ∧ (∀ t, p ≠ '/' :: t) ∧
    pathOf (some ('/' :: p)) = some u.path := by
  unfold Url.pathText
  cases hp : u.path with
  | none => exact ⟨[], rfl, fun _ h => (by cases h), fun _ h => (by cases h), by decide⟩
  | some l =>
    obtain ⟨h1, h2, h3⟩ := h l hp
    have hs : ∀ p ∈ l, '/' ∉ p := fun p hp hm => (h3 p hp _ hm).2 rfl
    have hr := Url.C63_partial l false h1 hs h2 (by simp)
    have hne : l ≠ [] := by rintro rfl; simp [Url.normalizeParts, Url.dropDots, Url.dropPairs, Url.dropFront, Url.lastly] at h1
    obtain ⟨t, e, e'⟩ := Url.serialize_split l false hne hs
    refine ⟨t, e, ?_, ?_, ?_⟩
    · intro c hc
      have hmem : c ∈ Url.serializePath l false := by rw [e]; exact List.mem_cons_of_mem _ hc
      rw [Url.serializePath, if_neg hne] at hmem
      obtain ⟨p, hp, hc⟩ := List.mem_flatMap.1 hmem
      rcases List.mem_cons.1 hc with h | h
      · subst h; decide
      · exact (h3 p hp c h).1
    · intro r er
      subst er
      have : (Url.split '/' ('/' :: r)).head? = some [] := by simp [Url.split]
      rw [e'] at this
      simp at this
      exact h2 this
    · rw [← e, pathOf, hr]

theorem tail_text (u : Url) (hq : GoodQuery K u.query) (hf : GoodFragment K u.fragment) :
    ∃ q, u.queryText ++ u.fragmentText = tailOf q u.fragment ∧ '#' ∉ q.getD [] ∧ (∀ c ∈ q.getD [], K.space c = false) ∧
      (q.bind fun q => Url.parseQuery (some q) false) = u.query ∧ (∀ c ∈ u.fragment.getD [], K.space c = false) ∧
      (if u.fragment = some [] then none else u.fragment) = u.fragment := by
  have f1 : ∀ c ∈ u.fragment.getD [], K.space c = false := by
    cases h : u.fragment with
    | none => simp
    | some t => exact (hf t h).2
  have f2 : (if u.fragment = some [] then none else u.fragment) = u.fragment := by
    rw [if_neg]
    intro h
    exact (hf [] h).1 rfl
  unfold Url.queryText Url.fragmentText
  cases h : u.query with
  | none =>
    refine ⟨none, ?_, by simp, by simp, rfl, f1, f2⟩
    cases u.fragment <;> rfl
  | some d =>
    obtain ⟨t, e1, e2, e3⟩ := hq d h
    refine ⟨some t, ?_, fun h => (e3 _ h).2 rfl, fun c hc => (e3 c hc).1, e2, f1, f2⟩
    simp only [Option.bind_some, e1]
    cases u.fragment <;> rfl

/-- C233, relative references: if the path, the query and the fragment of a url read back alone, so does the url. -/
theorem C233_relative_partial (hK : K.Fine) (u : Url) (hs : u.scheme = none) (hu : u.user = none) (hh : u.host = none) (ho : u.port = none)
    (hp : GoodPath u.path) (hq : GoodQuery K u.query) (hf : GoodFragment K u.fragment) : read K u.text = some u := by
  obtain ⟨p, e1, e2, e3, e4⟩ := path_text u hp
  obtain ⟨q, t1, t2, t3, t4, t5, t6⟩ := tail_text u hq hf
  have et : u.text = if '/' :: (p ++ tailOf q u.fragment) = ['/'] then [] else '/' :: p ++ tailOf q u.fragment := by
    have : u.pathText ++ (u.queryText ++ u.fragmentText) = '/' :: p ++ tailOf q u.fragment := by rw [e1, t1]
    simp only [Url.text, hs, hu, hh, ho]
    simp only [Option.isSome_none, Bool.false_eq_true, or_self, ↓reduceIte, List.nil_append, List.append_assoc, this]
    rfl
  rw [et]
  by_cases h0 : '/' :: (p ++ tailOf q u.fragment) = ['/']
  · rw [if_pos h0, read_of empty_full]
    have h0 := List.append_eq_nil_iff.1 (List.cons.inj h0).2
    obtain ⟨rfl, h1⟩ := h0
    obtain ⟨a, b, c, d, path, query, fragment⟩ := u
    cases (show a = none from hs)
    cases (show b = none from hu)
    cases (show c = none from hh)
    cases (show d = none from ho)
    have hq' : query = none := by
      cases q with
      | none => exact t4.symm
      | some q => cases h1
    have hf' : fragment = none := by
      cases fragment with
      | none => rfl
      | some q => simp [tailOf] at h1
    have hp' : path = none := by
      have : pathOf (some ['/']) = some none := by decide
      rw [this] at e4
      exact (Option.some.inj e4).symm
    subst hq' hf' hp'
    rfl
  · rw [if_neg h0, C231_end_decides_nothing_else hK (a := '/' :: p) ?_ ?_ t2 t3 t5, read_of (path_full hK e2 e3), t4, t6]
    · have : ofGroups [(14, '/' :: p)] = some ⟨none, none, none, none, u.path, none, none⟩ := by
        have g14 : group [(14, '/' :: p)] 14 = some ('/' :: p) := rfl
        unfold ofGroups
        rw [g14, e4]
        rfl
      rw [this]
      obtain ⟨a, b, c, d, path, query, fragment⟩ := u
      cases (show a = none from hs)
      cases (show b = none from hu)
      cases (show c = none from hh)
      cases (show d = none from ho)
      rfl
    · intro h
      rcases List.mem_cons.1 h with h | h
      · exact absurd h (by decide)
      · exact absurd (e2 _ h) (by decide)
    · intro h
      rcases List.mem_cons.1 h with h | h
      · exact absurd h (by decide)
      · exact absurd (e2 _ h) (by decide)

/-! ### With a host -/

/-- A user which can be written: a name, a password or both. -/
def GoodUser (u : Option (Option Text × Option Text)) : Prop :=
  ∀ p, u = some p → (p.1.isSome ∨ p.2.isSome) ∧ (∀ n, p.1 = some n → n ≠ [] ∧ ∀ c ∈ n, isName c = true) ∧
    ∀ w, p.2 = some w → w ≠ [] ∧ ∀ c ∈ w, isSecret c = true

theorem host_none {w : Text} {g : List (Nat × Text)} (hg : (hostRp K).full w = some g) {n : Nat} (hn : n ∉ [4, 5, 6, 7, 8, 9, 10, 11, 12]) :
    look g n = none := by
  rw [full_eq] at hg
  obtain ⟨t, ht, hf⟩ := sound _ _ _ _ hg
  have : t.caps = g := by
    unfold fin at hf
    split at hf
    · exact Option.some.inj hf
    · cases hf
  rw [← this, look_sem ht (by rw [host_groups]; exact hn)]
  rfl

/-- The text of a host which was read is what it was read from, if that does not end with more than one dot. -/
theorem host_text (hK : K.Fine) {w : Text} {g : List (Nat × Text)} {h : Host} (hg : (hostRp K).full w = some g) (hh : createHost g = some h)
    (hd : ∀ x, w ≠ x ++ ['.', '.']) : hostText h = w := by
  rw [full_eq] at hg
  obtain ⟨t, ht, hf⟩ := sound _ _ _ _ hg
  have e : t.caps = g ∧ t.rest = [] := by
    unfold fin at hf
    split at hf
    · exact ⟨Option.some.inj hf, by assumption⟩
    · cases hf
  obtain ⟨v, dots, x, e1, e2, e3, _⟩ := host_sem hK ht (fun _ _ _ => rfl)
  rw [e.1, hh] at e2
  cases e2
  rw [e3.text]
  have e1 : w = v ++ (dots ++ t.rest) := e1
  rw [e.2, List.append_nil] at e1
  cases hc : dots with
  | nil => rw [e1, hc, List.append_nil]
  | cons c ds =>
    exfalso
    have hl := e3.last (by rw [hc]; simp)
    obtain ⟨l, b, hlb⟩ : ∃ l b, dots = l ++ [b] := by
      rcases List.eq_nil_or_concat dots with h | ⟨l, b, h⟩
      · rw [h] at hc; cases hc
      · exact ⟨l, b, by rw [h]; simp⟩
    have hv : ∃ y, v = y ++ ['.'] := by
      rcases List.eq_nil_or_concat v with h | ⟨y, b, h⟩
      · rw [h] at hl; cases hl
      · rw [h] at hl
        simp at hl
        exact ⟨y, by rw [h, hl]; simp⟩
    obtain ⟨y, hy⟩ := hv
    have hb : b = '.' := e3.more b (by rw [hlb]; simp)
    rcases List.eq_nil_or_concat l with h | ⟨z, a, h⟩
    · exact hd y (by rw [e1, hlb, h, hy, hb]; simp)
    · have ha : a = '.' := e3.more a (by rw [hlb, h]; simp)
      exact hd (v ++ z) (by rw [e1, hlb, h, ha, hb]; simp)

theorem look_or {l r : List (Nat × Text)} {n : Nat} : look (l ++ r) n = (look l n).or (look r n) := by
  unfold look
  rw [List.find?_append]
  cases l.find? (·.1 == n) <;> rfl

/-- C233, urls with a scheme and a host: if the host was read from `w`, which does not end with two dots, the user can be written, the port
has two to five digits, and the path, the query and the fragment read back alone, then so does the url. -/
theorem C233_absolute_partial (hK : K.Fine) (u : Url) {s w : Text} {h : Host} {g : List (Nat × Text)} (hs : u.scheme = some s) (hne : s ≠ [])
    (hsc : ∀ c ∈ s, isLetter c ∨ isDigit c ∨ c = '.' ∨ c = '+' ∨ c = '-')
    (hh : u.host = some h) (hg : (hostRp K).full w = some g) (hc : createHost g = some h) (hd : ∀ x, w ≠ x ++ ['.', '.'])
    (hu : GoodUser u.user) (ho : ∀ n, u.port = some n → 10 ≤ n ∧ n ≤ 99999)
    (hp : GoodPath u.path) (hq : GoodQuery K u.query) (hf : GoodFragment K u.fragment) : read K u.text = some u := by
  obtain ⟨p, e1, e2, e3, e4⟩ := path_text u hp
  obtain ⟨q, t1, t2, t3, t4, t5, t6⟩ := tail_text u hq hf
  have hw := host_text hK hg hc hd
  let usr : Option (Text × Text) := u.user.map fun p => (p.1.getD [], p.2.getD [])
  let d : Option Text := u.port.map digits
  have hsc' : ∀ c ∈ s, isScheme c = true := by
    intro c hc
    rcases hsc c hc with h | h | h | h | h <;> simp [isScheme, h]
  have husr : ∀ n q, usr = some (n, q) → (∀ c ∈ n, isName c = true) ∧ ∀ c ∈ q, isSecret c = true := by
    intro n q h
    obtain ⟨⟨a, b⟩, e, e'⟩ := Option.map_eq_some_iff.1 h
    cases e'
    obtain ⟨_, h1, h2⟩ := hu _ e
    constructor
    · cases a with
      | none => intro c h; cases h
      | some a => exact (h1 a rfl).2
    · cases b with
      | none => intro c h; cases h
      | some b => exact (h2 b rfl).2
  have hdd : ∀ x, d = some x → 2 ≤ x.length ∧ x.length ≤ 5 ∧ ∀ c ∈ x, K.digit c = true := by
    intro x h
    obtain ⟨n, e, rfl⟩ := Option.map_eq_some_iff.1 h
    obtain ⟨h1, h2⟩ := ho n e
    exact ⟨(digits_length h1 h2).1, (digits_length h1 h2).2, digits_digit hK⟩
  have full := front_full hK (p := some p) hsc' hne husr hg hdd e2
  have ea : u.authority = userOpt usr ++ (w ++ portOpt d) := by
    unfold Url.authority
    rw [hh]
    simp only [usr, d]
    cases u.user with
    | none => cases u.port <;> simp [userOpt, portOpt, hw]
    | some p => cases u.port <;> simp [userOpt, portOpt, hw]
  have et : u.text = (s ++ ':' :: '/' :: '/' :: (userOpt usr ++ (w ++ (portOpt d ++ pathOpt (some p))))) ++ tailOf q u.fragment := by
    have h0 : ∀ x : Text, s ++ ':' :: x ≠ ['/'] := by
      intro x hx
      cases s with
      | nil => exact hne rfl
      | cons c s =>
        have := List.cons.inj hx
        cases s <;> cases this.2
    simp only [Url.text, hs, hh, ea, e1, Option.isSome_some, or_true, true_or, ↓reduceIte, List.append_assoc, t1]
    rw [if_neg]
    · simp [pathOpt]
    · intro hx
      exact h0 _ (by simpa using hx)
  have marks : '/' ∉ w ∧ '?' ∉ w ∧ '#' ∉ w ∧ '@' ∉ w := host_marks hK hg
  have clean : ∀ c, isScheme c = false → c ≠ ':' → c ≠ '/' → c ≠ '@' → isName c = false → isSecret c = false → c ∉ w → K.digit c = false → isPath c = false →
      c ∉ s ++ ':' :: '/' :: '/' :: (userOpt usr ++ (w ++ (portOpt d ++ pathOpt (some p)))) := by
    intro c h1 h2 h3 h4 h5 h6 h7 h8 h9 hm
    simp only [List.mem_append, List.mem_cons] at hm
    rcases hm with hm | hm | hm | hm | hm | hm | hm | hm
    · rw [hsc' c hm] at h1; cases h1
    · exact h2 hm
    · exact h3 hm
    · exact h3 hm
    · cases hus : usr with
      | none => rw [hus] at hm; cases hm
      | some up =>
        obtain ⟨n, pw⟩ := up
        obtain ⟨k1, k2⟩ := husr n pw hus
        rw [hus] at hm
        simp only [userOpt, List.mem_append, List.mem_cons, List.not_mem_nil, or_false] at hm
        rcases hm with hm | hm | hm | hm
        · rw [k1 c hm] at h5; cases h5
        · exact h2 hm
        · rw [k2 c hm] at h6; cases h6
        · exact h4 hm
    · exact h7 hm
    · cases hds : d with
      | none => rw [hds] at hm; cases hm
      | some x =>
        rw [hds] at hm
        rcases List.mem_cons.1 hm with hm | hm
        · exact h2 hm
        · rw [(hdd x hds).2.2 c hm] at h8; cases h8
    · rcases List.mem_cons.1 hm with hm | hm
      · exact h3 hm
      · rw [e2 c hm] at h9; cases h9
  rw [et, C231_end_decides_nothing_else hK ?_ ?_ t2 t3 t5, read_of full, t4, t6]
  · -- the groups
    generalize hG : pathCaps (some p) ++ (portCaps d ++ (g ++ (userOptCaps usr ++ [(1, s)]))) = G
    have l14 : group G 14 = some ('/' :: p) := by rw [← hG]; exact look_cons_self _ _ _
    have rest : ∀ n, n ≠ 14 → n ≠ 13 → group G n = (look g n).or (look (userOptCaps usr ++ [(1, s)]) n) := by
      intro n h1 h2
      rw [← hG, ← look_or]
      show look ((14, _) :: _) n = _
      rw [look_cons_ne (Ne.symm h1)]
      cases d with
      | none => rfl
      | some x =>
        show look ((13, _) :: _) n = _
        rw [look_cons_ne (Ne.symm h2)]
        rfl
    have hu0 : ∀ n, n ≠ 1 → n ≠ 2 → n ≠ 3 → look (userOptCaps usr ++ [(1, s)]) n = none := by
      intro n h1 h2 h3
      cases usr with
      | none => simp [userOptCaps, look, Ne.symm h1]
      | some up =>
        obtain ⟨n', pw⟩ := up
        simp only [userOptCaps, userCaps]
        split <;> split <;> simp [look, Ne.symm h1, Ne.symm h2, Ne.symm h3]
    have l13 : group G 13 = d := by
      rw [← hG]
      show look ((14, _) :: _) 13 = _
      rw [look_cons_ne (by decide)]
      cases d with
      | none =>
        show look (g ++ (userOptCaps usr ++ [(1, s)])) 13 = none
        rw [look_or, host_none hg (by decide), Option.none_or]
        exact hu0 13 (by decide) (by decide) (by decide)
      | some x => exact look_cons_self _ _ _
    have lh : ∀ n, 4 ≤ n → n ≤ 12 → group G n = group g n := by
      intro n h1 h2
      rw [rest n (by omega) (by omega), hu0 n (by omega) (by omega) (by omega), Option.or_none]
      rfl
    have l15 : group G 15 = none := by rw [rest 15 (by decide) (by decide), hu0 15 (by decide) (by decide) (by decide), host_none hg (by decide)]; rfl
    have l16 : group G 16 = none := by rw [rest 16 (by decide) (by decide), hu0 16 (by decide) (by decide) (by decide), host_none hg (by decide)]; rfl
    have lc : createHost G = some h := by
      rw [← hc]
      simp only [createHost, lh 4 (by decide) (by decide), lh 5 (by decide) (by decide), lh 6 (by decide) (by decide), lh 7 (by decide) (by decide),
        lh 8 (by decide) (by decide), lh 9 (by decide) (by decide), lh 10 (by decide) (by decide), lh 11 (by decide) (by decide),
        lh 12 (by decide) (by decide)]
    have l1 : group G 1 = some s := by
      rw [rest 1 (by decide) (by decide), host_none hg (by decide), Option.none_or]
      cases usr with
      | none => rfl
      | some up =>
        obtain ⟨n', pw⟩ := up
        simp only [userOptCaps, userCaps]
        split <;> split <;> simp [look]
    have l23 : group G 2 = u.user.bind (·.1) ∧ group G 3 = u.user.bind (·.2) := by
      rw [rest 2 (by decide) (by decide), host_none hg (by decide), Option.none_or, rest 3 (by decide) (by decide), host_none hg (by decide),
        Option.none_or]
      simp only [usr]
      cases hus : u.user with
      | none => exact ⟨rfl, rfl⟩
      | some up =>
        obtain ⟨a, b⟩ := up
        obtain ⟨_, k1, k2⟩ := hu _ hus
        simp only [Option.map_some, userOptCaps, userCaps, Option.bind_some]
        cases a with
        | none => cases b with
          | none => exact ⟨rfl, rfl⟩
          | some b => have := (k2 b rfl).1; simp [look, this]
        | some a =>
          have ha := (k1 a rfl).1
          cases b with
          | none => simp [look, ha]
          | some b => have := (k2 b rfl).1; simp [look, this, ha]
    have hu2 : (if (group G 2).isSome ∨ (group G 3).isSome then some (group G 2, group G 3) else none) = u.user := by
      rw [l23.1, l23.2]
      cases hus : u.user with
      | none => rfl
      | some up =>
        obtain ⟨a, b⟩ := up
        have := (hu _ hus).1
        exact if_pos this
    have ho2 : (group G 13).map number = u.port := by
      rw [l13]
      simp only [d, Option.map_map]
      cases u.port with
      | none => rfl
      | some n => simp [number_digits]
    have : ofGroups G = some ⟨some s, u.user, some h, u.port, u.path, none, none⟩ := by
      unfold ofGroups
      rw [hu2, ho2, l14, l15, l16, lc, l1, e4]
      rfl
    rw [this]
    obtain ⟨a, b, c, d, path, query, fragment⟩ := u
    cases (show a = some s from hs)
    cases (show c = some h from hh)
    rfl
  · exact clean '#' (by decide) (by decide) (by decide) (by decide) (by decide) (by decide) marks.2.2.1 ((hK.digit _ (by decide)).trans (by decide)) (by decide)
  · exact clean '?' (by decide) (by decide) (by decide) (by decide) (by decide) (by decide) marks.2.1 ((hK.digit _ (by decide)).trans (by decide)) (by decide)

/-- The port of the examples has two digits, the host ends with a dot. -/
def exampleUrl : Url := ⟨some "https".toList, some (some ['u'], some "p:w".toList), some (.externalName (some "a.b".toList) (some ['h']) (some "com".toList) true),
  some 80, some [['x'], ['y', '@'], []], some [(['k'], [['v'], ['w']])], some "f?".toList⟩

example : exampleUrl.text = "https://u:p:w@a.b.h.com.:80/x/y@/?k=v&k=w#f?".toList ∧ read ascii exampleUrl.text = some exampleUrl := by
  refine ⟨by decide +kernel, by decide +kernel⟩

example : GoodPath exampleUrl.path ∧ GoodQuery ascii exampleUrl.query := by
  constructor
  · intro l e
    cases e
    decide +kernel
  · intro d e
    cases e
    exact ⟨"k=v&k=w".toList, by decide +kernel, by decide +kernel, by decide +kernel⟩

/-! ### What does not read back -/

/-- C233 is violated: urls without a scheme are written without the `//` before their hosts, so that a user becomes the scheme, -/
theorem C233_user_is_scheme_violated :
    ∃ u, read ascii "//u:p@h.com/".toList = some u ∧ u.scheme = none ∧ u.text = "u:p@h.com/".toList ∧
      (read ascii u.text).map (·.scheme) = some (some ['u']) := by
  refine ⟨⟨none, some (some ['u'], some ['p']), some (.externalName none (some ['h']) (some "com".toList) false), none, none, none, none⟩, ?_, rfl, ?_, ?_⟩ <;>
    decide +kernel

/-- C233 is violated: a path whose first part is empty is written with `//` at its front, after which a host follows: whoever checks
that a url is relative sends to another host. -/
theorem C233_path_is_host_violated :
    ∃ u, read ascii "///evil.com/a".toList = some u ∧ u.host = none ∧ u.text = "//evil.com/a".toList ∧
      (read ascii u.text).map (·.host) = some (some (.externalName none (some "evil".toList) (some "com".toList) false)) := by
  refine ⟨⟨none, none, none, none, some [[], "evil.com".toList, ['a']], none, none⟩, ?_, rfl, ?_, ?_⟩ <;> decide +kernel

/-- C233 is violated: a port which was written with a zero before its digit is written with one digit only, which is no port: the host is
lost. -/
theorem C233_port_violated :
    ∃ u, read ascii "http://h.com:08/".toList = some u ∧ u.host.isSome ∧ u.text = "http://h.com:8/".toList ∧
      (read ascii u.text).map (fun v => (v.host, v.port)) = some (none, none) := by
  refine ⟨⟨some "http".toList, none, some (.externalName none (some ['h']) (some "com".toList) false), some 8, none, none, none⟩, ?_, rfl, ?_, ?_⟩ <;>
    decide +kernel

/-- C233 is violated: empty parts at the front of paths get lost one by one. -/
theorem C233_empty_parts_violated :
    ∃ u v w, read ascii "http://h.com////a".toList = some u ∧ read ascii u.text = some v ∧ read ascii v.text = some w ∧
      u.path = some [[], [], ['a']] ∧ v.path = some [[], ['a']] ∧ w.path = some [['a']] := by
  refine ⟨⟨some "http".toList, none, some (.externalName none (some ['h']) (some "com".toList) false), none, some [[], [], ['a']], none, none⟩,
    ⟨some "http".toList, none, some (.externalName none (some ['h']) (some "com".toList) false), none, some [[], ['a']], none, none⟩,
    ⟨some "http".toList, none, some (.externalName none (some ['h']) (some "com".toList) false), none, some [['a']], none, none⟩, ?_, ?_, ?_, rfl, rfl, rfl⟩ <;>
    decide +kernel

end Verif.UrlText
