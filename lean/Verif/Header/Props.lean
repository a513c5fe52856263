import Verif.Header.Model

/-!
# Properties of list headers

C49, C78, C79.
-/

namespace Verif.Header

/-- A token: not empty, token characters only. -/
def Token (t : Text) : Prop := t ≠ [] ∧ ∀ c ∈ t, tokenChar c = true

/-- The name and the keys and values of an extension are tokens. -/
def TokenExtension (e : Extension) : Prop :=
  Token e.1 ∧ ∀ p ∈ e.2, Token p.1 ∧ ∀ v, p.2 = some v → Token v

/-! ### Characters -/

theorem not_token_of_space {c : Char} (h : space c = true) : tokenChar c = false := by
  simp only [space, Bool.or_eq_true, decide_eq_true_eq] at h
  rcases h with rfl | rfl <;> decide

theorem not_space_of_token {c : Char} (h : tokenChar c = true) : space c = false := by
  cases hs : space c with
  | false => rfl
  | true => rw [not_token_of_space hs] at h; cases h

theorem not_listStart_of_token {c : Char} (h : tokenChar c = true) : listStart c = false := by
  cases hs : listStart c with
  | false => rfl
  | true =>
    simp only [listStart, Bool.or_eq_true, decide_eq_true_eq] at hs
    rcases hs with (rfl | rfl) | rfl <;> exact absurd h (by decide)

theorem takeWhile_append_stop {p : Char → Bool} {w s : Text} (hw : ∀ c ∈ w, p c = true)
    (hs : ∀ c, s.head? = some c → p c = false) : (w ++ s).takeWhile p = w := by
  rw [List.takeWhile_append_of_pos hw]
  cases s with
  | nil => simp
  | cons c s => simp [hs c rfl]

theorem dropWhile_append_stop {p : Char → Bool} {w s : Text} (hw : ∀ c ∈ w, p c = true)
    (hs : ∀ c, s.head? = some c → p c = false) : (w ++ s).dropWhile p = s := by
  rw [List.dropWhile_append_of_pos hw]
  cases s with
  | nil => simp
  | cons c s => simp [hs c rfl]

/-- The text starts with no token character. -/
def Stops (s : Text) : Prop := ∀ c, s.head? = some c → tokenChar c = false

theorem token_append {t s : Text} (ht : Token t) (hs : Stops s) : token (t ++ s) = some (t, s) := by
  unfold token
  rw [takeWhile_append_stop ht.2 hs, dropWhile_append_stop ht.2 hs, if_neg ht.1]

theorem token_some {s t rest : Text} (h : token s = some (t, rest)) : Token t ∧ s = t ++ rest := by
  unfold token at h
  split at h
  · cases h
  · rename_i hne
    injection h with h
    injection h with h1 h2
    subst h1
    subst h2
    refine ⟨⟨hne, fun c hc => ?_⟩, (List.takeWhile_append_dropWhile).symm⟩
    exact List.all_eq_true.mp List.all_takeWhile c hc

theorem Token.cons {t : Text} (h : Token t) : ∃ c l, t = c :: l ∧ tokenChar c = true := by
  obtain ⟨hne, hall⟩ := h
  cases t with
  | nil => exact absurd rfl hne
  | cons c l => exact ⟨c, l, rfl, hall c (by simp)⟩

/-- White space between the parts of a header. -/
def Spaces (w : Text) : Prop := ∀ c ∈ w, space c = true

/-- What may be in front of an element: white space and commas. -/
def Separators (w : Text) : Prop := ∀ c ∈ w, listStart c = true

theorem Spaces.stops {w s : Text} (hw : Spaces w) (hs : Stops s) : Stops (w ++ s) := by
  cases w with
  | nil => exact hs
  | cons c w =>
    intro d hd
    simp only [List.cons_append, List.head?_cons, Option.some.injEq] at hd
    subst hd
    exact not_token_of_space (hw c (by simp))

theorem stops_cons {c : Char} {s : Text} (h : tokenChar c = false) : Stops (c :: s) := by
  intro d hd
  simp only [List.head?_cons, Option.some.injEq] at hd
  exact hd ▸ h

theorem stops_nil : Stops [] := by
  intro d hd
  cases hd

theorem drop_spaces {w : Text} (hw : Spaces w) (c : Char) (s : Text) (hc : space c = false) :
    (w ++ c :: s).dropWhile space = c :: s :=
  dropWhile_append_stop hw (by simp [hc])

theorem drop_spaces_nil {w : Text} (hw : Spaces w) : w.dropWhile space = [] := by
  have := dropWhile_append_stop (s := []) hw (by simp)
  simpa using this

theorem drop_token {t : Text} (ht : Token t) (s : Text) : (t ++ s).dropWhile space = t ++ s := by
  obtain ⟨c, l, rfl, hc⟩ := ht.cons
  simp [not_space_of_token hc]

theorem drop_separators {w t : Text} (hw : Separators w) (ht : Token t) (s : Text) :
    (w ++ (t ++ s)).dropWhile listStart = t ++ s := by
  apply dropWhile_append_stop hw
  obtain ⟨c, l, rfl, hc⟩ := ht.cons
  intro d hd
  simp only [List.cons_append, List.head?_cons, Option.some.injEq] at hd
  exact hd ▸ not_listStart_of_token hc

/-! ## C49: names -/

/-- The ways a list of names may be written: white space and commas in front, white space
behind a name, a comma between names. -/
inductive WritesNames (isName : Text → Prop) : List Text → Text → Prop
  | nil (w : Text) : Separators w → WritesNames isName [] w
  | last (w name v : Text) : Separators w → isName name → Spaces v →
    WritesNames isName [name] (w ++ (name ++ v))
  | more (w name v : Text) (names : List Text) (rest : Text) : Separators w → isName name → Spaces v →
    WritesNames isName names rest → WritesNames isName (name :: names) (w ++ (name ++ (v ++ ',' :: rest)))

/-- What has to hold of the matching of an element. -/
structure Matches (element : Text → Option (Text × Text)) (isName : Text → Prop) : Prop where
  matched : ∀ name s, isName name → (∀ c, s.head? = some c → c = ',' ∨ space c = true) →
    element (name ++ s) = some (name, s)
  starts : ∀ name, isName name → ∃ c l, name = c :: l ∧ tokenChar c = true

theorem head_spaces {v : Text} (hv : Spaces v) : ∀ c, v.head? = some c → c = ',' ∨ space c = true := by
  intro c hc
  cases v with
  | nil => cases hc
  | cons d v =>
    simp only [List.head?_cons, Option.some.injEq] at hc
    exact Or.inr (hc ▸ hv d (by simp))

theorem head_spaces_comma {v : Text} (hv : Spaces v) (rest : Text) :
    ∀ c, (v ++ ',' :: rest).head? = some c → c = ',' ∨ space c = true := by
  intro c hc
  cases v with
  | nil =>
    simp only [List.nil_append, List.head?_cons, Option.some.injEq] at hc
    exact Or.inl hc.symm
  | cons d v =>
    simp only [List.cons_append, List.head?_cons, Option.some.injEq] at hc
    exact Or.inr (hc ▸ hv d (by simp))

theorem names_read {element : Text → Option (Text × Text)} {isName : Text → Prop}
    (hm : Matches element isName) {list : List Text} {text : Text} (h : WritesNames isName list text) :
    ∀ rounds result, text.length < rounds → names element rounds text result = some (.ok (result ++ list)) := by
  have front : ∀ (w name s : Text), Separators w → isName name →
      ∃ c l, name = c :: l ∧ (w ++ (name ++ s)).dropWhile listStart = c :: (l ++ s) := by
    intro w name s hw hn
    obtain ⟨c, l, rfl, hc⟩ := hm.starts name hn
    refine ⟨c, l, rfl, ?_⟩
    apply dropWhile_append_stop hw
    intro d hd
    simp only [List.cons_append, List.head?_cons, Option.some.injEq] at hd
    exact hd ▸ not_listStart_of_token hc
  induction h with
  | nil w hw =>
    intro rounds result hlt
    cases rounds with
    | zero => omega
    | succ rounds =>
      have : w.dropWhile listStart = [] := by
        have := dropWhile_append_stop (s := []) hw (by simp)
        simpa using this
      simp [names, this]
  | last w name v hw hn hv =>
    intro rounds result hlt
    cases rounds with
    | zero => omega
    | succ rounds =>
      obtain ⟨c, l, rfl, hd⟩ := front w name v hw hn
      have := hm.matched _ v hn (head_spaces hv)
      rw [List.cons_append] at this
      simp only [names, hd, this, drop_spaces_nil hv]
  | more w name v list rest hw hn hv _ ih =>
    intro rounds result hlt
    cases rounds with
    | zero => omega
    | succ rounds =>
      obtain ⟨c, l, rfl, hd⟩ := front w name (v ++ ',' :: rest) hw hn
      have := hm.matched _ (v ++ ',' :: rest) hn (head_spaces_comma hv rest)
      rw [List.cons_append] at this
      simp only [names, hd, this, drop_spaces hv ',' rest (by decide)]
      rw [ih rounds _ (by simp at hlt ⊢; omega)]
      simp

theorem stops_of_head {s : Text} (h : ∀ c, s.head? = some c → c = ',' ∨ space c = true) : Stops s := by
  intro c hc
  rcases h c hc with rfl | h
  · decide
  · exact not_token_of_space h

theorem token_matches : Matches token Token :=
  ⟨fun _ _ hn hs => token_append hn (stops_of_head hs), fun _ hn => hn.cons⟩

/-- `name` or `name/version`. -/
def Protocol (t : Text) : Prop := Token t ∨ ∃ name version, Token name ∧ Token version ∧
  t = name ++ '/' :: version

theorem protocol_matches : Matches protocol Protocol := by
  constructor
  · rintro t s (hn | ⟨name, version, hn, hv, rfl⟩) hs
    · unfold protocol
      rw [token_append hn (stops_of_head hs)]
      cases s with
      | nil => rfl
      | cons c s =>
        have : c ≠ '/' := by
          rintro rfl
          rcases hs '/' rfl with h | h <;> revert h <;> decide
        split
        · rename_i h; cases h
        · rename_i h
          simp only [Option.some.injEq, Prod.mk.injEq, List.cons.injEq] at h
          exact absurd h.2.1 this
        · rename_i h
          exact h.symm
    · unfold protocol
      have h1 : token (name ++ '/' :: version ++ s) = some (name, '/' :: (version ++ s)) := by
        rw [List.append_assoc]
        exact token_append hn (stops_cons (by decide))
      rw [h1]
      show (match token (version ++ s) with
        | none => some (name, '/' :: (version ++ s))
        | some (version, rest) => some (name ++ '/' :: version, rest)) = _
      rw [token_append hv (stops_of_head hs)]
  · rintro t (hn | ⟨name, version, hn, -, rfl⟩)
    · exact hn.cons
    · obtain ⟨c, l, rfl, hc⟩ := hn.cons
      exact ⟨c, l ++ '/' :: version, rfl, hc⟩

theorem names_join {isName : Text → Prop} (list : List Text) (h : ∀ name ∈ list, isName name) (w : Text)
    (hw : Separators w) : WritesNames isName list (w ++ join [',', ' '] list) := by
  have sp : Spaces [] := fun c hc => absurd hc (by simp)
  induction list generalizing w with
  | nil => simpa [join] using WritesNames.nil w hw
  | cons name list ih =>
    cases list with
    | nil =>
      have := WritesNames.last w name [] hw (h name (by simp)) sp
      simpa [join] using this
    | cons name' list =>
      have hrest := ih (fun n hn => h n (by simp [hn])) [' '] (by intro c hc; simp at hc; subst hc; decide)
      have := WritesNames.more w name [] _ _ hw (h name (by simp)) sp hrest
      simpa [join] using this

/-- **C49.** Subprotocols are read as they are written. -/
theorem C49_subprotocols (list : List Text) (h : ∀ name ∈ list, Token name) :
    parseConnections (buildSubprotocols list) = some (.ok list) := by
  have := names_join list h [] (by intro c hc; cases hc)
  have := names_read token_matches this ((buildSubprotocols list).length + 1) [] (by simp [buildSubprotocols])
  simpa [parseConnections, buildSubprotocols] using this

/-- **C49.** Connection and subprotocol headers are read the same in every layout: white space
around the names, and empty elements, do not matter. -/
theorem C49_connections_layout {list : List Text} {text : Text} (h : WritesNames Token list text) :
    parseConnections text = some (.ok list) := by
  have := names_read token_matches h (text.length + 1) [] (by omega)
  simpa [parseConnections] using this

/-- **C49.** So are upgrade headers, whose names may have a version. -/
theorem C49_upgrades_layout {list : List Text} {text : Text} (h : WritesNames Protocol list text) :
    parseUpgrades text = some (.ok list) := by
  have := names_read protocol_matches h (text.length + 1) [] (by omega)
  simpa [parseUpgrades] using this

/-! ## C49: extensions -/

/-- A value as it is, or quoted. -/
inductive WritesValue (value : Text) : Text → Prop
  | plain : WritesValue value value
  | quoted : WritesValue value ('"' :: (value ++ ['"']))

/-- The ways the parameters of an extension may be written. -/
inductive WritesParameters : List Parameter → Text → Prop
  | nil (w : Text) : Spaces w → WritesParameters [] w
  | flag (w v key : Text) (parameters : List Parameter) (rest : Text) : Spaces w → Spaces v → Token key →
    WritesParameters parameters rest → WritesParameters ((key, none) :: parameters)
      (w ++ ';' :: (v ++ (key ++ rest)))
  | value (w v x y key value written : Text) (parameters : List Parameter) (rest : Text) :
    Spaces w → Spaces v → Spaces x → Spaces y → Token key → Token value → WritesValue value written →
    WritesParameters parameters rest → WritesParameters ((key, some value) :: parameters)
      (w ++ ';' :: (v ++ (key ++ (x ++ '=' :: (y ++ (written ++ rest))))))

/-- The ways a list of extensions may be written. -/
inductive WritesExtensions : List Extension → Text → Prop
  | nil (w : Text) : Separators w → WritesExtensions [] w
  | last (w name written : Text) (parameters : List Parameter) : Separators w → Token name →
    WritesParameters parameters written → WritesExtensions [(name, parameters)] (w ++ (name ++ written))
  | more (w name written : Text) (parameters : List Parameter) (extensions : List Extension) (rest : Text) :
    Separators w → Token name → WritesParameters parameters written → WritesExtensions extensions rest →
    WritesExtensions ((name, parameters) :: extensions) (w ++ (name ++ (written ++ ',' :: rest)))

/-- What follows the parameters of an extension. -/
inductive Tail : Text → Prop
  | nil : Tail []
  | comma (rest : Text) : Tail (',' :: rest)

theorem Tail.stops {tail : Text} (h : Tail tail) : Stops tail := by
  cases h with
  | nil => exact stops_nil
  | comma rest => exact stops_cons (by decide)

theorem WritesParameters.stops {parameters : List Parameter} {written tail : Text}
    (h : WritesParameters parameters written) (ht : Tail tail) : Stops (written ++ tail) := by
  cases h with
  | nil w hw => exact hw.stops ht.stops
  | flag w v key parameters rest hw hv hk h =>
    rw [List.append_assoc]
    exact hw.stops (stops_cons (by decide))
  | value w v x y key value written parameters rest hw hv hx hy hk hval hwr h =>
    rw [List.append_assoc]
    exact hw.stops (stops_cons (by decide))

/-- Leaving the loop behind the last parameter. -/
def leaves (tail : Text) (parameters : List Parameter) (o : Option Outcome) : Prop :=
  match tail with
  | [] => o = some (.returned parameters) ∨ o = some (.next parameters [])
  | _ :: rest => o = some (.next parameters rest)

theorem parameterValue_read {value written rest : Text} (hv : Token value) (hw : WritesValue value written)
    {y : Text} (hy : Spaces y) (hr : Stops rest) :
    parameterValue (y ++ (written ++ rest)) = some (value, rest) := by
  unfold parameterValue
  cases hw with
  | plain =>
    obtain ⟨c, l, rfl, hc⟩ := hv.cons
    rw [List.cons_append, drop_spaces hy c (l ++ rest) (not_space_of_token hc)]
    have hq : c ≠ '"' := by rintro rfl; exact absurd hc (by decide)
    split
    · rename_i h; cases h
    · rename_i h
      injection h with h
      exact absurd h hq
    · rename_i h
      injection h with h1 h2
      subst h1
      subst h2
      have := token_append hv hr
      rwa [List.cons_append] at this
  | quoted =>
    rw [show ('"' :: (value ++ ['"'])) ++ rest = '"' :: (value ++ '"' :: rest) by simp,
      drop_spaces hy '"' _ (by decide)]
    show (match token (value ++ '"' :: rest) with
      | some (value, '"' :: s) => some (value, s)
      | _ => none) = _
    rw [token_append hv (stops_cons (by decide))]
    rfl

theorem parameterLoop_skip (rounds : Nat) (w s : Text) (acc : List Parameter) (hw : Spaces w) :
    parameterLoop rounds true (w ++ ';' :: s) acc = parameterLoop rounds false s acc := by
  cases rounds with
  | zero => rfl
  | succ rounds =>
    simp only [parameterLoop, begun, if_pos, drop_spaces hw ';' s (by decide), Bool.false_eq_true, if_false]

theorem parameters_read {parameters : List Parameter} {written : Text}
    (h : WritesParameters parameters written) : ∀ (rounds : Nat) (acc : List Parameter) (tail : Text),
    Tail tail → written.length < rounds →
    leaves tail (acc ++ parameters) (parameterLoop rounds true (written ++ tail) acc) := by
  induction h with
  | nil w hw =>
    intro rounds acc tail ht hlt
    cases rounds with
    | zero => omega
    | succ rounds =>
      cases ht with
      | nil =>
        left
        simp [parameterLoop, begun, drop_spaces_nil hw]
      | comma rest =>
        simp only [leaves, parameterLoop, begun, if_pos, drop_spaces hw ',' rest (by decide), List.append_nil]
  | flag w v key parameters rest hw hv hk h ih =>
    intro rounds acc tail ht hlt
    rw [List.append_assoc, List.cons_append, parameterLoop_skip _ _ _ _ hw]
    cases rounds with
    | zero => omega
    | succ rounds =>
      obtain ⟨c, l, rfl, hc⟩ := hk.cons
      have hdrop : (v ++ ((c :: l) ++ rest) ++ tail).dropWhile space = c :: (l ++ (rest ++ tail)) := by
        rw [List.append_assoc, List.append_assoc, List.cons_append]
        exact drop_spaces hv c _ (not_space_of_token hc)
      have htok := token_append hk (h.stops ht)
      rw [List.cons_append] at htok
      have hlt' : rest.length < rounds := by
        simp only [List.length_append, List.length_cons] at hlt
        omega
      have ih' := ih rounds (acc ++ [(c :: l, none)]) tail ht hlt'
      rw [List.append_assoc, List.cons_append, List.nil_append] at ih'
      simp only [parameterLoop, begun, Bool.false_eq_true, if_false, hdrop, htok]
      cases h with
      | nil w' hw' =>
        cases ht with
        | nil =>
          rw [List.append_nil, drop_spaces_nil hw']
          right
          rfl
        | comma r =>
          rw [drop_spaces hw' ',' r (by decide)]
          rfl
      | flag w' v' key' parameters' rest' hw' hv' hk' h' =>
        rw [List.append_assoc, List.cons_append] at ih' ⊢
        rw [drop_spaces hw' ';' _ (by decide)]
        rw [parameterLoop_skip _ _ _ _ hw'] at ih'
        exact ih'
      | value w' v' x' y' key' value' written' parameters' rest' hw' hv' hx' hy' hk' hval' hwr' h' =>
        rw [List.append_assoc, List.cons_append] at ih' ⊢
        rw [drop_spaces hw' ';' _ (by decide)]
        rw [parameterLoop_skip _ _ _ _ hw'] at ih'
        exact ih'
  | value w v x y key value written parameters rest hw hv hx hy hk hval hwr h ih =>
    intro rounds acc tail ht hlt
    rw [List.append_assoc, List.cons_append, parameterLoop_skip _ _ _ _ hw]
    cases rounds with
    | zero => omega
    | succ rounds =>
      obtain ⟨c, l, rfl, hc⟩ := hk.cons
      have hdrop : (v ++ ((c :: l) ++ (x ++ '=' :: (y ++ (written ++ rest)))) ++ tail).dropWhile space
          = c :: (l ++ (x ++ '=' :: (y ++ (written ++ (rest ++ tail))))) := by
        rw [List.append_assoc, List.append_assoc, List.cons_append]
        rw [drop_spaces hv c _ (not_space_of_token hc)]
        simp
      have htok := token_append (s := x ++ '=' :: (y ++ (written ++ (rest ++ tail)))) hk
        (hx.stops (stops_cons (by decide)))
      rw [List.cons_append] at htok
      have hlt' : rest.length < rounds := by
        simp only [List.length_append, List.length_cons] at hlt
        omega
      have ih' := ih rounds (acc ++ [(c :: l, some value)]) tail ht hlt'
      rw [List.append_assoc, List.cons_append, List.nil_append] at ih'
      simp only [parameterLoop, begun, Bool.false_eq_true, if_false, hdrop, htok,
        drop_spaces hx '=' _ (by decide), parameterValue_read hval hwr hy (h.stops ht)]
      exact ih'

theorem extensions_read {extensions : List Extension} {text : Text} (h : WritesExtensions extensions text) :
    ∀ (rounds : Nat) (result : List Extension), text.length < rounds →
      extensionLoop rounds text result = some (.ok (result ++ extensions)) := by
  have empty : ∀ rounds result, 0 < rounds → extensionLoop rounds [] result = some (.ok result) := by
    intro rounds result h
    cases rounds with
    | zero => omega
    | succ rounds => rfl
  induction h with
  | nil w hw =>
    intro rounds result hlt
    cases rounds with
    | zero => omega
    | succ rounds =>
      have : w.dropWhile listStart = [] := by
        have := dropWhile_append_stop (s := []) hw (by simp)
        simpa using this
      simp [extensionLoop, this]
  | last w name written parameters hw hn hp =>
    intro rounds result hlt
    cases rounds with
    | zero => omega
    | succ rounds =>
      have hd := drop_separators hw hn written
      have htok := token_append (s := written) hn (by
        have := hp.stops Tail.nil
        rwa [List.append_nil] at this)
      have hpos : 0 < rounds := by
        obtain ⟨c, l, rfl, -⟩ := hn.cons
        simp only [List.length_append, List.length_cons] at hlt
        omega
      have hread := parameters_read hp (written.length + 1) [] [] Tail.nil (by omega)
      rw [List.append_nil, List.nil_append] at hread
      obtain ⟨c, l, rfl, hc⟩ := hn.cons
      rw [List.cons_append] at hd htok
      simp only [extensionLoop, List.cons_append, hd, htok]
      rcases hread with e | e
      · rw [e]
      · rw [e]
        exact empty _ _ hpos
  | more w name written parameters extensions rest hw hn hp _ ih =>
    intro rounds result hlt
    cases rounds with
    | zero => omega
    | succ rounds =>
      have hd := drop_separators hw hn (written ++ ',' :: rest)
      have htok := token_append (s := written ++ ',' :: rest) hn (hp.stops (Tail.comma rest))
      have hread := parameters_read hp ((written ++ ',' :: rest).length + 1) [] (',' :: rest)
        (Tail.comma rest) (by simp only [List.length_append]; omega)
      rw [List.nil_append] at hread
      have hlt' : rest.length < rounds := by
        simp only [List.length_append, List.length_cons] at hlt
        omega
      obtain ⟨c, l, rfl, hc⟩ := hn.cons
      rw [List.cons_append] at hd htok
      simp only [extensionLoop, List.cons_append, hd, htok]
      rw [show parameterLoop _ true (written ++ ',' :: rest) [] = some (.next parameters rest) from hread]
      dsimp only
      rw [ih rounds _ hlt']
      simp

/-- **C49.** Extension headers are read the same in every layout: white space around the parts,
quotes around values and empty elements do not matter. -/
theorem C49_extensions_layout {extensions : List Extension} {text : Text}
    (h : WritesExtensions extensions text) : parseExtensions text = some (.ok extensions) := by
  have := extensions_read h (text.length + 1) [] (by omega)
  simpa [parseExtensions] using this

theorem parameters_join (parameters : List Parameter)
    (h : ∀ p ∈ parameters, Token p.1 ∧ ∀ v, p.2 = some v → Token v) :
    ∃ written, WritesParameters parameters written ∧
      ∀ name, join [';', ' '] (name :: parameters.map buildParameter) = name ++ written := by
  have sp : Spaces [] := fun c hc => absurd hc (by simp)
  have sp1 : Spaces [' '] := by intro c hc; simp at hc; subst hc; decide
  induction parameters with
  | nil => exact ⟨[], .nil [] sp, fun name => by simp [join]⟩
  | cons p parameters ih =>
    obtain ⟨written, hw, hj⟩ := ih (fun p hp => h p (by simp [hp]))
    obtain ⟨key, value⟩ := p
    obtain ⟨hk, hv⟩ := h (key, value) (by simp)
    cases value with
    | none =>
      refine ⟨_, .flag [] [' '] key parameters written sp sp1 hk hw, fun name => ?_⟩
      rw [List.map_cons, join]
      · rw [hj]
        simp [buildParameter]
      · simp
    | some value =>
      refine ⟨_, .value [] [' '] [] [] key value value parameters written sp sp1 sp sp hk (hv value rfl)
        .plain hw, fun name => ?_⟩
      rw [List.map_cons, join]
      · rw [hj]
        simp [buildParameter]
      · simp

theorem extensions_join (extensions : List Extension) (h : ∀ e ∈ extensions, TokenExtension e) (w : Text)
    (hw : Separators w) : WritesExtensions extensions (w ++ buildExtensions extensions) := by
  induction extensions generalizing w with
  | nil => simpa [buildExtensions, join] using WritesExtensions.nil w hw
  | cons e extensions ih =>
    obtain ⟨name, parameters⟩ := e
    obtain ⟨hn, hp⟩ := h (name, parameters) (by simp)
    obtain ⟨written, hwr, hj⟩ := parameters_join parameters hp
    cases extensions with
    | nil =>
      have := WritesExtensions.last w name written parameters hw hn hwr
      simpa [buildExtensions, join, hj] using this
    | cons e' extensions =>
      have hrest := ih (fun n hn => h n (by simp [hn])) [' '] (by intro c hc; simp at hc; subst hc; decide)
      have := WritesExtensions.more w name written parameters _ _ hw hn hwr hrest
      simpa [buildExtensions, join, hj] using this

/-- **C49.** Extensions are read as they are written. -/
theorem C49_extensions (extensions : List Extension) (h : ∀ e ∈ extensions, TokenExtension e) :
    parseExtensions (buildExtensions extensions) = some (.ok extensions) := by
  have := extensions_join extensions h [] (by intro c hc; cases hc)
  exact C49_extensions_layout this

example : WritesExtensions [("a".toList, [("b".toList, some "c".toList)])] ", a ;b = \"c\" ".toList := by
  have := WritesExtensions.last [',', ' '] ['a'] " ;b = \"c\" ".toList [("b".toList, some "c".toList)]
    (by unfold Separators; decide) (by unfold Token; decide)
    (.value [' '] [] [' '] [' '] ['b'] ['c'] _ [] [' '] (by unfold Spaces; decide) (by unfold Spaces; decide)
      (by unfold Spaces; decide) (by unfold Spaces; decide) (by unfold Token; decide) (by unfold Token; decide)
      .quoted (.nil [' '] (by unfold Spaces; decide)))
  exact this

/-! ## C78 -/

theorem names_tokens {element : Text → Option (Text × Text)} {isName : Text → Prop}
    (hm : ∀ s t rest, element s = some (t, rest) → isName t) (rounds : Nat) :
    ∀ (s : Text) (result list : List Text), (∀ t ∈ result, isName t) →
      names element rounds s result = some (.ok list) → ∀ t ∈ list, isName t := by
  induction rounds with
  | zero => intro s result list _ h; cases h
  | succ rounds ih =>
    intro s result list hr h
    simp only [names] at h
    split at h
    · cases h; exact hr
    · split at h
      · cases h
      · rename_i name rest he
        have hn := hm _ _ _ he
        have hr' : ∀ t ∈ result ++ [name], isName t := by
          intro t ht
          rcases List.mem_append.mp ht with ht | ht
          · exact hr t ht
          · rw [List.mem_singleton] at ht; exact ht ▸ hn
        split at h
        · cases h; exact hr'
        · exact ih _ _ _ hr' h
        · cases h

/-- **C78.** Whatever the header is, the names that are read are tokens. -/
theorem C78_connections (s : Text) (list : List Text) (h : parseConnections s = some (.ok list)) :
    ∀ name ∈ list, Token name :=
  names_tokens (fun _ _ _ h => (token_some h).1) _ s [] list (by simp) h

theorem protocol_some {s t rest : Text} (h : protocol s = some (t, rest)) : Protocol t := by
  unfold protocol at h
  split at h
  · cases h
  · rename_i name r hn
    split at h
    · cases h; exact Or.inl (token_some hn).1
    · rename_i version r' hv
      cases h
      exact Or.inr ⟨name, version, (token_some hn).1, (token_some hv).1, rfl⟩
  · rename_i name r _ hn
    cases h
    exact Or.inl (token_some hn).1

/-- **C78.** The upgrades that are read are tokens with or without a version. -/
theorem C78_upgrades (s : Text) (list : List Text) (h : parseUpgrades s = some (.ok list)) :
    ∀ name ∈ list, Protocol name :=
  names_tokens (fun _ _ _ h => protocol_some h) _ s [] list (by simp) h

/-- The keys and values are tokens. -/
def TokenParameters (parameters : List Parameter) : Prop :=
  ∀ p ∈ parameters, Token p.1 ∧ ∀ v, p.2 = some v → Token v

theorem TokenParameters.add {parameters : List Parameter} (h : TokenParameters parameters) {key : Text}
    {value : Option Text} (hk : Token key) (hv : ∀ v, value = some v → Token v) :
    TokenParameters (parameters ++ [(key, value)]) := by
  intro p hp
  rcases List.mem_append.mp hp with hp | hp
  · exact h p hp
  · rw [List.mem_singleton] at hp
    subst hp
    exact ⟨hk, hv⟩

theorem begun_inl {checkStart : Bool} {s : Text} {acc : List Parameter} {o : Outcome}
    (h : begun checkStart s acc = .inl o) :
    o = .returned acc ∨ (∃ rest, o = .next acc rest) ∨ o = .failed := by
  unfold begun at h
  split at h
  · split at h
    · cases h; exact Or.inl rfl
    · cases h; exact Or.inr (Or.inl ⟨_, rfl⟩)
    · cases h
    · cases h; exact Or.inr (Or.inr rfl)
  · cases h

theorem parameterValue_token {s t rest : Text} (h : parameterValue s = some (t, rest)) : Token t := by
  unfold parameterValue at h
  split at h
  · cases h
  · split at h
    · rename_i ht
      cases h
      exact (token_some ht).1
    · cases h
  · exact (token_some h).1

theorem parameterLoop_tokens (rounds : Nat) : ∀ (checkStart : Bool) (s : Text) (acc : List Parameter)
    (o : Outcome), TokenParameters acc → parameterLoop rounds checkStart s acc = some o →
    o = .failed ∨ (∃ l, o = .returned l ∧ TokenParameters l) ∨ (∃ l rest, o = .next l rest ∧ TokenParameters l) := by
  induction rounds with
  | zero => intro checkStart s acc o _ h; cases h
  | succ rounds ih =>
    intro checkStart s acc o hacc h
    simp only [parameterLoop] at h
    split at h
    · rename_i o' hb
      cases h
      rcases begun_inl hb with e | ⟨rest, e⟩ | e
      · exact Or.inr (Or.inl ⟨acc, e, hacc⟩)
      · exact Or.inr (Or.inr ⟨acc, rest, e, hacc⟩)
      · exact Or.inl e
    · split at h
      · cases h
        exact Or.inr (Or.inr ⟨acc, _, rfl, hacc⟩)
      · split at h
        · cases h
          exact Or.inl rfl
        · rename_i key rest hk
          have hk := (token_some hk).1
          have hflag := hacc.add (value := none) hk (by simp)
          split at h
          · cases h
            exact Or.inr (Or.inr ⟨_, _, rfl, hflag⟩)
          · cases h
            exact Or.inr (Or.inr ⟨_, _, rfl, hflag⟩)
          · exact ih _ _ _ _ hflag h
          · split at h
            · cases h
              exact Or.inl rfl
            · rename_i value rest' hv
              have hv := parameterValue_token hv
              exact ih _ _ _ _ (hacc.add hk (by intro v e; cases e; exact hv)) h
          · cases h
            exact Or.inl rfl

/-- **C78.** Whatever the header is, the names, keys and values of the extensions that are read
are tokens. -/
theorem C78_extensions (s : Text) (list : List Extension) (h : parseExtensions s = some (.ok list)) :
    ∀ e ∈ list, TokenExtension e := by
  have key : ∀ (rounds : Nat) (s : Text) (result : List Extension),
      (∀ e ∈ result, TokenExtension e) → extensionLoop rounds s result = some (.ok list) →
      ∀ e ∈ list, TokenExtension e := by
    intro rounds
    induction rounds with
    | zero => intro s result _ h; cases h
    | succ rounds ih =>
      intro s result hr h
      simp only [extensionLoop] at h
      split at h
      · cases h; exact hr
      · split at h
        · cases h
        · rename_i name rest hn
          have hn := (token_some hn).1
          have add : ∀ parameters, TokenParameters parameters →
              ∀ e ∈ result ++ [(name, parameters)], TokenExtension e := by
            intro parameters hp e he
            rcases List.mem_append.mp he with he | he
            · exact hr e he
            · rw [List.mem_singleton] at he
              subst he
              exact ⟨hn, hp⟩
          split at h
          · cases h
          · cases h
          · rename_i parameters hp
            cases h
            rcases parameterLoop_tokens _ _ _ _ _ (by intro p hp; cases hp) hp with e | ⟨l, e, hl⟩ | ⟨l, r, e, hl⟩
            · cases e
            · cases e; exact add _ hl
            · cases e
          · rename_i parameters s' hp
            rcases parameterLoop_tokens _ _ _ _ _ (by intro p hp; cases hp) hp with e | ⟨l, e, hl⟩ | ⟨l, r, e, hl⟩
            · cases e
            · cases e
            · cases e
              exact ih _ _ (add _ hl) h
  exact key _ s [] (by simp) h

/-! ## C79 -/

theorem dropWhile_length {p : Char → Bool} {s t : Text} (h : s.dropWhile p = t) : t.length ≤ s.length :=
  h ▸ List.dropWhile_sublist p |>.length_le

theorem token_length {s t rest : Text} (h : token s = some (t, rest)) : rest.length < s.length := by
  obtain ⟨ht, e⟩ := token_some h
  have := List.length_pos_iff.mpr ht.1
  rw [e, List.length_append]
  omega

theorem protocol_length {s t rest : Text} (h : protocol s = some (t, rest)) : rest.length < s.length := by
  unfold protocol at h
  split at h
  · cases h
  · rename_i name r hn
    have h1 := token_length hn
    split at h
    · cases h; exact h1
    · rename_i version r' hv
      have h2 := token_length hv
      cases h
      simp only [List.length_cons] at h1
      omega
  · rename_i name r _ hn
    cases h
    exact token_length hn

theorem names_end {element : Text → Option (Text × Text)}
    (hm : ∀ s t rest, element s = some (t, rest) → rest.length < s.length) (rounds : Nat) :
    ∀ (s : Text) (result : List Text), s.length < rounds → names element rounds s result ≠ none := by
  induction rounds with
  | zero => intro s result h; omega
  | succ rounds ih =>
    intro s result hlt
    simp only [names]
    split
    · simp
    · rename_i c s' hd
      have h1 := dropWhile_length hd
      split
      · simp
      · rename_i name rest he
        have h2 := hm _ _ _ he
        split
        · simp
        · rename_i s'' hd'
          have h3 := dropWhile_length hd'
          simp only [List.length_cons] at h1 h2 h3
          exact ih _ _ (by omega)
        · simp

theorem parameterLoop_end (rounds : Nat) : ∀ (checkStart : Bool) (s : Text) (acc : List Parameter),
    s.length < rounds → ∃ o, parameterLoop rounds checkStart s acc = some o ∧
      ∀ l rest, o = .next l rest → rest.length ≤ s.length := by
  induction rounds with
  | zero => intro checkStart s acc h; omega
  | succ rounds ih =>
    intro checkStart s acc hlt
    have hb : (∀ s', begun checkStart s acc = .inr s' → s'.length ≤ s.length) ∧
        ∀ l rest, begun checkStart s acc = .inl (.next l rest) → rest.length ≤ s.length := by
      unfold begun
      constructor
      · intro s' h
        split at h
        · split at h <;> cases h
          rename_i hd
          have := dropWhile_length hd
          simp only [List.length_cons] at this
          omega
        · cases h; exact Nat.le_refl _
      · intro l rest h
        split at h
        · split at h <;> cases h
          rename_i hd
          have := dropWhile_length hd
          simp only [List.length_cons] at this
          omega
        · cases h
    simp only [parameterLoop]
    split
    · rename_i o ho
      exact ⟨o, rfl, fun l rest e => hb.2 l rest (e ▸ ho)⟩
    · rename_i s1 hs1
      have h0 := hb.1 s1 hs1
      split
      · exact ⟨_, rfl, fun l rest e => by cases e; simp⟩
      · rename_i c s2 hd
        have h1 := dropWhile_length hd
        split
        · exact ⟨_, rfl, fun l rest e => by cases e⟩
        · rename_i key s3 hk
          have h2 := token_length hk
          simp only [List.length_cons] at h1 h2
          split
          · exact ⟨_, rfl, fun l rest e => by cases e; simp⟩
          · rename_i s4 hd'
            have h3 := dropWhile_length hd'
            simp only [List.length_cons] at h3
            exact ⟨_, rfl, fun l rest e => by cases e; omega⟩
          · rename_i s4 hd'
            have h3 := dropWhile_length hd'
            simp only [List.length_cons] at h3
            obtain ⟨o, ho, hl⟩ := ih false s4 (acc ++ [(key, none)]) (by omega)
            exact ⟨o, ho, fun l rest e => by have := hl l rest e; omega⟩
          · rename_i s4 hd'
            have h3 := dropWhile_length hd'
            simp only [List.length_cons] at h3
            split
            · exact ⟨_, rfl, fun l rest e => by cases e⟩
            · rename_i value s5 hv
              have h4 : s5.length ≤ s4.length := by
                unfold parameterValue at hv
                split at hv
                · cases hv
                · rename_i s6 hd6
                  have h6 := dropWhile_length hd6
                  split at hv
                  · rename_i ht
                    have := token_length ht
                    cases hv
                    simp only [List.length_cons] at h6 this
                    omega
                  · cases hv
                · rename_i hd6
                  have h6 := dropWhile_length hd6
                  have := token_length hv
                  omega
              obtain ⟨o, ho, hl⟩ := ih true s5 (acc ++ [(key, some value)]) (by omega)
              exact ⟨o, ho, fun l rest e => by have := hl l rest e; omega⟩
          · exact ⟨_, rfl, fun l rest e => by cases e⟩

theorem extensionLoop_end (rounds : Nat) : ∀ (s : Text) (result : List Extension),
    s.length < rounds → extensionLoop rounds s result ≠ none := by
  induction rounds with
  | zero => intro s result h; omega
  | succ rounds ih =>
    intro s result hlt
    simp only [extensionLoop]
    split
    · simp
    · rename_i c s1 hd
      have h1 := dropWhile_length hd
      split
      · simp
      · rename_i name s2 hn
        have h2 := token_length hn
        obtain ⟨o, ho, hl⟩ := parameterLoop_end (s2.length + 1) true s2 [] (by omega)
        rw [ho]
        cases o with
        | failed => simp
        | returned l => simp
        | next l rest =>
          have := hl l rest rfl
          exact ih _ _ (by omega)

/-- **C79.** Reading a list header always comes to an end: with a list, or with `ValueError`. -/
theorem C79_ends (s : Text) :
    (∃ r, parseConnections s = some r) ∧ (∃ r, parseUpgrades s = some r) ∧ (∃ r, parseExtensions s = some r) :=
  ⟨Option.ne_none_iff_exists'.mp (names_end (fun _ _ _ h => token_length h) _ s [] (by omega)),
    Option.ne_none_iff_exists'.mp (names_end (fun _ _ _ h => protocol_length h) _ s [] (by omega)),
    Option.ne_none_iff_exists'.mp (extensionLoop_end _ s [] (by omega))⟩

example : parseExtensions "a; b=\"c\" ;d , , e;f".toList
    = some (.ok [("a".toList, [("b".toList, some "c".toList), ("d".toList, none)]),
      ("e".toList, [("f".toList, none)])]) := by rfl
example : buildExtensions [("a".toList, [("b".toList, some "c".toList), ("d".toList, none)]), ("e".toList, [])]
    = "a; b=c; d, e".toList := by decide +kernel
example : parseUpgrades "h2c, HTTP/2.0".toList = some (.ok ["h2c".toList, "HTTP/2.0".toList]) := by rfl
example : parseConnections "a b".toList = some (.error ()) := by rfl

end Verif.Header
