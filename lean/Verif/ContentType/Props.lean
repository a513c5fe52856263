import Verif.ContentType.Model

/-!
# C97, C98: what is written as a content type is read as it

The specification is RFC 9110, section 8.3.1: a media type is a type, `/`, a subtype, and parameters.  Each parameter has a `;`
with optional blanks around it in front of it, and is a name, `=`, and a value, which is written as a token or as a quoted
string.
-/

namespace Verif.ContentType

/-! ### Specification -/

/-- RFC 9110, section 5.6.2: `tchar`. -/
def tchar (c : Char) : Bool :=
  ('a' ≤ c && c ≤ 'z') || ('A' ≤ c && c ≤ 'Z') || ('0' ≤ c && c ≤ '9') ||
    c ∈ ['!', '#', '$', '%', '&', '\'', '*', '+', '-', '.', '^', '_', '`', '|', '~']

/-- RFC 9110, section 5.6.2: `token`. -/
def Token (t : Text) : Prop := t ≠ [] ∧ ∀ c ∈ t, tchar c = true

/-- RFC 9110, section 5.6.4: `Quoted v s` if `s` spells `v` between the quotes of a quoted string. -/
inductive Quoted : Text → Text → Prop
  | nil : Quoted [] []
  | plain (c : Char) {v s : Text} : c ≠ '"' → c ≠ '\\' → Quoted v s → Quoted (c :: v) (c :: s)
  | pair (c : Char) {v s : Text} : Quoted v s → Quoted (c :: v) ('\\' :: c :: s)

/-- How a value is written. -/
inductive Spelled : Text → Text → Prop
  | token {v : Text} : Token v → Spelled v v
  | quoted {v s : Text} : Quoted v s → Spelled v ('"' :: s ++ ['"'])

/-- `OWS ";" OWS [ parameter ]`; a parameter is its name, its value, and how the value is written. -/
structure Piece where
  before : Text := []
  after : Text := []
  parameter : Option (Text × Text × Text) := none

def Piece.Valid (p : Piece) : Prop :=
  (∀ c ∈ p.before, c = ' ' ∨ c = '\t') ∧ (∀ c ∈ p.after, c = ' ' ∨ c = '\t') ∧
    ∀ name value spelling, p.parameter = some (name, value, spelling) → Token name ∧ Spelled value spelling

def Piece.text (p : Piece) : Text :=
  p.before ++ ';' :: p.after ++ (match p.parameter with
    | some (name, _, spelling) => name ++ '=' :: spelling
    | none => [])

/-- A media type; a suffix is what follows the first `+` of the subtype. -/
structure Media where
  type : Text
  subType : Text
  suffix : Option Text := none
  pieces : List Piece := []

def Media.Valid (m : Media) : Prop :=
  Token m.type ∧ Token m.subType ∧ '+' ∉ m.subType ∧ (∀ s, m.suffix = some s → Token s) ∧ ∀ p ∈ m.pieces, p.Valid

def suffixText : Option Text → Text
  | some s => '+' :: s
  | none => []

def Media.text (m : Media) : Text := m.type ++ '/' :: m.subType ++ suffixText m.suffix ++ m.pieces.flatMap Piece.text

/-- The value of a parameter of a media type: the first one with the name. -/
def Media.value (fold : Text → Text) (m : Media) (key : Text) : Option Text :=
  ((m.pieces.filterMap (·.parameter)).find? fun e => fold e.1 = key).map (·.2.1)

/-- `p` is what the media type `m` says. -/
def Says (fold : Text → Text) (m : Media) (p : Parsed) : Prop :=
  p.type = some (fold m.type) ∧ p.subType = some (fold m.subType) ∧ p.suffix = m.suffix.map fold ∧
    (∀ key, p.parameter key = m.value fold key) ∧ p.expected = none

/-! ### Restriction: no apostrophe in tokens, no needless quoted pair -/

/-- A quoted string, of which only `"` and `\` are written as pairs. -/
inductive Sparing : Text → Prop
  | nil : Sparing []
  | plain (c : Char) {s : Text} : c ≠ '"' → c ≠ '\\' → Sparing s → Sparing (c :: s)
  | pair (c : Char) {s : Text} : c = '"' ∨ c = '\\' → Sparing s → Sparing ('\\' :: c :: s)

def Piece.Plain (p : Piece) : Prop :=
  ∀ name value spelling, p.parameter = some (name, value, spelling) →
    '\'' ∉ name ∧ ((spelling.head? ≠ some '"' ∧ '\'' ∉ spelling) ∨ ∃ s, Sparing s ∧ spelling = '"' :: s ++ ['"'])

def Media.Plain (m : Media) : Prop :=
  '\'' ∉ m.type ∧ '\'' ∉ m.subType ∧ (∀ s, m.suffix = some s → '\'' ∉ s) ∧ ∀ p ∈ m.pieces, p.Plain

/-! ### Tokens -/

theorem tchar_good {c : Char} (h : tchar c = true) (hq : c ≠ '\'') : blank c = false ∧ delimiters.contains c = false := by
  have hb : ∀ d ∈ [' ', '\t'], tchar d = false := by decide
  have hd : ∀ d ∈ delimiters, d = '\'' ∨ tchar d = false := by decide
  constructor
  · cases hc : blank c with
    | false => rfl
    | true =>
      exfalso
      have : c ∈ [' ', '\t'] := by simpa [blank] using hc
      rw [hb c this] at h; cases h
  · cases hc : delimiters.contains c with
    | false => rfl
    | true =>
      exfalso
      rcases hd c (by simpa using hc) with hx | hx
      · exact hq hx
      · rw [hx] at h; cases h

/-- A token as the code knows it. -/
def Good (disallowed t : Text) : Prop := t ≠ [] ∧ ∀ c ∈ t, passes disallowed c = true

theorem Token.good {disallowed t : Text} (h : Token t) (hq : '\'' ∉ t) (hd : ∀ c ∈ disallowed, c ∈ delimiters ∨ c ∉ t) : Good disallowed t := by
  refine ⟨h.1, fun c hc => ?_⟩
  have hg := tchar_good (h.2 c hc) (fun he => hq (he ▸ hc))
  have hn : disallowed.contains c = false := by
    cases hx : disallowed.contains c with
    | false => rfl
    | true =>
      exfalso
      rcases hd c (by simpa using hx) with hy | hy
      · have := hg.2
        rw [List.contains_iff_mem.mpr hy] at this; cases this
      · exact hy hc
  simp only [passes, hg.1, hg.2, hn]; rfl

/-- The text ends, or goes on with a character which is in no token and is no blank. -/
def Stops (disallowed rest : Text) : Prop := ∀ c, rest.head? = some c → passes disallowed c = false ∧ blank c = false

theorem Stops.nil {disallowed : Text} : Stops disallowed [] := by intro c h; simp at h

theorem Stops.cons {disallowed rest : Text} {c : Char} (h : passes disallowed c = false ∧ blank c = false) : Stops disallowed (c :: rest) := by
  intro d hd
  simp only [List.head?_cons, Option.some.injEq] at hd
  exact hd ▸ h

def Blank (w : Text) : Prop := ∀ c ∈ w, c = ' ' ∨ c = '\t'

theorem Blank.blank {w : Text} (h : Blank w) : ∀ c ∈ w, ContentType.blank c = true := by
  intro c hc
  rcases h c hc with rfl | rfl <;> rfl

theorem skip_blank {w rest : Text} (h : Blank w) : skip (w ++ rest) = skip rest := by
  induction w with
  | nil => rfl
  | cons c w ih =>
    show List.dropWhile blank (c :: (w ++ rest)) = _
    rw [List.dropWhile_cons_of_pos (h.blank c (by simp))]
    exact ih fun d hd => h d (by simp [hd])

theorem skip_stops {disallowed rest : Text} (h : Stops disallowed rest) : skip rest = rest := by
  cases rest with
  | nil => rfl
  | cons c rest => exact List.dropWhile_cons_of_neg (by rw [(h c rfl).2]; simp)

theorem skip_good {disallowed t rest : Text} (h : Good disallowed t) : skip (t ++ rest) = t ++ rest := by
  cases t with
  | nil => exact absurd rfl h.1
  | cons c t =>
    refine List.dropWhile_cons_of_neg ?_
    have := h.2 c (by simp)
    simp only [passes, Bool.and_eq_true, Bool.not_eq_true'] at this
    rw [this.1.2]; simp

theorem takeWhile_stop {p : Char → Bool} {t rest : Text} (h : ∀ c ∈ t, p c = true) (hr : ∀ c, rest.head? = some c → p c = false) :
    (t ++ rest).takeWhile p = t ∧ (t ++ rest).dropWhile p = rest := by
  induction t with
  | nil =>
    cases rest with
    | nil => exact ⟨rfl, rfl⟩
    | cons c rest =>
      have := hr c rfl
      simp [this]
  | cons c t ih =>
    obtain ⟨h1, h2⟩ := ih fun d hd => h d (by simp [hd])
    have hc := h c (by simp)
    simp [hc, h1, h2]

theorem blank_not_passes {disallowed : Text} {c : Char} (h : blank c = true) : passes disallowed c = false := by simp [passes, h]

theorem head_stop {disallowed w rest : Text} (hw : Blank w) (hr : Stops disallowed rest) : ∀ c, (w ++ rest).head? = some c → passes disallowed c = false := by
  intro c hc
  cases w with
  | nil => exact (hr c hc).1
  | cons d w =>
    simp only [List.cons_append, List.head?_cons, Option.some.injEq] at hc
    exact blank_not_passes (hc ▸ hw.blank d (by simp))

theorem parseToken_good {disallowed t w rest : Text} (h : Good disallowed t) (hw : Blank w) (hr : Stops disallowed rest) :
    parseToken disallowed (t ++ (w ++ rest)) = (some t, w ++ rest) := by
  obtain ⟨h1, h2⟩ := takeWhile_stop h.2 (head_stop hw hr)
  simp [parseToken, h1, h2, h.1]

theorem spacedToken_good {disallowed u t w rest : Text} (hu : Blank u) (h : Good disallowed t) (hw : Blank w) (hr : Stops disallowed rest) :
    spacedToken disallowed (u ++ (t ++ (w ++ rest))) = (some t, rest) := by
  simp only [spacedToken, skip_blank hu, skip_good h, parseToken_good h hw hr, skip_blank hw, skip_stops hr]

theorem spacedToken_none {disallowed u rest : Text} (hu : Blank u) (hr : Stops disallowed rest) :
    spacedToken disallowed (u ++ rest) = (none, rest) := by
  have : parseToken disallowed rest = (none, rest) := by
    cases rest with
    | nil => rfl
    | cons c rest =>
      have := (hr c rfl).1
      simp [parseToken, this]
  simp only [spacedToken, skip_blank hu, skip_stops hr, this]

/-! ### Values -/

theorem quotedLoop_sparing {s : Text} (hs : Sparing s) : ∀ {v : Text}, Quoted v s → ∀ collected rest,
    quotedLoop false collected (s ++ '"' :: rest) = (collected ++ v, rest, false) := by
  induction hs with
  | nil =>
    intro v hv collected rest
    cases hv
    simp [quotedLoop]
  | plain c h1 h2 _ ih =>
    intro v hv collected rest
    cases hv with
    | plain _ _ _ hv =>
      simp only [List.cons_append, quotedLoop, h1, h2, if_false, Bool.false_eq_true]
      rw [ih hv]
      simp
    | pair _ hv => exact absurd rfl h2
  | @pair c s hc _ ih =>
    intro v hv collected rest
    cases hv with
    | plain _ _ h _ => exact absurd rfl h
    | pair _ hv =>
      have he : quotedLoop false collected ('\\' :: c :: s ++ '"' :: rest) = quotedLoop false (collected ++ [c]) (s ++ '"' :: rest) := by
        simp only [List.cons_append, quotedLoop]
        simp only [Bool.false_eq_true, if_false, if_true, show ('\\' = '"') = False by simp, show (c = '\\' ∨ c = '"') from hc.symm]
      rw [he, ih hv]
      simp

theorem spacedValue_quoted {v s w rest : Text} (hs : Sparing s) (hv : Quoted v s) (hw : Blank w) (hr : Stops [] rest) :
    spacedValue ('"' :: s ++ ['"'] ++ (w ++ rest)) = (if v = [] then none else some v, rest, false) := by
  have he : '"' :: s ++ ['"'] ++ (w ++ rest) = '"' :: (s ++ '"' :: (w ++ rest)) := by simp
  have hk : skip ('"' :: (s ++ '"' :: (w ++ rest))) = '"' :: (s ++ '"' :: (w ++ rest)) := List.dropWhile_cons_of_neg (by decide)
  rw [he, spacedValue, hk]
  simp only [parseQuoted, quotedLoop_sparing hs hv, List.nil_append, skip_blank hw, skip_stops hr]

theorem spacedValue_token {v w rest : Text} (hv : Good [] v) (hw : Blank w) (hr : Stops [] rest) :
    spacedValue (v ++ (w ++ rest)) = (some v, rest, false) := by
  have hp := parseToken_good hv hw hr
  have hk : skip (v ++ (w ++ rest)) = v ++ (w ++ rest) := skip_good hv
  cases v with
  | nil => exact absurd rfl hv.1
  | cons c v =>
    have hc : c ≠ '"' := by
      rintro rfl
      exact absurd (hv.2 '"' (by simp)) (by decide)
    rw [spacedValue, hk]
    simp only [List.cons_append]
    simp only [List.cons_append] at hp
    simp only [hp, skip_blank hw, skip_stops hr]

/-! ### Parameters -/

theorem stops_semicolon {disallowed rest : Text} : Stops disallowed (';' :: rest) := by
  refine .cons ⟨?_, by decide⟩
  simp [passes, delimiters]

theorem stops_equal {disallowed rest : Text} : Stops disallowed ('=' :: rest) := by
  refine .cons ⟨?_, by decide⟩
  simp [passes, delimiters]

theorem stops_slash {disallowed rest : Text} : Stops disallowed ('/' :: rest) := by
  refine .cons ⟨?_, by decide⟩
  simp [passes, delimiters]

/-- What follows a piece: nothing, or the blanks and the semicolon of the next one. -/
theorem pieces_text {ps : List Piece} (h : ∀ p ∈ ps, p.Valid) :
    ∃ w rest, ps.flatMap Piece.text = w ++ rest ∧ Blank w ∧
      ((rest = [] ∧ ps = []) ∨ ∃ p ps', ps = p :: ps' ∧ rest = ';' :: (p.text.drop (p.before.length + 1) ++ ps'.flatMap Piece.text)) := by
  cases ps with
  | nil => exact ⟨[], [], rfl, by simp [Blank], .inl ⟨rfl, rfl⟩⟩
  | cons p ps =>
    refine ⟨p.before, _, ?_, (h p (by simp)).1, .inr ⟨p, ps, rfl, rfl⟩⟩
    simp only [List.flatMap_cons, Piece.text, List.append_assoc, List.cons_append]
    congr 1
    rw [List.drop_append]
    simp

/-- The text of a piece behind its semicolon. -/
def Piece.inner (p : Piece) : Text :=
  p.after ++ (match p.parameter with
    | some (name, _, spelling) => name ++ '=' :: spelling
    | none => [])

theorem Piece.text_eq (p : Piece) : p.text = p.before ++ ';' :: p.inner := by simp [Piece.text, Piece.inner]

def item (fold : Text → Text) (e : Text × Text × Text) : Text × Text := (fold e.1, e.2.1)

/-- What follows the first piece, and what is left of it after its semicolon. -/
theorem parseParameter_piece {p : Piece} {w rest : Text} (hv : p.Valid) (hp : p.Plain) (hw : Blank w)
    (hr : rest = [] ∨ ∃ r, rest = ';' :: r) :
    ∃ key value, parseParameter (p.inner ++ (w ++ rest)) = (key, value, none, rest.drop 1) ∧
      ∀ fold : Text → Text, (if key.isSome || value.isSome then [((key.map fold).getD [], value.getD [])] else []) =
        (p.parameter.map (item fold)).toList := by
  have hstop : ∀ dis, Stops dis rest := by
    intro dis
    rcases hr with rfl | ⟨r, rfl⟩
    · exact .nil
    · exact stops_semicolon
  obtain ⟨before, after, parameter⟩ := p
  obtain ⟨_, ha, hpar⟩ := hv
  simp only [Piece.inner]
  cases parameter with
  | none =>
    refine ⟨none, none, ?_, fun _ => rfl⟩
    simp only [List.append_nil]
    rw [parseParameter]
    split
    · rename_i he
      have : rest = [] := by
        simp only [List.append_eq_nil_iff] at he
        exact he.2.2
      rw [this]; rfl
    · have hb : Blank (after ++ w) := by
        intro c hc
        rcases List.mem_append.mp hc with hx | hx
        · exact ha c hx
        · exact hw c hx
      have := spacedToken_none (disallowed := [';', '=']) hb (hstop _)
      rw [List.append_assoc] at this
      simp only [this]
      rcases hr with rfl | ⟨r, rfl⟩ <;> rfl
  | some e =>
    obtain ⟨name, value, spelling⟩ := e
    obtain ⟨hname, hspell⟩ := hpar name value spelling rfl
    obtain ⟨hq, hform⟩ := hp name value spelling rfl
    have hgood : Good [';', '='] name := hname.good hq (by
      intro c hc
      left
      revert c
      decide)
    have htok := spacedToken_good (w := []) (rest := '=' :: (spelling ++ (w ++ rest))) (show Blank after from ha) hgood
      (by simp [Blank]) stops_equal
    have hval : ∃ value', spacedValue (spelling ++ (w ++ rest)) = (value', rest, false) ∧ value'.getD [] = value := by
      rcases hform with ⟨hne, hq'⟩ | ⟨s, hs, he⟩
      · cases hspell with
        | token ht =>
          exact ⟨some value, spacedValue_token (ht.good hq' (by intro c hc; cases hc)) hw (hstop _), rfl⟩
        | quoted _ => exact absurd rfl hne
      · cases hspell with
        | token ht =>
          exfalso
          have : tchar '"' = true := ht.2 '"' (by rw [he]; simp)
          exact absurd this (by decide)
        | quoted hquo =>
          have hse : _ = s := List.append_cancel_right (List.cons.inj he).2
          refine ⟨_, spacedValue_quoted (hse ▸ hs) hquo hw (hstop _), ?_⟩
          by_cases h0 : value = []
          · simp [h0]
          · simp [h0]
    obtain ⟨value', hval, hget⟩ := hval
    refine ⟨some name, value', ?_, fun fold => by simp [item, hget]⟩
    have he : after ++ (name ++ '=' :: spelling) ++ (w ++ rest) = after ++ (name ++ ([] ++ '=' :: (spelling ++ (w ++ rest)))) := by simp
    rw [he, parseParameter, if_neg (by simp [hname.1])]
    simp only [htok, hval]
    rcases hr with rfl | ⟨r, rfl⟩ <;> rfl

theorem parameterLoop_pieces (fold : Text → Text) (ps : List Piece) : ∀ (p : Piece) (n : Nat),
    (p.inner ++ ps.flatMap Piece.text).length ≤ n → (∀ q ∈ p :: ps, q.Valid ∧ q.Plain) →
    parameterLoop fold n (p.inner ++ ps.flatMap Piece.text) = (((p :: ps).filterMap (·.parameter)).map (item fold), none) := by
  induction ps with
  | nil =>
    intro p n hn h
    obtain ⟨hv, hp⟩ := h p (by simp)
    obtain ⟨key, value, h1, h2⟩ := parseParameter_piece (w := []) (rest := []) hv hp (by simp [Blank]) (.inl rfl)
    cases n with
    | zero =>
      have h0 : p.inner = [] := by
        have : p.inner.length = 0 := by simpa using hn
        exact List.eq_nil_of_length_eq_zero this
      have hnone : p.parameter = none := by
        cases hpar : p.parameter with
        | none => rfl
        | some e =>
          simp only [Piece.inner, hpar] at h0
          simp at h0
      simp [parameterLoop, hnone]
    | succ n =>
      simp only [List.append_nil] at h1
      simp only [List.flatMap_nil, List.append_nil, parameterLoop, h1, List.drop_nil, if_true, h2]
      cases hpp : p.parameter <;> simp [hpp]
  | cons q ps ih =>
    intro p n hn h
    obtain ⟨hv, hp⟩ := h p (by simp)
    obtain ⟨hv', hp'⟩ := h q (by simp)
    obtain ⟨key, value, h1, h2⟩ := parseParameter_piece (w := q.before) (rest := ';' :: (q.inner ++ ps.flatMap Piece.text)) hv hp hv'.1 (.inr ⟨_, rfl⟩)
    have he : p.inner ++ (q :: ps).flatMap Piece.text = p.inner ++ (q.before ++ ';' :: (q.inner ++ ps.flatMap Piece.text)) := by
      simp [Piece.text_eq]
    rw [he] at hn ⊢
    cases n with
    | zero => simp at hn
    | succ n =>
      simp only [parameterLoop, h1, List.drop_succ_cons, List.drop_zero, h2]
      split
      · rename_i h0
        have hq : q.parameter = none := by
          cases hpar : q.parameter with
          | none => rfl
          | some e =>
            simp only [Piece.inner, hpar] at h0
            simp at h0
        have hps : ps = [] := by
          cases ps with
          | nil => rfl
          | cons r ps => simp [Piece.text] at h0
        cases hpp : p.parameter <;> simp [hps, hq, hpp]
      · have hlen : (q.inner ++ ps.flatMap Piece.text).length ≤ n := by
          simp only [List.length_append, List.length_cons] at hn ⊢
          omega
        rw [ih q n hlen fun r hr => h r (by simp only [List.mem_cons] at hr ⊢; exact .inr hr)]
        cases hpp : p.parameter <;> simp [hpp]

/-! ### The dictionary of the parameters -/

theorem get_put (d : MultiDict.Dict Text Text) (k k' : Text) (vs : List Text) :
    (d.put id k vs).get id k' = if k = k' then some vs else d.get id k' := by
  induction d with
  | nil =>
    by_cases h : k = k' <;> simp [MultiDict.Dict.put, MultiDict.Dict.get, h]
  | cons e d ih =>
    obtain ⟨a, ws⟩ := e
    simp only [MultiDict.Dict.put, id_eq]
    by_cases h : a = k
    · by_cases h' : k = k' <;> simp [MultiDict.Dict.get, h, h']
    · rw [if_neg h]
      simp only [MultiDict.Dict.get, id_eq] at ih ⊢
      by_cases h' : a = k'
      · have : k ≠ k' := fun hx => h (h'.trans hx.symm)
        simp [h', this]
      · simp only [List.find?_cons, h', decide_false]
        exact ih

theorem head_set (d : MultiDict.Dict Text Text) (k k' v : Text) (hd : ∀ k vs, d.get id k = some vs → vs ≠ []) :
    ((d.set id k v).get id k').bind List.head? = ((d.get id k').bind List.head?).or (if k = k' then some v else none) ∧
      ∀ k'' vs, (d.set id k v).get id k'' = some vs → vs ≠ [] := by
  simp only [MultiDict.Dict.set]
  cases hg : d.get id k with
  | none =>
    simp only [get_put]
    constructor
    · by_cases h : k = k'
      · subst h; simp [hg]
      · simp [h]
    · intro k' vs h
      split at h
      · cases h; simp
      · exact hd k' vs h
  | some line =>
    have hne := hd k line hg
    have hsome : line.head?.isSome := by cases line with
      | nil => exact absurd rfl hne
      | cons => rfl
    dsimp only
    split
    · refine ⟨?_, hd⟩
      by_cases h : k = k'
      · subst h
        rw [hg]
        obtain ⟨x, hx⟩ := Option.isSome_iff_exists.mp hsome
        simp [hx]
      · simp [h]
    · simp only [get_put]
      constructor
      · by_cases h : k = k'
        · subst h
          rw [hg]
          cases line with
          | nil => exact absurd rfl hne
          | cons => simp
        · simp [h]
      · intro k' vs h
        split at h
        · cases h; simp
        · exact hd k' vs h

theorem head_foldl (l : List (Text × Text)) : ∀ (d : MultiDict.Dict Text Text), (∀ k vs, d.get id k = some vs → vs ≠ []) → ∀ k,
    ((l.foldl (fun d e => MultiDict.Dict.set id d e.1 e.2) d).get id k).bind List.head? =
      ((d.get id k).bind List.head?).or ((l.find? fun e => e.1 = k).map (·.2)) := by
  induction l with
  | nil => intro d _ k; simp
  | cons e l ih =>
    intro d hd k
    obtain ⟨h1, h2⟩ := head_set d e.1 k e.2 hd
    rw [List.foldl_cons, ih _ h2 k, h1, Option.or_assoc]
    congr 1
    by_cases h : e.1 = k <;> simp [h]

theorem parameter_foldl (l : List (Text × Text)) (k : Text) :
    ((l.foldl (fun d e => MultiDict.Dict.set id d e.1 e.2) []).get id k).bind List.head? = (l.find? fun e => e.1 = k).map (·.2) := by
  rw [head_foldl l [] (by intro k vs h; simp [MultiDict.Dict.get] at h) k]
  simp [MultiDict.Dict.get]

/-! ### The head -/

theorem parseHead_text {type subType : Text} {suffix : Option Text} {w rest : Text} (ht : Good [';', '/'] type) (hs : Good [';', '+'] subType)
    (hx : ∀ s, suffix = some s → Good [';'] s) (hw : Blank w) (hr : rest = [] ∨ ∃ r, rest = ';' :: r) :
    parseHead (type ++ '/' :: (subType ++ (suffixText suffix ++ (w ++ rest)))) = (⟨some type, some subType, suffix⟩, none, rest.drop 1) := by
  have hstop : ∀ dis, Stops dis rest := by
    intro dis
    rcases hr with rfl | ⟨r, rfl⟩
    · exact .nil
    · exact stops_semicolon
  have hempty : Blank [] := by simp [Blank]
  have hne : ∀ x : Text, type ++ x ≠ [] := by
    intro x h
    exact ht.1 (List.append_eq_nil_iff.mp h).1
  rw [parseHead, if_neg (hne _)]
  cases suffix with
  | none =>
    have h1 := spacedToken_good (w := []) (rest := '/' :: (subType ++ (w ++ rest))) hempty ht hempty stops_slash
    have h2 := spacedToken_good hempty hs hw (hstop _)
    simp only [List.nil_append] at h1 h2
    simp only [suffixText, List.nil_append, h1, h2]
    rcases hr with rfl | ⟨r, rfl⟩ <;> rfl
  | some s =>
    have h1 := spacedToken_good (w := []) (rest := '/' :: (subType ++ '+' :: (s ++ (w ++ rest)))) hempty ht hempty stops_slash
    have h2 := spacedToken_good (w := []) (rest := '+' :: (s ++ (w ++ rest))) hempty hs hempty (.cons (by decide))
    have h3 := spacedToken_good hempty (hx s rfl) hw (hstop _)
    simp only [List.nil_append] at h1 h2 h3
    simp only [suffixText, List.cons_append, h1, h2, h3]
    rcases hr with rfl | ⟨r, rfl⟩ <;> rfl

/-! ### C97 -/

/-- **C97**, part: a media type of RFC 9110 is read as what it says, if no token has an apostrophe in it, and if quoted strings
have only `"` and `\` as quoted pairs. -/
theorem C97_read_partial (fold : Text → Text) (m : Media) (hv : m.Valid) (hp : m.Plain) : Says fold m (parse fold m.text) := by
  obtain ⟨type, subType, suffix, pieces⟩ := m
  obtain ⟨h1, h2, h3, h4, h5⟩ := hv
  obtain ⟨q1, q2, q3, q4⟩ := hp
  dsimp only at h1 h2 h3 h4 h5 q1 q2 q3 q4
  have g1 : Good [';', '/'] type := h1.good q1 (by intro c hc; left; revert c; decide)
  have g2 : Good [';', '+'] subType := h2.good q2 (by
    intro c hc
    simp only [List.mem_cons, List.not_mem_nil, or_false] at hc
    rcases hc with rfl | rfl
    · left; decide
    · exact .inr h3)
  have g3 : ∀ s, suffix = some s → Good [';'] s := fun s hs => (h4 s hs).good (q3 s hs) (by intro c hc; left; revert c; decide)
  have hparse : parse fold (Media.text ⟨type, subType, suffix, pieces⟩) =
      ⟨some (fold type), some (fold subType), suffix.map fold,
        ((pieces.filterMap (·.parameter)).map (item fold)).foldl (fun d e => MultiDict.Dict.set id d e.1 e.2) [], none⟩ := by
    have he : ∀ tail, pieces.flatMap Piece.text = tail → Media.text ⟨type, subType, suffix, pieces⟩ = type ++ '/' :: (subType ++ (suffixText suffix ++ tail)) := by
      intro tail ht
      simp [Media.text, ht]
    cases pieces with
    | nil =>
      rw [he ([] ++ []) rfl, parse, parseHead_text g1 g2 g3 (by simp [Blank]) (.inl rfl)]
      simp
    | cons p ps =>
      have hpp := h5 p (by simp)
      rw [he (p.before ++ ';' :: (p.inner ++ ps.flatMap Piece.text)) (by simp [Piece.text_eq]), parse, parseHead_text g1 g2 g3 hpp.1 (.inr ⟨_, rfl⟩)]
      have hl := parameterLoop_pieces fold ps p _ (Nat.le_refl _) fun q hq => ⟨h5 q hq, q4 q hq⟩
      simp only [List.drop_succ_cons, List.drop_zero, Option.map_some]
      have hstar : ¬ (some (fold type) = some ['*'] ∧ some subType = none) := by simp
      simp only [if_neg hstar]
      split
      · rename_i h0
        rw [h0] at hl
        simp only [List.length_nil, parameterLoop, Prod.mk.injEq] at hl
        rw [← hl.1]; rfl
      · rw [hl]
  rw [hparse]
  refine ⟨rfl, rfl, rfl, fun key => ?_, rfl⟩
  simp only [Parsed.parameter, parameter_foldl, Media.value, List.find?_map, Option.map_map]
  rfl

/-- **C97 is violated**: a quoted pair of another character keeps its backslash.  RFC 9110, section 5.6.4: recipients must handle
a quoted pair as if it were replaced by the character behind the backslash. -/
theorem C97_pair_violated (fold : Text → Text) (hf : fold ['k'] = ['k']) (c : Char) (h1 : c ≠ '"') (h2 : c ≠ '\\') :
    (Media.mk ['a'] ['b'] none [⟨[], [], some (['k'], [c], ['"', '\\', c, '"'])⟩]).Valid ∧
    (parse fold (Media.mk ['a'] ['b'] none [⟨[], [], some (['k'], [c], ['"', '\\', c, '"'])⟩]).text).parameter ['k'] = some ['\\', c] ∧
    ¬ Says fold (Media.mk ['a'] ['b'] none [⟨[], [], some (['k'], [c], ['"', '\\', c, '"'])⟩])
      (parse fold (Media.mk ['a'] ['b'] none [⟨[], [], some (['k'], [c], ['"', '\\', c, '"'])⟩]).text) := by
  have hq : quotedLoop false [] ['\\', c, '"'] = (['\\', c], [], false) := by
    simp [quotedLoop, h1, h2]
  have hp : (parse fold ['a', '/', 'b', ';', 'k', '=', '"', '\\', c, '"']).parameter ['k'] = some ['\\', c] := by
    have hh : parseHead ['a', '/', 'b', ';', 'k', '=', '"', '\\', c, '"'] = (⟨some ['a'], some ['b'], none⟩, none, ['k', '=', '"', '\\', c, '"']) := by rfl
    have hv : spacedValue ['"', '\\', c, '"'] = (some ['\\', c], [], false) := by
      have : skip ['"', '\\', c, '"'] = ['"', '\\', c, '"'] := rfl
      rw [spacedValue, this]
      simp [parseQuoted, hq, skip]
    have ht : spacedToken [';', '='] ['k', '=', '"', '\\', c, '"'] = (some ['k'], ['=', '"', '\\', c, '"']) := rfl
    have hpp : parseParameter ['k', '=', '"', '\\', c, '"'] = (some ['k'], some ['\\', c], none, []) := by
      rw [parseParameter, if_neg (by simp)]
      simp [ht, hv]
    rw [parse, hh]
    simp [parameterLoop, hpp, hf, Parsed.parameter, MultiDict.Dict.set, MultiDict.Dict.get, MultiDict.Dict.put]
  refine ⟨⟨⟨by simp, show ∀ c ∈ ['a'], tchar c = true by decide⟩, ⟨by simp, show ∀ c ∈ ['b'], tchar c = true by decide⟩, by simp, by simp, ?_⟩, hp, ?_⟩
  · intro p hpm
    simp only [List.mem_cons, List.not_mem_nil, or_false] at hpm
    subst hpm
    refine ⟨by simp, by simp, fun name value spelling he => ?_⟩
    simp only [Option.some.injEq, Prod.mk.injEq] at he
    obtain ⟨rfl, rfl, rfl⟩ := he
    exact ⟨⟨by simp, by decide⟩, .quoted (s := ['\\', c]) (.pair c .nil)⟩
  · rintro ⟨_, _, _, hx, _⟩
    have := hx ['k']
    have h' : (parse fold ['a', '/', 'b', ';', 'k', '=', '"', '\\', c, '"']).parameter ['k'] = _ := this
    rw [hp] at h'
    simp [Media.value, hf] at h'

/-- `multipart/mixed;boundary=it's` -/
def apostrophe : Media :=
  ⟨['m', 'u', 'l', 't', 'i', 'p', 'a', 'r', 't'], ['m', 'i', 'x', 'e', 'd'], none, [⟨[], [], some (['b', 'o', 'u', 'n', 'd', 'a', 'r', 'y'], ['i', 't', '\'', 's'], ['i', 't', '\'', 's'])⟩]⟩

theorem apostrophe_valid : apostrophe.Valid := by
  refine ⟨⟨by decide, by decide⟩, ⟨by decide, by decide⟩, by decide, by simp [apostrophe], ?_⟩
  intro p hpm
  simp only [apostrophe, List.mem_cons, List.not_mem_nil, or_false] at hpm
  subst hpm
  refine ⟨by simp, by simp, fun name value spelling he => ?_⟩
  simp only [Option.some.injEq, Prod.mk.injEq] at he
  obtain ⟨rfl, rfl, rfl⟩ := he
  exact ⟨⟨by decide, by decide⟩, .token ⟨by decide, by decide⟩⟩

/-- **C97 is violated**: an apostrophe, which RFC 9110 has in tokens, ends a token, and is an error. -/
theorem C97_apostrophe_violated :
    apostrophe.Valid ∧ (parse id apostrophe.text).parameter ['b', 'o', 'u', 'n', 'd', 'a', 'r', 'y'] = some ['i', 't'] ∧
      (parse id apostrophe.text).expected = some [';'] ∧ ¬ Says id apostrophe (parse id apostrophe.text) := by
  refine ⟨apostrophe_valid, by decide +kernel, by decide +kernel, ?_⟩
  rintro ⟨_, _, _, _, h⟩
  exact absurd h (by decide +kernel)

/-- An instance: `text/html+x ; charset="a\"b;c" ;; q=1` -/
def sample : Media :=
  ⟨['t', 'e', 'x', 't'], ['h', 't', 'm', 'l'], some ['x'],
    [⟨[' '], [' '], some (['c', 'h', 'a', 'r', 's', 'e', 't'], ['a', '"', 'b', ';', 'c'], ['"', 'a', '\\', '"', 'b', ';', 'c', '"'])⟩, ⟨[' '], [], none⟩, ⟨[], ['\t'], some (['q'], ['1'], ['1'])⟩]⟩

example : Says id sample (parse id sample.text) ∧ sample.value id ['c', 'h', 'a', 'r', 's', 'e', 't'] = some ['a', '"', 'b', ';', 'c'] ∧
    sample.value id ['q'] = some ['1'] := by
  refine ⟨C97_read_partial id sample ⟨⟨by decide, by decide⟩, ⟨by decide, by decide⟩, by decide, ?_, ?_⟩ ⟨by decide, by decide, ?_, ?_⟩, by decide +kernel, by decide +kernel⟩
  · intro s hs
    cases hs
    exact ⟨by decide, by decide⟩
  · intro p hp
    simp only [sample, List.mem_cons, List.not_mem_nil, or_false] at hp
    rcases hp with rfl | rfl | rfl
    · refine ⟨by simp, by simp, fun name value spelling he => ?_⟩
      simp only [Option.some.injEq, Prod.mk.injEq] at he
      obtain ⟨rfl, rfl, rfl⟩ := he
      refine ⟨⟨by decide, by decide⟩, .quoted (s := ['a', '\\', '"', 'b', ';', 'c']) ?_⟩
      exact .plain _ (by decide) (by decide) (.pair _ (.plain _ (by decide) (by decide) (.plain _ (by decide) (by decide) (.plain _ (by decide) (by decide) .nil))))
    · exact ⟨by simp, by simp, fun name value spelling he => by simp at he⟩
    · refine ⟨by simp, by simp, fun name value spelling he => ?_⟩
      simp only [Option.some.injEq, Prod.mk.injEq] at he
      obtain ⟨rfl, rfl, rfl⟩ := he
      exact ⟨⟨by decide, by decide⟩, .token ⟨by decide, by decide⟩⟩
  · intro s hs
    cases hs
    decide
  · intro p hp
    simp only [sample, List.mem_cons, List.not_mem_nil, or_false] at hp
    rcases hp with rfl | rfl | rfl
    · intro name value spelling he
      simp only [Option.some.injEq, Prod.mk.injEq] at he
      obtain ⟨rfl, rfl, rfl⟩ := he
      refine ⟨by decide, .inr ⟨['a', '\\', '"', 'b', ';', 'c'], ?_, by decide⟩⟩
      exact .plain _ (by decide) (by decide) (.pair _ (.inl rfl) (.plain _ (by decide) (by decide) (.plain _ (by decide) (by decide) (.plain _ (by decide) (by decide) .nil))))
    · intro name value spelling he
      simp at he
    · intro name value spelling he
      simp only [Option.some.injEq, Prod.mk.injEq] at he
      obtain ⟨rfl, rfl, rfl⟩ := he
      exact ⟨by decide, .inl ⟨by decide, by decide⟩⟩

end Verif.ContentType
