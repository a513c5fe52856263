import Verif.Http.Model
import Verif.MultiDict.Props

/-!
# Properties of heads of HTTP messages: the header block

C50.
-/

namespace Verif.Http

open MultiDict (Good)

/-! ### Lines -/

/-- There is no line break in it. -/
def OneLine (bs : Bytes) : Prop := ∀ a b, bs ≠ a ++ crlf ++ b

theorem oneLine_nil : OneLine [] := by
  intro a b h
  have := congrArg List.length h
  simp only [List.length_append, crlf, List.length_cons, List.length_nil] at this
  omega

theorem oneLine_cons {b : UInt8} {bs : Bytes} :
    OneLine (b :: bs) ↔ ¬ (b = cr ∧ bs.head? = some lf) ∧ OneLine bs := by
  constructor
  · intro h
    refine ⟨?_, ?_⟩
    · rintro ⟨rfl, h1⟩
      cases bs with
      | nil => cases h1
      | cons c bs =>
        simp only [List.head?_cons, Option.some.injEq] at h1
        subst h1
        exact h [] bs rfl
    · intro x y hxy
      exact h (b :: x) y (by rw [hxy]; rfl)
  · rintro ⟨h1, h2⟩ x y hxy
    cases x with
    | nil =>
      simp only [List.nil_append, crlf, List.cons_append, List.cons.injEq] at hxy
      exact h1 ⟨hxy.1, by rw [hxy.2]; rfl⟩
    | cons c x =>
      simp only [List.cons_append, List.cons.injEq] at hxy
      exact h2 x y hxy.2

theorem oneLine_append {a b : Bytes} (ha : OneLine a) (hb : OneLine b) (h : b.head? ≠ some lf) :
    OneLine (a ++ b) := by
  induction a with
  | nil => exact hb
  | cons c a ih =>
    rw [List.cons_append, oneLine_cons]
    rw [oneLine_cons] at ha
    refine ⟨?_, ih ha.2⟩
    rintro ⟨h1, h2⟩
    cases a with
    | nil => exact h h2
    | cons d a => exact ha.1 ⟨h1, h2⟩

theorem oneLine_of_not_cr {bs : Bytes} (h : cr ∉ bs) : OneLine bs := by
  intro a b e
  exact h (by rw [e]; simp [crlf])

theorem cutLine_end {line rest rest' : Bytes} (h : OneLine line)
    (hr : (rest = [] ∧ rest' = []) ∨ rest = crlf ++ rest') : cutLine (line ++ rest) = (line, rest') := by
  induction line with
  | nil =>
    rcases hr with ⟨rfl, rfl⟩ | rfl
    · rfl
    · simp [crlf, cutLine]
  | cons b line ih =>
    rw [oneLine_cons] at h
    have : ¬ (b = cr ∧ (line ++ rest).head? = some lf) := by
      rintro ⟨h1, h2⟩
      cases line with
      | nil =>
        rcases hr with ⟨rfl, rfl⟩ | rfl
        · cases h2
        · simp [crlf, cr, lf] at h2
      | cons c line => exact h.1 ⟨h1, h2⟩
    rw [List.cons_append, cutLine, if_neg this, ih h.2]

/-! ### Blanks -/

theorem blank_white {b : UInt8} (h : blank b = true) : white b = true := by
  simp only [blank, Bool.or_eq_true, decide_eq_true_eq] at h
  rcases h with rfl | rfl <;> decide

theorem blank_ne_cr {b : UInt8} (h : blank b = true) : b ≠ cr := by
  rintro rfl; exact absurd h (by decide)

theorem blank_ne_lf {b : UInt8} (h : blank b = true) : b ≠ lf := by
  rintro rfl; exact absurd h (by decide)

theorem dropWhile_all {p : UInt8 → Bool} {l s : Bytes} (h : ∀ b ∈ l, p b = true) :
    (l ++ s).dropWhile p = s.dropWhile p := by
  induction l with
  | nil => rfl
  | cons b l ih =>
    rw [List.cons_append, List.dropWhile_cons_of_pos (h b (by simp))]
    exact ih fun c hc => h c (by simp [hc])

theorem dropWhile_stop {p : UInt8 → Bool} {s : Bytes} (h : ∀ b, s.head? = some b → p b = false) :
    s.dropWhile p = s := by
  cases s with
  | nil => rfl
  | cons b s => exact List.dropWhile_cons_of_neg (by simp [h b rfl])

/-- A part of a value: one line, and neither at its start nor at its end there is white
space. -/
structure Part (part : Bytes) : Prop where
  line : OneLine part
  first : ∀ b, part.head? = some b → white b = false
  last : ∀ b, part.getLast? = some b → white b = false

/-- The part, with blanks around it. -/
def Padded (part text : Bytes) : Prop :=
  ∃ l r : Bytes, (∀ b ∈ l, blank b = true) ∧ (∀ b ∈ r, blank b = true) ∧ text = l ++ part ++ r

theorem strip_padded {part text : Bytes} (hp : Part part) (h : Padded part text) : strip text = part := by
  obtain ⟨l, r, hl, hr, rfl⟩ := h
  unfold strip lstrip
  rw [List.append_assoc, dropWhile_all fun b hb => blank_white (hl b hb)]
  cases part with
  | nil =>
    have : List.dropWhile white ([] ++ r) = [] := by
      have := dropWhile_all (p := white) (l := r) (s := []) fun b hb => blank_white (hr b hb)
      simpa using this
    rw [this]; rfl
  | cons b part =>
    have h1 : List.dropWhile white ((b :: part) ++ r) = (b :: part) ++ r :=
      dropWhile_stop fun c hc => hp.first c (by simpa using hc)
    rw [h1, List.reverse_append, dropWhile_all fun c hc => blank_white (hr c (by simpa using hc)), dropWhile_stop,
      List.reverse_reverse]
    intro c hc
    rw [List.head?_reverse] at hc
    exact hp.last c hc

theorem oneLine_padded {part text : Bytes} (hp : Part part) (h : Padded part text) : OneLine text := by
  obtain ⟨l, r, hl, hr, rfl⟩ := h
  have hb : ∀ x : Bytes, (∀ b ∈ x, blank b = true) → OneLine x := fun x hx =>
    oneLine_of_not_cr fun h => blank_ne_cr (hx _ h) rfl
  refine oneLine_append (oneLine_append (hb l hl) hp.line ?_) (hb r hr) ?_
  · intro e
    exact absurd (hp.first _ e) (by decide)
  · intro e
    exact blank_ne_lf (hr _ (List.mem_of_head? e)) rfl

/-! ### Layouts -/

/-- The lines that continue a value: each is a line break, a blank, and a part with blanks around it. -/
inductive Folds : List Bytes → Bytes → Prop
  | nil : Folds [] []
  | cons {part text rest : Bytes} {parts : List Bytes} {b : UInt8} : blank b = true → Part part →
      Padded part text → Folds parts rest → Folds (part :: parts) (crlf ++ b :: text ++ rest)

/-- A header name: there is something in it, it is one line, there is no colon, and it does not
begin with white space. -/
structure Name (name : Bytes) : Prop where
  ne : name ≠ []
  line : OneLine name
  colon : colon ∉ name
  first : ∀ b, name.head? = some b → white b = false

/-- The ways to write a header: the name, a colon, the first part of the value and the lines that
continue it. -/
inductive HeaderText : Header → Bytes → Prop
  | mk {name part text rest : Bytes} {parts : List Bytes} : Name name → Part part → Padded part text →
      Folds parts rest → HeaderText (name, joinSpace (part :: parts)) (name ++ colon :: text ++ rest)

/-- The ways to write headers: with a line break behind each, and with or without one behind the
last. -/
inductive Writes : List Header → Bytes → Prop
  | nil : Writes [] []
  | last {h : Header} {text : Bytes} : HeaderText h text → Writes [h] text
  | cons {h : Header} {text rest : Bytes} {headers : List Header} : HeaderText h text → Writes headers rest →
      Writes (h :: headers) (text ++ crlf ++ rest)

/-- What is behind the last line of a header. -/
def Behind (rest rest' : Bytes) : Prop := (rest = [] ∧ rest' = []) ∨ rest = crlf ++ rest'

theorem continued_stop {data : Bytes} (h : startsBlank data = false) : continued data = ([], data) := by
  rw [continued, dif_neg (by simp [h])]

theorem continued_folds {parts : List Bytes} {text : Bytes} (h : Folds parts text) {rest rest' : Bytes}
    (hr : Behind rest rest') (hb : startsBlank rest' = false) :
    ∃ data, Behind (text ++ rest) data ∧ continued data = (parts, rest') := by
  induction h with
  | nil => exact ⟨rest', hr, continued_stop hb⟩
  | @cons part text folds parts b hblank hp hpad hf ih =>
    obtain ⟨data, h1, h2⟩ := ih
    refine ⟨b :: text ++ (folds ++ rest), Or.inr (by simp), ?_⟩
    have hs : startsBlank (b :: text ++ (folds ++ rest)) = true := hblank
    have hpad' : Padded part (b :: text) := by
      obtain ⟨l, r, hl, hr, e⟩ := hpad
      refine ⟨b :: l, r, ?_, hr, by rw [e]; rfl⟩
      intro c hc
      rcases List.mem_cons.mp hc with rfl | hc
      · exact hblank
      · exact hl c hc
    rw [continued, dif_pos hs, cutLine_end (oneLine_padded hp hpad') h1]
    simp only [h2, strip_padded hp hpad']

theorem parseLines_nil : parseLines [] = some [] := by
  rw [parseLines, dif_pos (by rfl)]

theorem takeWhile_colon {name text : Bytes} (h : colon ∉ name) :
    (name ++ colon :: text).takeWhile (· ≠ colon) = name ∧
      (name ++ colon :: text).dropWhile (· ≠ colon) = colon :: text := by
  induction name with
  | nil => simp
  | cons b name ih =>
    have hb : b ≠ colon := fun e => h (by simp [e])
    have := ih fun e => h (by simp [e])
    rw [List.cons_append, List.takeWhile_cons_of_pos (by simp [hb]), List.dropWhile_cons_of_pos (by simp [hb]),
      this.1, this.2]
    exact ⟨rfl, rfl⟩

theorem parseLines_header {h : Header} {text : Bytes} (hh : HeaderText h text) {rest rest' : Bytes}
    (hr : Behind rest rest') (hb : startsBlank rest' = false) :
    parseLines (text ++ rest) = (parseLines rest').map (h :: ·) := by
  cases hh with
  | @mk name part text folds parts hn hp hpad hf =>
    obtain ⟨data, h1, h2⟩ := continued_folds hf hr hb
    have hline : OneLine (name ++ colon :: text) := by
      refine oneLine_append hn.line (oneLine_cons.mpr ⟨?_, oneLine_padded hp hpad⟩) (by simp [colon, lf])
      rintro ⟨e, _⟩
      exact absurd e (by decide)
    have hcut : cutLine (name ++ colon :: text ++ folds ++ rest) = (name ++ colon :: text, data) := by
      rw [List.append_assoc]
      exact cutLine_end hline h1
    obtain ⟨e1, e2⟩ := takeWhile_colon (text := text) hn.colon
    rw [parseLines, hcut]
    simp only
    rw [dif_neg (by simp), if_neg (by rw [e1]; simp [hn.ne]), e1, e2, h2]
    have h3 : lstrip name = name := dropWhile_stop hn.first
    simp only [List.drop_succ_cons, List.drop_zero, strip_padded hp hpad, h3]
    cases parseLines rest' <;> rfl

theorem startsBlank_writes {headers : List Header} {text : Bytes} (h : Writes headers text) :
    startsBlank text = false := by
  have key : ∀ {h : Header} {text : Bytes}, HeaderText h text → ∀ rest, startsBlank (text ++ rest) = false := by
    intro h text hh rest
    cases hh with
    | @mk name part text folds parts hn hp hpad hf =>
      have := hn.ne
      cases name with
      | nil => exact absurd rfl this
      | cons b name =>
        have hb := hn.first b rfl
        show blank b = false
        cases h : blank b with
        | false => rfl
        | true => rw [blank_white h] at hb; cases hb
  cases h with
  | nil => rfl
  | last h => simpa using key h []
  | cons h hs => rw [List.append_assoc]; exact key h _

/-- **C50, the layouts.** However the headers are written, with blanks around the values, values that
go on over several lines, with or without a last line break: parsing gives the names and the values
in order; the parts of a value are joined by a space. -/
theorem C50_layout {headers : List Header} {text : Bytes} (h : Writes headers text) :
    parseLines text = some headers := by
  induction h with
  | nil => exact parseLines_nil
  | last h =>
    have := parseLines_header h (rest := []) (rest' := []) (Or.inl ⟨rfl, rfl⟩) rfl
    rw [List.append_nil, parseLines_nil] at this
    exact this
  | cons h hs ih =>
    rw [List.append_assoc, parseLines_header h (Or.inr rfl) (startsBlank_writes hs), ih]
    rfl

/-! ### The dictionary -/

section
variable {K C V : Type} [DecidableEq C] [DecidableEq V] {canon : K → C}

omit [DecidableEq V] in
theorem put_append {d : MultiDict.Dict K V} {k : K} {vs : List V} (h : canon k ∉ d.map (fun e => canon e.1)) (ws : List V) :
    MultiDict.Dict.put canon (d ++ [(k, ws)]) k vs = d ++ [(k, vs)] ∧ MultiDict.Dict.put canon d k vs = d ++ [(k, vs)] := by
  induction d with
  | nil => simp [MultiDict.Dict.put]
  | cons e d ih =>
    obtain ⟨k', vs'⟩ := e
    simp only [List.map_cons, List.mem_cons, not_or] at h
    have := ih h.2
    simp only [List.cons_append, MultiDict.Dict.put, if_neg (Ne.symm h.1), this.1, this.2]
    exact ⟨trivial, trivial⟩

omit [DecidableEq V] in
theorem get_append {d : MultiDict.Dict K V} {k : K} (h : canon k ∉ d.map (fun e => canon e.1)) (ws : List V) :
    MultiDict.Dict.get canon (d ++ [(k, ws)]) k = some ws := by
  induction d with
  | nil => simp [MultiDict.Dict.get]
  | cons e d ih =>
    simp only [List.map_cons, List.mem_cons, not_or] at h
    rw [List.cons_append, MultiDict.get_cons, if_neg (Ne.symm h.1), ih h.2]

theorem set_values {d : MultiDict.Dict K V} {k : K} (h : canon k ∉ d.map (fun e => canon e.1)) (vs : List V) :
    ∀ ws : List V, ws ≠ [] → (ws ++ vs).Nodup →
      (vs.map fun v => (k, v)).foldl (fun d e => MultiDict.Dict.set canon d e.1 e.2) (d ++ [(k, ws)])
        = d ++ [(k, ws ++ vs)] := by
  induction vs with
  | nil => intro ws _ _; simp
  | cons v vs ih =>
    intro ws hne hnd
    have hv : v ∉ ws := by
      intro hv
      have := List.nodup_append.mp hnd
      exact this.2.2 v hv v (by simp) rfl
    rw [List.map_cons, List.foldl_cons]
    have : MultiDict.Dict.set canon (d ++ [(k, ws)]) k v = d ++ [(k, ws ++ [v])] := by
      rw [MultiDict.Dict.set, get_append h]
      simp only [if_neg hv, (put_append h ws).1]
    rw [this, ih (ws ++ [v]) (by simp) (by simpa using hnd)]
    simp

/-- Storing the items of a dictionary one after the other gives the dictionary. -/
theorem set_items (d : MultiDict.Dict K V) : ∀ d₀ : MultiDict.Dict K V, Good canon (d₀ ++ d) →
    d.items.foldl (fun d e => MultiDict.Dict.set canon d e.1 e.2) d₀ = d₀ ++ d := by
  induction d with
  | nil => intro d₀ _; simp [MultiDict.Dict.items]
  | cons e d ih =>
    intro d₀ hg
    obtain ⟨k, vs⟩ := e
    have hk : canon k ∉ d₀.map (fun e => canon e.1) := by
      intro hk
      have := hg.keys
      rw [List.map_append, List.nodup_append] at this
      exact this.2.2 _ hk _ (by simp) rfl
    obtain ⟨hne, hnd⟩ := hg.lines (k, vs) (by simp)
    cases vs with
    | nil => exact absurd rfl hne
    | cons v vs =>
      have h1 : MultiDict.Dict.set canon d₀ k v = d₀ ++ [(k, [v])] := by
        rw [MultiDict.Dict.set, MultiDict.get_none.mpr hk]
        exact (put_append hk []).2
      have h2 := set_values hk vs [v] (by simp) hnd
      have : MultiDict.Dict.items ((k, v :: vs) :: d) = (k, v) :: (vs.map fun v => (k, v)) ++ MultiDict.Dict.items d := rfl
      rw [this, List.foldl_append, List.foldl_cons, h1, h2]
      have h3 : d₀ ++ (k, v :: vs) :: d = (d₀ ++ [(k, [v] ++ vs)]) ++ d := by simp
      rw [h3] at hg ⊢
      exact ih _ hg
end

/-! ### Written headers -/

/-- A header that can be written: its name is a name, and its value is one line without white
space around it. -/
def Writable (h : Header) : Prop := Name h.1 ∧ Part h.2

/-- The line that is written for a header, without the line break. -/
def headerLine (h : Header) : Bytes := h.1 ++ [colon, sp] ++ h.2

theorem headerText_line {h : Header} (hw : Writable h) : HeaderText h (headerLine h) := by
  obtain ⟨name, value⟩ := h
  have := HeaderText.mk hw.1 hw.2 (text := sp :: value) ⟨[sp], [], by simp [blank], by simp, by simp⟩ Folds.nil
  have e : headerLine (name, value) = name ++ colon :: sp :: value ++ [] := by simp [headerLine]
  rw [e]
  exact this

theorem oneLine_headerLine {h : Header} (hw : Writable h) : OneLine (headerLine h) := by
  unfold headerLine
  refine oneLine_append (oneLine_append hw.1.line (oneLine_of_not_cr (by decide)) (by decide)) hw.2.line ?_
  intro e
  exact absurd (hw.2.first _ e) (by decide)

theorem headerLine_head {h : Header} (hw : Writable h) (rest : Bytes) :
    (headerLine h ++ rest).head? ≠ some cr := by
  have h1 := hw.1.ne
  have h2 := hw.1.first
  unfold headerLine
  cases e : h.1 with
  | nil => exact absurd e h1
  | cons b name =>
    rw [e] at h2
    intro h3
    simp only [List.cons_append, List.head?_cons, Option.some.injEq] at h3
    subst h3
    exact absurd (h2 _ rfl) (by decide)

/-- Lines, with a line break in front of each. -/
def broken (items : List Header) : Bytes := items.flatMap fun h => crlf ++ headerLine h

theorem writes_items (items : List Header) (hw : ∀ h ∈ items, Writable h) :
    ∀ h, Writable h → Writes (h :: items) (headerLine h ++ broken items) := by
  induction items with
  | nil =>
    intro h hh
    simpa [broken] using Writes.last (headerText_line hh)
  | cons h' items ih =>
    intro h hh
    have := Writes.cons (headerText_line hh) (ih (fun x hx => hw x (by simp [hx])) h' (hw h' (by simp)))
    have e : headerLine h ++ broken (h' :: items) = headerLine h ++ crlf ++ (headerLine h' ++ broken items) := by
      simp [broken]
    rw [e]
    exact this

/-- The headers of a written head are read again. -/
theorem parse_broken {fold : Bytes → Bytes} {d : Headers} (hg : Good fold d) (hw : ∀ h ∈ d.items, Writable h)
    {rest : Bytes} (hr : Behind (broken d.items) rest) : parseHeaders fold rest = some d := by
  have key : ∀ items : List Header, (∀ h ∈ items, Writable h) → Behind (broken items) rest →
      parseLines rest = some items := by
    intro items hw hr
    cases items with
    | nil =>
      rcases hr with ⟨_, rfl⟩ | h
      · exact parseLines_nil
      · simp [broken, crlf] at h
    | cons h items =>
      have e : broken (h :: items) = crlf ++ (headerLine h ++ broken items) := by simp [broken]
      rw [Behind, e] at hr
      rcases hr with ⟨h1, _⟩ | h1
      · simp [crlf] at h1
      · rw [← List.append_cancel_left h1]
        exact C50_layout (writes_items items (fun x hx => hw x (by simp [hx])) h (hw h (by simp)))
  rw [parseHeaders, key _ hw hr, Option.map_some]
  congr 1
  exact set_items d [] hg

/-! ### The end of the head -/

theorem isPrefixOf_headEnd (bs : Bytes) : headEnd.isPrefixOf bs = true ↔ ∃ r, bs = crlf ++ crlf ++ r := by
  rw [List.isPrefixOf_iff_prefix]
  constructor
  · rintro ⟨r, h⟩; exact ⟨r, h.symm⟩
  · rintro ⟨r, h⟩; exact ⟨r, h.symm⟩

theorem cutAt_line {line rest : Bytes} (h : OneLine line) (hr : rest.head? ≠ some cr) :
    cutAt headEnd (line ++ crlf ++ rest) = (cutAt headEnd rest).map fun r => (line ++ crlf ++ r.1, r.2) := by
  induction line with
  | nil =>
    have h1 : headEnd.isPrefixOf (crlf ++ rest) = false := by
      cases e : headEnd.isPrefixOf (crlf ++ rest) with
      | false => rfl
      | true =>
        obtain ⟨r, h⟩ := (isPrefixOf_headEnd _).mp e
        rw [List.append_assoc] at h
        exact absurd (by rw [List.append_cancel_left h]; rfl) hr
    have h2 : headEnd.isPrefixOf (lf :: rest) = false := by
      simp [headEnd, crlf, List.isPrefixOf, cr, lf]
    have : [] ++ crlf ++ rest = cr :: lf :: rest := rfl
    rw [this, cutAt, show headEnd.isPrefixOf (cr :: lf :: rest) = false from h1, cutAt, h2]
    cases cutAt headEnd rest <;> rfl
  | cons b line ih =>
    rw [oneLine_cons] at h
    have h1 : headEnd.isPrefixOf (b :: (line ++ crlf ++ rest)) = false := by
      cases e : headEnd.isPrefixOf (b :: (line ++ crlf ++ rest)) with
      | false => rfl
      | true =>
        obtain ⟨r, hx⟩ := (isPrefixOf_headEnd _).mp e
        cases line with
        | nil => simp [crlf, cr, lf] at hx
        | cons c line =>
          simp only [crlf, List.cons_append, List.nil_append, List.cons.injEq] at hx
          exact absurd ⟨hx.1, by simp [hx.2.1]⟩ h.1
    rw [List.cons_append, List.cons_append, cutAt, h1, ih h.2]
    cases cutAt headEnd rest <;> rfl

theorem cutAt_last {line : Bytes} (rest : Bytes) (h : OneLine line) :
    cutAt headEnd (line ++ crlf ++ crlf ++ rest) = some (line, rest) := by
  induction line with
  | nil =>
    have : [] ++ crlf ++ crlf ++ rest = cr :: lf :: cr :: lf :: rest := rfl
    rw [this, cutAt, if_pos (by simp [headEnd, crlf, List.isPrefixOf])]
    rfl
  | cons b line ih =>
    rw [oneLine_cons] at h
    have h1 : headEnd.isPrefixOf (b :: (line ++ crlf ++ crlf ++ rest)) = false := by
      cases e : headEnd.isPrefixOf (b :: (line ++ crlf ++ crlf ++ rest)) with
      | false => rfl
      | true =>
        obtain ⟨r, hx⟩ := (isPrefixOf_headEnd _).mp e
        cases line with
        | nil => simp [crlf, cr, lf] at hx
        | cons c line =>
          simp only [crlf, List.cons_append, List.nil_append, List.cons.injEq] at hx
          exact absurd ⟨hx.1, by simp [hx.2.1]⟩ h.1
    rw [List.cons_append, List.cons_append, List.cons_append, cutAt, h1, ih h.2]
    rfl

/-- What is read of a written head. -/
theorem cutAt_written (items : List Header) (hw : ∀ h ∈ items, Writable h) (body : Bytes) :
    ∀ line : Bytes, OneLine line →
      cutAt headEnd (line ++ crlf ++ (items.flatMap fun h => h.1 ++ [colon, sp] ++ h.2 ++ crlf) ++ crlf ++ body)
        = some (line ++ broken items, body) := by
  induction items with
  | nil =>
    intro line h
    have := cutAt_last body h
    simpa [broken] using this
  | cons h items ih =>
    intro line hl
    have hh := hw h (by simp)
    have := ih (fun x hx => hw x (by simp [hx])) (headerLine h) (oneLine_headerLine hh)
    have e : line ++ crlf ++ ((h :: items).flatMap fun h => h.1 ++ [colon, sp] ++ h.2 ++ crlf) ++ crlf ++ body
        = line ++ crlf ++ (headerLine h ++ crlf ++ (items.flatMap fun h => h.1 ++ [colon, sp] ++ h.2 ++ crlf)
          ++ crlf ++ body) := by
      simp [headerLine]
    rw [e, cutAt_line hl, this]
    · simp [broken]
    · have := headerLine_head hh (crlf ++ (items.flatMap fun h => h.1 ++ [colon, sp] ++ h.2 ++ crlf) ++ crlf ++ body)
      simpa using this

end Verif.Http
