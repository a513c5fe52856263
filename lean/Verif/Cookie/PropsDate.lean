import Verif.Cookie.Date

/-!
# Properties of the date of a cookie

C96.
-/

namespace Verif.Cookie

/-! ### The specification: RFC 6265, section 5.1.1 -/

/-- The digits in front of a text, and what is behind them. -/
def run (text : Text) : Text := text.takeWhile (·.isDigit)
def behind (text : Text) : Text := text.dropWhile (·.isDigit)

/-- `time-field = 1*2DIGIT`, up to the next non-digit. -/
def Field (text : Text) : Prop := 1 ≤ (run text).length ∧ (run text).length ≤ 2

instance (text : Text) : Decidable (Field text) := by unfold Field; infer_instance

/-- `time = time-field ":" time-field ":" time-field [ non-digit *OCTET ]` -/
def rfcTime (token : Text) : Option (Nat × Nat × Nat) :=
  if Field token ∧ (behind token).head? = some ':' ∧ Field ((behind token).drop 1) ∧
      (behind ((behind token).drop 1)).head? = some ':' ∧ Field ((behind ((behind token).drop 1)).drop 1) then
    some (number (run token), number (run ((behind token).drop 1)), number (run ((behind ((behind token).drop 1)).drop 1)))
  else none

/-- `day-of-month = 1*2DIGIT [ non-digit *OCTET ]` -/
def rfcDay (token : Text) : Option Nat := if Field token then some (number (run token)) else none

def monthNames : List Text :=
  [['j', 'a', 'n'], ['f', 'e', 'b'], ['m', 'a', 'r'], ['a', 'p', 'r'], ['m', 'a', 'y'], ['j', 'u', 'n'],
    ['j', 'u', 'l'], ['a', 'u', 'g'], ['s', 'e', 'p'], ['o', 'c', 't'], ['n', 'o', 'v'], ['d', 'e', 'c']]

/-- `month = ( "jan" / "feb" / ... / "dec" ) *OCTET`, in any case. -/
def rfcMonth (token : Text) : Option Nat :=
  match (monthNames.zipIdx 1).find? fun m => m.1.isPrefixOf (token.map (·.toLower)) with
  | some m => some m.2
  | none => none

/-- `year = 2*4DIGIT [ non-digit *OCTET ]` -/
def rfcYear (token : Text) : Option Nat :=
  if 2 ≤ (run token).length ∧ (run token).length ≤ 4 then some (number (run token)) else none

/-- "Process each date-token sequentially": what is still missing is looked for in the order time, day, month, year. -/
def rfcRead (f : Found) (token : Text) : Found :=
  if f.time = none ∧ (rfcTime token).isSome then { f with time := rfcTime token }
  else if f.day = none ∧ (rfcDay token).isSome then { f with day := rfcDay token }
  else if f.month = none ∧ (rfcMonth token).isSome then { f with month := rfcMonth token }
  else if f.year = none ∧ (rfcYear token).isSome then { f with year := rfcYear token }
  else f

/-- A year of two digits, or with zeros in front, is one from 1970 to 2069. -/
def rfcFullYear (year : Nat) : Nat := if year < 70 then year + 2000 else if year < 100 then year + 1900 else year

/-- The days of the months of the Gregorian calendar. -/
def calendar (year month : Nat) : Nat :=
  [31, if 4 ∣ year ∧ (100 ∣ year → 400 ∣ year) then 29 else 28, 31, 30, 31, 30, 31, 31, 30, 31, 30, 31][month - 1]?.getD 31

/-- Everything is found, and within its range; and there is such a day. -/
def rfcDate (f : Found) : Option Date := do
  let (hour, minute, second) ← f.time
  let day ← f.day
  let month ← f.month
  let year ← f.year
  if 1601 ≤ rfcFullYear year ∧ 1 ≤ day ∧ day ≤ 31 ∧ hour ≤ 23 ∧ minute ≤ 59 ∧ second ≤ 59 ∧ day ≤ calendar (rfcFullYear year) month then
    some ⟨rfcFullYear year, month, day, hour, minute, second⟩
  else none

/-- `non-delimiter = %x00-08 / %x0A-1F / DIGIT / ":" / ALPHA / %x7F-FF`, as the octets which are no delimiter
`%x09 / %x20-2F / %x3B-40 / %x5B-60 / %x7B-7E`. -/
def isDelimiter (c : Char) : Bool :=
  c.toNat = 0x09 || (0x20 ≤ c.toNat && c.toNat ≤ 0x2F) || (0x3B ≤ c.toNat && c.toNat ≤ 0x40) || (0x5B ≤ c.toNat && c.toNat ≤ 0x60) ||
    (0x7B ≤ c.toNat && c.toNat ≤ 0x7E)

/-- The date-tokens: what is between the delimiters. -/
def rfcTokens (text : Text) : List Text := (text.splitOnP isDelimiter).filter (· ≠ [])

def rfcParse (text : Text) : Option Date := rfcDate ((rfcTokens text).foldl rfcRead {})

/-! ### The tokens -/

theorem isTokenChar_eq (c : Char) (h : c.toNat < 256) : isTokenChar c = !isDelimiter c := by
  have key : ∀ i : Fin 256, isTokenChar (Char.ofNat i.val) = !isDelimiter (Char.ofNat i.val) := by decide +kernel
  have := key ⟨c.toNat, h⟩
  simpa [Char.ofNat_toNat] using this

theorem tokensFrom_eq (text : Text) (h : ∀ c ∈ text, c.toNat < 256) : ∀ current,
    tokensFrom current text = (List.splitOnPPrepend isDelimiter text current.reverse).filter (· ≠ []) := by
  induction text with
  | nil =>
    intro current
    rw [tokensFrom, List.splitOnPPrepend_nil, List.reverse_reverse]
    by_cases hc : current = []
    · rw [if_pos hc, hc]; rfl
    · rw [if_neg hc]; simp [hc]
  | cons c text ih =>
    intro current
    have ih := ih fun x hx => h x (by simp [hx])
    rw [tokensFrom, isTokenChar_eq c (h c (by simp)), List.splitOnPPrepend_cons_eq_if]
    cases hd : isDelimiter c with
    | false =>
      simp only [Bool.not_false, if_true, Bool.false_eq_true, if_false]
      rw [ih]
      simp
    | true =>
      simp only [Bool.not_true, Bool.false_eq_true, if_false, if_true]
      rw [List.reverse_reverse]
      by_cases hc : current = []
      · rw [if_pos hc, ih, hc]; simp
      · rw [if_neg hc, ih]; simp [hc]

theorem tokens_eq (text : Text) (h : ∀ c ∈ text, c.toNat < 256) : tokens text = rfcTokens text := by
  unfold tokens rfcTokens
  rw [tokensFrom_eq text h]
  rfl

/-! ### The parts -/

theorem lead_eq (n : Nat) (text : Text) : lead n text = (run text).take n := by
  unfold lead run
  induction text generalizing n with
  | nil => simp
  | cons c text ih =>
    cases n with
    | zero => simp
    | succ n =>
      rw [List.take_succ_cons, List.takeWhile_cons, List.takeWhile_cons]
      split
      · rw [ih]; rfl
      · simp

theorem drop_run (text : Text) : text.drop (run text).length = behind text := by
  unfold run behind
  induction text with
  | nil => rfl
  | cons c text ih =>
    rw [List.takeWhile_cons, List.dropWhile_cons]
    split
    · simpa using ih
    · rfl

theorem lead_short (n : Nat) (text : Text) (h : (run text).length ≤ n) : lead n text = run text := by
  rw [lead_eq, List.take_of_length_le h]

/-- Behind two digits out of more there is a digit. -/
theorem drop_long (text : Text) (h : 3 ≤ (run text).length) : ∃ c rest, text.drop (lead 2 text).length = c :: rest ∧ c ≠ ':' := by
  have hlen : (lead 2 text).length = 2 := by rw [lead_eq, List.length_take]; omega
  rw [hlen]
  unfold run at h
  rcases text with _ | ⟨a, _ | ⟨b, _ | ⟨c, rest⟩⟩⟩
  · simp at h
  · have := (List.takeWhile_sublist (l := [a]) (·.isDigit)).length_le; simp at this; omega
  · have := (List.takeWhile_sublist (l := [a, b]) (·.isDigit)).length_le; simp only [List.length_cons, List.length_nil] at this; omega
  · refine ⟨c, rest, rfl, ?_⟩
    rintro rfl
    rw [List.takeWhile_cons] at h
    split at h
    · rw [List.takeWhile_cons] at h
      split at h
      · rw [List.takeWhile_cons, if_neg (by decide)] at h
        simp at h
      · simp at h
    · simp at h

/-- A time with more than two digits for the seconds. -/
def LongTime (token : Text) : Prop :=
  Field token ∧ (behind token).head? = some ':' ∧ Field ((behind token).drop 1) ∧
    (behind ((behind token).drop 1)).head? = some ':' ∧ 3 ≤ (run ((behind ((behind token).drop 1)).drop 1)).length

theorem lead_nil_iff (text : Text) : lead 2 text = [] ↔ run text = [] := by
  rw [lead_eq]
  simp

theorem head_cons {text : Text} {c : Char} (h : text.head? = some c) : ∃ rest, text = c :: rest := by
  cases text with
  | nil => cases h
  | cons a t => simp at h; exact ⟨t, by rw [h]⟩

theorem matchTime_eq (token : Text) (h : ¬ LongTime token) : matchTime token = rfcTime token := by
  unfold matchTime rfcTime
  by_cases h1 : run token = []
  · rw [if_pos ((lead_nil_iff _).mpr h1), if_neg]
    rintro ⟨⟨h2, -⟩, -⟩
    rw [h1] at h2; simp at h2
  · simp only
    rw [if_neg (fun hn => h1 ((lead_nil_iff _).mp hn))]
    by_cases h2 : 3 ≤ (run token).length
    · obtain ⟨c, rest, e, hc⟩ := drop_long token h2
      rw [e, if_neg]
      · split
        · rename_i t heq; cases heq; exact absurd rfl hc
        · rfl
      · rintro ⟨⟨-, h3⟩, -⟩; omega
    · have hf : Field token := ⟨by have := List.length_pos_iff.mpr h1; omega, by omega⟩
      rw [lead_short 2 token (by omega), drop_run]
      by_cases h3 : (behind token).head? = some ':'
      · obtain ⟨t, ht⟩ := head_cons h3
        rw [ht]
        simp only [List.drop_succ_cons, List.drop_zero, List.head?_cons]
        by_cases h4 : run t = []
        · rw [if_pos ((lead_nil_iff _).mpr h4), if_neg]
          rintro ⟨-, -, ⟨h5, -⟩, -⟩
          rw [h4] at h5; simp at h5
        · rw [if_neg (fun hn => h4 ((lead_nil_iff _).mp hn))]
          by_cases h5 : 3 ≤ (run t).length
          · obtain ⟨c, rest, e, hc⟩ := drop_long t h5
            rw [e, if_neg]
            · split
              · rename_i t heq; cases heq; exact absurd rfl hc
              · rfl
            · rintro ⟨-, -, ⟨-, h6⟩, -⟩; omega
          · have hf' : Field t := ⟨by have := List.length_pos_iff.mpr h4; omega, by omega⟩
            rw [lead_short 2 t (by omega), drop_run]
            by_cases h6 : (behind t).head? = some ':'
            · obtain ⟨u, hu⟩ := head_cons h6
              rw [hu]
              simp only [List.drop_succ_cons, List.drop_zero, List.head?_cons]
              by_cases h7 : run u = []
              · rw [if_pos ((lead_nil_iff _).mpr h7), if_neg]
                rintro ⟨-, -, -, -, ⟨h8, -⟩⟩
                rw [h7] at h8; simp at h8
              · rw [if_neg (fun hn => h7 ((lead_nil_iff _).mp hn))]
                have h8 : ¬ 3 ≤ (run u).length := by
                  intro h8
                  apply h
                  refine ⟨hf, h3, ?_, ?_, ?_⟩ <;> rw [ht] <;> simp only [List.drop_succ_cons, List.drop_zero]
                  · exact hf'
                  · exact h6
                  · rw [hu]; exact h8
                have hf'' : Field u := ⟨by have := List.length_pos_iff.mpr h7; omega, by omega⟩
                rw [lead_short 2 u (by omega), if_pos ⟨hf, trivial, hf', trivial, hf''⟩]
            · rw [if_neg (fun hx => h6 hx.2.2.2.1)]
              split
              · rename_i heq; rw [heq] at h6; exact absurd rfl h6
              · rfl
      · rw [if_neg (fun hx => h3 hx.2.1)]
        split
        · rename_i heq; rw [heq] at h3; exact absurd rfl h3
        · rfl

theorem matchDay_eq (token : Text) (h : (run token).length ≤ 2) : matchDay token = rfcDay token := by
  unfold matchDay rfcDay
  rw [lead_short 2 token h]
  by_cases h1 : run token = []
  · rw [if_pos h1, if_neg]
    rintro ⟨h2, -⟩
    rw [h1] at h2; simp at h2
  · rw [if_neg h1, if_pos ⟨by have := List.length_pos_iff.mpr h1; omega, h⟩]

theorem matchYear_eq (token : Text) (h : (run token).length ≤ 4) : matchYear token = rfcYear token := by
  unfold matchYear rfcYear
  rw [lead_short 4 token h]
  by_cases h1 : (run token).length < 2
  · rw [if_pos h1, if_neg (by omega)]
  · rw [if_neg h1, if_pos (by omega)]

theorem lookMonth_length (token : Text) (h : lookMonth token ≠ none) : token.length = 3 := by
  unfold lookMonth at h
  rw [← List.length_map (f := (·.toLower))]
  split at h <;> first | (exact absurd rfl h) | (rename_i heq; rw [heq]; rfl)

theorem lookMonth_eq (token : Text) (h : rfcMonth token ≠ none → token.length = 3) : lookMonth token = rfcMonth token := by
  by_cases hl : token.length = 3
  · obtain ⟨a, b, c, hm⟩ : ∃ a b c, token.map (·.toLower) = [a, b, c] := by
      rcases token with _ | ⟨a, _ | ⟨b, _ | ⟨c, _ | ⟨d, t⟩⟩⟩⟩ <;> simp at hl ⊢
    unfold lookMonth rfcMonth
    rw [hm]
    unfold monthNames
    simp only [List.zipIdx_cons, List.zipIdx_nil, List.find?_cons, List.isPrefixOf_cons_cons, List.isPrefixOf_nil_left, Bool.and_true]
    split
    all_goals try (rename_i heq; cases heq; rfl)
    rename_i h1 h2 h3 h4 h5 h6 h7 h8 h9 h10 h11 h12
    have key : ∀ x y z : Char, ([a, b, c] = [x, y, z] → False) → (x == a && (y == b && z == c)) = false := by
      intro x y z hne
      cases hx : (x == a && (y == b && z == c)) with
      | false => rfl
      | true =>
        simp at hx
        obtain ⟨rfl, rfl, rfl⟩ := hx
        exact absurd rfl hne
    rw [key _ _ _ h1, key _ _ _ h2, key _ _ _ h3, key _ _ _ h4, key _ _ _ h5, key _ _ _ h6, key _ _ _ h7, key _ _ _ h8,
      key _ _ _ h9, key _ _ _ h10, key _ _ _ h11, key _ _ _ h12]
    rfl
  · have h1 : rfcMonth token = none := Classical.byContradiction fun hn => hl (h hn)
    have h2 : lookMonth token = none := Classical.byContradiction fun hn => hl (lookMonth_length token hn)
    rw [h1, h2]

/-! ### The whole -/

/-- A token is read alike. -/
structure Tame (f : Found) (token : Text) : Prop where
  time : ¬ LongTime token
  short : (run token).length ≤ 4
  day : 3 ≤ (run token).length → f.day ≠ none
  month : rfcMonth token ≠ none → token.length = 3

theorem read_eq (f : Found) (token : Text) (h : Tame f token) : f.read token = rfcRead f token := by
  unfold Found.read rfcRead
  rw [matchTime_eq token h.time, lookMonth_eq token h.month, matchYear_eq token h.short]
  obtain ⟨time, day, month, year⟩ := f
  by_cases hd : (run token).length ≤ 2
  · rw [matchDay_eq token hd]
    cases time <;> cases rfcTime token <;> cases day <;> cases rfcDay token <;> cases month <;> cases rfcMonth token <;> cases year <;>
      cases rfcYear token <;> simp
  · have hday : day ≠ none := h.day (by omega)
    cases day with
    | none => exact absurd rfl hday
    | some day =>
      cases time <;> cases rfcTime token <;> cases month <;> cases rfcMonth token <;> cases year <;>
        cases rfcYear token <;> simp

theorem rfcRead_day (f : Found) (token : Text) (h : f.day ≠ none) : (rfcRead f token).day ≠ none := by
  unfold rfcRead
  split
  · exact h
  · rw [if_neg (fun hx => h hx.1)]
    split
    · exact h
    · split <;> exact h

theorem rfcRead_day_found (f : Found) (token : Text) (h1 : rfcDay token ≠ none) (h2 : rfcTime token = none) :
    (rfcRead f token).day ≠ none := by
  by_cases hf : f.day = none
  · unfold rfcRead
    rw [h2, if_neg (by simp), if_pos ⟨hf, by cases h : rfcDay token with
      | none => exact absurd h h1
      | some d => rfl⟩]
    exact h1
  · exact rfcRead_day f token hf

theorem foldl_day (ts : List Text) : ∀ (f : Found), (f.day ≠ none ∨ ∃ d ∈ ts, rfcDay d ≠ none ∧ rfcTime d = none) →
    (ts.foldl rfcRead f).day ≠ none := by
  induction ts with
  | nil =>
    intro f h
    rcases h with h | ⟨d, hd, _⟩
    · exact h
    · cases hd
  | cons t ts ih =>
    intro f h
    refine ih _ ?_
    rcases h with h | ⟨d, hd, h1, h2⟩
    · exact Or.inl (rfcRead_day f t h)
    · rcases List.mem_cons.mp hd with rfl | hd
      · exact Or.inl (rfcRead_day_found f d h1 h2)
      · exact Or.inr ⟨d, hd, h1, h2⟩

theorem foldl_read (ts : List Text) (h1 : ∀ t ∈ ts, ¬ LongTime t ∧ (run t).length ≤ 4 ∧ (rfcMonth t ≠ none → t.length = 3))
    (h2 : ∀ pre t post, ts = pre ++ t :: post → 3 ≤ (run t).length → ∃ d ∈ pre, rfcDay d ≠ none ∧ rfcTime d = none) :
    ∀ pre post, ts = pre ++ post → pre.foldl Found.read {} = pre.foldl rfcRead {} := by
  intro pre post
  induction hn : pre.length generalizing pre post with
  | zero => intro _; rw [List.length_eq_zero_iff.mp hn]; rfl
  | succ n ih =>
    intro hts
    rcases List.eq_nil_or_concat pre with rfl | ⟨pre', t, rfl⟩
    · cases hn
    · rw [List.concat_eq_append] at hn hts ⊢
      have hts : ts = pre' ++ t :: post := by rw [hts]; simp
      rw [List.foldl_append, List.foldl_append, ih pre' (t :: post) (by simpa using hn) hts]
      obtain ⟨a1, a2, a3⟩ := h1 t (by rw [hts]; simp)
      exact read_eq _ _ ⟨a1, a2, fun h3 => foldl_day pre' _ (Or.inr (h2 pre' t post hts h3)), a3⟩

theorem daysIn_eq (year month : Nat) : daysIn year month = calendar year month := by
  have hleap : isLeap year = true ↔ (4 ∣ year ∧ (100 ∣ year → 400 ∣ year)) := by
    unfold isLeap
    simp only [Bool.and_eq_true, Bool.or_eq_true, decide_eq_true_eq]
    omega
  unfold daysIn calendar
  by_cases h : month < 13
  · have : month = 0 ∨ month = 1 ∨ month = 2 ∨ month = 3 ∨ month = 4 ∨ month = 5 ∨ month = 6 ∨ month = 7 ∨ month = 8 ∨ month = 9 ∨
        month = 10 ∨ month = 11 ∨ month = 12 := by omega
    rcases this with rfl | rfl | rfl | rfl | rfl | rfl | rfl | rfl | rfl | rfl | rfl | rfl | rfl
    case inr.inr.inl =>
      by_cases hl : isLeap year = true
      · rw [if_pos rfl, if_pos hl, if_pos (hleap.mp hl)]; rfl
      · rw [if_pos rfl, if_neg hl, if_neg (fun hx => hl (hleap.mpr hx))]; rfl
    all_goals rfl
  · rw [if_neg (by omega), if_neg (by omega), List.getElem?_eq_none]
    · rfl
    · simp; omega

theorem finish_date (f : Found) (d : Date) : f.finish = .date d ↔ rfcDate f = some d := by
  unfold Found.finish rfcDate
  simp only [daysIn_eq]
  obtain ⟨time, day, month, year⟩ := f
  cases time with
  | none => simp
  | some time =>
    obtain ⟨hour, minute, second⟩ := time
    cases day with
    | none => simp
    | some day =>
      cases month with
      | none => simp
      | some month =>
        cases year with
        | none => simp
        | some year =>
          have hy : (if 70 ≤ year ∧ year ≤ 99 then year + 1900 else if year ≤ 69 then year + 2000 else year) = rfcFullYear year := by
            unfold rfcFullYear
            by_cases h1 : year < 70
            · rw [if_pos h1, if_neg (by omega), if_pos (by omega)]
            · by_cases h2 : year < 100
              · rw [if_neg h1, if_pos h2, if_pos (by omega)]
              · rw [if_neg h1, if_neg h2, if_neg (by omega), if_neg (by omega)]
          simp only [hy, Option.bind_eq_bind, Option.bind_some]
          by_cases hr : rfcFullYear year < 1601 ∨ day < 1 ∨ day > 31 ∨ hour > 23 ∨ minute > 59 ∨ second > 59
          · rw [if_pos hr, if_neg (by omega)]; simp
          · rw [if_neg hr]
            by_cases hd : day ≤ calendar (rfcFullYear year) month
            · rw [if_pos hd, if_pos (by omega)]; simp
            · rw [if_neg hd, if_neg (by omega)]; simp

/-! ## C96: the date is the one of RFC 6265 -/

/-- **C96.** For all texts of octets: the date is the one of RFC 6265, and there is none where that has none; if no token is a
time with three digits for the seconds, none starts with five digits, the name of a month is not followed by more, and a token
which starts with three or four digits comes after the day.  Missing: without these. -/
theorem C96_rfc_partial (text : Text) (ho : ∀ c ∈ text, c.toNat < 256)
    (h1 : ∀ t ∈ rfcTokens text, ¬ LongTime t ∧ (run t).length ≤ 4 ∧ (rfcMonth t ≠ none → t.length = 3))
    (h2 : ∀ pre t post, rfcTokens text = pre ++ t :: post → 3 ≤ (run t).length → ∃ d ∈ pre, rfcDay d ≠ none ∧ rfcTime d = none)
    (d : Date) : parseDate text = .date d ↔ rfcParse text = some d := by
  unfold parseDate rfcParse
  rw [tokens_eq text ho, foldl_read _ h1 h2 _ [] (by simp)]
  exact finish_date _ _

/-- **C96, violated.** A day the month does not have is an exception, not an absent date. -/
theorem C96_error_violated : parseDate "31 Feb 2024 00:00:00".toList = .valueError ∧ rfcParse "31 Feb 2024 00:00:00".toList = none := by
  decide +kernel

/-- **C96, violated.** The year in front of the day is taken for it. -/
theorem C96_order_violated : parseDate "1994 Nov 06 08:49:37".toList = .date ⟨2006, 11, 19, 8, 49, 37⟩ ∧
    rfcParse "1994 Nov 06 08:49:37".toList = some ⟨1994, 11, 6, 8, 49, 37⟩ := by decide +kernel

/-- **C96, violated.** The full name of a month is not one. -/
theorem C96_month_violated : parseDate "6 November 1994 08:49:37".toList = .nothing ∧
    rfcParse "6 November 1994 08:49:37".toList = some ⟨1994, 11, 6, 8, 49, 37⟩ := by decide +kernel

/-- **C96, violated.** More digits than a year or the seconds have are accepted. -/
theorem C96_digits_violated : parseDate "6 Nov 19945 08:49:370".toList = .date ⟨1994, 11, 6, 8, 49, 37⟩ ∧
    rfcParse "6 Nov 19945 08:49:370".toList = none := by decide +kernel

/-! ### The date as servers write it -/

def digit (n : Nat) : Char := Char.ofNat (48 + n % 10)
def two (n : Nat) : Text := [digit (n / 10), digit n]
def four (n : Nat) : Text := [digit (n / 1000), digit (n / 100), digit (n / 10), digit n]

def weekdays : List Text := [['M', 'o', 'n'], ['T', 'u', 'e'], ['W', 'e', 'd'], ['T', 'h', 'u'], ['F', 'r', 'i'], ['S', 'a', 't'], ['S', 'u', 'n']]

def shortMonths : List Text :=
  [['J', 'a', 'n'], ['F', 'e', 'b'], ['M', 'a', 'r'], ['A', 'p', 'r'], ['M', 'a', 'y'], ['J', 'u', 'n'],
    ['J', 'u', 'l'], ['A', 'u', 'g'], ['S', 'e', 'p'], ['O', 'c', 't'], ['N', 'o', 'v'], ['D', 'e', 'c']]

/-- `Sun, 06 Nov 1994 08:49:37 GMT` -/
def fixdate (weekday : Text) (month : Text) (d : Date) : Text :=
  weekday ++ [',', ' '] ++ two d.day ++ [' '] ++ month ++ [' '] ++ four d.year ++ [' '] ++ two d.hour ++ [':'] ++ two d.minute ++ [':'] ++
    two d.second ++ [' ', 'G', 'M', 'T']

theorem digit_spec (n : Nat) : (digit n).isDigit = true ∧ (digit n).toNat - 48 = n % 10 ∧ digit n ≠ ':' ∧ isTokenChar (digit n) = true := by
  have key : ∀ i : Fin 10, (Char.ofNat (48 + i.val)).isDigit = true ∧ (Char.ofNat (48 + i.val)).toNat - 48 = i.val ∧
      Char.ofNat (48 + i.val) ≠ ':' ∧ isTokenChar (Char.ofNat (48 + i.val)) = true := by decide
  exact key ⟨n % 10, Nat.mod_lt _ (by decide)⟩

theorem tokensFrom_token (token : Text) (h : ∀ c ∈ token, isTokenChar c = true) : ∀ (current rest : Text),
    tokensFrom current (token ++ rest) = tokensFrom (current ++ token) rest := by
  induction token with
  | nil => intro current rest; simp
  | cons c token ih =>
    intro current rest
    rw [List.cons_append, tokensFrom, if_pos (h c (by simp)), ih fun x hx => h x (by simp [hx])]
    simp

theorem number_two (n : Nat) (h : n < 100) : number (two n) = n := by
  simp only [number, two, List.foldl_cons, List.foldl_nil, (digit_spec _).2.1]
  omega

theorem number_four (n : Nat) (h : n < 10000) : number (four n) = n := by
  simp only [number, four, List.foldl_cons, List.foldl_nil, (digit_spec _).2.1]
  omega

/-- **C96.** Every date there is, from the year 1601 to 9999, is read back from the form in which servers write it. -/
theorem C96_fixdate (weekday : Text) (hw : weekday ∈ weekdays) (d : Date) (month : Text) (hm : (month, d.month) ∈ shortMonths.zipIdx 1)
    (hy : 1601 ≤ d.year ∧ d.year ≤ 9999) (hd : 1 ≤ d.day ∧ d.day ≤ calendar d.year d.month) (hh : d.hour ≤ 23) (hmin : d.minute ≤ 59)
    (hs : d.second ≤ 59) : parseDate (fixdate weekday month d) = .date d := by
  obtain ⟨year, mon, day, hour, minute, second⟩ := d
  simp only [← daysIn_eq] at hm hy hd hh hmin hs
  have hday : day ≤ 31 := by
    have : daysIn year mon ≤ 31 := by
      unfold daysIn
      repeat' split
      all_goals omega
    omega
  have hwt : ∀ c ∈ weekday, isTokenChar c = true := by
    have : ∀ w ∈ weekdays, ∀ c ∈ w, isTokenChar c = true := by decide
    exact this weekday hw
  have hmt : ∀ c ∈ month, isTokenChar c = true := by
    have : ∀ w ∈ shortMonths.zipIdx 1, ∀ c ∈ w.1, isTokenChar c = true := by decide
    exact this _ hm
  have hw' : weekday ≠ [] ∧ matchTime weekday = none ∧ matchDay weekday = none ∧ lookMonth weekday = none ∧ matchYear weekday = none := by
    have : ∀ w ∈ weekdays, w ≠ [] ∧ matchTime w = none ∧ matchDay w = none ∧ lookMonth w = none ∧ matchYear w = none := by decide
    exact this weekday hw
  have hm' : month ≠ [] ∧ matchTime month = none ∧ lookMonth month = some mon := by
    have : ∀ w ∈ shortMonths.zipIdx 1, w.1 ≠ [] ∧ matchTime w.1 = none ∧ lookMonth w.1 = some w.2 := by decide
    exact this _ hm
  have htwo : ∀ n, ∀ c ∈ two n, isTokenChar c = true := by
    intro n c hc
    simp only [two, List.mem_cons, List.not_mem_nil, or_false] at hc
    rcases hc with rfl | rfl <;> exact (digit_spec _).2.2.2
  have hfour : ∀ n, ∀ c ∈ four n, isTokenChar c = true := by
    intro n c hc
    simp only [four, List.mem_cons, List.not_mem_nil, or_false] at hc
    rcases hc with rfl | rfl | rfl | rfl <;> exact (digit_spec _).2.2.2
  have htok : tokens (fixdate weekday month ⟨year, mon, day, hour, minute, second⟩) =
      [weekday, two day, month, four year, two hour ++ ':' :: two minute ++ ':' :: two second, ['G', 'M', 'T']] := by
    unfold tokens fixdate
    simp only [List.append_assoc]
    have hdel : ∀ (current rest : Text) (c : Char), isTokenChar c = false → current ≠ [] →
        tokensFrom current ([c] ++ rest) = current :: tokensFrom [] rest := by
      intro current rest c hc h0
      rw [List.singleton_append, tokensFrom, if_neg (by simp [hc]), if_neg h0]
    rw [tokensFrom_token weekday hwt, List.nil_append]
    rw [show [',', ' '] ++ (two day ++ ([' '] ++ (month ++ ([' '] ++ (four year ++ ([' '] ++ (two hour ++ ([':'] ++ (two minute ++ ([':'] ++
      (two second ++ [' ', 'G', 'M', 'T']))))))))))) = [','] ++ ([' '] ++ (two day ++ ([' '] ++ (month ++ ([' '] ++ (four year ++ ([' '] ++
      (two hour ++ ([':'] ++ (two minute ++ ([':'] ++ (two second ++ [' ', 'G', 'M', 'T'])))))))))))) from rfl]
    rw [hdel weekday _ ',' (by decide) hw'.1]
    rw [show ∀ rest, tokensFrom [] ([' '] ++ rest) = tokensFrom [] rest from fun rest => rfl]
    rw [tokensFrom_token _ (htwo day), List.nil_append, hdel _ _ ' ' (by decide) (by simp [two])]
    rw [tokensFrom_token _ hmt, List.nil_append, hdel _ _ ' ' (by decide) hm'.1]
    rw [tokensFrom_token _ (hfour year), List.nil_append, hdel _ _ ' ' (by decide) (by simp [four])]
    rw [tokensFrom_token _ (htwo hour), List.nil_append, tokensFrom_token [':'] (by decide), tokensFrom_token _ (htwo minute),
      tokensFrom_token [':'] (by decide), tokensFrom_token _ (htwo second)]
    rw [show [' ', 'G', 'M', 'T'] = [' '] ++ ['G', 'M', 'T'] from rfl, hdel _ _ ' ' (by decide) (by simp [two])]
    simp
    rfl
  have hlead : ∀ n rest, lead 2 (two n ++ rest) = two n := by
    intro n rest
    simp [lead, two, (digit_spec _).1]
  have hlead' : ∀ n, lead 2 (two n) = two n := by
    intro n
    have := hlead n []
    rwa [List.append_nil] at this
  have hne : ∀ n, two n ≠ [] := by intro n; simp [two]
  have ht1 : ∀ n, matchTime (two n) = none := by
    intro n
    unfold matchTime
    simp only [hlead', if_neg (hne n), List.drop_length]
  have ht2 : matchTime (four year) = none := by
    unfold matchTime
    have e1 : lead 2 (four year) = [digit (year / 1000), digit (year / 100)] := by simp [lead, four, (digit_spec _).1]
    have e2 : (four year).drop 2 = [digit (year / 10), digit year] := rfl
    simp only [e1, List.length_cons, List.length_nil, Nat.zero_add, Nat.reduceAdd, e2]
    rw [if_neg (by simp)]
    split
    · rename_i heq
      exact absurd (List.cons.inj heq).1 (digit_spec _).2.2.1
    · rfl
  have ht3 : matchTime (two hour ++ ':' :: two minute ++ ':' :: two second) = some (hour, minute, second) := by
    unfold matchTime
    simp only [List.append_assoc, hlead, if_neg (hne _), List.drop_left, List.cons_append, hlead']
    rw [number_two hour (by omega), number_two minute (by omega), number_two second (by omega)]
  have hd2 : matchDay (two day) = some day := by
    unfold matchDay
    rw [hlead', if_neg (hne _), number_two day (by omega)]
  have hy2 : matchYear (four year) = some year := by
    unfold matchYear
    have : lead 4 (four year) = four year := by simp [lead, four, (digit_spec _).1]
    rw [this, if_neg (by simp [four]), number_four year (by omega)]
  unfold parseDate
  rw [htok]
  have hfin : ([weekday, two day, month, four year, two hour ++ ':' :: two minute ++ ':' :: two second, ['G', 'M', 'T']].foldl Found.read {}) =
      ⟨some (hour, minute, second), some day, some mon, some year⟩ := by
    simp only [List.foldl_cons, List.foldl_nil]
    simp only [Found.read, hw'.2.1, hw'.2.2.1, hw'.2.2.2.1, hw'.2.2.2.2, ht1, hd2, hm'.2.1, hm'.2.2, ht2, hy2, ht3]
  rw [hfin]
  unfold Found.finish
  simp only
  have hy3 : (if 70 ≤ year ∧ year ≤ 99 then year + 1900 else if year ≤ 69 then year + 2000 else year) = year := by
    rw [if_neg (by omega), if_neg (by omega)]
  rw [hy3, if_neg (by omega), if_pos hd.2]

example : parseDate "Sun, 06 Nov 1994 08:49:37 GMT".toList = .date ⟨1994, 11, 6, 8, 49, 37⟩ := by decide +kernel

end Verif.Cookie
