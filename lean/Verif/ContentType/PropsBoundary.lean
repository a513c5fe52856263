import Verif.ContentType.Props

/-!
# C98: a multipart body's boundary is read back from its content type
-/

namespace Verif.ContentType

def multipart : Text := ['m', 'u', 'l', 't', 'i', 'p', 'a', 'r', 't']
def boundaryKey : Text := ['b', 'o', 'u', 'n', 'd', 'a', 'r', 'y']

theorem isTchar_tchar {c : Char} (h : isTchar c = true) : tchar c = true := by
  simp only [isTchar, Char.isAlpha, Char.isUpper, Char.isLower, Char.isDigit, Bool.or_eq_true, Bool.and_eq_true, decide_eq_true_eq] at h
  simp only [tchar, Bool.or_eq_true, Bool.and_eq_true, decide_eq_true_eq]
  rcases h with ((h | h) | h) | h
  · exact .inl (.inl (.inr ⟨h.1, h.2⟩))
  · exact .inl (.inl (.inl ⟨h.1, h.2⟩))
  · exact .inl (.inr ⟨h.1, h.2⟩)
  · exact .inr (by simpa using h)

theorem escape_quoted (v : Text) : Quoted v (escape v) ∧ Sparing (escape v) := by
  induction v with
  | nil => exact ⟨.nil, .nil⟩
  | cons c v ih =>
    by_cases h : c = '\\' ∨ c = '"'
    · have he : escape (c :: v) = '\\' :: c :: escape v := by simp [escape, h]
      rw [he]
      exact ⟨.pair c ih.1, .pair c h.symm ih.2⟩
    · have he : escape (c :: v) = c :: escape v := by simp [escape, h]
      rw [he]
      exact ⟨.plain c (fun hx => h (.inr hx)) (fun hx => h (.inl hx)) ih.1, .plain c (fun hx => h (.inr hx)) (fun hx => h (.inl hx)) ih.2⟩

/-- The content type as a media type. -/
def asMedia (subtype boundary spelling : Text) : Media := ⟨multipart, subtype, none, [⟨[], [' '], some (boundaryKey, boundary, spelling)⟩]⟩

theorem asMedia_says {fold : Text → Text} {subtype boundary spelling : Text} (hk : fold boundaryKey = boundaryKey) (hs : Token subtype)
    (hq : '\'' ∉ subtype) (hp : '+' ∉ subtype) (h1 : Spelled boundary spelling)
    (h2 : (spelling.head? ≠ some '"' ∧ '\'' ∉ spelling) ∨ ∃ s, Sparing s ∧ spelling = '"' :: s ++ ['"']) :
    (parse fold (asMedia subtype boundary spelling).text).parameter boundaryKey = some boundary ∧
      (parse fold (asMedia subtype boundary spelling).text).expected = none := by
  have := C97_read_partial fold (asMedia subtype boundary spelling)
    ⟨⟨show multipart ≠ [] by decide, show ∀ c ∈ multipart, tchar c = true by decide⟩, hs, hp, (by intro s h; cases h), by
      intro p hpm
      simp only [asMedia, List.mem_cons, List.not_mem_nil, or_false] at hpm
      subst hpm
      refine ⟨by simp, by simp, fun name value spelling' he => ?_⟩
      simp only [Option.some.injEq, Prod.mk.injEq] at he
      obtain ⟨rfl, rfl, rfl⟩ := he
      exact ⟨⟨by decide, by decide⟩, h1⟩⟩
    ⟨show '\'' ∉ multipart by decide, hq, (by intro s h; cases h), by
      intro p hpm
      simp only [asMedia, List.mem_cons, List.not_mem_nil, or_false] at hpm
      subst hpm
      intro name value spelling' he
      simp only [Option.some.injEq, Prod.mk.injEq] at he
      obtain ⟨rfl, rfl, rfl⟩ := he
      exact ⟨by decide, h2⟩⟩
  obtain ⟨_, _, _, h, he⟩ := this
  refine ⟨?_, he⟩
  rw [h]
  simp [Media.value, asMedia, hk]

/-- **C98**, part: whatever boundary a multipart body has, the one which is read back from its content type is it, if it is not a
token with an apostrophe in it. -/
theorem C98_boundary_partial (fold : Text → Text) (hk : fold boundaryKey = boundaryKey) (subtype boundary text : Text) (hs : Token subtype)
    (hq : '\'' ∉ subtype) (hp : '+' ∉ subtype) (h : multipartType subtype boundary = some text)
    (hb : '\'' ∉ boundary ∨ ∃ c ∈ boundary, tchar c = false) :
    (parse fold text).parameter boundaryKey = some boundary ∧ (parse fold text).expected = none := by
  simp only [multipartType] at h
  split at h
  · cases h
  · split at h
    · rename_i ht
      simp only [Bool.and_eq_true, decide_eq_true_eq, List.all_eq_true] at ht
      have hq' : '\'' ∉ boundary := by
        rcases hb with hb | ⟨c, hc, hx⟩
        · exact hb
        · rw [isTchar_tchar (ht.2 c hc)] at hx; cases hx
      have hm : text = (asMedia subtype boundary boundary).text := by
        rw [← Option.some.inj h]
        simp [asMedia, Media.text, Piece.text, suffixText, multipart, boundaryKey]
      rw [hm]
      refine asMedia_says hk hs hq hp (.token ⟨ht.1, fun c hc => isTchar_tchar (ht.2 c hc)⟩) (.inl ⟨?_, hq'⟩)
      intro hx
      have hmem : '"' ∈ boundary := List.mem_of_mem_head? hx
      exact absurd (ht.2 '"' hmem) (by decide)
    · split at h
      · cases h
      · have hm : text = (asMedia subtype boundary ('"' :: escape boundary ++ ['"'])).text := by
          rw [← Option.some.inj h]
          simp [asMedia, Media.text, Piece.text, suffixText, multipart, boundaryKey]
        rw [hm]
        exact asMedia_says hk hs hq hp (.quoted (escape_quoted boundary).1) (.inr ⟨_, (escape_quoted boundary).2, rfl⟩)

theorem tchar_apostrophe {l : Text} (h : ∀ c ∈ l, tchar c = true) : l.takeWhile (passes []) = l.takeWhile (· ≠ '\'') ∧
    l.dropWhile (passes []) = l.dropWhile (· ≠ '\'') := by
  induction l with
  | nil => exact ⟨rfl, rfl⟩
  | cons c l ih =>
    obtain ⟨i1, i2⟩ := ih fun d hd => h d (by simp [hd])
    by_cases hc : c = '\''
    · subst hc
      have : passes [] '\'' = false := by decide
      simp [this]
    · have hg := tchar_good (h c (by simp)) hc
      have : passes [] c = true := by simp only [passes, hg.1, hg.2]; rfl
      simp [this, hc, i1, i2]

theorem dropWhile_apostrophe {l : Text} (h : '\'' ∈ l) : ∃ r, l.dropWhile (· ≠ '\'') = '\'' :: r := by
  induction l with
  | nil => cases h
  | cons c l ih =>
    by_cases hc : c = '\''
    · subst hc; exact ⟨l, by simp⟩
    · have : '\'' ∈ l := by
        rcases List.mem_cons.mp h with hx | hx
        · exact absurd hx.symm hc
        · exact hx
      obtain ⟨r, hr⟩ := ih this
      exact ⟨r, by simp only [ne_eq, decide_not] at hr ⊢; simp [hc, hr]⟩

/-- **C98 is violated**: of a boundary which is a token with an apostrophe in it only what is in front of the apostrophe is read,
and it is an error. -/
theorem C98_apostrophe_violated (fold : Text → Text) (hk : fold boundaryKey = boundaryKey) (subtype boundary text : Text) (hs : Token subtype)
    (hq : '\'' ∉ subtype) (hp : '+' ∉ subtype) (h : multipartType subtype boundary = some text)
    (hb : '\'' ∈ boundary) (ht : ∀ c ∈ boundary, isTchar c = true) :
    (parse fold text).parameter boundaryKey = some (boundary.takeWhile (· ≠ '\'')) ∧
      (parse fold text).parameter boundaryKey ≠ some boundary ∧ (parse fold text).expected = some [';'] := by
  have hne : boundary ≠ [] := by rintro rfl; cases hb
  have htext : text = multipart ++ '/' :: (subtype ++ (suffixText none ++ ([] ++ ';' :: ([' '] ++ (boundaryKey ++ ([] ++ '=' :: boundary)))))) := by
    simp only [multipartType] at h
    split at h
    · cases h
    · rw [if_pos (by simp [hne, List.all_eq_true.mpr ht])] at h
      rw [← Option.some.inj h]
      simp [multipart, boundaryKey, suffixText]
  have hempty : Blank [] := by simp [Blank]
  have g1 : Good [';', '/'] multipart := by
    refine ⟨by decide, ?_⟩
    decide
  have g2 : Good [';', '+'] subtype := hs.good hq (by
    intro c hc
    simp only [List.mem_cons, List.not_mem_nil, or_false] at hc
    rcases hc with rfl | rfl
    · left; decide
    · exact .inr hp)
  have hhead := parseHead_text (suffix := none) (w := []) (rest := ';' :: ([' '] ++ (boundaryKey ++ ([] ++ '=' :: boundary)))) g1 g2
    (by intro s h; cases h) hempty (.inr ⟨_, rfl⟩)
  obtain ⟨r, hr⟩ := dropWhile_apostrophe hb
  have ht' := fun c hc => isTchar_tchar (ht c hc)
  have hval : spacedValue boundary = (if boundary.takeWhile (· ≠ '\'') = [] then none else some (boundary.takeWhile (· ≠ '\'')), '\'' :: r, false) := by
    have hskip : skip boundary = boundary := by
      cases boundary with
      | nil => rfl
      | cons c l =>
        refine List.dropWhile_cons_of_neg ?_
        by_cases hc : c = '\''
        · subst hc; decide
        · rw [(tchar_good (ht' c (by simp)) hc).1]; simp
    have hp : parseToken [] boundary = (if boundary.takeWhile (· ≠ '\'') = [] then none else some (boundary.takeWhile (· ≠ '\'')), '\'' :: r) := by
      rw [parseToken, (tchar_apostrophe ht').1, (tchar_apostrophe ht').2, hr]
    have hq : boundary.head? ≠ some '"' := by
      intro hx
      exact absurd (ht '"' (List.mem_of_mem_head? hx)) (by decide)
    rw [spacedValue, hskip]
    cases boundary with
    | nil => exact absurd rfl hne
    | cons c l =>
      have hc : c ≠ '"' := by simpa using hq
      split
      · rename_i heq; simp at heq
      · rename_i heq; exact absurd (List.cons.inj heq).1 hc
      · rename_i heq
        obtain ⟨rfl, rfl⟩ := List.cons.inj heq
        simp only [hp]
        rfl
  have hlast : boundary.takeWhile (· ≠ '\'') ≠ boundary := by
    intro hx
    rw [← hx] at hb
    have := List.all_eq_true.mp (List.all_takeWhile (p := fun c : Char => decide (c ≠ '\'')) (l := boundary)) '\'' hb
    simp at this
  generalize boundary.takeWhile (· ≠ '\'') = front at hval hlast ⊢
  have htok := spacedToken_good (disallowed := [';', '=']) (u := [' ']) (t := boundaryKey) (w := []) (rest := '=' :: boundary) (by simp [Blank])
    ⟨by decide, by decide⟩ hempty stops_equal
  have hpar : parseParameter ([' '] ++ (boundaryKey ++ ([] ++ '=' :: boundary))) =
      (some boundaryKey, if front = [] then none else some front, some [';'], '\'' :: r) := by
    rw [parseParameter, if_neg (by simp)]
    simp only [htok, hval]
    rfl
  have hall : (parse fold text).parameter boundaryKey = some front ∧ (parse fold text).expected = some [';'] := by
    rw [htext, parse, hhead]
    simp only [List.drop_succ_cons, List.drop_zero, Option.map_some]
    rw [if_neg (by simp)]
    have hlen : ([' '] ++ (boundaryKey ++ ([] ++ '=' :: boundary))).length = boundary.length + 9 + 1 := by
      simp [boundaryKey]
    rw [hlen, parameterLoop]
    simp only [hpar]
    constructor
    · simp only [Parsed.parameter, Option.isSome_some, Bool.true_or, if_true, Option.map_some, Option.getD_some, hk, parameter_foldl]
      by_cases h0 : front = []
      · simp [h0]
      · simp [h0]
    · trivial
  refine ⟨hall.1, ?_, hall.2⟩
  rw [hall.1]
  intro hx
  exact hlast (Option.some.inj hx)

example : (parse id ((multipartType ['m', 'i', 'x', 'e', 'd'] ['a', ' ', '"', '\'']).getD [])).parameter boundaryKey = some ['a', ' ', '"', '\''] :=
  (C98_boundary_partial id rfl ['m', 'i', 'x', 'e', 'd'] ['a', ' ', '"', '\''] _ ⟨by decide, by decide⟩ (by decide) (by decide) rfl (.inr ⟨' ', by decide, by decide⟩)).1

example : (parse id ((multipartType ['m', 'i', 'x', 'e', 'd'] ['i', 't', '\'', 's']).getD [])).parameter boundaryKey = some ['i', 't'] :=
  (C98_apostrophe_violated id rfl ['m', 'i', 'x', 'e', 'd'] ['i', 't', '\'', 's'] _ ⟨by decide, by decide⟩ (by decide) (by decide) rfl (by decide) (by decide)).1

end Verif.ContentType
