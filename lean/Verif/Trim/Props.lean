import Verif.Trim.Model

/-!
# Trimming of prompts
-/

namespace Verif.Trim

/-! ## Lines -/

theorem splitLines_cons (l s : Text) (h : 10 ∉ l) : splitLines (l ++ 10 :: s) = l :: splitLines s := by
  induction l with
  | nil => simp [splitLines]
  | cons c l ih =>
    have hc : c ≠ 10 := fun e => h (by simp [e])
    have := ih (fun e => h (by simp [e]))
    simp [splitLines, hc, this]

theorem splitLines_one (l : Text) (h : 10 ∉ l) (hne : l ≠ []) : splitLines l = [l] := by
  induction l with
  | nil => exact absurd rfl hne
  | cons c l ih =>
    have hc : c ≠ 10 := fun e => h (by simp [e])
    by_cases hl : l = []
    · subst hl; simp [splitLines, hc]
    · have := ih (fun e => h (by simp [e])) hl
      simp [splitLines, hc, this]

theorem splitLines_join (ls : List Text) (h : ∀ l ∈ ls, 10 ∉ l) (hl : ∀ l ∈ ls, l ≠ []) : splitLines (join ls) = ls := by
  induction ls with
  | nil => rfl
  | cons l ls ih =>
    rcases ls with _ | ⟨m, ls⟩
    · exact splitLines_one l (h l (by simp)) (hl l (by simp))
    · show splitLines (l ++ 10 :: join (m :: ls)) = _
      rw [splitLines_cons l _ (h l (by simp)), ih (fun x hx => h x (by simp [hx])) (fun x hx => hl x (by simp [hx]))]

/-! ## A trimmer and its prompts -/

/-- A trimmer takes its prompts off: `p1` of the first line, `p2` of further ones, `p3` of a last one. -/
structure Fits (T : Trimmer) (p1 p2 p3 : Text) : Prop where
  initial : ∀ c, T.initial (p1 ++ c) = some c
  continuous : ∀ c, T.continuous (p2 ++ c) = some c
  lastNot : T.continuous p3 = none
  last : T.last p3 = true

/-- The lines of a console: `c` typed behind the first prompt, `cs` behind further ones; `cut`: the space of
the prompt of an empty last line was lost. -/
def session (p1 p2 p3 c : Text) (cs : List Text) (cut : Bool) : List Text :=
  (p1 ++ c) :: (cs.map (p2 ++ ·) ++ if cut then [p3] else [])

/-- What was typed in. -/
def typed (c : Text) (cs : List Text) (cut : Bool) : List Text := c :: (cs ++ if cut then [[]] else [])

theorem checkRest_fits {T : Trimmer} {p1 p2 p3 : Text} (h : Fits T p1 p2 p3) (cs : List Text) (cut : Bool) :
    checkRest T (cs.map (p2 ++ ·) ++ if cut then [p3] else []) = true := by
  induction cs with
  | nil => cases cut <;> simp [checkRest, h.last]
  | cons c cs ih =>
    rw [List.map_cons, List.cons_append]
    generalize (cs.map (p2 ++ ·) ++ if cut then [p3] else []) = ls at ih
    rcases ls with _ | ⟨m, ls⟩
    · simp [checkRest, h.continuous]
    · simp [checkRest, h.continuous, ih]

theorem applyRest_fits {T : Trimmer} {p1 p2 p3 : Text} (h : Fits T p1 p2 p3) (cs : List Text) (cut : Bool) :
    applyRest T (cs.map (p2 ++ ·) ++ if cut then [p3] else []) = cs ++ if cut then [[]] else [] := by
  induction cs with
  | nil => cases cut <;> simp [applyRest, h.last, h.lastNot]
  | cons c cs ih =>
    rw [List.map_cons, List.cons_append, List.cons_append, ← ih]
    generalize (cs.map (p2 ++ ·) ++ if cut then [p3] else []) = ls
    rcases ls with _ | ⟨m, ls⟩
    · simp [applyRest, h.continuous]
    · simp [applyRest, h.continuous]

theorem checkout_fits {T : Trimmer} {p1 p2 p3 : Text} (h : Fits T p1 p2 p3) (c : Text) (cs : List Text) (cut : Bool) :
    checkout T (session p1 p2 p3 c cs cut) = true := by
  have := checkRest_fits h cs cut
  unfold session
  generalize (cs.map (p2 ++ ·) ++ if cut then [p3] else []) = ls at this
  rcases ls with _ | ⟨m, ls⟩
  · simp [checkout, h.initial]
  · exact this

theorem apply_fits {T : Trimmer} {p1 p2 p3 : Text} (h : Fits T p1 p2 p3) (c : Text) (cs : List Text) (cut : Bool) :
    apply T (session p1 p2 p3 c cs cut) =
      if ∀ l ∈ typed c cs cut, l = [] then [] else typed c cs cut := by
  unfold session apply
  dsimp only
  rw [applyRest_fits h]
  simp only [applyFirst, h.initial]
  show (if (typed c cs cut).all (·.isEmpty) = true then [] else typed c cs cut) = _
  have : (typed c cs cut).all (·.isEmpty) = true ↔ ∀ l ∈ typed c cs cut, l = [] := by simp
  simp only [this]

theorem session_lines (p1 p2 p3 c : Text) (cs : List Text) (cut : Bool) (h1 : p1 ≠ []) (h2 : p2 ≠ []) (h3 : p3 ≠ [])
    (n1 : 10 ∉ p1) (n2 : 10 ∉ p2) (n3 : 10 ∉ p3) (hc : 10 ∉ c) (hcs : ∀ l ∈ cs, 10 ∉ l) :
    splitLines (join (session p1 p2 p3 c cs cut)) = session p1 p2 p3 c cs cut := by
  apply splitLines_join
  · intro l hl
    unfold session at hl
    rcases List.mem_cons.1 hl with rfl | hl
    · simp [n1, hc]
    · rcases List.mem_append.1 hl with hl | hl
      · obtain ⟨x, hx, rfl⟩ := List.mem_map.1 hl
        simp [n2, hcs x hx]
      · cases cut <;> simp at hl
        subst hl; exact n3
  · intro l hl
    unfold session at hl
    rcases List.mem_cons.1 hl with rfl | hl
    · simp [h1]
    · rcases List.mem_append.1 hl with hl | hl
      · obtain ⟨x, hx, rfl⟩ := List.mem_map.1 hl
        simp [h2]
      · cases cut <;> simp at hl
        subst hl; exact h3

/-! ## The three consoles -/

theorem strip_self (p c : Text) : strip p (p ++ c) = some c := by
  induction p with
  | nil => cases c <;> rfl
  | cons x p ih => simp [strip, ih]

theorem strip_some (p l r : Text) (h : strip p l = some r) : l = p ++ r := by
  induction p generalizing l with
  | nil =>
    have h' : some l = some r := by cases l <;> exact h
    injection h'
  | cons x p ih =>
    rcases l with _ | ⟨y, l⟩
    · simp [strip] at h
    · unfold strip at h
      split at h
      · rename_i e; subst e; rw [ih l h]; rfl
      · cases h

theorem fits_cpython : Fits cpython [62, 62, 62, 32] [46, 46, 46, 32] [46, 46, 46] :=
  ⟨fun c => strip_self _ c, fun c => strip_self _ c, rfl, rfl⟩

theorem fits_pypy : Fits pypy [62, 62, 62, 62, 32] [46, 46, 46, 46, 32] [46, 46, 46, 46] :=
  ⟨fun c => strip_self _ c, fun c => strip_self _ c, rfl, rfl⟩

theorem takeWhile_digits (ds : Text) (h : ∀ d ∈ ds, digit d = true) (x : Nat) (hx : digit x = false) (r : Text) :
    (ds ++ x :: r).takeWhile digit = ds ∧ (ds ++ x :: r).dropWhile digit = x :: r := by
  induction ds with
  | nil => simp [hx]
  | cons d ds ih =>
    have hd := h d (by simp)
    have := ih (fun e he => h e (by simp [he]))
    simp only [List.cons_append]
    rw [List.takeWhile_cons_of_pos hd, List.dropWhile_cons_of_pos hd, this.1, this.2]
    exact ⟨rfl, rfl⟩

theorem takeWhile_spaces (k x : Nat) (hx : x ≠ 32) (r : Text) :
    (List.replicate k 32 ++ x :: r).takeWhile (· == 32) = List.replicate k 32 ∧
      (List.replicate k 32 ++ x :: r).dropWhile (· == 32) = x :: r := by
  induction k with
  | zero => simp [hx]
  | succ k ih => simpa [List.replicate_succ, List.takeWhile, List.dropWhile] using ih

theorem scarletio_initial (l : Text) : scarletio.initial l = scarletioInitial l := rfl
theorem scarletio_continuous (l : Text) : scarletio.continuous l = scarletioContinuous l := rfl
theorem scarletio_last (l : Text) : scarletio.last l = scarletioLast l := rfl

theorem fits_scarletio (ds : Text) (hds : ∀ d ∈ ds, digit d = true) (hne : ds ≠ []) (k : Nat) :
    Fits scarletio ([73, 110, 32, 91] ++ ds ++ [93, 58, 32]) (List.replicate (k + 1) 32 ++ [46, 46, 46, 58, 32])
      (List.replicate (k + 1) 32 ++ [46, 46, 46, 58]) := by
  constructor
  · intro c
    rw [scarletio_initial]
    unfold scarletioInitial
    rw [List.append_assoc, List.append_assoc, strip_self]
    dsimp only
    have := takeWhile_digits ds hds 93 (by decide) ([58, 32] ++ c)
    have e : ds ++ ([93, 58, 32] ++ c) = ds ++ 93 :: ([58, 32] ++ c) := rfl
    rw [e, this.1, this.2]
    have : ds.isEmpty = false := by simp [hne]
    rw [this]
    exact strip_self [93, 58, 32] c
  · intro c
    rw [scarletio_continuous]
    unfold scarletioContinuous
    have := takeWhile_spaces (k + 1) 46 (by decide) ([46, 46, 58, 32] ++ c)
    have e : List.replicate (k + 1) 32 ++ [46, 46, 46, 58, 32] ++ c = List.replicate (k + 1) 32 ++ 46 :: ([46, 46, 58, 32] ++ c) := by simp
    rw [e, this.1, this.2]
    exact strip_self [46, 46, 46, 58, 32] c
  · rw [scarletio_continuous]
    unfold scarletioContinuous
    have := takeWhile_spaces (k + 1) 46 (by decide) [46, 46, 58]
    rw [this.1, this.2]
    rfl
  · rw [scarletio_last]
    unfold scarletioLast
    have := takeWhile_spaces (k + 1) 46 (by decide) [46, 46, 58]
    rw [this.1, this.2]
    rfl

/-- What `join` begins with. -/
theorem join_head (x : Nat) (l : Text) (ls : List Text) : (join ((x :: l) :: ls)).head? = some x := by
  rcases ls with _ | ⟨m, ls⟩ <;> simp [join]

/-- What shall come out: what was typed in, nothing when these are only empty lines. -/
def expected (c : Text) (cs : List Text) (cut : Bool) : Text :=
  if ∀ l ∈ typed c cs cut, l = [] then [] else join (typed c cs cut)

theorem trimWith_yes (content : Text) (lines : List Text) (T : Trimmer) (Ts : List Trimmer) (he : content ∉ T.excludes)
    (hc : checkout T lines = true) : trimWith content lines (T :: Ts) = some (join (apply T lines)) := by
  unfold trimWith
  rw [if_pos ⟨he, hc⟩]

theorem trimWith_no (content : Text) (lines : List Text) (T : Trimmer) (Ts : List Trimmer)
    (hc : checkout T lines = false) : trimWith content lines (T :: Ts) = trimWith content lines Ts := by
  rw [trimWith.eq_def]
  dsimp only
  rw [if_neg (by simp [hc])]

theorem join_expected (c : Text) (cs : List Text) (cut : Bool) :
    join (if ∀ l ∈ typed c cs cut, l = [] then [] else typed c cs cut) = expected c cs cut := by
  unfold expected
  split <;> rfl

/-- C306: lines of a scarletio console give what was typed in. -/
theorem C306_scarletio (ds : Text) (hds : ∀ d ∈ ds, 48 ≤ d ∧ d ≤ 57) (hne : ds ≠ []) (k : Nat) (c : Text) (cs : List Text)
    (cut : Bool) (hc : 10 ∉ c) (hcs : ∀ l ∈ cs, 10 ∉ l) :
    trim (join (session ([73, 110, 32, 91] ++ ds ++ [93, 58, 32]) (List.replicate (k + 1) 32 ++ [46, 46, 46, 58, 32])
      (List.replicate (k + 1) 32 ++ [46, 46, 46, 58]) c cs cut)) = some (expected c cs cut) := by
  have hf := fits_scarletio ds (fun d h => by simpa [digit] using hds d h) hne k
  have hd : 10 ∉ ds := fun h => by have := hds 10 h; omega
  unfold trim
  rw [session_lines _ _ _ c cs cut (by simp) (by simp) (by simp) (by simp [hd])
    (by simp [List.mem_replicate]) (by simp [List.mem_replicate]) hc hcs]
  rw [trimWith_yes _ _ _ _ (by simp [scarletio]) (checkout_fits hf c cs cut), apply_fits hf, join_expected]

/-- No trimmer of scarletio applies to lines of other consoles. -/
theorem scarletio_not (x : Nat) (l : Text) (hx : x ≠ 73) (hx' : x ≠ 32) :
    scarletio.initial (x :: l) = none ∧ scarletio.continuous (x :: l) = none ∧ scarletio.last (x :: l) = false := by
  refine ⟨?_, ?_, ?_⟩
  · rw [scarletio_initial]
    have : ¬73 = x := fun e => hx e.symm
    simp [scarletioInitial, strip, this]
  · rw [scarletio_continuous]
    simp [scarletioContinuous, hx']
  · rw [scarletio_last]
    simp [scarletioLast, hx']

theorem checkRest_not (T : Trimmer) (l : Text) (ls : List Text) (h : T.continuous l = none) (h' : T.last l = false) :
    checkRest T (l :: ls) = false := by
  rcases ls with _ | ⟨m, ls⟩ <;> simp [checkRest, h, h']

/-- A trimmer does not apply to a session of another console. -/
theorem checkout_not (T : Trimmer) (p1 p2 p3 c : Text) (cs : List Text) (cut : Bool)
    (h1 : ∀ c, T.initial (p1 ++ c) = none ∧ T.continuous (p1 ++ c) = none ∧ T.last (p1 ++ c) = false)
    (h2 : ∀ c, T.continuous (p2 ++ c) = none ∧ T.last (p2 ++ c) = false)
    (h3 : T.continuous p3 = none ∧ T.last p3 = false) : checkout T (session p1 p2 p3 c cs cut) = false := by
  unfold session
  rcases cs with _ | ⟨d, cs⟩
  · cases cut
    · have := h1 c
      simp [checkout, this.1, this.2.1, this.2.2]
    · exact checkRest_not T p3 [] h3.1 h3.2
  · exact checkRest_not T (p2 ++ d) _ (h2 d).1 (h2 d).2

/-- C306: lines of a python console give what was typed in. -/
theorem C306_cpython (c : Text) (cs : List Text) (cut : Bool) (hc : 10 ∉ c) (hcs : ∀ l ∈ cs, 10 ∉ l) :
    trim (join (session [62, 62, 62, 32] [46, 46, 46, 32] [46, 46, 46] c cs cut)) = some (expected c cs cut) := by
  unfold trim
  rw [session_lines _ _ _ c cs cut (by simp) (by simp) (by simp) (by simp) (by simp) (by simp) hc hcs]
  rw [trimWith_no _ _ _ _ (checkout_not scarletio _ _ _ c cs cut
    (fun c => scarletio_not 62 _ (by decide) (by decide))
    (fun c => (scarletio_not 46 _ (by decide) (by decide)).2) (scarletio_not 46 _ (by decide) (by decide)).2)]
  rw [trimWith_yes _ _ _ _ ?_ (checkout_fits fits_cpython c cs cut), apply_fits fits_cpython, join_expected]
  intro h
  have h1 : join (session [62, 62, 62, 32] [46, 46, 46, 32] [46, 46, 46] c cs cut) = [46, 46, 46] := by
    simpa [cpython] using h
  have h2 := join_head 62 ([62, 62, 32] ++ c) (cs.map ([46, 46, 46, 32] ++ ·) ++ if cut then [[46, 46, 46]] else [])
  have h3 : (join (session [62, 62, 62, 32] [46, 46, 46, 32] [46, 46, 46] c cs cut)).head? = some 62 := h2
  rw [h1] at h3
  simp at h3

/-- C306: lines of a pypy console give what was typed in. -/
theorem C306_pypy (c : Text) (cs : List Text) (cut : Bool) (hc : 10 ∉ c) (hcs : ∀ l ∈ cs, 10 ∉ l) :
    trim (join (session [62, 62, 62, 62, 32] [46, 46, 46, 46, 32] [46, 46, 46, 46] c cs cut)) = some (expected c cs cut) := by
  unfold trim
  rw [session_lines _ _ _ c cs cut (by simp) (by simp) (by simp) (by simp) (by simp) (by simp) hc hcs]
  rw [trimWith_no _ _ _ _ (checkout_not scarletio _ _ _ c cs cut
    (fun c => scarletio_not 62 _ (by decide) (by decide))
    (fun c => (scarletio_not 46 _ (by decide) (by decide)).2) (scarletio_not 46 _ (by decide) (by decide)).2)]
  rw [trimWith_no _ _ _ _ (checkout_not cpython _ _ _ c cs cut
    (fun c => by simp [cpython, strip]) (fun c => by simp [cpython, strip]) (by simp [cpython, strip]))]
  rw [trimWith_yes _ _ _ _ (by simp [pypy]) (checkout_fits fits_pypy c cs cut), apply_fits fits_pypy, join_expected]

example : trim (join (session [62, 62, 62, 32] [46, 46, 46, 32] [46, 46, 46] [105, 102] [[32, 120]] true)) =
    some [105, 102, 10, 32, 120, 10] := by decide

/-! ## Text without prompts -/

/-- A line which begins with the prompt of a further line of one of the consoles. -/
def Prompted (l : Text) : Prop :=
  ∃ r, (∃ k, l = List.replicate (k + 1) 32 ++ [46, 46, 46, 58, 32] ++ r) ∨ l = [46, 46, 46, 32] ++ r ∨ l = [46, 46, 46, 46, 32] ++ r

theorem spaces_split (l : Text) : ∃ k, l = List.replicate k 32 ++ l.dropWhile (· == 32) ∧
    l.takeWhile (· == 32) = List.replicate k 32 := by
  induction l with
  | nil => exact ⟨0, rfl, rfl⟩
  | cons c l ih =>
    by_cases hc : c = 32
    · subst hc
      obtain ⟨k, h1, h2⟩ := ih
      refine ⟨k + 1, ?_, ?_⟩
      · simpa [List.dropWhile, List.replicate_succ] using h1
      · simpa [List.takeWhile, List.replicate_succ] using h2
    · exact ⟨0, by simp [hc], by simp [hc]⟩

theorem not_prompted (l : Text) (h : ¬Prompted l) :
    scarletio.continuous l = none ∧ cpython.continuous l = none ∧ pypy.continuous l = none := by
  refine ⟨?_, ?_, ?_⟩
  · cases hc : scarletio.continuous l with
    | none => rfl
    | some r =>
      exfalso
      have hc' : scarletioContinuous l = some r := hc
      unfold scarletioContinuous at hc'
      obtain ⟨k, h1, h2⟩ := spaces_split l
      split at hc'
      · cases hc'
      · rename_i hk
        rw [h2] at hk
        rcases k with _ | k
        · simp at hk
        · have := strip_some _ _ _ hc'
          rw [this] at h1
          exact h ⟨r, .inl ⟨k, by rw [h1]; simp⟩⟩
  · cases hc : cpython.continuous l with
    | none => rfl
    | some r => exact absurd ⟨r, .inr (.inl (strip_some _ _ _ hc))⟩ h
  · cases hc : pypy.continuous l with
    | none => rfl
    | some r => exact absurd ⟨r, .inr (.inr (strip_some _ _ _ hc))⟩ h

theorem checkRest_middle (T : Trimmer) (pre post : List Text) (l : Text) (hl : T.continuous l = none) (hp : post ≠ []) :
    checkRest T (pre ++ l :: post) = false := by
  induction pre with
  | nil =>
    rcases post with _ | ⟨m, post⟩
    · exact absurd rfl hp
    · simp [checkRest, hl]
  | cons x pre ih =>
    rw [List.cons_append]
    generalize hls : pre ++ l :: post = ls at ih
    rcases ls with _ | ⟨m, ls⟩
    · simp at hls
    · simp [checkRest, ih]

/-- C307 (partial), full statement: text without prompts is left alone. Proved for text which has a line without
a prompt between its first and its last. -/
theorem C307_left_alone_partial (content first : Text) (pre post : List Text) (l : Text)
    (h : splitLines content = first :: (pre ++ l :: post)) (hp : post ≠ []) (hl : ¬Prompted l) : trim content = none := by
  have hn := not_prompted l hl
  have hc : ∀ T : Trimmer, T.continuous l = none → checkout T (first :: (pre ++ l :: post)) = false := by
    intro T hT
    have := checkRest_middle T pre post l hT hp
    generalize hls : pre ++ l :: post = ls at this
    rcases ls with _ | ⟨m, ls⟩
    · simp at hls
    · exact this
  unfold trim
  rw [h, trimWith_no _ _ _ _ (hc _ hn.1), trimWith_no _ _ _ _ (hc _ hn.2.1), trimWith_no _ _ _ _ (hc _ hn.2.2)]
  rfl

example : trim [97, 10, 98, 10, 46, 46, 46, 32, 99] = none := by decide

/-- C307: nor is a single line which begins with none of `.`, `>`, `I` and a space. -/
theorem C307_single_line_partial (x : Nat) (l : Text) (hn : 10 ∉ x :: l) (h1 : x ≠ 46) (h2 : x ≠ 62) (h3 : x ≠ 73)
    (h4 : x ≠ 32) : trim (x :: l) = none := by
  have hs := scarletio_not x l h3 h4
  have e1 : ¬46 = x := fun e => h1 e.symm
  have e2 : ¬62 = x := fun e => h2 e.symm
  unfold trim
  rw [splitLines_one _ hn (by simp), trimWith_no _ _ _ _ (by simp [checkout, hs.1, hs.2.1, hs.2.2]),
    trimWith_no _ _ _ _ (by simp [checkout, cpython, strip, e1, e2, h1]),
    trimWith_no _ _ _ _ (by simp [checkout, pypy, strip, e1, e2, h1])]
  rfl

/-- C307: a literal `...` alone is left alone. -/
theorem C307_ellipsis : trim [46, 46, 46] = none := by decide

/-- C307: but not behind other lines: there the statement `...` is taken away. -/
theorem C307_ellipsis_lost_violated (x : Nat) (l : Text) (hn : 10 ∉ x :: l) (h1 : x ≠ 46) (h2 : x ≠ 62) :
    trim (x :: l ++ [10, 46, 46, 46]) = some (x :: l ++ [10]) := by
  have e1 : ¬46 = x := fun e => h1 e.symm
  have e2 : ¬62 = x := fun e => h2 e.symm
  have hl : splitLines (x :: l ++ [10, 46, 46, 46]) = [x :: l, [46, 46, 46]] := by
    rw [splitLines_cons _ _ hn]; rfl
  unfold trim
  rw [hl, trimWith_no _ _ _ _ (by rfl), trimWith_yes _ _ _ _ (by simp [cpython, h1]) (by rfl)]
  simp [apply, applyFirst, applyRest, cpython, strip, e1, e2, join]

/-- C307: nor when a line end follows it. -/
theorem C307_ellipsis_line_violated : trim [46, 46, 46, 10] = some [] := by decide

end Verif.Trim
