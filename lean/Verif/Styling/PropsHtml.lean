import Verif.Styling.Model

/-!
# Styling: html
-/

namespace Verif.Styling

/-- What a browser shows: every piece of text with the class of the span it is in. A span in a span, or an
end without a span, can not be read. -/
def browse : Option Nat → List Ev → Option (List (Option Nat × Ev))
  | none, [] => some []
  | some _, [] => none
  | none, .spanStart c :: es => browse (some c) es
  | some _, .spanStart _ :: _ => none
  | some _, .spanEnd :: es => browse none es
  | none, .spanEnd :: _ => none
  | o, e :: es => (browse o es).map ((o, e) :: ·)

def liftHtml (items : List (Option Nat × Text)) : List (Option Detail × Text) :=
  items.map fun p => (some (.html p.1), p.2)

/-- How a text is to be put: a line break as `<br>`, other text escaped. -/
def put' (t : Text) : Ev := if t = [10] then .br else .escaped t

theorem browse_put (o : Option Nat) (t : Text) (es : List Ev) (c : Option Nat) :
    browse o (transform (.html c) t ++ es) = (browse o es).map ((o, put' t) :: ·) := by
  unfold transform put'
  dsimp only
  by_cases h : t = [10]
  · rw [if_pos h, if_pos h]; cases o <;> rfl
  · rw [if_neg h, if_neg h]; cases o <;> rfl

theorem browse_transition (a b : Option Nat) (es : List Ev) :
    browse a (transitionHtml a b ++ es) = browse b es := by
  unfold transitionHtml
  split
  · cases a <;> cases b <;> rfl
  · rename_i h
    have : a = b := by simpa using h
    subst this
    rfl

theorem browse_rest (a : Option Nat) (items : List (Option Nat × Text)) :
    browse a (stream (some (.html a)) (liftHtml items)) = some (items.map fun p => (p.1, put' p.2)) := by
  induction items generalizing a with
  | nil => cases a <;> rfl
  | cons p items ih =>
    rcases p with ⟨b, t⟩
    show browse a (transitionHtml a b ++ transform (.html b) t ++ stream (some (.html b)) (liftHtml items)) = _
    rw [List.append_assoc, browse_transition, browse_put, ih]
    rfl

/-- C298: when every type of token has an html detail, spans are never in each other, all are ended, and
every text is in a span of its class, or in none when it has no class. -/
theorem C298_spans (items : List (Option Nat × Text)) :
    browse none (stream none (liftHtml items)) = some (items.map fun p => (p.1, put' p.2)) := by
  rcases items with _ | ⟨⟨b, t⟩, items⟩
  · rfl
  · have e : ∀ es, browse none (start (.html b) ++ es) = browse b es := by
      intro es; cases b <;> rfl
    show browse none (start (.html b) ++ transform (.html b) t ++ stream (some (.html b)) (liftHtml items)) = _
    rw [List.append_assoc, e, browse_put, browse_rest]
    rfl

example : browse none (stream none (liftHtml [(some 1, [97]), (some 1, [10]), (some 2, [60]), (none, [98])])) =
    some [(some 1, .escaped [97]), (some 1, .br), (some 2, .escaped [60]), (none, .escaped [98])] := by decide

/-- C298: what is escaped has no `<`, `>` and quotes. -/
theorem C298_escaped (t : Text) : 60 ∉ escape t ∧ 62 ∉ escape t ∧ 34 ∉ escape t ∧ 39 ∉ escape t := by
  have H : ∀ c x, x ∈ escapeChar c → x ≠ 60 ∧ x ≠ 62 ∧ x ≠ 34 ∧ x ≠ 39 := by
    intro c x hx
    unfold escapeChar at hx
    (repeat' split at hx) <;> simp at hx <;> omega
  refine ⟨?_, ?_, ?_, ?_⟩ <;> intro h <;> obtain ⟨c, _, hc⟩ := List.mem_flatMap.1 h <;> have := H c _ hc <;> simp at this

/-- How a browser reads the five names which are used, and other characters but `&`. -/
inductive Reads : Text → Text → Prop
  | nil : Reads [] []
  | amp (s t : Text) : Reads s t → Reads (38 :: 97 :: 109 :: 112 :: 59 :: s) (38 :: t)
  | lt (s t : Text) : Reads s t → Reads (38 :: 108 :: 116 :: 59 :: s) (60 :: t)
  | gt (s t : Text) : Reads s t → Reads (38 :: 103 :: 116 :: 59 :: s) (62 :: t)
  | quot (s t : Text) : Reads s t → Reads (38 :: 113 :: 117 :: 111 :: 116 :: 59 :: s) (34 :: t)
  | apos (s t : Text) : Reads s t → Reads (38 :: 35 :: 120 :: 50 :: 55 :: 59 :: s) (39 :: t)
  | other (c : Nat) (s t : Text) : c ≠ 38 → Reads s t → Reads (c :: s) (c :: t)

/-- C298: escaped text reads as the text. -/
theorem C298_reads_as_the_text (t : Text) : Reads (escape t) t := by
  induction t with
  | nil => exact .nil
  | cons c t ih =>
    show Reads (escapeChar c ++ escape t) (c :: t)
    unfold escapeChar
    (repeat' split) <;> subst_vars
    · exact .amp _ _ ih
    · exact .lt _ _ ih
    · exact .gt _ _ ih
    · exact .quot _ _ ih
    · exact .apos _ _ ih
    · exact .other _ _ _ (by assumption) ih

/-- C298: and as no other. -/
theorem C298_reads_as_one (s t u : Text) (h : Reads s t) (h' : Reads s u) : t = u := by
  induction h generalizing u with
  | nil => cases h'; rfl
  | amp s t _ ih =>
    cases h' with
    | amp _ u h' => rw [ih u h']
    | other _ _ _ hc _ => exact absurd rfl hc
  | lt s t _ ih =>
    cases h' with
    | lt _ u h' => rw [ih u h']
    | other _ _ _ hc _ => exact absurd rfl hc
  | gt s t _ ih =>
    cases h' with
    | gt _ u h' => rw [ih u h']
    | other _ _ _ hc _ => exact absurd rfl hc
  | quot s t _ ih =>
    cases h' with
    | quot _ u h' => rw [ih u h']
    | other _ _ _ hc _ => exact absurd rfl hc
  | apos s t _ ih =>
    cases h' with
    | apos _ u h' => rw [ih u h']
    | other _ _ _ hc _ => exact absurd rfl hc
  | other c s t hc _ ih =>
    cases h' with
    | other _ _ u _ h' => rw [ih u h']
    | amp => exact absurd rfl hc
    | lt => exact absurd rfl hc
    | gt => exact absurd rfl hc
    | quot => exact absurd rfl hc
    | apos => exact absurd rfl hc

/-- C298: text of a type without a detail stands beside spans as it is: not escaped. -/
theorem C298_not_escaped_violated (c : Nat) (s t : Text) (hs : s ≠ [10]) (dec cls : Nat → Text) :
    stream none [(some (.html (some c)), s), (none, t)] = [.spanStart c, .escaped s, .spanEnd, .text t] ∧
      render dec cls (.text t) = t := by
  simp [stream, step, start, finish, transform, hs, render]

/-- C298: a line break is `<br>` only when it stands alone: among other characters it stays a line break,
which a browser shows as a space. -/
theorem C298_line_break_stays_violated (c : Option Nat) (s t : Text) (h : s ≠ [] ∨ t ≠ []) :
    transform (.html c) (s ++ 10 :: t) = [.escaped (s ++ 10 :: t)] ∧ 10 ∈ escape (s ++ 10 :: t) ∧
      transform (.html c) [10] = [.br] := by
  have hne : s ++ 10 :: t ≠ [10] := by
    rcases s with _ | ⟨x, s⟩
    · rcases t with _ | ⟨y, t⟩
      · simp at h
      · simp
    · simp
  refine ⟨?_, ?_, rfl⟩
  · unfold transform
    simp only
    rw [if_neg hne]
  · exact List.mem_flatMap.2 ⟨10, by simp, by decide⟩

end Verif.Styling
