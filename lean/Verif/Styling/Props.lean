import Verif.Styling.Model

/-!
# Styling: what a terminal and a browser show
-/

namespace Verif.Styling

/-! ## A terminal -/

/-- What a terminal draws with: decorations (each once, the last first), colours. -/
structure Style where
  decos : List Nat
  bg : Option Color
  fg : Option Color
  deriving DecidableEq, Repr

def plain : Style := ⟨[], none, none⟩

/-- A terminal takes the numbers of a format code (ECMA-48 SGR with direct colours): `0` takes everything
away, `48;2;r;g;b` and `38;2;r;g;b` replace a colour, any other number adds a decoration. -/
def sgr : Style → List Nat → Style
  | s, [] => s
  | s, 48 :: 2 :: r :: g :: b :: ps => sgr { s with bg := some (r, g, b) } ps
  | s, 38 :: 2 :: r :: g :: b :: ps => sgr { s with fg := some (r, g, b) } ps
  | _, 0 :: ps => sgr plain ps
  | s, d :: ps => sgr { s with decos := if d ∈ s.decos then s.decos else d :: s.decos } ps

/-- What a terminal shows. -/
def shown : Style → List Ev → List (Style × Text)
  | _, [] => []
  | s, .sgr ps :: es => shown (sgr s ps) es
  | s, .text t :: es => (s, t) :: shown s es
  | s, _ :: es => shown s es

/-- How a terminal is left. -/
def left : Style → List Ev → Style
  | s, [] => s
  | s, .sgr ps :: es => left (sgr s ps) es
  | s, _ :: es => left s es

/-- The style a detail asks for. -/
def wanted : Option Ansi → Style
  | none => plain
  | some a => ⟨a.deco.toList, a.bg, a.fg⟩

/-- A decoration is one of `1`–`9`. -/
def Fine (o : Option Ansi) : Prop := ∀ a d, o = some a → a.deco = some d → 1 ≤ d ∧ d ≤ 9

/-- From one item to the next the decoration does not change into another one, unless a colour goes at
the same time. -/
def Calm (o o' : Option Ansi) : Prop :=
  ∀ a b d e, o = some a → o' = some b → a.deco = some d → b.deco = some e →
    d = e ∨ (a.bg ≠ none ∧ b.bg = none) ∨ (a.fg ≠ none ∧ b.fg = none)

inductive AllCalm : Option Ansi → List (Option Ansi × Text) → Prop
  | nil (o : Option Ansi) : AllCalm o []
  | cons (o o' : Option Ansi) (t : Text) (items : List (Option Ansi × Text)) :
      Fine o' → Calm o o' → AllCalm o' items → AllCalm o ((o', t) :: items)

def lift (items : List (Option Ansi × Text)) : List (Option Detail × Text) :=
  items.map fun p => (p.1.map Detail.ansi, p.2)

theorem shown_append (s : Style) (x y : List Ev) : shown s (x ++ y) = shown s x ++ shown (left s x) y := by
  induction x generalizing s with
  | nil => rfl
  | cons e x ih => cases e <;> simp [shown, left, ih]

theorem left_append (s : Style) (x y : List Ev) : left s (x ++ y) = left (left s x) y := by
  induction x generalizing s with
  | nil => rfl
  | cons e x ih => cases e <;> simp [left, ih]

theorem shown_produce (s : Style) (r : Bool) (d : Option Nat) (b f : Option Color) :
    shown s (produce r d b f) = [] := by
  unfold produce
  split <;> rfl

theorem left_produce (s : Style) (r : Bool) (d : Option Nat) (b f : Option Color) :
    left s (produce r d b f) =
      sgr s ((if r then [0] else []) ++ d.toList ++ color 48 b ++ color 38 f) := by
  unfold produce
  split
  · rename_i h; rw [h]; rfl
  · rename_i h; rw [h]; rfl

theorem sgr_color (s : Style) (b f : Option Color) :
    sgr s (color 48 b ++ color 38 f) = { s with bg := b.or s.bg, fg := f.or s.fg } := by
  rcases b with _ | ⟨r, g, b⟩ <;> rcases f with _ | ⟨r', g', b'⟩ <;> simp [color, sgr]

theorem sgr_deco (s : Style) (d : Nat) (ps : List Nat) (h : 1 ≤ d ∧ d ≤ 9) :
    sgr s (d :: ps) = sgr { s with decos := if d ∈ s.decos then s.decos else d :: s.decos } ps := by
  have : d = 1 ∨ d = 2 ∨ d = 3 ∨ d = 4 ∨ d = 5 ∨ d = 6 ∨ d = 7 ∨ d = 8 ∨ d = 9 := by omega
  rcases this with rfl | rfl | rfl | rfl | rfl | rfl | rfl | rfl | rfl <;> simp [sgr]

theorem sgr_zero (s : Style) (ps : List Nat) : sgr s (0 :: ps) = sgr plain ps := by simp [sgr]

/-- What any code which is produced does. -/
theorem left_code (s : Style) (r : Bool) (d : Option Nat) (b f : Option Color)
    (h : ∀ x, d = some x → 1 ≤ x ∧ x ≤ 9) :
    left s (produce r d b f) =
      let s' := if r then plain else s
      let s'' := match d with
        | none => s'
        | some x => { s' with decos := if x ∈ s'.decos then s'.decos else x :: s'.decos }
      { s'' with bg := b.or s''.bg, fg := f.or s''.fg } := by
  rw [left_produce]
  cases r <;> rcases d with _ | x
  · simpa using sgr_color s b f
  · simp only [Bool.false_eq_true, if_false, List.nil_append, Option.toList_some, List.cons_append]
    rw [sgr_deco _ _ _ (h x rfl), sgr_color]
  · simp only [if_true, List.cons_append, Option.toList_none, List.nil_append]
    rw [sgr_zero, sgr_color]
  · simp only [if_true, List.cons_append, Option.toList_some, List.nil_append]
    rw [sgr_zero, sgr_deco _ _ _ (h x rfl), sgr_color]

theorem changed_or (o n : Option Color) (h : ¬(o ≠ none ∧ n = none)) : (changed o n).or o = n := by
  unfold changed
  split
  · subst_vars; rfl
  · rcases n with _ | n
    · rcases o with _ | o
      · rfl
      · exact absurd ⟨by simp, rfl⟩ h
    · rfl

theorem left_transition (a b : Ansi) (hb : Fine (some b)) (hc : Calm (some a) (some b)) :
    left (wanted (some a)) (transitionAnsi a b) = wanted (some b) := by
  have hb' : ∀ x, b.deco = some x → 1 ≤ x ∧ x ≤ 9 := fun x hx => hb b x rfl hx
  have hc' := hc a b
  unfold transitionAnsi
  split
  · rw [left_code _ _ _ _ _ hb']
    rcases b with ⟨_ | x, bb, bf⟩ <;> simp [wanted, plain]
  · rename_i hr
    have hbg := changed_or a.bg b.bg (fun h => hr (.inl h))
    have hfg := changed_or a.fg b.fg (fun h => hr (.inr (.inl h)))
    rw [left_code]
    · rcases a with ⟨_ | d, ab, af⟩ <;> rcases b with ⟨_ | x, bb, bf⟩
      · simpa [wanted, changed] using ⟨hbg, hfg⟩
      · simpa [wanted, changed] using ⟨hbg, hfg⟩
      · exact absurd (.inr (.inr ⟨by simp, rfl⟩)) hr
      · have e : d = x := by
          rcases hc' d x rfl rfl rfl rfl with h | h | h
          · exact h
          · exact absurd (.inl h) hr
          · exact absurd (.inr (.inl h)) hr
        subst e
        dsimp only at hbg hfg
        simp [wanted, changed] at *
        exact ⟨hbg, hfg⟩
    · intro x hx
      unfold changed at hx
      split at hx
      · cases hx
      · exact hb' x hx

theorem shown_transition (s : Style) (a b : Ansi) : shown s (transitionAnsi a b) = [] := by
  unfold transitionAnsi
  split <;> exact shown_produce _ _ _ _ _

theorem left_finish (s : Style) (a : Ansi) : left s (finish (.ansi a)) = plain := by
  simp [finish, produce, left, sgr, color]

theorem shown_finish (s : Style) (a : Ansi) : shown s (finish (.ansi a)) = [] := by
  unfold finish
  exact shown_produce _ _ _ _ _

theorem step_shown (o o' : Option Ansi) (t : Text) (hf : Fine o') (hc : Calm o o') :
    shown (wanted o) (step (o.map .ansi) (o'.map .ansi) t) = [(wanted o', t)] ∧
      left (wanted o) (step (o.map .ansi) (o'.map .ansi) t) = wanted o' := by
  rcases o with _ | a <;> rcases o' with _ | b
  · exact ⟨rfl, rfl⟩
  · have hl : left (wanted none) (start (.ansi b)) = wanted (some b) := by
      unfold start
      rw [left_code _ _ _ _ _ (fun x hx => hf b x rfl hx)]
      rcases b with ⟨_ | x, bb, bf⟩ <;> simp [wanted, plain]
    simp only [Option.map, step, transform]
    rw [shown_append, left_append, hl]
    exact ⟨by rw [show shown (wanted none) (start (.ansi b)) = [] from shown_produce _ _ _ _ _]; rfl, rfl⟩
  · simp only [Option.map, step]
    rw [shown_append, left_append, left_finish, shown_finish]
    exact ⟨rfl, rfl⟩
  · simp only [Option.map, step, transform]
    rw [shown_append, left_append, left_transition a b hf hc, shown_transition]
    exact ⟨rfl, rfl⟩

/-- C294 (partial), full statement: a terminal shows every piece of highlighted text in the style its type
has, and is left as it was found. Proved for items between which no decoration changes into another. -/
theorem C294_shown_as_wanted_partial (items : List (Option Ansi × Text)) (h : AllCalm none items) :
    shown plain (stream none (lift items)) = items.map (fun p => (wanted p.1, p.2)) ∧
      left plain (stream none (lift items)) = plain := by
  suffices H : ∀ o, AllCalm o items →
      shown (wanted o) (stream (o.map .ansi) (lift items)) = items.map (fun p => (wanted p.1, p.2)) ∧
        left (wanted o) (stream (o.map .ansi) (lift items)) = plain from H none h
  intro o ho
  clear h
  induction items generalizing o with
  | nil =>
    rcases o with _ | a
    · exact ⟨rfl, rfl⟩
    · exact ⟨shown_finish _ a, left_finish _ a⟩
  | cons p items ih =>
    cases ho with
    | cons o o' t items hf hc hr =>
      have h1 := step_shown o o' t hf hc
      have h2 := ih o' hr
      have e : stream (o.map .ansi) (lift ((o', t) :: items)) =
          step (o.map .ansi) (o'.map .ansi) t ++ stream (o'.map .ansi) (lift items) := by
        rcases o with _ | a <;> rfl
      rw [e, shown_append, left_append, h1.1, h1.2, h2.1, h2.2]
      exact ⟨rfl, rfl⟩

example : AllCalm none [(some ⟨some 1, none, some (1, 2, 3)⟩, [97]), (some ⟨some 1, none, none⟩, [98]), (none, [99])] := by
  refine .cons _ _ _ _ ?_ ?_ (.cons _ _ _ _ ?_ ?_ (.cons _ _ _ _ ?_ ?_ (.nil _)))
  all_goals (intro a; intros; simp_all)
  all_goals (subst_vars; simp_all)
  all_goals omega

/-- C294: the terminal is always left as it was found. -/
theorem C294_left_plain (items : List (Option Ansi × Text)) (o : Option Ansi) (s : Style)
    (hs : o = none → s = plain) : left s (stream (o.map .ansi) (lift items)) = plain := by
  induction items generalizing o s with
  | nil =>
    rcases o with _ | a
    · exact hs rfl
    · exact left_finish s a
  | cons p items ih =>
    rcases p with ⟨o', t⟩
    have e : stream (o.map .ansi) (lift ((o', t) :: items)) =
        step (o.map .ansi) (o'.map .ansi) t ++ stream (o'.map .ansi) (lift items) := by
      rcases o with _ | a <;> rfl
    rw [e, left_append]
    refine ih o' _ ?_
    rintro rfl
    rcases o with _ | a
    · rw [hs rfl]; rfl
    · simp only [Option.map, step]
      rw [left_append, left_finish]
      rfl

theorem code_colours (s : Style) (r : Bool) (d : Option Nat) (b f : Option Color)
    (h : ∀ x, d = some x → 1 ≤ x ∧ x ≤ 9) :
    (left s (produce r d b f)).bg = b.or (if r then none else s.bg) ∧
      (left s (produce r d b f)).fg = f.or (if r then none else s.fg) := by
  rw [left_code _ _ _ _ _ h]
  cases r <;> cases d <;> exact ⟨rfl, rfl⟩

/-- C294: colours are always right, also when decorations change. -/
theorem C294_colours_partial (items : List (Option Ansi × Text)) (h : ∀ p ∈ items, Fine p.1) :
    (shown plain (stream none (lift items))).map (fun p => (p.1.bg, p.1.fg, p.2)) =
      items.map (fun p => (p.1.bind (·.bg), p.1.bind (·.fg), p.2)) := by
  suffices H : ∀ (o : Option Ansi) (s : Style), s.bg = o.bind (·.bg) → s.fg = o.bind (·.fg) →
      (shown s (stream (o.map .ansi) (lift items))).map (fun p => (p.1.bg, p.1.fg, p.2)) =
        items.map (fun p => (p.1.bind (·.bg), p.1.bind (·.fg), p.2)) from H none plain rfl rfl
  induction items with
  | nil =>
    intro o s _ _
    rcases o with _ | a
    · rfl
    · show (shown s (finish (.ansi a))).map _ = _
      rw [shown_finish]; rfl
  | cons p items ih =>
    intro o s hb hf
    rcases p with ⟨o', t⟩
    have hfine := h (o', t) (by simp)
    have e : stream (o.map .ansi) (lift ((o', t) :: items)) =
        step (o.map .ansi) (o'.map .ansi) t ++ stream (o'.map .ansi) (lift items) := by
      rcases o with _ | a <;> rfl
    have ih' := ih (fun p hp => h p (by simp [hp])) o'
    have key : ∀ x : List Ev, step (o.map .ansi) (o'.map .ansi) t = x ++ [.text t] → shown s x = [] →
        (left s x).bg = o'.bind (·.bg) → (left s x).fg = o'.bind (·.fg) →
        (shown s (stream (o.map .ansi) (lift ((o', t) :: items)))).map (fun p => (p.1.bg, p.1.fg, p.2)) =
          ((o', t) :: items).map (fun p => (p.1.bind (·.bg), p.1.bind (·.fg), p.2)) := by
      intro x hx hs h1 h2
      rw [e, hx, List.append_assoc, shown_append, hs, List.nil_append]
      show ((left s x, t) :: shown (left s x) (stream (o'.map .ansi) (lift items))).map _ = _
      rw [List.map_cons, List.map_cons, ih' _ h1 h2, h1, h2]
    rcases o with _ | a <;> rcases o' with _ | b
    · exact key [] rfl rfl hb hf
    · have hc := code_colours s false b.deco b.bg b.fg (fun x hx => hfine b x rfl hx)
      have hb' : s.bg = none := hb
      have hf' : s.fg = none := hf
      refine key (start (.ansi b)) rfl (shown_produce _ _ _ _ _) ?_ ?_
      · exact hc.1.trans (by simp [hb'])
      · exact hc.2.trans (by simp [hf'])
    · refine key (finish (.ansi a)) rfl (shown_finish _ _) ?_ ?_
      · rw [left_finish]; rfl
      · rw [left_finish]; rfl
    · refine key (transitionAnsi a b) rfl (shown_transition _ _ _) ?_ ?_
      all_goals
        have hb' : s.bg = a.bg := hb
        have hf' : s.fg = a.fg := hf
        unfold transitionAnsi
        split
      · exact (code_colours s true b.deco b.bg b.fg (fun x hx => hfine b x rfl hx)).1.trans (by simp)
      · rename_i hr
        rw [(code_colours s false _ _ _ (by
          intro x hx
          unfold changed at hx
          split at hx
          · cases hx
          · exact hfine b x rfl hx)).1]
        simpa [hb'] using changed_or a.bg b.bg (fun h => hr (.inl h))
      · exact (code_colours s true b.deco b.bg b.fg (fun x hx => hfine b x rfl hx)).2.trans (by simp)
      · rename_i hr
        rw [(code_colours s false _ _ _ (by
          intro x hx
          unfold changed at hx
          split at hx
          · cases hx
          · exact hfine b x rfl hx)).2]
        simpa [hf'] using changed_or a.fg b.fg (fun h => hr (.inr (.inl h)))

/-- C294: a decoration which changes into another one is added to it: text that shall only be drawn with
the second is drawn with both. -/
theorem C294_decorations_add_up_violated (d e : Nat) (t u : Text) (hd : 1 ≤ d ∧ d ≤ 9) (he : 1 ≤ e ∧ e ≤ 9)
    (hde : d ≠ e) :
    shown plain (stream none (lift [(some ⟨some d, none, none⟩, t), (some ⟨some e, none, none⟩, u)])) =
        [(⟨[d], none, none⟩, t), (⟨[e, d], none, none⟩, u)] ∧
      wanted (some ⟨some e, none, none⟩) = ⟨[e], none, none⟩ := by
  have hde' : e ≠ d := fun h => hde h.symm
  refine ⟨?_, rfl⟩
  simp [lift, stream, step, start, produce, transform, transitionAnsi, changed, color, shown, finish, hde,
    sgr_deco _ _ _ hd, sgr_deco _ _ _ he, sgr, plain, hde']

/-! ## Text without the codes -/

/-- A terminal shows all of the text, in its order, whatever the details are. -/
theorem C295_all_text (items : List (Option Ansi × Text)) (s : Style) :
    (shown s (stream none (lift items))).map Prod.snd = items.map Prod.snd := by
  suffices H : ∀ (o : Option Ansi) (s : Style),
      (shown s (stream (o.map .ansi) (lift items))).map Prod.snd = items.map Prod.snd from H none s
  induction items with
  | nil =>
    intro o s
    rcases o with _ | a
    · rfl
    · show (shown s (finish (.ansi a))).map Prod.snd = _
      rw [shown_finish]; rfl
  | cons p items ih =>
    intro o s
    rcases p with ⟨o', t⟩
    have e : stream (o.map .ansi) (lift ((o', t) :: items)) =
        step (o.map .ansi) (o'.map .ansi) t ++ stream (o'.map .ansi) (lift items) := by
      rcases o with _ | a <;> rfl
    have h1 : (shown s (step (o.map .ansi) (o'.map .ansi) t)).map Prod.snd = [t] := by
      rcases o with _ | a <;> rcases o' with _ | b
      · rfl
      · simp only [Option.map, step, transform]
        rw [shown_append, show shown s (start (.ansi b)) = [] from shown_produce _ _ _ _ _]; rfl
      · simp only [Option.map, step]
        rw [shown_append, shown_finish]; rfl
      · simp only [Option.map, step, transform]
        rw [shown_append, shown_transition]; rfl
    rw [e, shown_append, List.map_append, h1, ih]
    rfl

end Verif.Styling
