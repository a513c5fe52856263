import Verif.Styling.Props

/-!
# Styling: splitting format codes off
-/

namespace Verif.Styling

/-- A digit or `;`. -/
def Param (c : Nat) : Prop := c = 59 ∨ (48 ≤ c ∧ c ≤ 57)

/-- A latin letter. -/
def Letter (c : Nat) : Prop := (97 ≤ c ∧ c ≤ 122) ∨ (65 ≤ c ∧ c ≤ 90)

def marked (b : Bool) (t : Text) : List (Bool × Nat) := t.map fun c => (b, c)

/-- What a text with format codes consists of: characters, and codes. A code is an escape character, which
`[`, digits and `;`, and a letter follow; what of these follows belongs to it. -/
inductive Splits : Text → List (Bool × Nat) → Prop
  | nil : Splits [] []
  | text (c : Nat) (s : Text) (o : List (Bool × Nat)) : c ≠ 27 → Splits s o → Splits (c :: s) ((false, c) :: o)
  | escape (s : Text) (o : List (Bool × Nat)) : s.head? ≠ some 91 → Splits s o → Splits (27 :: s) ((true, 27) :: o)
  | cut (ds s : Text) (o : List (Bool × Nat)) : (∀ d ∈ ds, Param d) →
      (∀ c, s.head? = some c → ¬Param c ∧ ¬Letter c) → Splits s o →
      Splits (27 :: 91 :: (ds ++ s)) (marked true (27 :: 91 :: ds) ++ o)
  | full (ds : Text) (l : Nat) (s : Text) (o : List (Bool × Nat)) : (∀ d ∈ ds, Param d) → Letter l → Splits s o →
      Splits (27 :: 91 :: (ds ++ l :: s)) (marked true (27 :: 91 :: (ds ++ [l])) ++ o)

theorem isParam_iff (c : Nat) : isParam c = true ↔ Param c := by
  unfold isParam Param
  simp
  omega

theorem isLetter_iff (c : Nat) : isLetter c = true ↔ Letter c := by
  unfold isLetter Letter
  simp
  omega

theorem Letter.not_param {c : Nat} (h : Letter c) : ¬Param c := by
  unfold Letter at h
  unfold Param
  omega

theorem params_nil_or (c : Nat) (cs : Text) (h : ¬Param c) (hl : ¬Letter c) :
    split .params (c :: cs) = split .text (c :: cs) := by
  rw [← isParam_iff] at h
  rw [← isLetter_iff] at hl
  simp [split, h, hl]

theorem params_letter (c : Nat) (cs : Text) (hl : Letter c) :
    split .params (c :: cs) = (true, c) :: split .text cs := by
  have h := hl.not_param
  rw [← isParam_iff] at h
  rw [← isLetter_iff] at hl
  simp [split, h, hl]

theorem params_append (ds s : Text) (h : ∀ d ∈ ds, Param d) :
    split .params (ds ++ s) = marked true ds ++ split .params s := by
  induction ds with
  | nil => rfl
  | cons d ds ih =>
    have hd := (isParam_iff d).2 (h d (by simp))
    have := ih (fun x hx => h x (by simp [hx]))
    simp [split, hd, this, marked]

theorem exists_params (s : Text) : ∃ ds r : Text, s = ds ++ r ∧ (∀ d ∈ ds, Param d) ∧
    ∀ c, r.head? = some c → ¬Param c := by
  induction s with
  | nil => exact ⟨[], [], rfl, by simp, by simp⟩
  | cons c s ih =>
    by_cases hc : Param c
    · obtain ⟨ds, r, h1, h2, h3⟩ := ih
      refine ⟨c :: ds, r, by simp [h1], ?_, h3⟩
      intro d hd
      rcases List.mem_cons.1 hd with rfl | hd
      · exact hc
      · exact h2 d hd
    · exact ⟨[], c :: s, rfl, by simp, by simp [hc]⟩

theorem bracket_other (s : Text) (h : s.head? ≠ some 91) : split .bracket s = split .text s := by
  rcases s with _ | ⟨c, s⟩
  · rfl
  · have : c ≠ 91 := by simpa using h
    simp [split, this]

/-- C296: every text is split into its characters and codes. -/
theorem C296_split (s : Text) : Splits s (split .text s) := by
  suffices H : ∀ n (s : Text), s.length ≤ n → Splits s (split .text s) from H s.length s (Nat.le_refl _)
  intro n
  induction n with
  | zero =>
    intro s hs
    have : s = [] := List.length_eq_zero_iff.1 (by omega)
    subst this
    exact .nil
  | succ n ih =>
    intro s hs
    rcases s with _ | ⟨c, s⟩
    · exact .nil
    · have hs' : s.length ≤ n := by simpa using hs
      by_cases hc : c = 27
      · subst hc
        have e : split .text (27 :: s) = (true, 27) :: split .bracket s := by simp [split]
        by_cases hb : s.head? = some 91
        · rcases s with _ | ⟨d, s⟩
          · simp at hb
          · have hd : d = 91 := by simpa using hb
            subst hd
            have hs'' : s.length ≤ n := by simp at hs'; omega
            have e2 : split .bracket (91 :: s) = (true, 91) :: split .params s := by simp [split]
            obtain ⟨ds, r, h1, h2, h3⟩ := exists_params s
            subst h1
            rw [e, e2, params_append ds r h2]
            rcases r with _ | ⟨l, r⟩
            · exact .cut ds [] [] h2 (by simp) .nil
            · have hl := h3 l rfl
              by_cases hll : Letter l
              · rw [params_letter l r hll]
                have := Splits.full ds l r _ h2 hll (ih r (by simp at hs''; omega))
                simpa [marked] using this
              · rw [params_nil_or l r hl hll]
                refine .cut ds (l :: r) _ h2 ?_ (ih (l :: r) (by simp at hs''; simp; omega))
                intro c hc
                have : l = c := by simpa using hc
                subst this
                exact ⟨hl, hll⟩
        · rw [e, bracket_other s hb]
          exact .escape s _ hb (ih s hs')
      · have e : split .text (c :: s) = (false, c) :: split .text s := by simp [split, hc]
        rw [e]
        exact .text c s _ hc (ih s hs')

/-- C296: and there is no other way to split it. -/
theorem C296_only (s : Text) (o : List (Bool × Nat)) (h : Splits s o) : o = split .text s := by
  induction h with
  | nil => rfl
  | text c s o hc _ ih => simp [split, hc, ih]
  | escape s o hb _ ih =>
    have e : split .text (27 :: s) = (true, 27) :: split .bracket s := by simp [split]
    rw [e, bracket_other s hb, ih]
  | cut ds s o hds hs _ ih =>
    have e : split .text (27 :: 91 :: (ds ++ s)) = (true, 27) :: (true, 91) :: split .params (ds ++ s) := by
      simp [split]
    rw [e, params_append ds s hds, ih]
    rcases s with _ | ⟨c, s⟩
    · simp [marked, split]
    · rw [params_nil_or c s (hs c rfl).1 (hs c rfl).2]
      simp [marked]
  | full ds l s o hds hl _ ih =>
    have e : split .text (27 :: 91 :: (ds ++ l :: s)) = (true, 27) :: (true, 91) :: split .params (ds ++ l :: s) := by
      simp [split]
    rw [e, params_append ds _ hds, params_letter l s hl, ih]
    simp [marked]

/-- C296: nothing is lost by splitting. -/
theorem C296_all_characters (m : Mode) (s : Text) : (split m s).map Prod.snd = s := by
  induction s generalizing m with
  | nil => cases m <;> rfl
  | cons c s ih =>
    cases m <;> simp only [split] <;> (repeat' split) <;> simp [ih]

example : split .text [97, 27, 91, 49, 109, 98, 27, 99] =
    [(false, 97), (true, 27), (true, 91), (true, 49), (true, 109), (false, 98), (true, 27), (false, 99)] := by decide

/-! ## Streams -/

/-- The characters of a stream, without where its parts end. -/
def chars : List Tok → Text
  | [] => []
  | .ch c :: ts => c :: chars ts
  | .brk :: ts => chars ts

/-- No code is broken off by a character which can not be there. -/
inductive Whole : Mode → Text → Prop
  | nil (m : Mode) : Whole m []
  | text (c : Nat) (s : Text) : c ≠ 27 → Whole .text s → Whole .text (c :: s)
  | escape (s : Text) : Whole .bracket s → Whole .text (27 :: s)
  | bracket (s : Text) : Whole .params s → Whole .bracket (91 :: s)
  | param (c : Nat) (s : Text) : Param c → Whole .params s → Whole .params (c :: s)
  | letter (c : Nat) (s : Text) : Letter c → Whole .text s → Whole .params (c :: s)

/-- C297: nothing of a stream is lost by splitting it. -/
theorem C297_all_characters (m : Mode) (stale : Bool) (ts : List Tok) :
    (splitStream m stale ts).map Prod.snd = chars ts := by
  induction ts generalizing m stale with
  | nil => cases m <;> rfl
  | cons t ts ih =>
    cases t <;> cases m <;> simp only [splitStream, chars] <;> (repeat' split) <;> simp [ih]

theorem stream_whole (m : Mode) (ts : List Tok) (h : Whole m (chars ts)) :
    splitStream m false ts = split m (chars ts) := by
  induction ts generalizing m with
  | nil => cases m <;> rfl
  | cons t ts ih =>
    cases t with
    | brk =>
      have h' : Whole m (chars ts) := h
      have e : splitStream m false (.brk :: ts) = splitStream m false ts := by cases m <;> simp [splitStream]
      rw [e]
      exact ih m h'
    | ch c =>
      have h' : Whole m (c :: chars ts) := h
      show _ = split m (c :: chars ts)
      cases h' with
      | text c s hc hw => simp [splitStream, split, hc, ih _ hw]
      | escape s hw => simp [splitStream, split, ih _ hw]
      | bracket s hw => simp [splitStream, split, ih _ hw]
      | param c s hc hw =>
        have := (isParam_iff c).2 hc
        simp [splitStream, split, this, ih _ hw]
      | letter c s hc hw =>
        have h2 := (isLetter_iff c).2 hc
        have h1 := hc.not_param
        rw [← isParam_iff] at h1
        simp [splitStream, split, h1, h2, ih _ hw]

/-- C297 (partial), full statement: a stream is split like its text, however it is cut into parts. Proved
for texts whose codes are not broken off. -/
theorem C297_like_its_text_partial (ts : List Tok) (h : Whole .text (chars ts)) : Splits (chars ts) (splitStream .text false ts) := by
  rw [stream_whole .text ts h]
  exact C296_split _

example : Whole .text (chars [.ch 27, .brk, .ch 91, .ch 49, .brk, .ch 109, .ch 98]) :=
  .escape _ (.bracket _ (.param _ _ (.inr (by omega)) (.letter _ _ (.inl (by omega)) (.text _ _ (by decide) (.nil _)))))

/-- C297: a stream of a single part is split like its text, whatever is in it. -/
theorem C297_single_part_partial (s : Text) : Splits s (splitStream .text false (s.map Tok.ch ++ [.brk])) := by
  have H : ∀ (s : Text) (m : Mode) (b : Bool), splitStream m b (s.map Tok.ch ++ [.brk]) = split m s := by
    intro s
    induction s with
    | nil => intro m b; cases m <;> cases b <;> rfl
    | cons c s ih =>
      intro m b
      cases m <;> simp only [List.map_cons, List.cons_append, splitStream, split, ih]
  rw [H]
  exact C296_split s

/-- C297: behind a broken code the next part is taken for the inside of a code: a `[` at its begin, which
is a character of the text, is taken for a format code, together with what follows it. -/
theorem C297_text_taken_for_a_code_violated (c : Nat) (ts : List Tok) (h : c ≠ 27) (hb : c ≠ 91) :
    splitStream .text false (.ch 27 :: .ch c :: .brk :: .ch 91 :: ts) =
        (true, 27) :: (false, c) :: (true, 91) :: splitStream .params false ts ∧
      ¬Splits (chars (.ch 27 :: .ch c :: .brk :: .ch 91 :: ts))
        (splitStream .text false (.ch 27 :: .ch c :: .brk :: .ch 91 :: ts)) := by
  have e : splitStream .text false (.ch 27 :: .ch c :: .brk :: .ch 91 :: ts) =
      (true, 27) :: (false, c) :: (true, 91) :: splitStream .params false ts := by
    simp [splitStream, h, hb]
  refine ⟨e, ?_⟩
  intro hs
  have := C296_only _ _ hs
  rw [e] at this
  simp [chars, split, h, hb] at this

/-! ## Highlighted text -/

/-- Format codes and text without escape characters. -/
def Tame : Ev → Prop
  | .sgr _ => True
  | .text t => 27 ∉ t
  | _ => False

theorem joined_params (dec : Nat → Text) (hd : ∀ n, ∀ c ∈ dec n, Param c) (ps : List Nat) :
    ∀ c ∈ joined dec ps, Param c := by
  induction ps with
  | nil => simp [joined]
  | cons p ps ih =>
    rcases ps with _ | ⟨q, ps⟩
    · exact hd p
    · intro c hc
      simp only [joined, List.mem_append, List.mem_cons] at hc
      rcases hc with hc | rfl | hc
      · exact hd p c hc
      · exact .inl rfl
      · exact ih c hc

theorem split_texts (t s : Text) (h : 27 ∉ t) : split .text (t ++ s) = marked false t ++ split .text s := by
  induction t with
  | nil => rfl
  | cons c t ih =>
    have hc : c ≠ 27 := fun e => h (by simp [e])
    have := ih (fun e => h (by simp [e]))
    simp [split, hc, this, marked]

theorem split_sgr (dec : Nat → Text) (hd : ∀ n, ∀ c ∈ dec n, Param c) (ps : List Nat) (s : Text) :
    split .text (27 :: 91 :: joined dec ps ++ [109] ++ s) =
      marked true (27 :: 91 :: joined dec ps ++ [109]) ++ split .text s := by
  have e : split .text (27 :: 91 :: joined dec ps ++ [109] ++ s) =
      (true, 27) :: (true, 91) :: split .params (joined dec ps ++ 109 :: s) := by simp [split]
  rw [e, params_append _ _ (joined_params dec hd ps), params_letter 109 s (.inl (by omega))]
  simp [marked]

theorem stripped (dec cls : Nat → Text) (hd : ∀ n, ∀ c ∈ dec n, Param c) (es : List Ev) (h : ∀ e ∈ es, Tame e)
    (s : Style) :
    ((split .text (es.flatMap (render dec cls))).filter (fun p => !p.1)).map Prod.snd =
      (shown s es).flatMap Prod.snd := by
  induction es generalizing s with
  | nil => rfl
  | cons e es ih =>
    have he := h e (by simp)
    have ih' := fun s => ih (fun x hx => h x (by simp [hx])) s
    have hf : ∀ t : Text, ((marked false t).filter (fun p => !p.1)).map Prod.snd = t := by
      intro t; induction t with
      | nil => rfl
      | cons c t ih => simpa [marked] using ih
    have hm : ∀ t : Text, (marked true t).filter (fun p => !p.1) = [] := by
      intro t; simp [marked]
    rw [List.flatMap_cons]
    cases e with
    | sgr ps =>
      show List.map _ (List.filter _ (split .text (27 :: 91 :: joined dec ps ++ [109] ++ _))) = _
      rw [split_sgr dec hd, List.filter_append, hm, List.nil_append, ih' (sgr s ps)]
      rfl
    | text t =>
      show List.map _ (List.filter _ (split .text (t ++ _))) = _
      rw [split_texts t _ he, List.filter_append, List.map_append, hf, ih' s]
      rfl
    | spanStart c => exact he.elim
    | spanEnd => exact he.elim
    | escaped t => exact he.elim
    | br => exact he.elim

theorem tame_produce (r : Bool) (d : Option Nat) (b f : Option Color) : ∀ e ∈ produce r d b f, Tame e := by
  unfold produce
  split <;> simp [Tame]

theorem tame_finish (a : Ansi) : ∀ e ∈ finish (.ansi a), Tame e := by
  unfold finish
  exact tame_produce _ _ _ _

theorem tame_step (o o' : Option Ansi) (t : Text) (h : 27 ∉ t) :
    ∀ e ∈ step (o.map .ansi) (o'.map .ansi) t, Tame e := by
  have ht : ∀ e ∈ [Ev.text t], Tame e := by simpa [Tame] using h
  have app : ∀ x y : List Ev, (∀ e ∈ x, Tame e) → (∀ e ∈ y, Tame e) → ∀ e ∈ x ++ y, Tame e := by
    intro x y hx hy e he
    rcases List.mem_append.1 he with he | he
    · exact hx e he
    · exact hy e he
  rcases o with _ | a <;> rcases o' with _ | b
  · exact ht
  · exact app _ _ (tame_produce _ _ _ _) ht
  · exact app _ _ (tame_finish a) ht
  · refine app _ _ ?_ ht
    unfold transitionAnsi
    split <;> exact tame_produce _ _ _ _

theorem tame_stream (items : List (Option Ansi × Text)) (h : ∀ p ∈ items, 27 ∉ p.2) (o : Option Ansi) :
    ∀ e ∈ stream (o.map .ansi) (lift items), Tame e := by
  induction items generalizing o with
  | nil =>
    rcases o with _ | a
    · simp [lift, stream]
    · exact tame_finish a
  | cons p items ih =>
    rcases p with ⟨o', t⟩
    have e : stream (o.map .ansi) (lift ((o', t) :: items)) =
        step (o.map .ansi) (o'.map .ansi) t ++ stream (o'.map .ansi) (lift items) := by
      rcases o with _ | a <;> rfl
    intro x hx
    rw [e] at hx
    rcases List.mem_append.1 hx with hx | hx
    · exact tame_step o o' t (h (o', t) (by simp)) x hx
    · exact ih (fun p hp => h p (by simp [hp])) o' x hx

/-- C295: what is left of highlighted text when the format codes are split off is the text. -/
theorem C295_codes_split_off (dec cls : Nat → Text) (hd : ∀ n, ∀ c ∈ dec n, Param c)
    (items : List (Option Ansi × Text)) (h : ∀ p ∈ items, 27 ∉ p.2) :
    ((split .text ((stream none (lift items)).flatMap (render dec cls))).filter (fun p => !p.1)).map Prod.snd =
      items.flatMap Prod.snd := by
  rw [stripped dec cls hd (stream none (lift items)) (tame_stream items h none) plain]
  have := C295_all_text items plain
  have e : ∀ l : List (Style × Text), l.flatMap Prod.snd = (l.map Prod.snd).flatten := fun l => by
    rw [List.flatMap_def]
  rw [e, this, List.flatMap_def]

example : ((split .text ((stream none (lift [(some ⟨some 1, none, none⟩, [97]), (none, [98])])).flatMap
    (render (fun n => [48 + n % 10]) (fun _ => [])))).filter (fun p => !p.1)).map Prod.snd = [97, 98] := by decide

theorem whole_texts (t s : Text) (h : 27 ∉ t) (hs : Whole .text s) : Whole .text (t ++ s) := by
  induction t with
  | nil => exact hs
  | cons c t ih => exact .text c _ (fun e => h (by simp [e])) (ih (fun e => h (by simp [e])))

theorem whole_params (t : Text) (s : Text) (h : ∀ c ∈ t, Param c) (hs : Whole .params s) : Whole .params (t ++ s) := by
  induction t with
  | nil => exact hs
  | cons c t ih => exact .param c _ (h c (by simp)) (ih (fun x hx => h x (by simp [hx])))

theorem whole_tame (dec cls : Nat → Text) (hd : ∀ n, ∀ c ∈ dec n, Param c) (es : List Ev) (h : ∀ e ∈ es, Tame e) :
    Whole .text (es.flatMap (render dec cls)) := by
  induction es with
  | nil => exact .nil _
  | cons e es ih =>
    have he := h e (by simp)
    have ih' := ih (fun x hx => h x (by simp [hx]))
    rw [List.flatMap_cons]
    cases e with
    | sgr ps =>
      show Whole .text (27 :: 91 :: joined dec ps ++ [109] ++ _)
      rw [List.append_assoc]
      exact .escape _ (.bracket _ (whole_params _ _ (joined_params dec hd ps) (.letter _ _ (.inl (by omega)) ih')))
    | text t => exact whole_texts t _ he ih'
    | spanStart c => exact he.elim
    | spanEnd => exact he.elim
    | escaped t => exact he.elim
    | br => exact he.elim

/-- C297: highlighted text is split right however it comes in parts. -/
theorem C297_highlighted_partial (dec cls : Nat → Text) (hd : ∀ n, ∀ c ∈ dec n, Param c)
    (items : List (Option Ansi × Text)) (h : ∀ p ∈ items, 27 ∉ p.2) (ts : List Tok)
    (ht : chars ts = (stream none (lift items)).flatMap (render dec cls)) :
    Splits (chars ts) (splitStream .text false ts) :=
  C297_like_its_text_partial ts (by rw [ht]; exact whole_tame dec cls hd _ (tame_stream items h none))

end Verif.Styling
