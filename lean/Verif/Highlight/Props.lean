import Verif.Highlight.Model

/-!
# The parser for highlighting

C225: parsing ends, and the tokens are the content, cut into pieces. C226: the positions of tokens.
-/
namespace Verif.Highlight

/-- The column after some characters: how many follow the last line break. -/
def columnOf (pre : List Nat) : Nat := (pre.reverse.takeWhile (· ≠ 10)).length

/-- Tokens which cut a text into pieces: each begins where the one before ended, in the line and the column of that place;
a line break is a token of its own. -/
inductive Cut : List Nat → List Token → Prop where
  | nil : Cut [] []
  | snoc {pre ts} (piece : List Nat) (t : Token) : Cut pre ts → piece ≠ [] → t.start = pre.length → t.len = piece.length →
      t.line = pre.count 10 → t.col = columnOf pre → (if t.ty = .lineBreak then piece = [10] else 10 ∉ piece) →
      Cut (pre ++ piece) (ts ++ [t])

/-- Where the tokens end. -/
theorem Cut.total {pre : List Nat} {ts : List Token} (h : Cut pre ts) : (ts.map Token.len).sum = pre.length := by
  induction h with
  | nil => rfl
  | snoc piece t _ _ _ hl _ _ _ ih => simp [ih, hl]

/-- The texts of tokens. -/
def texts (content : List Nat) (ts : List Token) : List (List Nat) := ts.map fun t => (content.drop t.start).take t.len

theorem Cut.texts {pre : List Nat} {ts : List Token} (h : Cut pre ts) (post : List Nat) :
    (texts (pre ++ post) ts).flatten = pre := by
  induction h generalizing post with
  | nil => rfl
  | @snoc pre ts piece t _ hp hs hl _ _ _ ih =>
    have := ih (piece ++ post)
    unfold Highlight.texts at this ⊢
    rw [List.append_assoc, List.map_append, List.flatten_append, this, List.map_singleton, hs, List.drop_left' rfl, hl,
      List.take_left' rfl]
    simp

/-- What holds of every context of a content. -/
structure Sound (content : List Nat) (c : Ctx) : Prop where
  len : c.pos ≤ content.length
  rest : c.rest = content.drop c.pos
  line : c.line = (content.take c.pos).count 10
  col : c.col = columnOf (content.take c.pos)
  cut : Cut (content.take c.pos) (c.tokens.filter (0 < ·.len))
  place : ∀ t ∈ c.tokens, t.start ≤ c.pos ∧ t.line = (content.take t.start).count 10 ∧ t.col = columnOf (content.take t.start)
  sorted : c.tokens.Pairwise (fun a b => a.start ≤ b.start)

theorem columnOf_append (pre piece : List Nat) (h : 10 ∉ piece) : columnOf (pre ++ piece) = columnOf pre + piece.length := by
  unfold columnOf
  rw [List.reverse_append, List.takeWhile_append_of_pos]
  · rw [List.length_append, List.length_reverse]; omega
  · intro a ha
    have : a ≠ 10 := fun e => h (e ▸ List.mem_reverse.1 ha)
    simpa using this

theorem columnOf_break (pre : List Nat) : columnOf (pre ++ [10]) = 0 := by simp [columnOf]

theorem unwind_tokens (k : Kind) (zero : Ty → Token) : ∀ n ts ls i, ∃ zs : List Ty, (unwind k zero n ts ls i).1 = ts ++ zs.map zero
  | 0, ts, ls, i => ⟨[], by simp [unwind]⟩
  | n + 1, ts, ls, i => by
    unfold unwind
    split
    · exact ⟨[], by simp⟩
    · split
      · exact ⟨[], by simp⟩
      · split
        · exact ⟨[], by simp⟩
        · split
          · exact ⟨[_], rfl⟩
          · obtain ⟨zs, e⟩ := unwind_tokens k zero n _ _ _
            exact ⟨_ :: zs, by rw [e, List.append_assoc]; rfl⟩

theorem finish_tokens (zero : Ty → Token) : ∀ n ts ls i, ∃ zs : List Ty, (finish zero n ts ls i).1 = ts ++ zs.map zero
  | 0, ts, ls, i => ⟨[], by simp [finish]⟩
  | n + 1, ts, ls, i => by
    unfold finish
    split
    · exact ⟨[], by simp⟩
    · split
      · exact ⟨[], by simp⟩
      · split
        · exact ⟨[_], rfl⟩
        · obtain ⟨zs, e⟩ := finish_tokens zero n _ _ _
          exact ⟨_ :: zs, by rw [e, List.append_assoc]; rfl⟩

theorem closeAll_tokens (zero : Ty → Token) (ts : List Token) (ls : List Layer) (i : Option Nat) :
    ∃ zs : List Ty, (closeAll zero ts ls i).1 = ts ++ zs.map zero := by
  cases i with
  | none => exact ⟨[], by simp [closeAll]⟩
  | some i => exact finish_tokens zero _ _ _ _

theorem prepare_tokens (c : Ctx) (zero : Ty → Token) (ty : Ty) :
    ∃ zs : List Ty, (c.prepare zero ty).1 = c.tokens ++ zs.map zero := by
  cases ty with
  | opening k => exact ⟨[], by simp [Ctx.prepare]⟩
  | lineBreak => exact ⟨[], by simp [Ctx.prepare]⟩
  | other n => exact ⟨[], by simp [Ctx.prepare]⟩
  | closing k =>
    simp only [Ctx.prepare]
    split
    · exact ⟨[.opening k], rfl⟩
    · rename_i i _
      obtain ⟨zs, e⟩ := unwind_tokens k zero (c.layers.length + 1) c.tokens c.layers i
      split
      · exact ⟨zs, e⟩
      · exact ⟨zs ++ [.opening k], by simp [e]⟩

/-- The tokens after one was added: others, without a length and at the same place, may be before it and after it. -/
theorem add_tokens (c : Ctx) (ty : Ty) (len : Nat) : ∃ zs zs' : List Ty, (c.add ty len).tokens =
    c.tokens ++ (zs.map (fun t => Token.mk t c.pos c.line c.col 0) ++ ⟨ty, c.pos, c.line, c.col, len⟩ ::
      zs'.map (fun t => Token.mk t c.pos c.line c.col 0)) := by
  obtain ⟨zs, e⟩ := prepare_tokens c (fun t => Token.mk t c.pos c.line c.col 0) ty
  by_cases h : c.rest.length ≤ len
  · obtain ⟨zs', e'⟩ := closeAll_tokens (fun t => Token.mk t c.pos c.line c.col 0)
      ((c.prepare (fun t => Token.mk t c.pos c.line c.col 0) ty).1 ++ [⟨ty, c.pos, c.line, c.col, len⟩])
      (c.prepare (fun t => Token.mk t c.pos c.line c.col 0) ty).2.1 (c.prepare (fun t => Token.mk t c.pos c.line c.col 0) ty).2.2
    refine ⟨zs, zs', ?_⟩
    simp only [Ctx.add, if_pos h]
    rw [e', e]; simp
  · refine ⟨zs, [], ?_⟩
    simp only [Ctx.add, if_neg h]
    rw [e]; simp

/-- A token may be added. -/
structure Fits (c : Ctx) (ty : Ty) (len : Nat) : Prop where
  le : len ≤ c.rest.length
  br : ty = .lineBreak → len = 1 ∧ c.rest.head? = some 10
  no : ty ≠ .lineBreak → 10 ∉ c.rest.take len

theorem Sound.add {content : List Nat} {c : Ctx} (h : Sound content c) {ty : Ty} {len : Nat} (f : Fits c ty len) :
    Sound content (c.add ty len) := by
  obtain ⟨zs, zs', e⟩ := add_tokens c ty len
  have hl : c.pos + len ≤ content.length := by
    have := f.le; rw [h.rest, List.length_drop] at this; have := h.len; omega
  have ht : content.take (c.pos + len) = content.take c.pos ++ c.rest.take len := by rw [h.rest, List.take_add]
  have hlen : (c.rest.take len).length = len := by rw [List.length_take]; have := f.le; omega
  have hbr : ty = .lineBreak → c.rest.take len = [10] := by
    intro e
    obtain ⟨h1, h2⟩ := f.br e
    subst h1
    cases hr : c.rest with
    | nil => rw [hr] at h2; cases h2
    | cons a r => rw [hr] at h2; simp at h2 ⊢; exact h2
  have hnew : ∀ t, t ∈ (zs.map (fun t => Token.mk t c.pos c.line c.col 0) ++ ⟨ty, c.pos, c.line, c.col, len⟩ ::
      zs'.map (fun t => Token.mk t c.pos c.line c.col 0)) → t.start = c.pos ∧ t.line = c.line ∧ t.col = c.col := by
    intro t ht
    simp only [List.mem_append, List.mem_map, List.mem_cons] at ht
    rcases ht with ⟨_, _, rfl⟩ | rfl | ⟨_, _, rfl⟩ <;> exact ⟨rfl, rfl, rfl⟩
  have hz : ∀ l : List Ty, (l.map (fun t => Token.mk t c.pos c.line c.col 0)).filter (fun t => decide (0 < t.len)) = [] := by
    intro l; rw [List.filter_eq_nil_iff]; intro t ht; obtain ⟨_, _, rfl⟩ := List.mem_map.1 ht; simp
  refine ⟨hl, ?_, ?_, ?_, ?_, ?_, ?_⟩
  · show c.rest.drop len = content.drop (c.pos + len)
    rw [h.rest, List.drop_drop]
  · show (if ty = .lineBreak then c.line + 1 else c.line) = (content.take (c.pos + len)).count 10
    rw [ht, List.count_append, ← h.line]
    split
    · rename_i e'; rw [hbr e']; rfl
    · rename_i e'; rw [List.count_eq_zero.2 (f.no e')]; rfl
  · show (if ty = .lineBreak then 0 else c.col + len) = columnOf (content.take (c.pos + len))
    rw [ht]
    split
    · rename_i e'; rw [hbr e', columnOf_break]
    · rename_i e'; rw [columnOf_append _ _ (f.no e'), ← h.col, hlen]
  · show Cut (content.take (c.pos + len)) ((c.add ty len).tokens.filter (0 < ·.len))
    rw [e, List.filter_append, List.filter_append, hz, List.nil_append, List.filter_cons, hz, ht]
    by_cases h0 : 0 < len
    · rw [if_pos (by simpa using h0)]
      refine .snoc _ _ h.cut ?_ ?_ hlen.symm h.line h.col ?_
      · intro e'; rw [e'] at hlen; simp at hlen; omega
      · show c.pos = _
        rw [List.length_take]; have := h.len; omega
      · show if ty = .lineBreak then _ else _
        split
        · rename_i e'; exact hbr e'
        · rename_i e'; exact f.no e'
    · have h0 : len = 0 := by omega
      rw [if_neg (by simp [h0]), h0, List.take_zero, List.append_nil, List.append_nil]
      exact h.cut
  · intro t ht'
    rw [e] at ht'
    rcases List.mem_append.1 ht' with ht' | ht'
    · obtain ⟨h1, h2⟩ := h.place t ht'
      exact ⟨Nat.le_trans h1 (Nat.le_add_right _ _), h2⟩
    · obtain ⟨h1, h2, h3⟩ := hnew t ht'
      rw [h1, h2, h3]
      exact ⟨Nat.le_add_right _ _, h.line, h.col⟩
  · show (c.add ty len).tokens.Pairwise _
    rw [e, List.pairwise_append]
    refine ⟨h.sorted, ?_, ?_⟩
    · apply List.Pairwise.imp_of_mem (R := fun _ _ => True) (fun {a b} ha hb _ => ?_) (List.pairwise_of_forall (fun _ _ => trivial))
      rw [(hnew a ha).1, (hnew b hb).1]; exact Nat.le_refl _
    · intro a ha b hb
      rw [(hnew b hb).1]; exact (h.place a ha).1

/-- The flags and the mark do not matter. -/
theorem Sound.mark {content : List Nat} {c : Ctx} (h : Sound content c) (f : Flags) (b : Bool) :
    Sound content { c with flags := f, done := b } := ⟨h.len, h.rest, h.line, h.col, h.cut, h.place, h.sorted⟩

theorem Sound.leave {content : List Nat} {c : Ctx} (h : Sound content c) (f : Flags) (b : Bool) : Sound content (c.leave f b) :=
  h.mark f _

/-! ### Strings -/

theorem scan_spec (e : List Nat) (he : e ≠ []) (fmt : Bool) : ∀ l, (scan e fmt l).1 ≤ l.length ∧ 10 ∉ l.take (scan e fmt l).1 ∧
    ((scan e fmt l).2 = .stop → (l.drop (scan e fmt l).1).head? = some 10 ∨ l.drop (scan e fmt l).1 = []) ∧
    ((scan e fmt l).2 = .close → e <+: l.drop (scan e fmt l).1) ∧
    ((scan e fmt l).2 = .brace → (l.drop (scan e fmt l).1).head? = some 123 ∧ fmt = true)
  | [] => by simp [scan]
  | [c] => by
    simp only [scan]
    split
    · rename_i h; subst h; simp
    · split
      · rename_i h; simpa [List.isPrefixOf_iff_prefix] using h
      · split
        · rename_i h; simpa using ⟨h.2, h.1⟩
        · simp; rename_i h _ _; exact fun e => h e.symm
  | c :: d :: r => by
    obtain ⟨i1, i2, i3, i4, i5⟩ := scan_spec e he fmt r
    obtain ⟨j1, j2, j3, j4, j5⟩ := scan_spec e he fmt (d :: r)
    rw [scan.eq_def]
    dsimp only
    split
    · rename_i h; subst h; simp
    · rename_i hc
      split
      · rename_i h
        refine ⟨by simp only [List.length_cons]; omega, ?_, ?_⟩
        · rw [List.take_succ_cons, List.take_succ_cons]
          simp only [List.mem_cons, not_or]
          exact ⟨fun x => hc x.symm, fun x => hc (h.2.2 ▸ x.symm), i2⟩
        · simp only [List.drop_succ_cons]; exact ⟨i3, i4, i5⟩
      · split
        · rename_i h
          refine ⟨by simp only [List.length_cons]; omega, ?_, ?_⟩
          · rw [List.take_succ_cons, List.take_succ_cons]
            simp only [List.mem_cons, not_or]
            refine ⟨fun x => hc x.symm, fun x => ?_, i2⟩
            rw [← x] at h; exact absurd h.2 (by decide)
          · simp only [List.drop_succ_cons]; exact ⟨i3, i4, i5⟩
        · split
          · rename_i h; simpa [List.isPrefixOf_iff_prefix] using h
          · split
            · rename_i h; simpa using ⟨h.2, h.1⟩
            · refine ⟨by simp only [List.length_cons] at j1 ⊢; omega, ?_, ?_⟩
              · rw [List.take_succ_cons]
                simp only [List.mem_cons, not_or]
                exact ⟨fun x => hc x.symm, j2⟩
              · simp only [List.drop_succ_cons]; exact ⟨j3, j4, j5⟩

theorem textTy_ne (f : Flags) : textTy f ≠ .lineBreak := by unfold textTy; repeat (first | split | (intro h; cases h))

theorem closeTy_ne (f : Flags) (e : List Nat) : closeTy f e ≠ .lineBreak := by
  unfold closeTy; repeat (first | split | (intro h; cases h))

theorem fits_zero (c : Ctx) {ty : Ty} (h : ty ≠ .lineBreak) : Fits c ty 0 := ⟨Nat.zero_le _, fun e => absurd e h, fun _ => by simp⟩

/-- A token of characters which are no line breaks. -/
theorem fits_prefix (c : Ctx) {ty : Ty} (h : ty ≠ .lineBreak) (w : List Nat) (hw : w <+: c.rest) (hn : 10 ∉ w) :
    Fits c ty w.length := by
  obtain ⟨r, hr⟩ := hw
  refine ⟨by rw [← hr]; simp, fun e => absurd e h, fun _ => ?_⟩
  rw [← hr, List.take_left' rfl]; exact hn

theorem fits_head (c : Ctx) {ty : Ty} (h : ty ≠ .lineBreak) {x : Nat} (hx : c.rest.head? = some x) (hn : x ≠ 10) :
    Fits c ty 1 := by
  refine fits_prefix c h [x] ?_ (by simp; exact fun e => hn e.symm)
  cases hr : c.rest with
  | nil => rw [hr] at hx; cases hx
  | cons a r => rw [hr] at hx; cases hx; exact ⟨r, rfl⟩

theorem fits_break (c : Ctx) (hx : c.rest.head? = some 10) : Fits c .lineBreak 1 :=
  ⟨by cases hr : c.rest with
      | nil => rw [hr] at hx; cases hx
      | cons a r => simp, fun _ => ⟨rfl, hx⟩, fun h => absurd rfl h⟩

/-- The text before a pause. -/
theorem Sound.addText {content : List Nat} {c : Ctx} (h : Sound content c) (e : List Nat) (he : e ≠ []) (fmt : Bool) :
    Sound content (c.addText (scan e fmt c.rest).1) ∧ (c.addText (scan e fmt c.rest).1).rest = c.rest.drop (scan e fmt c.rest).1 ∧
      (c.addText (scan e fmt c.rest).1).flags = c.flags := by
  obtain ⟨s1, s2, -⟩ := scan_spec e he fmt c.rest
  unfold Ctx.addText
  split
  · exact ⟨h.add ⟨s1, fun x => absurd x (textTy_ne _), fun _ => s2⟩, rfl, rfl⟩
  · rename_i h0
    have : (scan e fmt c.rest).1 = 0 := by omega
    rw [this]; exact ⟨h, rfl, rfl⟩

/-- What a turn of a consumer leads to. -/
def GoodTurn (content : List Nat) (c : Ctx) : Turn → Prop
  | .over d => Sound content d ∧ d.rest.length ≤ c.rest.length
  | .again d => Sound content d ∧ d.rest.length < c.rest.length
  | .code d => Sound content d ∧ d.rest.length < c.rest.length ∧ (d.rest = [] → d.done = true)

theorem add_done (c : Ctx) (ty : Ty) (len : Nat) (h : (c.add ty len).rest = []) : (c.add ty len).done = true := by
  show (c.done || decide (c.rest.length ≤ len)) = true
  have h' : c.rest.drop len = [] := h
  rw [Bool.or_eq_true, decide_eq_true_iff]
  exact .inr (List.drop_eq_nil_iff.1 h')

theorem turn_good {content : List Nat} {c : Ctx} (h : Sound content c) (e : List Nat) (he : e ≠ []) (hn : 10 ∉ e) (fmt : Bool) :
    GoodTurn content c (c.turn e fmt) := by
  unfold Ctx.turn
  split
  · exact ⟨h.add (fits_zero c (closeTy_ne _ _)), by show (c.rest.drop 0).length ≤ _; simp⟩
  · rename_i hr
    obtain ⟨s1, -, s3, s4, s5⟩ := scan_spec e he fmt c.rest
    obtain ⟨t1, t2, t3⟩ := h.addText e he fmt
    dsimp only
    generalize hd : c.addText (scan e fmt c.rest).1 = d at t1 t2 t3
    have hle : d.rest.length = c.rest.length - (scan e fmt c.rest).1 := by rw [t2, List.length_drop]
    have hpos : 0 < c.rest.length := List.length_pos_iff.2 hr
    split
    · rename_i hs
      unfold Ctx.endLine
      split
      · dsimp only
        have k0 := t1.mark { d.flags with hitMulti := true } true
        have k1 := k0.add (fits_zero _ (closeTy_ne { d.flags with hitMulti := true } e))
        split
        · refine ⟨k1.add (fits_zero _ (by decide)), ?_⟩
          show ((d.rest.drop 0).drop 0).length ≤ _
          simp only [List.drop_zero]; omega
        · refine ⟨k1, ?_⟩
          show (d.rest.drop 0).length ≤ _
          simp only [List.drop_zero]; omega
      · split
        · rename_i h0
          refine ⟨t1, ?_⟩
          rw [h0]; exact hpos
        · rename_i h0
          rw [← t2] at s3
          have hb := (s3 hs).resolve_right h0
          refine ⟨t1.add (fits_break d hb), ?_⟩
          show (d.rest.drop 1).length < _
          rw [List.length_drop]
          omega
    · rename_i hs
      have hp := s4 hs
      rw [← t2] at hp
      refine ⟨t1.add (fits_prefix d (closeTy_ne _ _) e hp hn), ?_⟩
      show (d.rest.drop e.length).length ≤ _
      rw [List.length_drop]; omega
    · rename_i hs
      have hp := s5 hs
      rw [← t2] at hp
      refine ⟨t1.add (fits_head d (by decide) hp.1 (by decide)), ?_, add_done d _ _⟩
      show (d.rest.drop 1).length < _
      rw [List.length_drop]; omega

/-- The turn after code. -/
theorem afterCode_good {content : List Nat} {c d r : Ctx} (h : Sound content r) (e : List Nat) (hl : r.rest.length < c.rest.length) :
    GoodTurn content c (afterCode e d r) ∧ ∀ x, afterCode e d r ≠ .code x := by
  have h0 := h.leave d.flags d.done
  have hl' : (r.leave d.flags d.done).rest = r.rest := rfl
  unfold afterCode
  dsimp only
  generalize r.leave d.flags d.done = c' at h0 hl'
  split
  · refine ⟨?_, fun x hx => by cases hx⟩
    have h1 : Sound content (if c'.flags.noMultiCode then { c' with flags := { c'.flags with hitMulti := true }, done := true } else c') := by
      split
      · exact h0.mark _ _
      · exact h0
    have h2 : (if c'.flags.noMultiCode then { c' with flags := { c'.flags with hitMulti := true }, done := true } else c').rest = r.rest := by
      split <;> exact hl'
    generalize (if c'.flags.noMultiCode then { c' with flags := { c'.flags with hitMulti := true }, done := true } else c') = c'' at h1 h2
    refine ⟨(h1.add (fits_zero _ (by decide))).add (fits_zero _ (closeTy_ne _ _)), ?_⟩
    show ((c''.rest.drop 0).drop 0).length ≤ _
    rw [h2]; simp only [List.drop_zero]; omega
  · split
    · refine ⟨⟨((h0.mark _ _).add (fits_zero _ (by decide))).add (fits_zero _ (closeTy_ne _ _)), ?_⟩, fun x hx => by cases hx⟩
      show ((c'.rest.drop 0).drop 0).length ≤ _
      rw [hl']; simp only [List.drop_zero]; omega
    · exact ⟨⟨h0, by rw [hl']; exact hl⟩, fun x hx => by cases hx⟩

/-! ### Code -/

/-- What is assumed of the regular expressions: they match something, inside of a line. -/
structure Lexer.Sane (L : Lexer) : Prop where
  space : ∀ col l ls, L.space col l = some ls → ls ≠ [] ∧ 0 ∉ ls ∧ ls.sum ≤ l.length ∧ 10 ∉ l.take ls.sum
  word : ∀ ts l t n, L.word ts l = some (t, n) → 0 < n ∧ n ≤ l.length ∧ 10 ∉ l.take n ∧ t ≠ .lineBreak ∧
    ∀ k, t = .opening k ∨ t = .closing k → k.barrier = false

theorem quotes_spec {l q : List Nat} (h : quotes l = some q) : q <+: l ∧ q ≠ [] ∧ 10 ∉ q := by
  unfold quotes at h
  split at h
  · rename_i hp; cases h; exact ⟨List.isPrefixOf_iff_prefix.1 hp, by decide, by decide⟩
  · split at h
    · rename_i hp; cases h; exact ⟨List.isPrefixOf_iff_prefix.1 hp, by decide, by decide⟩
    · split at h
      · rename_i hp; cases h; exact ⟨List.isPrefixOf_iff_prefix.1 hp, by decide, by decide⟩
      · split at h
        · rename_i hp; cases h; exact ⟨List.isPrefixOf_iff_prefix.1 hp, by decide, by decide⟩
        · cases h

theorem starterOf_spec (l : List Nat) : ∀ (ps : List (List Nat)) {p q : List Nat}, starterOf l ps = some (p, q) →
    p ∈ ps ∧ p <+: l ∧ quotes (l.drop p.length) = some q
  | [], p, q, h => by cases h
  | x :: ps, p, q, h => by
    unfold starterOf at h
    split at h
    · rename_i hp
      split at h
      · rename_i q' hq
        cases h
        exact ⟨List.mem_cons_self, List.isPrefixOf_iff_prefix.1 hp, hq⟩
      · obtain ⟨h1, h2⟩ := starterOf_spec l ps h
        exact ⟨List.mem_cons_of_mem _ h1, h2⟩
    · obtain ⟨h1, h2⟩ := starterOf_spec l ps h
      exact ⟨List.mem_cons_of_mem _ h1, h2⟩

theorem starter_spec {l p q : List Nat} (h : starter l = some (p, q)) :
    p <+: l ∧ 10 ∉ p ∧ q <+: l.drop p.length ∧ q ≠ [] ∧ 10 ∉ q := by
  obtain ⟨h1, h2, h3⟩ := starterOf_spec l _ h
  refine ⟨h2, ?_, quotes_spec h3⟩
  have : ∀ p ∈ [[114, 102], [114, 98], [114], [102, 114], [102], [98, 114], [98], ([] : List Nat)], 10 ∉ p := by decide
  exact this p h1

/-- What a turn of the parser of code leads to. -/
def GoodNext (content : List Nat) (c : Ctx) : Next → Prop
  | .go d => Sound content d ∧ d.rest.length ≤ c.rest.length ∧ (d.done = true ∨ d.rest.length < c.rest.length) ∧
      (d.rest = [] → d.done = true)
  | .string d _ q => Sound content d ∧ d.rest.length < c.rest.length ∧ q ≠ [] ∧ 10 ∉ q ∧ (d.rest = [] → d.done = true)
  | .formatCode d => Sound content d ∧ d.rest.length < c.rest.length
  | .stuck => False

/-- Going on with a token. -/
theorem good_add {content : List Nat} {c : Ctx} (h : Sound content c) {ty : Ty} {len : Nat} (f : Fits c ty len) (h0 : 0 < len) :
    GoodNext content c (.go (c.add ty len)) := by
  have hl : (c.add ty len).rest.length = c.rest.length - len := List.length_drop
  have := f.le
  exact ⟨h.add f, by omega, .inr (by omega), add_done c ty len⟩

theorem addSpaces_good {content : List Nat} : ∀ (ls : List Nat) (c : Ctx), Sound content c → ls ≠ [] → 0 ∉ ls →
    ls.sum ≤ c.rest.length → 10 ∉ c.rest.take ls.sum →
    Sound content (c.addSpaces ls) ∧ (c.addSpaces ls).rest.length < c.rest.length ∧
      ((c.addSpaces ls).rest = [] → (c.addSpaces ls).done = true) ∧ (c.addSpaces ls).flags = c.flags
  | [], _, _, h, _, _, _ => absurd rfl h
  | [n], c, h, _, h0, hl, hn => by
    simp only [List.sum_cons, List.sum_nil, Nat.add_zero] at hl hn
    have hp : 0 < n := Nat.pos_of_ne_zero (fun e => h0 (by simp [e]))
    obtain ⟨g1, g2, g3, g4⟩ := good_add h (ty := .other 1) ⟨hl, fun e => (by cases e), fun _ => hn⟩ hp
    refine ⟨g1, ?_, g4, rfl⟩
    show (c.rest.drop n).length < _
    rw [List.length_drop]; omega
  | n :: m :: ls, c, h, _, h0, hl, hn => by
    have hp : 0 < n := Nat.pos_of_ne_zero (fun e => h0 (by simp [e]))
    rw [List.sum_cons] at hl hn
    have e := List.take_add (l := c.rest) (i := n) (j := (m :: ls).sum)
    rw [e] at hn
    obtain ⟨hn1, hn2⟩ := not_or.1 (fun x => hn (List.mem_append.2 x))
    have hr : (c.add (.other 1) n).rest = c.rest.drop n := rfl
    obtain ⟨g1, g2, g3, g4⟩ := good_add h (ty := .other 1) ⟨by omega, fun e => (by cases e), fun _ => hn1⟩ hp
    obtain ⟨i1, i2, i3, i4⟩ := addSpaces_good (m :: ls) (c.add (.other 1) n) g1 (by simp) (fun x => h0 (List.mem_cons_of_mem _ x))
      (by rw [hr, List.length_drop]; omega) (by rw [hr]; exact hn2)
    refine ⟨i1, Nat.lt_of_lt_of_le i2 g2, i3, i4⟩

theorem nextWord_good {L : Lexer} (hL : L.Sane) {content : List Nat} {c : Ctx} (h : Sound content c) (hr : c.rest ≠ []) :
    GoodNext content c (c.nextWord L) := by
  unfold Ctx.nextWord
  split
  · rename_i w hw
    obtain ⟨w1, w2, w3, w4, -⟩ := hL.word _ _ w.1 w.2 hw
    exact good_add h ⟨w2, fun e => absurd e w4, fun _ => w3⟩ w1
  · split
    · rename_i hb
      split
      · exact ⟨h.mark _ _, Nat.le_refl _, .inl rfl, fun _ => rfl⟩
      · exact good_add h (fits_break c hb) (by decide)
    · rename_i hb
      cases hc : c.rest with
      | nil => exact absurd hc hr
      | cons a r =>
        exact good_add h (fits_head c (by decide) (x := a) (by rw [hc]; rfl) (fun e => hb (by rw [hc, e]; rfl))) (by decide)

theorem openString_good {content : List Nat} {c : Ctx} (h : Sound content c) {p q : List Nat} (hs : starter c.rest = some (p, q)) :
    GoodNext content c (c.openString p q) := by
  obtain ⟨s1, s2, s3, s4, s5⟩ := starter_spec hs
  unfold Ctx.openString
  split
  · exact ⟨h.mark _ _, Nat.le_refl _, .inl rfl, fun _ => rfl⟩
  · dsimp only
    have h1 : Sound content (if p = [] then c else c.add (.other 3) p.length) ∧
        (if p = [] then c else c.add (.other 3) p.length).rest = c.rest.drop p.length := by
      split
      · rename_i e; subst e; exact ⟨h, rfl⟩
      · exact ⟨h.add (fits_prefix c (by decide) p s1 s2), rfl⟩
    generalize (if p = [] then c else c.add (.other 3) p.length) = d at h1
    obtain ⟨h1, h2⟩ := h1
    have hq : 0 < q.length := List.length_pos_iff.2 s4
    have f : Fits d (.opening (if 98 ∈ p then .bytesQuote else .textQuote)) q.length :=
      fits_prefix d (fun e => by cases e) q (by rw [h2]; exact s3) s5
    refine ⟨h1.add f, ?_, s4, s5, add_done d _ _⟩
    show (d.rest.drop q.length).length < _
    have := f.le
    rw [List.length_drop]
    have h2' : d.rest.length = c.rest.length - p.length := by rw [h2, List.length_drop]
    omega

theorem takeWhile_free (l : List Nat) : 10 ∉ l.take (l.takeWhile (· ≠ 10)).length := by
  induction l with
  | nil => simp
  | cons a l ih =>
    rw [List.takeWhile_cons]
    by_cases h : a = 10
    · simp [h]
    · rw [if_pos (by simpa using h), List.length_cons, List.take_succ_cons, List.mem_cons, not_or]
      exact ⟨fun e => h e.symm, ih⟩

theorem next_good {L : Lexer} (hL : L.Sane) {content : List Nat} {c : Ctx} (h : Sound content c) (hr : c.rest ≠ []) :
    GoodNext content c (c.next L) := by
  unfold Ctx.next
  split
  · rename_i ls hls
    obtain ⟨l1, l2, l3, l4⟩ := hL.space _ _ _ hls
    obtain ⟨g1, g2, g3, -⟩ := addSpaces_good ls c h l1 l2 l3 l4
    exact ⟨g1, Nat.le_of_lt g2, .inr g2, g3⟩
  · split
    · rename_i hc
      obtain ⟨g1, g2, -, -⟩ := good_add h (fits_head c (ty := .closing .format) (by decide) hc.2 (by decide)) (by decide)
      exact ⟨g1.mark _ _, g2, .inl rfl, fun _ => rfl⟩
    · split
      · rename_i hc
        have f := fits_head c (ty := .other 7) (by decide) hc.2 (by decide)
        refine ⟨h.add f, ?_⟩
        show (c.rest.drop 1).length < _
        have := f.le
        rw [List.length_drop]; omega
      · split
        · rename_i hc
          obtain ⟨-, h1, h2, h3⟩ := hc
          have hsplit : ∃ y r, c.rest = 33 :: y :: 125 :: r ∧ y ≠ 10 := by
            match hcr : c.rest with
            | [] => rw [hcr] at h1; cases h1
            | [a] => rw [hcr] at h3; cases h3
            | [a, b] => rw [hcr] at h3; cases h3
            | a :: b :: x :: r =>
              rw [hcr] at h1 h2 h3
              simp only [List.head?_cons, Option.some.injEq] at h1
              simp only [List.getElem?_cons_succ, List.getElem?_cons_zero, Option.some.injEq] at h2 h3
              refine ⟨b, r, by rw [h1, h3], ?_⟩
              intro e; rw [e] at h2; exact absurd h2 (by decide)
          obtain ⟨y, r, hcr, hy⟩ := hsplit
          have f1 : Fits c (.other 8) 2 := fits_prefix c (ty := .other 8) (by decide) [33, y]
            ⟨125 :: r, by rw [hcr]; rfl⟩ (by simp; exact fun e => hy e.symm)
          have hr1 : (c.add (.other 8) 2).rest = 125 :: r := by show c.rest.drop 2 = _; rw [hcr]; rfl
          have f2 : Fits (c.add (.other 8) 2) (.closing .format) 1 :=
            fits_head _ (by decide) (x := 125) (by rw [hr1]; rfl) (by decide)
          refine ⟨((h.add f1).add f2).mark _ _, ?_, .inl rfl, fun _ => rfl⟩
          show ((c.add (.other 8) 2).rest.drop 1).length ≤ _
          rw [hr1, hcr]; simp; omega
        · unfold Ctx.nextCode
          split
          · rename_i hb
            refine good_add h ⟨List.takeWhile_sublist _ |>.length_le, fun e => (by cases e), fun _ => takeWhile_free _⟩ ?_
            cases hc : c.rest with
            | nil => exact absurd hc hr
            | cons a r => rw [hc] at hb; cases hb; simp
          · split
            · rename_i s hs
              exact openString_good h (p := s.1) (q := s.2) hs
            · exact nextWord_good hL h hr

/-- The flags of a whole content: no quote is refused, line breaks are allowed, and it is no format code. -/
structure Flags.Top (f : Flags) : Prop where
  single : f.noSingle = false
  double : f.noDouble = false
  multi : f.noMultiCode = false
  format : f.inFormat = false

/-- What a turn leads to in the code of a whole content. -/
def TopNext (f : Flags) : Next → Prop
  | .go d => d.flags = f ∧ (d.done = true → d.rest = [])
  | .string d _ _ => d.flags = f ∧ (d.done = true → d.rest = [])
  | .formatCode _ => False
  | .stuck => True

theorem add_undone {c : Ctx} (ty : Ty) (len : Nat) (hc : c.done = true → c.rest = []) (h : (c.add ty len).done = true) :
    (c.add ty len).rest = [] := by
  have h : (c.done || decide (c.rest.length ≤ len)) = true := h
  show c.rest.drop len = []
  rw [Bool.or_eq_true, decide_eq_true_iff] at h
  rcases h with h | h
  · rw [hc h]; simp
  · exact List.drop_eq_nil_of_le h

theorem addSpaces_top : ∀ (ls : List Nat) (c : Ctx), (c.done = true → c.rest = []) →
    (c.addSpaces ls).flags = c.flags ∧ ((c.addSpaces ls).done = true → (c.addSpaces ls).rest = [])
  | [], _, h => ⟨rfl, h⟩
  | n :: ls, c, h => addSpaces_top ls (c.add (.other 1) n) (add_undone _ _ h)

theorem next_top (L : Lexer) {c : Ctx} (hf : c.flags.Top) (hd : c.done = true → c.rest = []) : TopNext c.flags (c.next L) := by
  have ha : c.atFormat = false := by unfold Ctx.atFormat; rw [hf.format]; rfl
  unfold Ctx.next
  split
  · exact addSpaces_top _ c hd
  · rw [if_neg (fun h => by rw [ha] at h; cases h.1), if_neg (fun h => by rw [ha] at h; cases h.1),
      if_neg (fun h => by rw [ha] at h; cases h.1)]
    unfold Ctx.nextCode
    split
    · exact ⟨rfl, add_undone _ _ hd⟩
    · split
      · rename_i s _
        unfold Ctx.openString
        have hq : c.flags.refuses s.2 = false := by unfold Flags.refuses; rw [hf.single, hf.double]; simp
        rw [hq, if_neg (by decide)]
        dsimp only
        by_cases hp : s.1 = []
        · rw [if_pos hp]; exact ⟨rfl, add_undone _ _ hd⟩
        · rw [if_neg hp]; exact ⟨rfl, add_undone _ _ (add_undone _ _ hd)⟩
      · unfold Ctx.nextWord
        split
        · exact ⟨rfl, add_undone _ _ hd⟩
        · split
          · rw [hf.multi]; exact ⟨rfl, add_undone _ _ hd⟩
          · split
            · trivial
            · exact ⟨rfl, add_undone _ _ hd⟩

/-- When something is parsed. -/
def Mode.Ok (c : Ctx) : Mode → Prop
  | .code => c.rest = [] → c.done = true
  | .text e _ => e ≠ [] ∧ 10 ∉ e

/-- Parsing ends, whatever is parsed. -/
theorem parse_sound {L : Lexer} (hL : L.Sane) (content : List Nat) : ∀ (n : Nat) (m : Mode) (c : Ctx), Sound content c → m.Ok c →
    (c.rest.length < n ∨ m = .code ∧ c.done = true ∧ 0 < n) →
    ∃ d, parse L n m c = some d ∧ Sound content d ∧ d.rest.length ≤ c.rest.length ∧ (m = .code → d.done = true) ∧
      (m = .code → c.flags.Top → (c.done = true → c.rest = []) → d.rest = [])
  | 0, m, c, _, _, hn => by rcases hn with h | ⟨_, _, h⟩ <;> exact absurd h (Nat.not_lt_zero _)
  | n + 1, .code, c, h, hm, hn => by
    unfold parse
    by_cases hd : c.done = true
    · rw [if_pos hd]; exact ⟨c, rfl, h, Nat.le_refl _, fun _ => hd, fun _ _ x => x hd⟩
    · rw [if_neg hd]
      have hr : c.rest ≠ [] := fun e => hd (hm e)
      have hlen : c.rest.length ≤ n := by
        rcases hn with h | ⟨_, h, _⟩
        · omega
        · exact absurd h hd
      have hpos := List.length_pos_iff.2 hr
      have g := next_good hL h hr
      have tn : c.flags.Top → (c.done = true → c.rest = []) → TopNext c.flags (c.next L) := fun a b => next_top L a b
      revert g tn
      rcases c.next L with d | ⟨d, p, q⟩ | d | _ <;> intro g tn
      · obtain ⟨g1, g2, g3, g4⟩ := g
        obtain ⟨x, e, i1, i2, i3, i4⟩ := parse_sound hL content n .code d g1 g4
          (g3.elim (fun e => .inr ⟨rfl, e, by omega⟩) (fun e => .inl (by omega)))
        exact ⟨x, e, i1, Nat.le_trans i2 g2, i3, fun _ a b => i4 rfl ((tn a b).1 ▸ a) (tn a b).2⟩
      · obtain ⟨g1, g2, g3, g4, g5⟩ := g
        obtain ⟨x, e, i1, i2, -⟩ := parse_sound hL content n (.text q (98 ∉ p ∧ 102 ∈ p)) { d with flags := d.flags.forString p q }
          (g1.mark _ d.done) ⟨g3, g4⟩ (.inl (show d.rest.length < n by omega))
        have i2 : x.rest.length ≤ d.rest.length := i2
        obtain ⟨y, e', j1, j2, j3, j4⟩ := parse_sound hL content n .code (x.leave d.flags d.done) (i1.leave _ _)
          (fun e => by
            show (d.done || x.rest.isEmpty) = true
            have e : x.rest = [] := e
            rw [e]; simp) (.inl (show x.rest.length < n by omega))
        refine ⟨y, ?_, j1, Nat.le_trans j2 (show x.rest.length ≤ c.rest.length by omega), j3, fun _ a b => j4 rfl ((tn a b).1 ▸ a :) ?_⟩
        · simp only [e, Option.bind_some, e']
        · intro hdn
          have hdn : (d.done || x.rest.isEmpty) = true := hdn
          show x.rest = []
          rw [Bool.or_eq_true] at hdn
          rcases hdn with hdn | hdn
          · have := (tn a b).2 hdn
            rw [this] at i2
            exact List.length_eq_zero_iff.1 (Nat.le_zero.1 i2)
          · exact List.isEmpty_iff.1 hdn
      · obtain ⟨g1, g2⟩ := g
        obtain ⟨x, e, i1, i2, -⟩ := parse_sound hL content n (.text [125] true) { d with flags := d.flags.forFormatCode }
          (g1.mark _ d.done) ⟨by decide, by decide⟩ (.inl (show d.rest.length < n by omega))
        have i2 : x.rest.length ≤ d.rest.length := i2
        obtain ⟨y, e', j1, j2, j3, -⟩ := parse_sound hL content n .code (afterFormatCode d x) (i1.mark _ _)
          (fun _ => rfl) (.inl (show x.rest.length < n by omega))
        refine ⟨y, ?_, j1, Nat.le_trans j2 (show x.rest.length ≤ c.rest.length by omega), j3, fun _ a b => (tn a b).elim⟩
        simp only [e, Option.bind_some, e']
      · exact g.elim
  | n + 1, .text e fmt, c, h, hm, hn => by
    have hlen : c.rest.length ≤ n := by
      rcases hn with h | ⟨h, _⟩
      · omega
      · cases h
    unfold parse
    have g := turn_good h e hm.1 hm.2 fmt
    revert g
    rcases c.turn e fmt with d | d | d <;> intro g
    · exact ⟨d, rfl, g.1, g.2, fun e => (by cases e), fun e => (by cases e)⟩
    · obtain ⟨x, e', i1, i2, -⟩ := parse_sound hL content n (.text e fmt) d g.1 hm (.inl (by have := g.2; omega))
      exact ⟨x, e', i1, Nat.le_trans i2 (Nat.le_of_lt g.2), fun e => (by cases e), fun e => (by cases e)⟩
    · obtain ⟨g1, g2, g3⟩ := g
      obtain ⟨x, ex, i1, i2, -⟩ := parse_sound hL content n .code { d with flags := d.flags.forCode } (g1.mark _ d.done) g3
        (.inl (show d.rest.length < n by omega))
      have i2 : x.rest.length ≤ d.rest.length := i2
      obtain ⟨a1, a2⟩ := afterCode_good (c := c) (d := d) i1 e (by omega)
      simp only [ex, Option.bind_some]
      revert a1 a2
      rcases afterCode e d x with y | y | y <;> intro a1 a2
      · exact ⟨y, rfl, a1.1, a1.2, fun e => (by cases e), fun e => (by cases e)⟩
      · obtain ⟨z, e', j1, j2, -⟩ := parse_sound hL content n (.text e fmt) y a1.1 hm (.inl (by have := a1.2; omega))
        exact ⟨z, e', j1, Nat.le_trans j2 (Nat.le_of_lt a1.2), fun e => (by cases e), fun e => (by cases e)⟩
      · exact absurd rfl (a2 y)

/-! ### C225 -/

theorem sound_new (content : List Nat) (f : Flags) : Sound content (Ctx.new content f) :=
  ⟨Nat.zero_le _, rfl, rfl, rfl, .nil, (by simp [Ctx.new]), List.Pairwise.nil⟩

/-- What parsing a whole content gives. -/
theorem parse_all {L : Lexer} (hL : L.Sane) (content : List Nat) (f : Flags) (hf : f.Top) :
    ∃ d, parse L (content.length + 1) .code (Ctx.new content f) = some d ∧ Sound content d ∧ d.rest = [] := by
  obtain ⟨d, e, h1, -, -, h2⟩ := parse_sound hL content (content.length + 1) .code (Ctx.new content f) (sound_new content f)
    (fun e => by show content.isEmpty = true; have e : content = [] := e; rw [e]; rfl) (.inl (Nat.lt_succ_self _))
  exact ⟨d, e, h1, h2 rfl hf (fun e => by have e : content.isEmpty = true := e; exact List.isEmpty_iff.1 e)⟩

theorem Sound.whole {content : List Nat} {d : Ctx} (h : Sound content d) (he : d.rest = []) : content.take d.pos = content := by
  have := h.rest
  rw [he] at this
  exact List.take_of_length_le (List.drop_eq_nil_iff.1 this.symm)

/-- More fuel does not change the result. -/
theorem parse_more (L : Lexer) : ∀ (n : Nat) (m : Mode) (c d : Ctx), parse L n m c = some d → parse L (n + 1) m c = some d
  | 0, _, _, _, h => by cases h
  | n + 1, .code, c, d, h => by
    unfold parse at h ⊢
    by_cases hd : c.done = true
    · rw [if_pos hd] at h ⊢; exact h
    · rw [if_neg hd] at h ⊢
      revert h
      rcases c.next L with x | ⟨x, p, q⟩ | x | _ <;> intro h
      · exact parse_more L n _ _ _ h
      · obtain ⟨y, h1, h2⟩ := Option.bind_eq_some_iff.1 h
        exact Option.bind_eq_some_iff.2 ⟨y, parse_more L n _ _ _ h1, parse_more L n _ _ _ h2⟩
      · obtain ⟨y, h1, h2⟩ := Option.bind_eq_some_iff.1 h
        exact Option.bind_eq_some_iff.2 ⟨y, parse_more L n _ _ _ h1, parse_more L n _ _ _ h2⟩
      · exact parse_more L n _ _ _ h
  | n + 1, .text e fmt, c, d, h => by
    unfold parse at h ⊢
    revert h
    rcases c.turn e fmt with x | x | x <;> intro h
    · exact h
    · exact parse_more L n _ _ _ h
    · obtain ⟨y, h1, h2⟩ := Option.bind_eq_some_iff.1 h
      refine Option.bind_eq_some_iff.2 ⟨y, parse_more L n _ _ _ h1, ?_⟩
      revert h2
      rcases afterCode e x y with z | z | z <;> intro h2
      · exact h2
      · exact parse_more L n _ _ _ h2
      · exact h2

/-- C225. Parsing ends, for every content, and what it gives does not depend on the fuel. -/
theorem C225_ends {L : Lexer} (hL : L.Sane) (content : List Nat) (f : Flags) (hf : f.Top) :
    ∃ d, ∀ n, content.length < n → parse L n .code (Ctx.new content f) = some d := by
  obtain ⟨d, e, -⟩ := parse_all hL content f hf
  refine ⟨d, fun n hn => ?_⟩
  induction n with
  | zero => exact absurd hn (Nat.not_lt_zero _)
  | succ n ih =>
    by_cases h : content.length < n
    · exact parse_more L n _ _ _ (ih h)
    · have : n = content.length := by omega
      rw [this]; exact e

/-- What holds of every result. -/
theorem parse_result {L : Lexer} (hL : L.Sane) {content : List Nat} {f : Flags} (hf : f.Top) {n : Nat} {d : Ctx}
    (h : parse L n .code (Ctx.new content f) = some d) : Sound content d ∧ d.rest = [] := by
  obtain ⟨d', e, h1, h2⟩ := parse_all hL content f hf
  have more : ∀ k, parse L (n + k) .code (Ctx.new content f) = some d := by
    intro k; induction k with
    | zero => exact h
    | succ k ih => exact parse_more L _ _ _ _ ih
  have more' : ∀ k, parse L (content.length + 1 + k) .code (Ctx.new content f) = some d' := by
    intro k; induction k with
    | zero => exact e
    | succ k ih => exact parse_more L _ _ _ _ ih
  have : d = d' := by
    have a := more (content.length + 1)
    have b := more' n
    rw [Nat.add_comm] at a
    rw [a] at b
    exact Option.some.inj b
  subst this
  exact ⟨h1, h2⟩

/-- C225. The tokens which have a length are the content, cut into pieces: their texts, one after the other, are the content,
each begins where the one before ended, and line breaks are tokens of their own. -/
theorem C225_pieces {L : Lexer} (hL : L.Sane) (content : List Nat) (f : Flags) (hf : f.Top) (n : Nat) (d : Ctx)
    (h : parse L n .code (Ctx.new content f) = some d) :
    Cut content (d.tokens.filter (0 < ·.len)) ∧ (texts content (d.tokens.filter (0 < ·.len))).flatten = content := by
  obtain ⟨h1, h2⟩ := parse_result hL hf h
  have c := h1.cut
  rw [h1.whole h2] at c
  exact ⟨c, by simpa using c.texts []⟩

/-- A small lexer for the examples: spaces one by one, and braces. -/
def toy : Lexer where
  space _ l := if l.head? = some 32 then some [1] else none
  word _ l := match l with
    | 40 :: _ => some (.opening .round, 1)
    | 41 :: _ => some (.closing .round, 1)
    | 91 :: _ => some (.opening .square, 1)
    | 93 :: _ => some (.closing .square, 1)
    | 123 :: _ => some (.opening .curly, 1)
    | 125 :: _ => some (.closing .curly, 1)
    | _ => none

theorem toy_sane : toy.Sane where
  space col l ls h := by
    have h : (if l.head? = some 32 then some [1] else none) = some ls := h
    split at h
    · rename_i hd
      cases h
      cases l with
      | nil => cases hd
      | cons a l => cases hd; simp
    · cases h
  word ts l t n h := by
    simp only [toy] at h
    split at h <;> cases h <;>
      exact ⟨by decide, by simp, by simp, (fun e => by cases e), fun k hk => by rcases hk with hk | hk <;> cases hk <;> rfl⟩

/-- `f"{(`, a line break and `'a`: the tokens with a length are the pieces. -/
example : ((parse toy 20 .code (Ctx.new [102, 34, 123, 40, 10, 39, 97] {})).map fun d =>
      texts [102, 34, 123, 40, 10, 39, 97] (d.tokens.filter (0 < ·.len))) =
    some [[102], [34], [123], [40], [10], [39], [97]] := by decide +kernel

/-! ### C226 -/

/-- C226, for the places themselves: the line and the column of every token are those of the place where it begins, and the
tokens are sorted by that. -/
theorem C226_places_partial {L : Lexer} (hL : L.Sane) (content : List Nat) (f : Flags) (hf : f.Top) (n : Nat) (d : Ctx)
    (h : parse L n .code (Ctx.new content f) = some d) :
    (∀ t ∈ d.tokens, t.start ≤ content.length ∧ t.line = (content.take t.start).count 10 ∧
      t.col = columnOf (content.take t.start)) ∧ d.tokens.Pairwise (fun a b => a.start ≤ b.start) := by
  obtain ⟨h1, -⟩ := parse_result hL hf h
  exact ⟨fun t ht => ⟨Nat.le_trans (h1.place t ht).1 h1.len, (h1.place t ht).2⟩, h1.sorted⟩

/-- C226 is violated at the end of the content: if a brace is open there, then the token which closes it is after the last
one, but stands where that begins. -/
theorem C226_end_violated (c : Ctx) (i : Nat) (l : Layer) (k : Kind) (m : Nat) (hi : c.inner = some i) (hl : c.layers[i]? = some l)
    (hk : (c.tokens[l.first]?).map Token.ty = some (.opening k)) (hb : k.barrier = false) (ho : l.outer = none) :
    (c.add (.other m) c.rest.length).tokens =
      c.tokens ++ [⟨.other m, c.pos, c.line, c.col, c.rest.length⟩, ⟨.closing k, c.pos, c.line, c.col, 0⟩] := by
  have hlt : l.first < c.tokens.length := by
    cases ht : c.tokens[l.first]? with
    | none => rw [ht] at hk; cases hk
    | some t => exact (List.getElem?_eq_some_iff.1 ht).1
  have hk' : openKind (c.tokens ++ [⟨.other m, c.pos, c.line, c.col, c.rest.length⟩]) l = k := by
    unfold openKind
    rw [List.getElem?_append_left hlt, hk]
  simp only [Ctx.add, Ctx.prepare, if_pos (Nat.le_refl _), closeAll, hi]
  unfold finish
  simp only [hl, hk', hb, ho]
  simp

/-- `(ab`: the token which closes the brace stands at 1 or 2, not at 3. -/
example : ((parse toy 20 .code (Ctx.new [40, 97, 98] {})).map Ctx.tokens) =
    some [⟨.opening .round, 0, 0, 0, 1⟩, ⟨.other 0, 1, 0, 1, 1⟩, ⟨.other 0, 2, 0, 2, 1⟩, ⟨.closing .round, 2, 0, 2, 0⟩] := by
  decide +kernel

end Verif.Highlight
