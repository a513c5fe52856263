import Verif.Highlight.Props

/-!
# Layers

C227: the braces among the tokens are balanced, and each layer reaches from an opening token to the closing one.
-/
namespace Verif.Highlight

/-- The braces which are open after some tokens, the last one first; `none` if one is closed which is not the last one. -/
def nest : List Kind → List Ty → Option (List Kind)
  | st, [] => some st
  | st, .opening k :: l => nest (k :: st) l
  | [], .closing _ :: _ => none
  | j :: st, .closing k :: l => if j = k then nest st l else none
  | st, _ :: l => nest st l

/-- The types of tokens. -/
def types (ts : List Token) : List Ty := ts.map Token.ty

/-- A layer reaches from an opening token to the closing one which belongs to it: what is between is balanced. -/
structure Layer.Closed (ts : List Token) (l : Layer) : Prop where
  closed : ∃ k e, l.last = some e ∧ l.first < e ∧ (types ts)[l.first]? = some (.opening k) ∧ (types ts)[e]? = some (.closing k) ∧
    nest [] (((types ts).drop (l.first + 1)).take (e - (l.first + 1))) = some []

theorem nest_append : ∀ (a b : List Ty) (st : List Kind), nest st (a ++ b) = (nest st a).bind fun x => nest x b
  | [], b, st => rfl
  | .opening k :: a, b, st => by simp only [List.cons_append, nest, nest_append a b]
  | .closing k :: a, b, [] => by simp [nest]
  | .closing k :: a, b, j :: st => by
    simp only [List.cons_append, nest]
    split
    · exact nest_append a b st
    · rfl
  | .lineBreak :: a, b, st => by cases st <;> simp only [List.cons_append, nest, nest_append a b]
  | .other n :: a, b, st => by cases st <;> simp only [List.cons_append, nest, nest_append a b]

/-- The layers from the inner one outwards, and the braces opened after each of them. -/
inductive Chain (ts : List Token) (ls : List Layer) : List Kind → Option Nat → List Kind → Prop where
  | root {above} : Chain ts ls above none []
  | link {above i l k st} : ls[i]? = some l → l.last = none → (types ts)[l.first]? = some (.opening k) →
      nest [] ((types ts).drop (l.first + 1)) = some above → (∀ j, l.outer = some j → j < i) →
      Chain ts ls (above ++ [k]) l.outer st → Chain ts ls above (some i) (k :: st)

/-- A layer is on the way outwards. -/
inductive OnChain (ls : List Layer) : Option Nat → Nat → Prop where
  | here {i} : OnChain ls (some i) i
  | outer {i l j} : ls[i]? = some l → OnChain ls l.outer j → OnChain ls (some i) j

/-- What holds of tokens and layers. -/
structure Bal (ts : List Token) (ls : List Layer) (inner : Option Nat) (st : List Kind) : Prop where
  nested : nest [] (types ts) = some st
  chain : Chain ts ls [] inner st
  closed : ∀ j l, ls[j]? = some l → OnChain ls inner j ∨ l.Closed ts

theorem types_append (a b : List Token) : types (a ++ b) = types a ++ types b := List.map_append

theorem types_length (a : List Token) : (types a).length = a.length := List.length_map _

/-- More tokens. -/
theorem Chain.more {ts : List Token} {ls : List Layer} {above : List Kind} {i : Option Nat} {st : List Kind}
    (h : Chain ts ls above i st) (t : Token) (next : List Kind → List Kind)
    (hn : ∀ x, (∃ y, x = above ++ y) → nest x [t.ty] = some (next x)) (hx : ∀ x k, (∃ y, x = above ++ y) → next (x ++ [k]) = next x ++ [k]) :
    Chain (ts ++ [t]) ls (next above) i st := by
  induction h with
  | root => exact .root
  | @link above i l k st h1 h2 h3 h4 h5 h6 ih =>
    have hlt : l.first < (types ts).length := (List.getElem?_eq_some_iff.1 h3).1
    refine .link h1 h2 ?_ ?_ h5 ?_
    · rw [types_append, List.getElem?_append_left hlt, h3]
    · rw [types_append, List.drop_append_of_le_length (by omega), nest_append, h4]
      exact hn above ⟨[], by simp⟩
    · rw [← hx above k ⟨[], by simp⟩]
      refine ih (fun x hy => hn x (hy.elim fun y e => ⟨k :: y, by rw [e]; simp⟩)) (fun x k' hy => hx x k' (hy.elim fun y e => ⟨k :: y, by rw [e]; simp⟩))

theorem Chain.other {ts : List Token} {ls : List Layer} {above : List Kind} {i : Option Nat} {st : List Kind}
    (h : Chain ts ls above i st) (t : Token) (ht : ∀ k, t.ty ≠ .opening k ∧ t.ty ≠ .closing k) : Chain (ts ++ [t]) ls above i st := by
  refine h.more t id ?_ (fun _ _ _ => rfl)
  intro x _
  revert ht
  rcases t with ⟨ty, _, _, _, _⟩
  intro ht
  cases ty with
  | opening k => exact absurd rfl (ht k).1
  | closing k => exact absurd rfl (ht k).2
  | lineBreak => cases x <;> rfl
  | other n => cases x <;> rfl

theorem Chain.opening {ts : List Token} {ls : List Layer} {above : List Kind} {i : Option Nat} {st : List Kind}
    (h : Chain ts ls above i st) (t : Token) (k : Kind) (ht : t.ty = .opening k) : Chain (ts ++ [t]) ls (k :: above) i st :=
  h.more t (k :: ·) (fun x _ => by rw [ht]; rfl) (fun _ _ _ => rfl)

theorem Chain.closing {ts : List Token} {ls : List Layer} {above : List Kind} {i : Option Nat} {st : List Kind} {k : Kind}
    (h : Chain ts ls (k :: above) i st) (t : Token) (ht : t.ty = .closing k) : Chain (ts ++ [t]) ls above i st := by
  refine h.more t List.tail ?_ ?_
  · rintro x ⟨y, rfl⟩; rw [ht]; simp [nest]
  · rintro x k' ⟨y, rfl⟩; rfl

/-- The layers on the way outwards are the only ones which matter. -/
theorem Chain.set {ts : List Token} {ls : List Layer} {above : List Kind} {o : Option Nat} {st : List Kind}
    (h : Chain ts ls above o st) (i : Nat) (l : Layer) (hi : ∀ j, o = some j → j < i) : Chain ts (ls.set i l) above o st := by
  induction h with
  | root => exact .root
  | @link above j l' k st h1 h2 h3 h4 h5 h6 ih =>
    have hj := hi j rfl
    refine .link (by rw [List.getElem?_set_ne (by omega)]; exact h1) h2 h3 h4 h5 (ih (fun x hx => ?_))
    have := h5 x hx; omega

theorem Chain.append {ts : List Token} {ls : List Layer} {above : List Kind} {o : Option Nat} {st : List Kind}
    (h : Chain ts ls above o st) (l : Layer) : Chain ts (ls ++ [l]) above o st := by
  induction h with
  | root => exact .root
  | @link above j l' k st h1 h2 h3 h4 h5 h6 ih =>
    exact .link (by rw [List.getElem?_append_left (List.getElem?_eq_some_iff.1 h1).1]; exact h1) h2 h3 h4 h5 ih

theorem OnChain.append {ls : List Layer} {o : Option Nat} {j : Nat} (h : OnChain ls o j) (l : Layer) : OnChain (ls ++ [l]) o j := by
  induction h with
  | here => exact .here
  | outer h1 _ ih => exact .outer (by rw [List.getElem?_append_left (List.getElem?_eq_some_iff.1 h1).1]; exact h1) ih

/-- Closing an inner layer does not change the way from an outer one. -/
theorem OnChain.set {ts : List Token} {ls : List Layer} {above : List Kind} {o : Option Nat} {st : List Kind}
    (hc : Chain ts ls above o st) (i : Nat) (l : Layer) (hi : ∀ j, o = some j → j < i) {j : Nat} (h : OnChain ls o j) :
    OnChain (ls.set i l) o j := by
  induction hc with
  | root => cases h
  | @link above x l' k st h1 h2 h3 h4 h5 h6 ih =>
    have hx := hi x rfl
    cases h with
    | here => exact .here
    | outer a b =>
      rw [h1] at a; cases a
      exact .outer (by rw [List.getElem?_set_ne (by omega)]; exact h1) (ih (fun y hy => by have := h5 y hy; omega) b)

theorem Layer.Closed.more {ts : List Token} {l : Layer} (h : l.Closed ts) (b : List Token) : l.Closed (ts ++ b) := by
  obtain ⟨k, e, h1, h2, h3, h4, h5⟩ := h.closed
  have he : e < (types ts).length := (List.getElem?_eq_some_iff.1 h4).1
  refine ⟨k, e, h1, h2, ?_, ?_, ?_⟩
  · rw [types_append, List.getElem?_append_left (by omega), h3]
  · rw [types_append, List.getElem?_append_left he, h4]
  · rw [types_append, List.drop_append_of_le_length (by omega), List.take_append_of_le_length (by rw [List.length_drop]; omega), h5]

/-! ### Adding a token -/

theorem Bal.other {ts : List Token} {ls : List Layer} {i : Option Nat} {st : List Kind} (h : Bal ts ls i st) (t : Token)
    (ht : ∀ k, t.ty ≠ .opening k ∧ t.ty ≠ .closing k) : Bal (ts ++ [t]) ls i st := by
  refine ⟨?_, h.chain.other t ht, fun j l hj => (h.closed j l hj).imp id (·.more _)⟩
  rw [types_append, nest_append, h.nested]
  revert ht
  rcases t with ⟨ty, _, _, _, _⟩
  intro ht
  cases ty with
  | opening k => exact absurd rfl (ht k).1
  | closing k => exact absurd rfl (ht k).2
  | lineBreak => cases st <;> rfl
  | other n => cases st <;> rfl

theorem Bal.opening {ts : List Token} {ls : List Layer} {i : Option Nat} {st : List Kind} (h : Bal ts ls i st) (t : Token) (k : Kind)
    (ht : t.ty = .opening k) : Bal (ts ++ [t]) (ls ++ [⟨i, ts.length, none⟩]) (some ls.length) (k :: st) := by
  refine ⟨?_, ?_, ?_⟩
  · rw [types_append, nest_append, h.nested]
    show nest st [t.ty] = _
    rw [ht]; rfl
  · refine .link (l := ⟨i, ts.length, none⟩) (by simp) rfl ?_ ?_ ?_ ?_
    · show (types (ts ++ [t]))[ts.length]? = _
      rw [types_append, List.getElem?_append_right (by rw [types_length]; exact Nat.le_refl _), types_length, Nat.sub_self]
      show some t.ty = _
      rw [ht]
    · show nest [] ((types (ts ++ [t])).drop (ts.length + 1)) = _
      rw [List.drop_eq_nil_of_le (by rw [types_length, List.length_append]; exact Nat.le_refl _)]; rfl
    · intro j hj
      have hj : i = some j := hj
      subst hj
      cases h.chain with
      | link h1 => exact (List.getElem?_eq_some_iff.1 h1).1
    · exact (h.chain.opening t k ht).append _
  · intro j l hj
    rcases Nat.lt_or_ge j ls.length with hlt | hge
    · rw [List.getElem?_append_left hlt] at hj
      rcases h.closed j l hj with hc | hc
      · exact .inl (.outer (l := ⟨i, ts.length, none⟩) (by simp) (hc.append _))
      · exact .inr (hc.more _)
    · have : j < (ls ++ [(⟨i, ts.length, none⟩ : Layer)]).length := (List.getElem?_eq_some_iff.1 hj).1
      have : j = ls.length := by rw [List.length_append] at this; simp at this; omega
      subst this; exact .inl .here

/-- The inner layer is closed. -/
theorem Bal.pop {ts : List Token} {ls : List Layer} {i : Nat} {k : Kind} {st : List Kind} {l : Layer} (h : Bal ts ls (some i) (k :: st))
    (hl : ls[i]? = some l) (t : Token) (ht : t.ty = .closing k) :
    Bal (ts ++ [t]) (ls.set i ⟨l.outer, l.first, some ts.length⟩) l.outer st := by
  obtain ⟨hn, hc, hcl⟩ := h
  cases hc with
  | @link _ _ l' _ _ h1 h2 h3 h4 h5 h6 =>
    rw [h1] at hl; cases hl
    have hlt : l.first < ts.length := by have := (List.getElem?_eq_some_iff.1 h3).1; rwa [types_length] at this
    have hil : i < ls.length := (List.getElem?_eq_some_iff.1 h1).1
    refine ⟨?_, ?_, ?_⟩
    · rw [types_append, nest_append, hn]
      show nest (k :: st) [t.ty] = _
      rw [ht]; simp [nest]
    · exact (Chain.closing h6 t ht).set i _ h5
    · intro j l' hj
      by_cases hji : j = i
      · subst hji
        rw [List.getElem?_set_self hil] at hj
        cases hj
        refine .inr ⟨k, ts.length, rfl, hlt, ?_, ?_, ?_⟩
        · show (types (ts ++ [t]))[l.first]? = _
          rw [types_append, List.getElem?_append_left (by rw [types_length]; exact hlt), h3]
        · rw [types_append, List.getElem?_append_right (by rw [types_length]; exact Nat.le_refl _), types_length, Nat.sub_self]
          show some t.ty = _
          rw [ht]
        · show nest [] (((types (ts ++ [t])).drop (l.first + 1)).take (ts.length - (l.first + 1))) = _
          rw [types_append, List.drop_append_of_le_length (by rw [types_length]; omega),
            List.take_left' (by rw [List.length_drop, types_length]), h4]
      · rw [List.getElem?_set_ne (fun e => hji e.symm)] at hj
        rcases hcl j l' hj with hc | hc
        · left
          cases hc with
          | here => exact absurd rfl hji
          | outer a b =>
            rw [h1] at a; cases a
            exact OnChain.set h6 i _ h5 b
        · exact .inr (hc.more _)

theorem openKind_eq {ts : List Token} {l : Layer} {k : Kind} (h : (types ts)[l.first]? = some (.opening k)) : openKind ts l = k := by
  unfold openKind
  unfold types at h
  rw [List.getElem?_map] at h
  rw [h]

/-- No quote and no format code is open. -/
def Plain (st : List Kind) : Prop := ∀ k ∈ st, k.barrier = false

/-- What leaving layers leads to: a layer is closed by the token which follows, or all are closed. -/
def Unwound (t : Token) (r : List Token × List Layer × Option Nat × Bool) : Prop :=
  ∃ st, Plain st ∧ (r.2.2.2 = true ∧ Bal (r.1 ++ [t]) r.2.1 r.2.2.1 st ∨ r.2.2.2 = false ∧ r.2.2.1 = none ∧ Bal r.1 r.2.1 none [])

theorem unwind_bal (k : Kind) (zero : Ty → Token) (hz : ∀ t, (zero t).ty = t) (t : Token) (ht : t.ty = .closing k) :
    ∀ n ts ls i st, i < n → Bal ts ls (some i) st → Plain st → Unwound t (unwind k zero n ts ls i)
  | 0, ts, ls, i, st, hi, _, _ => absurd hi (Nat.not_lt_zero _)
  | n + 1, ts, ls, i, st, hi, hb, hp => by
    have hb' := hb
    obtain ⟨hn, hc, hcl⟩ := hb'
    cases hc with
    | @link _ _ l j st h1 h2 h3 h4 h5 h6 =>
      have ek := openKind_eq h3
      have hjp : j.barrier = false := hp j List.mem_cons_self
      have hst : Plain st := fun x hx => hp x (List.mem_cons_of_mem _ hx)
      unfold unwind
      rw [h1]
      dsimp only
      rw [ek]
      by_cases hjk : j = k
      · rw [if_pos hjk]
        exact ⟨st, hst, .inl ⟨rfl, hb.pop h1 t (hjk ▸ ht)⟩⟩
      · rw [if_neg hjk, hjp, if_neg (by decide)]
        have hpop := hb.pop h1 (zero (.closing j)) (hz _)
        generalize ls.set i ⟨l.outer, l.first, some ts.length⟩ = ls' at hpop
        cases ho : l.outer with
        | none =>
          rw [ho] at hpop h6
          cases h6
          exact ⟨[], hst, .inr ⟨rfl, rfl, hpop⟩⟩
        | some o =>
          rw [ho] at hpop
          exact unwind_bal k zero hz t ht n _ _ o st (by have := h5 o ho; omega) hpop hst

theorem finish_bal (zero : Ty → Token) (hz : ∀ t, (zero t).ty = t) :
    ∀ n ts ls i st, i < n → Bal ts ls (some i) st → Plain st →
      Bal (finish zero n ts ls i).1 (finish zero n ts ls i).2.1 (finish zero n ts ls i).2.2 []
  | 0, ts, ls, i, st, hi, _, _ => absurd hi (Nat.not_lt_zero _)
  | n + 1, ts, ls, i, st, hi, hb, hp => by
    have hb' := hb
    obtain ⟨hn, hc, hcl⟩ := hb'
    cases hc with
    | @link _ _ l j st h1 h2 h3 h4 h5 h6 =>
      have ek := openKind_eq h3
      have hjp : j.barrier = false := hp j List.mem_cons_self
      have hst : Plain st := fun x hx => hp x (List.mem_cons_of_mem _ hx)
      unfold finish
      rw [h1]
      dsimp only
      rw [ek, hjp, if_neg (by decide)]
      have hpop := hb.pop h1 (zero (.closing j)) (hz _)
      cases ho : l.outer with
      | none =>
        rw [ho] at hpop
        have : st = [] := by rw [ho] at h6; cases h6; rfl
        exact this ▸ hpop
      | some o =>
        rw [ho] at hpop
        exact finish_bal zero hz n _ _ o st (by have := h5 o ho; omega) hpop hst

theorem Bal.lt {ts : List Token} {ls : List Layer} {i : Nat} {st : List Kind} (h : Bal ts ls (some i) st) : i < ls.length := by
  cases h.chain with
  | link h1 => exact (List.getElem?_eq_some_iff.1 h1).1

theorem Bal.empty {ts : List Token} {ls : List Layer} {st : List Kind} (h : Bal ts ls none st) : st = [] := by
  cases h.chain; rfl

/-- At the end of the content all is closed. -/
theorem closeAll_bal {ts : List Token} {ls : List Layer} {i : Option Nat} {st : List Kind} (h : Bal ts ls i st) (hp : Plain st)
    (zero : Ty → Token) (hz : ∀ t, (zero t).ty = t) :
    Bal (closeAll zero ts ls i).1 (closeAll zero ts ls i).2.1 (closeAll zero ts ls i).2.2 [] := by
  cases i with
  | none => exact h.empty ▸ h
  | some i => exact finish_bal zero hz _ _ _ _ st (by have := h.lt; omega) h hp

/-- In a string nothing is closed at the end of the content. -/
theorem closeAll_quote {ts : List Token} {ls : List Layer} {i : Option Nat} {q : Kind} {st : List Kind} (h : Bal ts ls i (q :: st))
    (hq : q.barrier = true) (zero : Ty → Token) : closeAll zero ts ls i = (ts, ls, i) := by
  cases h.chain with
  | @link _ i l _ _ h1 h2 h3 h4 h5 h6 =>
    show finish zero (ls.length + 1) ts ls i = _
    unfold finish
    rw [h1]
    dsimp only
    rw [openKind_eq h3, if_pos hq]

/-- The braces of a context in code. -/
def CodeBal (c : Ctx) : Prop := ∃ st, Bal c.tokens c.layers c.inner st ∧ Plain st ∧ (c.rest = [] → st = [])

/-- Those of a context in a string. -/
def TextBal (q : Kind) (c : Ctx) : Prop := ∃ st, Bal c.tokens c.layers c.inner (q :: st) ∧ q.barrier = true ∧ Plain st

/-- The tokens, the layers and the inner layer after one was added, before the end is looked at. -/
def Ctx.mid (c : Ctx) (ty : Ty) (len : Nat) : List Token × List Layer × Option Nat :=
  ((c.prepare (fun t => Token.mk t c.pos c.line c.col 0) ty).1 ++ [⟨ty, c.pos, c.line, c.col, len⟩],
    (c.prepare (fun t => Token.mk t c.pos c.line c.col 0) ty).2.1, (c.prepare (fun t => Token.mk t c.pos c.line c.col 0) ty).2.2)

theorem add_code {c : Ctx} {ty : Ty} {len : Nat} {st : List Kind}
    (h : Bal (c.mid ty len).1 (c.mid ty len).2.1 (c.mid ty len).2.2 st) (hp : Plain st) : CodeBal (c.add ty len) := by
  by_cases hl : c.rest.length ≤ len
  · have := closeAll_bal h hp (fun t => Token.mk t c.pos c.line c.col 0) (fun _ => rfl)
    refine ⟨[], ?_, fun _ h => (by cases h), fun _ => rfl⟩
    simp only [Ctx.add, if_pos hl]
    exact this
  · refine ⟨st, ?_, hp, ?_⟩
    · simp only [Ctx.add, if_neg hl]
      exact h
    · intro e
      have e : c.rest.drop len = [] := e
      exact absurd (List.drop_eq_nil_iff.1 e) hl

theorem add_text {c : Ctx} {ty : Ty} {len : Nat} {q : Kind} {st : List Kind}
    (h : Bal (c.mid ty len).1 (c.mid ty len).2.1 (c.mid ty len).2.2 (q :: st)) (hq : q.barrier = true) (hp : Plain st) :
    TextBal q (c.add ty len) := by
  refine ⟨st, ?_, hq, hp⟩
  by_cases hl : c.rest.length ≤ len
  · have := closeAll_quote h hq (fun t => Token.mk t c.pos c.line c.col 0)
    simp only [Ctx.add, if_pos hl]
    unfold Ctx.mid at this
    rw [this]
    exact h
  · simp only [Ctx.add, if_neg hl]
    exact h

theorem prepare_other (c : Ctx) (zero : Ty → Token) (ty : Ty) (h : ∀ k, ty ≠ .opening k ∧ ty ≠ .closing k) :
    c.prepare zero ty = (c.tokens, c.layers, c.inner) := by
  cases ty with
  | opening k => exact absurd rfl (h k).1
  | closing k => exact absurd rfl (h k).2
  | lineBreak => rfl
  | other n => rfl

theorem CodeBal.add {c : Ctx} (h : CodeBal c) {ty : Ty} (len : Nat) (ht : ∀ k, ty = .opening k ∨ ty = .closing k → k.barrier = false) :
    CodeBal (c.add ty len) := by
  obtain ⟨st, hb, hp, -⟩ := h
  have other : (∀ k, ty ≠ .opening k ∧ ty ≠ .closing k) → CodeBal (c.add ty len) := by
    intro ho
    refine add_code (st := st) ?_ hp
    unfold Ctx.mid
    rw [prepare_other c _ ty ho]
    exact hb.other _ ho
  cases ty with
  | opening k =>
    refine add_code (st := k :: st) (hb.opening _ k rfl) ?_
    intro x hx
    rcases List.mem_cons.1 hx with e | e
    · exact e ▸ ht k (.inl rfl)
    · exact hp x e
  | lineBreak => exact other (fun k => ⟨fun e => (by cases e), fun e => (by cases e)⟩)
  | other n => exact other (fun k => ⟨fun e => (by cases e), fun e => (by cases e)⟩)
  | closing k =>
    have pair : ∀ (ts : List Token) (ls : List Layer) (zero : Ty → Token), (∀ t, (zero t).ty = t) → Bal ts ls none [] →
        ∀ t : Token, t.ty = .closing k → Bal (ts ++ [zero (.opening k)] ++ [t]) ls none [] := by
      intro ts ls zero hz hb t ht
      refine ⟨?_, .root, fun j l hj => (hb.closed j l hj).imp id (fun x => (x.more _).more _)⟩
      rw [types_append, types_append, nest_append, nest_append, hb.nested]
      show (nest [] [(zero (.opening k)).ty]).bind (fun x => nest x [t.ty]) = _
      rw [hz, ht]
      simp [nest]
    cases hi : c.inner with
    | none =>
      rw [hi] at hb
      have := hb.empty
      subst this
      refine add_code (st := []) ?_ hp
      unfold Ctx.mid
      simp only [Ctx.prepare, hi]
      exact pair c.tokens c.layers (fun t => Token.mk t c.pos c.line c.col 0) (fun _ => rfl) hb ⟨.closing k, c.pos, c.line, c.col, len⟩ rfl
    | some i =>
      rw [hi] at hb
      obtain ⟨st', hp', hu⟩ := unwind_bal k (fun t => Token.mk t c.pos c.line c.col 0) (fun _ => rfl)
        ⟨.closing k, c.pos, c.line, c.col, len⟩ rfl (c.layers.length + 1) c.tokens c.layers i st (by have := hb.lt; omega) hb hp
      rcases hu with ⟨h1, h2⟩ | ⟨h1, h2, h3⟩
      · refine add_code (st := st') ?_ hp'
        unfold Ctx.mid
        simp only [Ctx.prepare, hi, h1, if_true]
        exact h2
      · refine add_code (st := []) ?_ (fun _ h => (by cases h))
        unfold Ctx.mid
        simp only [Ctx.prepare, hi, h1, Bool.false_eq_true, if_false, h2]
        exact pair _ _ (fun t => Token.mk t c.pos c.line c.col 0) (fun _ => rfl) h3 ⟨.closing k, c.pos, c.line, c.col, len⟩ rfl

theorem CodeBal.open {c : Ctx} (h : CodeBal c) (q : Kind) (hq : q.barrier = true) (len : Nat) : TextBal q (c.add (.opening q) len) := by
  obtain ⟨st, hb, hp, -⟩ := h
  exact add_text (st := st) (hb.opening _ q rfl) hq hp

theorem TextBal.add {c : Ctx} {q : Kind} (h : TextBal q c) {ty : Ty} (len : Nat) (ht : ∀ k, ty ≠ .opening k ∧ ty ≠ .closing k) :
    TextBal q (c.add ty len) := by
  obtain ⟨st, hb, hq, hp⟩ := h
  refine add_text (st := st) ?_ hq hp
  unfold Ctx.mid
  rw [prepare_other c _ ty ht]
  exact hb.other _ ht

theorem TextBal.close {c : Ctx} {q : Kind} (h : TextBal q c) (len : Nat) : CodeBal (c.add (.closing q) len) := by
  obtain ⟨st, hb, hq, hp⟩ := h
  refine add_code (st := st) ?_ hp
  have hb' := hb
  obtain ⟨-, hc, -⟩ := hb'
  generalize hi : c.inner = o at hc
  cases hc with
  | @link _ i l _ _ h1 h2 h3 h4 h5 h6 =>
    rw [hi] at hb
    unfold Ctx.mid
    have e : unwind q (fun t => Token.mk t c.pos c.line c.col 0) (c.layers.length + 1) c.tokens c.layers i =
        (c.tokens, c.layers.set i ⟨l.outer, l.first, some c.tokens.length⟩, l.outer, true) := by
      unfold unwind
      rw [h1]
      dsimp only
      rw [openKind_eq h3, if_pos rfl]
    simp only [Ctx.prepare, hi, e]
    exact hb.pop h1 _ rfl

/-! ### Parsing -/

theorem CodeBal.addSpaces {c : Ctx} (h : CodeBal c) : ∀ ls : List Nat, CodeBal (c.addSpaces ls)
  | [] => h
  | n :: ls => CodeBal.addSpaces (h.add (ty := .other 1) n (fun k e => e.elim (fun e => (by cases e)) (fun e => (by cases e)))) ls

/-- What is not consumed yet is an end of the content. -/
def Rest (content : List Nat) (c : Ctx) : Prop := ∃ k, c.rest = content.drop k

theorem Rest.add {content : List Nat} {c : Ctx} (h : Rest content c) (ty : Ty) (len : Nat) : Rest content (c.add ty len) := by
  obtain ⟨k, e⟩ := h
  exact ⟨k + len, by show c.rest.drop len = _; rw [e, List.drop_drop]⟩

theorem Rest.addSpaces {content : List Nat} : ∀ (ls : List Nat) {c : Ctx}, Rest content c → Rest content (c.addSpaces ls)
  | [], _, h => h
  | n :: ls, _, h => Rest.addSpaces ls (h.add (.other 1) n)

/-- What a turn of the parser of code leads to. -/
def BalNext (content : List Nat) (f : Flags) : Next → Prop
  | .go d => CodeBal d ∧ Rest content d ∧ d.flags = f
  | .string d p q => TextBal (if 98 ∈ p then .bytesQuote else .textQuote) d ∧ Rest content d ∧ q ≠ [125] ∧ 102 ∉ p ∧ q ≠ [] ∧ d.flags = f
  | .formatCode _ => False
  | .stuck => True

theorem addSpaces_flags : ∀ (ls : List Nat) (c : Ctx), (c.addSpaces ls).flags = c.flags
  | [], _ => rfl
  | n :: ls, c => addSpaces_flags ls (c.add (.other 1) n)

theorem quotes_ne {l q : List Nat} (h : quotes l = some q) : q ≠ [125] := by
  unfold quotes at h
  split at h
  · cases h; decide
  · split at h
    · cases h; decide
    · split at h
      · cases h; decide
      · split at h
        · cases h; decide
        · cases h

theorem next_bal {L : Lexer} (hL : L.Sane) {content : List Nat} (hno : ∀ k p q, starter (content.drop k) = some (p, q) → 102 ∉ p)
    {c : Ctx} (hf : c.flags.Top) (h : CodeBal c) (hr : Rest content c) : BalNext content c.flags (c.next L) := by
  have ha : c.atFormat = false := by unfold Ctx.atFormat; rw [hf.format]; rfl
  have plain : ∀ n k, Ty.other n = .opening k ∨ Ty.other n = .closing k → k.barrier = false :=
    fun n k e => e.elim (fun e => (by cases e)) (fun e => (by cases e))
  unfold Ctx.next
  split
  · exact ⟨h.addSpaces _, hr.addSpaces _, addSpaces_flags _ _⟩
  · rw [if_neg (fun h => by rw [ha] at h; cases h.1), if_neg (fun h => by rw [ha] at h; cases h.1),
      if_neg (fun h => by rw [ha] at h; cases h.1)]
    unfold Ctx.nextCode
    split
    · exact ⟨h.add _ (plain 2), hr.add _ _, rfl⟩
    · split
      · rename_i s hs
        unfold Ctx.openString
        have hq : c.flags.refuses s.2 = false := by unfold Flags.refuses; rw [hf.single, hf.double]; simp
        rw [hq, if_neg (by decide)]
        obtain ⟨k, hk⟩ := hr
        have h1 : 102 ∉ s.1 := hno k s.1 s.2 (hk ▸ hs)
        have h2 : s.2 ≠ [125] := quotes_ne (starterOf_spec _ _ hs).2.2
        have hb : (if 98 ∈ s.1 then Kind.bytesQuote else Kind.textQuote).barrier = true := by split <;> rfl
        dsimp only
        by_cases hp : s.1 = []
        · rw [if_pos hp]
          exact ⟨h.open _ hb _, Rest.add ⟨k, hk⟩ _ _, h2, h1, (starter_spec hs).2.2.2.1, rfl⟩
        · rw [if_neg hp]
          exact ⟨(h.add _ (plain 3)).open _ hb _, (Rest.add ⟨k, hk⟩ _ _).add _ _, h2, h1, (starter_spec hs).2.2.2.1, rfl⟩
      · unfold Ctx.nextWord
        split
        · rename_i w hw
          exact ⟨h.add _ (hL.word _ _ w.1 w.2 hw).2.2.2.2, hr.add _ _, rfl⟩
        · split
          · rw [hf.multi]
            exact ⟨h.add (ty := .lineBreak) _ (fun k e => e.elim (fun e => (by cases e)) (fun e => (by cases e))), hr.add _ _, rfl⟩
          · split
            · trivial
            · exact ⟨h.add _ (plain 0), hr.add _ _, rfl⟩

theorem textTy_plain (f : Flags) (k : Kind) : textTy f ≠ .opening k ∧ textTy f ≠ .closing k := by
  unfold textTy
  constructor <;> repeat (first | split | (intro h; cases h))

theorem turn_bal {content : List Nat} {c : Ctx} {q : Kind} (h : TextBal q c) (hr : Rest content c) {e : List Nat} (he : e ≠ [])
    (hn : e ≠ [125]) (hc : closeTy c.flags e = .closing q) :
    match c.turn e false with
    | .over d => CodeBal d ∧ Rest content d
    | .again d => TextBal q d ∧ Rest content d ∧ d.flags = c.flags
    | .code _ => False := by
  have ht : ∀ p, TextBal q (c.addText p) ∧ Rest content (c.addText p) ∧ (c.addText p).flags = c.flags := by
    intro p
    unfold Ctx.addText
    split
    · exact ⟨h.add _ (textTy_plain _), hr.add _ _, rfl⟩
    · exact ⟨h, hr, rfl⟩
  unfold Ctx.turn
  by_cases h0 : c.rest = []
  · rw [if_pos h0, hc]
    exact ⟨h.close _, hr.add _ _⟩
  · rw [if_neg h0]
    have hb := (scan_spec e he false c.rest).2.2.2.2
    obtain ⟨h1, h2, h3⟩ := ht (scan e false c.rest).1
    dsimp only
    generalize c.addText (scan e false c.rest).1 = d at h1 h2 h3
    cases hs : (scan e false c.rest).2 with
    | stop =>
      dsimp only
      unfold Ctx.endLine
      by_cases hends : d.flags.ends = true
      · rw [if_pos hends]
        dsimp only
        have e1 : closeTy { d.flags with hitMulti := true } e = .closing q := by rw [h3, ← hc]; rfl
        rw [if_neg (fun x => hn x.1), e1]
        have h1' : TextBal q { d with flags := { d.flags with hitMulti := true }, done := true } := h1
        have h2' : Rest content { d with flags := { d.flags with hitMulti := true }, done := true } := h2
        exact ⟨h1'.close _, h2'.add _ _⟩
      · rw [if_neg hends]
        dsimp only
        by_cases hd : d.rest = []
        · rw [if_pos hd]; exact ⟨h1, h2, h3⟩
        · rw [if_neg hd]
          exact ⟨h1.add (ty := .lineBreak) _ (fun k => ⟨fun e => (by cases e), fun e => (by cases e)⟩), h2.add _ _, h3⟩
    | close =>
      dsimp only
      rw [hc]
      exact ⟨h1.close _, h2.add _ _⟩
    | brace => exact absurd (hb hs).2 (by decide)

theorem forString_close (f : Flags) (p q : List Nat) (hq : q ≠ [125]) :
    closeTy (f.forString p q) q = .closing (if 98 ∈ p then .bytesQuote else .textQuote) := by
  unfold closeTy
  rw [if_neg hq]
  by_cases h : 98 ∈ p <;> simp [Flags.forString, h]

theorem parse_bal {L : Lexer} (hL : L.Sane) {content : List Nat} (hno : ∀ k p q, starter (content.drop k) = some (p, q) → 102 ∉ p) :
    ∀ (n : Nat),
      (∀ c d, parse L n .code c = some d → c.flags.Top → CodeBal c → Rest content c → CodeBal d) ∧
      (∀ e q c d, parse L n (.text e false) c = some d → e ≠ [] → e ≠ [125] → closeTy c.flags e = .closing q → TextBal q c →
        Rest content c → CodeBal d ∧ Rest content d)
  | 0 => ⟨fun _ _ h => (by cases h), fun _ _ _ _ h => (by cases h)⟩
  | n + 1 => by
    obtain ⟨ih1, ih2⟩ := parse_bal hL hno n
    constructor
    · intro c d h hf hc hr
      unfold parse at h
      by_cases hd : c.done = true
      · rw [if_pos hd] at h; cases h; exact hc
      · rw [if_neg hd] at h
        have g := next_bal hL hno hf hc hr
        revert g h
        rcases c.next L with x | ⟨x, p, q⟩ | x | _ <;> intro h g
        · exact ih1 x d h (g.2.2 ▸ hf) g.1 g.2.1
        · obtain ⟨y, h1, h2⟩ := Option.bind_eq_some_iff.1 h
          obtain ⟨g1, g2, g3, g4, g5, g6⟩ := g
          rw [show (decide (98 ∉ p ∧ 102 ∈ p)) = false from decide_eq_false (fun e => g4 e.2)] at h1
          obtain ⟨j1, j2⟩ := ih2 q _ { x with flags := x.flags.forString p q } y h1 g5 g3 (forString_close _ _ _ g3) g1 g2
          exact ih1 (y.leave x.flags x.done) d h2 (g6 ▸ hf :) j1 j2
        · exact g.elim
        · exact ih1 c d h hf hc hr
    · intro e q c d h he hn hc ht hr
      unfold parse at h
      have g := turn_bal ht hr he hn hc
      revert g h
      rcases c.turn e false with x | x | x <;> intro h g
      · cases h; exact g
      · exact ih2 e q x d h he hn (g.2.2 ▸ hc) g.1 g.2.1
      · exact g.elim

/-- C227, if no format string begins anywhere: the braces of the tokens are balanced, and each layer reaches from an opening token
to the closing one which belongs to it. -/
theorem C227_balanced_partial {L : Lexer} (hL : L.Sane) (content : List Nat) (f : Flags) (hf : f.Top) (n : Nat) (d : Ctx)
    (h : parse L n .code (Ctx.new content f) = some d) (hno : ∀ k p q, starter (content.drop k) = some (p, q) → 102 ∉ p) :
    nest [] (types d.tokens) = some [] ∧ ∀ l ∈ d.layers, l.Closed d.tokens := by
  have hnew : CodeBal (Ctx.new content f) :=
    ⟨[], ⟨rfl, .root, fun j l hj => by simp [Ctx.new] at hj⟩, fun _ h => (by cases h), fun _ => rfl⟩
  obtain ⟨st, hb, -, he⟩ := (parse_bal hL hno n).1 _ d h hf hnew ⟨0, rfl⟩
  have := he (parse_result hL hf h).2
  subst this
  refine ⟨hb.nested, ?_⟩
  intro l hl
  obtain ⟨j, hj⟩ := List.getElem?_of_mem hl
  rcases hb.closed j l hj with hc | hc
  · have hi := hb.chain
    generalize d.inner = o at hi hc
    cases hi
    cases hc
  · exact hc

/-- `(a]"b` has no format string. The round one and the quote are closed, the square one is opened. -/
example : (parse toy 20 .code (Ctx.new [40, 97, 93, 34, 98] {})).map (fun d => (types d.tokens, d.layers)) =
    some ([.opening .round, .other 0, .closing .round, .opening .square, .closing .square, .opening .textQuote, .other 5,
      .closing .textQuote], [⟨none, 0, some 2⟩, ⟨none, 5, some 7⟩]) := by decide +kernel

/-- C227 does not hold: of `f"{a` the string is never closed, and the layer of its format code ends at the closing quote. -/
theorem C227_format_violated : ∃ d, parse toy 20 .code (Ctx.new [102, 34, 123, 97] {}) = some d ∧
    nest [] (types d.tokens) = none ∧ (⟨none, 1, none⟩ : Layer) ∈ d.layers ∧
    ∃ l ∈ d.layers, l.last = some 4 ∧ (types d.tokens)[l.first]? = some (.opening .format) ∧
      (types d.tokens)[4]? = some (.closing .textQuote) := by
  have key : ((parse toy 20 .code (Ctx.new [102, 34, 123, 97] {})).map fun d => (types d.tokens, d.layers)) =
      some ([.other 3, .opening .textQuote, .opening .format, .other 0, .closing .textQuote],
        [⟨none, 1, none⟩, ⟨some 0, 2, some 4⟩]) := by decide +kernel
  obtain ⟨d, h1, h2⟩ := Option.map_eq_some_iff.1 key
  refine ⟨d, h1, ?_⟩
  injection h2 with h2 h3
  rw [h2, h3]
  decide

end Verif.Highlight
