import Verif.UrlText.PropsHost

/-! Finding the parts of a text which was put together of them. -/
namespace Verif.UrlText

variable {K : Classes}

/-! ### Elsewhere -/

/-- A position which is as another, with more behind it and with other groups already found. -/
structure Like (tail : Text) (base : List (Nat × Text)) (t' t : Pos) : Prop where
  rest : t'.rest = t.rest ++ tail
  caps : t'.caps = t.caps ++ base

/-- Nothing looks behind. -/
def Re.forward : Re → Bool
  | .eps => true
  | .chr _ => true
  | .seq a b => a.forward && b.forward
  | .alt a b => a.forward && b.forward
  | .star _ r => r.forward
  | .cap _ r => r.forward
  | .behind _ => false

theorem loop_like {α β : Type} {r : Re} (hp : r.empty = false) {tail : Text} {base : List (Nat × Text)}
    (ht : ∀ c t, tail = c :: t → r.alphabet c = false) (F : α → β)
    (ih : ∀ (s' s : Pos) (k : Pos → Option α) (k' : Pos → Option β), Like tail base s' s →
      (∀ t' t, r.Sem s t → Like tail base t' t → k' t' = (k t).map F) → r.run s' k' = (r.run s k).map F) (g : Bool)
    (k : Pos → Option α) (k' : Pos → Option β) :
    ∀ (l : Nat) (s' s : Pos), Like tail base s' s → s.rest.length ≤ l →
      (∀ t' t, Steps r.Sem s t → Like tail base t' t → k' t' = (k t).map F) →
      ∀ n n', s.rest.length ≤ n → s.rest.length ≤ n' → loop r.run g k' n' s' = (loop r.run g k n s).map F := by
  intro l
  induction l with
  | zero =>
    intro s' s hL hs hk n n' hn hn'
    have he : s.rest = [] := List.length_eq_zero_iff.1 (by omega)
    have h0 : loop r.run g k n s = k s := by
      cases n with
      | zero => rfl
      | succ n =>
        have : r.run s (loop r.run g k n) = none := by
          cases hr : r.run s (loop r.run g k n) with
          | none => rfl
          | some x =>
            obtain ⟨t, ht, _⟩ := sound _ _ _ _ hr
            obtain ⟨w, hw⟩ := eats _ _ _ ht
            have := hw.rest
            rw [he] at this
            exact absurd (List.append_eq_nil_iff.1 this.symm).1 (hw.some hp)
        simp [loop, this]
    have h1 : loop r.run g k' n' s' = k' s' := by
      cases n' with
      | zero => rfl
      | succ n =>
        have : r.run s' (loop r.run g k' n) = none := by
          cases hr : r.run s' (loop r.run g k' n) with
          | none => rfl
          | some x =>
            obtain ⟨t, h, _⟩ := sound _ _ _ _ hr
            obtain ⟨w, hw⟩ := eats _ _ _ h
            have e : tail = w ++ t.rest := by
              have := hw.rest
              rw [hL.rest, he] at this
              exact this
            cases w with
            | nil => exact absurd rfl (hw.some hp)
            | cons c w =>
              have := ht c _ e
              rw [hw.chars c List.mem_cons_self] at this
              cases this
        simp [loop, this]
    rw [h0, h1]
    exact hk s' s (.refl s) hL
  | succ l ih' =>
    intro s' s hL hs hk n n' hn hn'
    by_cases he : s.rest.length ≤ l
    · exact ih' s' s hL he hk n n' hn hn'
    · obtain ⟨n, rfl⟩ : ∃ m, n = m + 1 := ⟨n - 1, by omega⟩
      obtain ⟨n', rfl⟩ : ∃ m, n' = m + 1 := ⟨n' - 1, by omega⟩
      have key : r.run s' (loop r.run g k' n') = (r.run s (loop r.run g k n)).map F := by
        refine ih s' s _ _ hL ?_
        intro t' t h hL'
        obtain ⟨w, hw⟩ := eats _ _ _ h
        have h1 := List.length_pos_iff.2 (hw.some hp)
        have h2 : s.rest.length = w.length + t.rest.length := by rw [hw.rest, List.length_append]
        exact ih' t' t hL' (by omega) (fun t'' t''' h' => hk t'' t''' (.step h h')) n n' (by omega) (by omega)
      have k0 := hk s' s (.refl s) hL
      simp only [loop, key, k0]
      cases g
      · cases k s <;> rfl
      · cases r.run s (loop r.run true k n) <;> rfl

/-- Matching goes the same way elsewhere. -/
theorem run_like {α β : Type} (F : α → β) {tail : Text} {base : List (Nat × Text)} (r : Re) : r.Proper → r.forward = true →
    (∀ c t, tail = c :: t → r.alphabet c = false) →
    ∀ (s' s : Pos) (k : Pos → Option α) (k' : Pos → Option β), Like tail base s' s →
    (∀ t' t, r.Sem s t → Like tail base t' t → k' t' = (k t).map F) → r.run s' k' = (r.run s k).map F := by
  induction r with
  | eps => intro _ _ _ s' s k k' hL h; exact h s' s rfl hL
  | chr p =>
    intro _ _ ht s' s k k' hL h
    obtain ⟨pv, rest, caps⟩ := s
    obtain ⟨pv', rest', caps'⟩ := s'
    obtain ⟨e, ec⟩ := hL
    have e : rest' = rest ++ tail := e
    have ec : caps' = caps ++ base := ec
    subst e ec
    cases rest with
    | nil =>
      cases tail with
      | nil => rfl
      | cons c t =>
        have : p c = false := ht c t rfl
        simp [Re.run, this]
    | cons c rest =>
      by_cases hc : p c = true
      · simp only [Re.run, List.cons_append, hc, if_true]
        exact h ⟨some c, rest ++ tail, caps ++ base⟩ ⟨some c, rest, caps⟩ ⟨c, rest, rfl, hc, rfl⟩ ⟨rfl, rfl⟩
      · simp [Re.run, hc]
  | seq a b iha ihb =>
    intro hp hf ht s' s k k' hL h
    have hf := Bool.and_eq_true_iff.1 hf
    refine iha hp.1 hf.1 (fun c t e => by have := ht c t e; simp [Re.alphabet] at this; exact this.1) s' s _ _ hL fun m' m hm hL' => ?_
    exact ihb hp.2 hf.2 (fun c t e => by have := ht c t e; simp [Re.alphabet] at this; exact this.2) m' m _ _ hL'
      fun t' t ht => h t' t ⟨m, hm, ht⟩
  | alt a b iha ihb =>
    intro hp hf ht s' s k k' hL h
    have hf := Bool.and_eq_true_iff.1 hf
    have h1 := iha hp.1 hf.1 (fun c t e => by have := ht c t e; simp [Re.alphabet] at this; exact this.1) s' s k k' hL
      fun t' t ht => h t' t (.inl ht)
    have h2 := ihb hp.2 hf.2 (fun c t e => by have := ht c t e; simp [Re.alphabet] at this; exact this.2) s' s k k' hL
      fun t' t ht => h t' t (.inr ht)
    simp only [Re.run, h1, h2]
    cases a.run s k <;> rfl
  | star g r ih =>
    intro hp hf ht s' s k k' hL h
    refine loop_like hp.2 ht F (ih hp.1 hf ht) g k k' _ s' s hL (Nat.le_refl _) h _ _ (Nat.le_refl _) ?_
    rw [hL.rest]
    simp
  | cap n r ih =>
    intro hp hf ht s' s k k' hL h
    refine ih hp hf ht s' s _ _ hL fun m' m hm hL' => ?_
    refine h _ _ ⟨m, hm, rfl⟩ ⟨hL'.rest, ?_⟩
    obtain ⟨w, hw⟩ := eats _ _ _ hm
    have e1 : s.rest.take (s.rest.length - m.rest.length) = w := by
      rw [show s.rest.length - m.rest.length = w.length by rw [hw.rest, List.length_append]; omega, hw.rest, List.take_left' rfl]
    have e2 : s'.rest.take (s'.rest.length - m'.rest.length) = w := by
      have : s'.rest = w ++ (m.rest ++ tail) := by rw [hL.rest, hw.rest, List.append_assoc]
      rw [this, hL'.rest, show (w ++ (m.rest ++ tail)).length - (m.rest ++ tail).length = w.length by simp,
        List.take_left' rfl]
    show (n, _) :: m'.caps = (n, _) :: m.caps ++ base
    rw [e1, e2, hL'.caps]
    rfl
  | behind p => intro _ hf; cases hf

/-- If all matches give the same, that is found. -/
theorem run_det {α : Type} {r : Re} (hp : r.Proper) {s t : Pos} {k : Pos → Option α} {x : α} (ht : r.Sem s t) (hk : k t = some x)
    (h : ∀ t y, r.Sem s t → k t = some y → y = x) : r.run s k = some x := by
  have := complete r hp s t k ht (by rw [hk]; rfl)
  cases hr : r.run s k with
  | none => rw [hr] at this; cases this
  | some y =>
    obtain ⟨t', h1, h2⟩ := sound _ _ _ _ hr
    rw [h t' y h1 h2]

theorem run_none {α : Type} {r : Re} {s : Pos} {k : Pos → Option α} (h : ∀ t, r.Sem s t → k t = none) : r.run s k = none := by
  cases hr : r.run s k with
  | none => rfl
  | some y =>
    obtain ⟨t', h1, h2⟩ := sound _ _ _ _ hr
    rw [h t' h1] at h2
    cases h2

theorem opt_run {α : Type} (r : Re) (s : Pos) (k : Pos → Option α) : r.opt.run s k = (r.run s k).or (k s) := rfl
theorem alt_run {α : Type} (a b : Re) (s : Pos) (k : Pos → Option α) : (a.alt b).run s k = (a.run s k).or (b.run s k) := rfl

theorem opt_det {α : Type} {r : Re} {s : Pos} {k : Pos → Option α} {x : α} (h : r.run s k = some x) : r.opt.run s k = some x := by
  rw [opt_run, h]; rfl

theorem star_of {g : Bool} {p : Char → Bool} : ∀ (w : Text) (pv : Option Char) (r : Text) (caps : List (Nat × Text)), (∀ c ∈ w, p c = true) →
    ∃ pv', (Re.star g (.chr p)).Sem ⟨pv, w ++ r, caps⟩ ⟨pv', r, caps⟩ := by
  intro w
  induction w with
  | nil => intro pv r caps _; exact ⟨pv, .refl _⟩
  | cons c w ih =>
    intro pv r caps h
    obtain ⟨pv', h'⟩ := ih (some c) r caps (fun d hd => h d (List.mem_cons_of_mem _ hd))
    exact ⟨pv', .step ⟨c, w ++ r, rfl, h c List.mem_cons_self, rfl⟩ h'⟩

theorem char_of (a : Char) (pv : Option Char) (r : Text) (caps : List (Nat × Text)) :
    (char a).Sem ⟨pv, a :: r, caps⟩ ⟨some a, r, caps⟩ := ⟨a, r, rfl, by simp [same], rfl⟩

theorem cap_of {r : Re} {n : Nat} {s : Pos} {pv : Option Char} {w t : Text} {caps : List (Nat × Text)}
    (h : r.Sem s ⟨pv, t, caps⟩) (e : s.rest = w ++ t) : (Re.cap n r).Sem s ⟨pv, t, (n, w) :: caps⟩ := by
  refine ⟨_, h, ?_⟩
  show _ = Pos.mk pv t ((n, s.rest.take (s.rest.length - t.length)) :: caps)
  rw [e, show (w ++ t).length - t.length = w.length by simp, List.take_left' rfl]

/-! ### The path and the port -/

/-- What comes after the authority. -/
def rest5 (K : Classes) (t : Pos) : Option (List (Nat × Text)) :=
  pathRp.run t fun t => (queryRp K).run t fun t => (fragmentRp K).run t fin

/-- A path as text. -/
def pathCaps (p : Option Text) : List (Nat × Text) := match p with | none => [] | some p => [(14, '/' :: p)]
def pathOpt (p : Option Text) : Text := match p with | none => [] | some p => '/' :: p

theorem end_some {pv : Option Char} {caps : List (Nat × Text)} :
    (queryRp K).run ⟨pv, [], caps⟩ (fun t => (fragmentRp K).run t fin) = some caps := by
  have := tail_run (K := K) pv none none caps (by simp) (fun _ h => (by cases h)) (fun _ h => (by cases h))
  exact this

theorem end_none {s : Pos} {c : Char} {t : Text} (e : s.rest = c :: t) (h1 : c ≠ '?') (h2 : c ≠ '#') :
    (queryRp K).run s (fun t => (fragmentRp K).run t fin) = none := by
  cases h : (queryRp K).run s (fun t => (fragmentRp K).run t fin) with
  | none => rfl
  | some g =>
    obtain ⟨q, f, e', _⟩ := tail_found h
    rw [e] at e'
    rcases tail_head (q := q) (f := f) with h | ⟨_, h⟩ | ⟨_, h⟩ <;> rw [h] at e' <;> cases e'
    · exact absurd rfl h1
    · exact absurd rfl h2

theorem path_proper : pathRp.Proper := ⟨⟨trivial, trivial, rfl⟩, trivial⟩

theorem rest5_some {pv : Option Char} {p : Option Text} {caps : List (Nat × Text)} (hp : ∀ c ∈ p.getD [], isPath c = true) :
    rest5 K ⟨pv, pathOpt p, caps⟩ = some (pathCaps p ++ caps) := by
  unfold rest5
  cases p with
  | none =>
    rw [pathRp, opt_run, run_none]
    · exact end_some (K := K)
    · intro t ht
      obtain ⟨w, m, hm, hw, e, _⟩ := eats_cap ht
      exact absurd (List.append_eq_nil_iff.1 e.symm).1 (hw.some (by rfl))
  | some p =>
    have hp : ∀ c ∈ p, isPath c = true := hp
    obtain ⟨pv', h⟩ := star_of (g := true) (p := isPath) p (some '/') [] caps hp
    rw [List.append_nil] at h
    rw [pathRp]
    have hpr : (Re.cap 14 (.seq (char '/') (.many (.chr isPath)))).Proper := ⟨trivial, trivial, rfl⟩
    refine opt_det (run_det hpr (t := ⟨pv', [], (14, '/' :: p) :: caps⟩) ?_ end_some ?_)
    · exact cap_of ⟨⟨some '/', p, caps⟩, char_of _ _ _ _, h⟩ (by simp [pathOpt])
    · intro t y ht hy
      obtain ⟨w, m, hm, hw, e, _, em, hc⟩ := eats_cap ht
      have hm : ((char '/').seq (.many (.chr isPath))).Sem ⟨pv, '/' :: p, caps⟩ m := hm
      obtain ⟨a, ha, hb⟩ := hm
      obtain ⟨ea, ea'⟩ := char_sem rfl (.inl (by decide)) ha
      obtain ⟨v, ev, hv, hcv⟩ := star_chr_sem hb
      have e1 : p = v ++ m.rest := by rw [← ev]; exact (List.cons.inj ea).2
      cases hr : t.rest with
      | nil =>
        have hw' : w = '/' :: p := by
          have : '/' :: p = w ++ t.rest := e
          rw [hr, List.append_nil] at this
          exact this.symm
        obtain ⟨pt, rt, ct⟩ := t
        cases (show rt = [] from hr)
        rw [end_some] at hy
        have : ct = (14, '/' :: p) :: caps := by
          rw [show ct = _ from hc, hw', hcv, ea']
        rw [← Option.some.inj hy, this]
        rfl
      | cons c r =>
        have hcp : c ∈ p := by
          rw [e1, ← em, hr]
          simp
        have := hp c hcp
        rw [end_none hr (fun h => by subst h; exact absurd this (by decide)) (fun h => by subst h; exact absurd this (by decide))] at hy
        cases hy

theorem rest5_none {s : Pos} {c : Char} {t : Text} (e : s.rest = c :: t) (h1 : c ≠ '?') (h2 : c ≠ '#') (h3 : c ≠ '/') : rest5 K s = none := by
  unfold rest5
  rw [pathRp, opt_run, run_none]
  · exact end_none e h1 h2
  · intro t' ht
    exfalso
    obtain ⟨m, ⟨a, ha, _⟩, _⟩ := ht
    have := (char_sem rfl (.inl (by decide)) ha).1
    rw [e] at this
    exact h3 (List.cons.inj this).1

/-- A port as text. -/
def portRp (K : Classes) : Re := .opt (.seq (char ':') (.cap 13 ((dig K).between 2 5)))
def portCaps (d : Option Text) : List (Nat × Text) := match d with | none => [] | some d => [(13, d)]
def portOpt (d : Option Text) : Text := match d with | none => [] | some d => ':' :: d

theorem upTo_of {p : Char → Bool} : ∀ (w : Text) (n : Nat) (pv : Option Char) (r : Text) (caps : List (Nat × Text)), (∀ c ∈ w, p c = true) →
    w.length ≤ n → ∃ pv', ((Re.chr p).upTo n).Sem ⟨pv, w ++ r, caps⟩ ⟨pv', r, caps⟩ := by
  intro w
  induction w with
  | nil =>
    intro n pv r caps _ _
    cases n with
    | zero => exact ⟨pv, rfl⟩
    | succ n => exact ⟨pv, .inr rfl⟩
  | cons c w ih =>
    intro n pv r caps h hn
    cases n with
    | zero => simp at hn
    | succ n =>
      obtain ⟨pv', h'⟩ := ih n (some c) r caps (fun d hd => h d (List.mem_cons_of_mem _ hd)) (by simp at hn; omega)
      exact ⟨pv', .inl ⟨_, ⟨c, w ++ r, rfl, h c List.mem_cons_self, rfl⟩, h'⟩⟩

theorem times_of {p : Char → Bool} : ∀ (w : Text) (pv : Option Char) (r : Text) (caps : List (Nat × Text)), (∀ c ∈ w, p c = true) →
    ∃ pv', ((Re.chr p).times w.length).Sem ⟨pv, w ++ r, caps⟩ ⟨pv', r, caps⟩ := by
  intro w
  induction w with
  | nil => intro pv r caps _; exact ⟨pv, rfl⟩
  | cons c w ih =>
    intro pv r caps h
    obtain ⟨pv', h'⟩ := ih (some c) r caps (fun d hd => h d (List.mem_cons_of_mem _ hd))
    exact ⟨pv', _, ⟨c, w ++ r, rfl, h c List.mem_cons_self, rfl⟩, h'⟩

theorem between_of {p : Char → Bool} {w : Text} {m n : Nat} (pv : Option Char) (r : Text) (caps : List (Nat × Text)) (h : ∀ c ∈ w, p c = true)
    (h1 : m ≤ w.length) (h2 : w.length ≤ n) : ∃ pv', ((Re.chr p).between m n).Sem ⟨pv, w ++ r, caps⟩ ⟨pv', r, caps⟩ := by
  obtain ⟨p1, e1⟩ := times_of (p := p) (w.take m) pv (w.drop m ++ r) caps (fun c hc => h c (List.mem_of_mem_take hc))
  obtain ⟨p2, e2⟩ := upTo_of (p := p) (w.drop m) (n - m) p1 r caps (fun c hc => h c (List.mem_of_mem_drop hc)) (by simp; omega)
  rw [← List.append_assoc, List.take_append_drop, List.length_take, Nat.min_eq_left h1] at e1
  exact ⟨p2, _, e1, e2⟩

theorem port_some (hK : K.Fine) {pv : Option Char} {d p : Option Text} {caps : List (Nat × Text)} (hd : ∀ x, d = some x → 2 ≤ x.length ∧ x.length ≤ 5 ∧ ∀ c ∈ x, K.digit c = true)
    (hp : ∀ c ∈ p.getD [], isPath c = true) :
    (portRp K).run ⟨pv, portOpt d ++ pathOpt p, caps⟩ (rest5 K) = some (pathCaps p ++ (portCaps d ++ caps)) := by
  cases d with
  | none =>
    rw [portRp, opt_run, run_none]
    · exact rest5_some hp
    · intro t ⟨a, ha, _⟩
      have := (char_sem rfl (.inl (by decide)) ha).1
      exfalso
      cases p with
      | none => cases this
      | some p => exact absurd (List.cons.inj this).1 (by decide)
  | some d =>
    obtain ⟨h1, h2, h3⟩ := hd d rfl
    obtain ⟨pv', h⟩ := between_of (some ':') (pathOpt p) caps h3 h1 h2
    rw [portRp]
    have hpr : (Re.seq (char ':') (.cap 13 ((dig K).between 2 5))).Proper := ⟨trivial, between_proper (r := dig K) trivial _ _⟩
    refine opt_det (run_det hpr (t := ⟨pv', pathOpt p, (13, d) :: caps⟩) ?_ ?_ ?_)
    · exact ⟨⟨some ':', d ++ pathOpt p, caps⟩, char_of _ _ _ _, cap_of h rfl⟩
    · exact rest5_some hp
    · intro t y ht hy
      obtain ⟨a, ha, hb⟩ := ht
      obtain ⟨ea, ea'⟩ := char_sem rfl (.inl (by decide)) ha
      obtain ⟨w, m, hm, hw, e, _, em, hc⟩ := eats_cap hb
      have hdig : ∀ c ∈ w, K.digit c = true := fun c hc => by
        simpa [Re.between, Re.times, Re.upTo, Re.opt, Re.alphabet, dig] using hw.chars c hc
      have e1 : d ++ pathOpt p = w ++ t.rest := by rw [← e]; exact (List.cons.inj ea).2
      have cm : m.caps = caps := by
        obtain ⟨l, el, hl⟩ := hw.caps
        cases l with
        | nil => rw [el, ea']; rfl
        | cons x l => exact absurd (hl x List.mem_cons_self) (by simp [Re.between, Re.times, Re.upTo, Re.opt, Re.groups, dig])
      -- what is left is no digit
      have hslash : K.digit '/' = false := (hK.digit _ (by decide)).trans (by decide)
      rcases List.append_eq_append_iff.1 e1 with ⟨l, hl, hl'⟩ | ⟨l, hl, hl'⟩
      · have : l = [] := by
          cases l with
          | nil => rfl
          | cons c l =>
            exfalso
            have hcw : K.digit c = true := hdig c (by rw [hl]; simp)
            cases p with
            | none => cases hl'
            | some p => rw [← (List.cons.inj hl').1, hslash] at hcw; cases hcw
        subst this
        rw [List.append_nil] at hl
        subst hl
        obtain ⟨pt, rt, ct⟩ := t
        cases (show pathOpt p = rt from hl')
        rw [rest5_some hp] at hy
        rw [← Option.some.inj hy, show ct = _ from hc, cm]
        rfl
      · cases l with
        | nil =>
          rw [List.append_nil] at hl
          subst hl
          obtain ⟨pt, rt, ct⟩ := t
          cases (show rt = pathOpt p from hl')
          rw [rest5_some hp] at hy
          rw [← Option.some.inj hy, show ct = _ from hc, cm]
          rfl
        | cons c l =>
          have hcd : K.digit c = true := h3 c (by rw [hl]; simp)
          rw [rest5_none (c := c) (t := l ++ pathOpt p) hl'
            (fun h => by subst h; rw [hK.digit _ (by decide)] at hcd; exact absurd hcd (by decide))
            (fun h => by subst h; rw [hK.digit _ (by decide)] at hcd; exact absurd hcd (by decide))
            (fun h => by subst h; rw [hslash] at hcd; cases hcd)] at hy
          cases hy

theorem port_none {s : Pos} {c : Char} {t : Text} (e : s.rest = c :: t) (h1 : c ≠ '?') (h2 : c ≠ '#') (h3 : c ≠ '/') (h4 : c ≠ ':') :
    (portRp K).run s (rest5 K) = none := by
  rw [portRp, opt_run, run_none]
  · exact rest5_none e h1 h2 h3
  · intro t' ⟨a, ha, _⟩
    have := (char_sem rfl (.inl (by decide)) ha).1
    rw [e] at this
    exact absurd (List.cons.inj this).1 h4


/-! ### The host -/

theorem host_eq : hostRp K = (Re.cap 4 (localV4 K)).alt ((Re.seq (.cap 5 (lit "localhost")) (.opt (.cap 6 (.plus (char '.'))))).alt
    ((Re.cap 7 (otherV4 K)).alt ((seqs [char '[', .cap 8 v6, char ']']).alt
    (seqs [
      .opt (.seq (.cap 9 (.seq label (.opt (.many (.seq (char '.') label))))) (char '.')),
      .cap 10 label,
      char '.',
      .cap 11 (.seq ((Re.alt (.seq (lit "xn--") word) letter).times 2) (.many (.alt (.seq (lit "xn--") word) letter))),
      .opt (.cap 12 (.plus (char '.')))])))) := rfl

/-- A pattern of hosts of names and of numbers, or of addresses between brackets. -/
theorem side_run {r : Re} (hp : r.Proper) (hf : r.forward = true) (hc : r.alphabet ':' = false) (hs : r.alphabet '/' = false)
    {w T : Text} {pv : Option Char} {base : List (Nat × Text)} {k : Pos → Option (List (Nat × Text))} {F : List (Nat × Text) → List (Nat × Text)}
    (hT : T = [] ∨ (∃ t, T = '/' :: t) ∨ ∃ t, T = ':' :: t)
    (h1 : ∀ pv c, k ⟨pv, T, c ++ base⟩ = some (F c))
    (h2 : ∀ s c t, s.rest = c :: t → c ≠ '?' → c ≠ '#' → c ≠ '/' → c ≠ ':' → k s = none) (hw : ':' ∉ w) (hw1 : '/' ∉ w) (hw2 : '?' ∉ w) (hw3 : '#' ∉ w) :
    r.run ⟨pv, w ++ T, base⟩ k = (r.run ⟨none, w, []⟩ fin).map F := by
  refine run_like F r hp hf ?_ _ _ _ _ ⟨rfl, rfl⟩ ?_
  · intro c t e
    rcases hT with h | ⟨_, h⟩ | ⟨_, h⟩ <;> rw [h] at e <;> cases e
    · exact hs
    · exact hc
  · intro t' t ht hL
    obtain ⟨pt, rt, ct⟩ := t
    obtain ⟨pt', rt', ct'⟩ := t'
    cases (show rt' = rt ++ T from hL.rest)
    cases (show ct' = ct ++ base from hL.caps)
    cases rt with
    | nil => exact h1 pt' ct
    | cons c rt =>
      obtain ⟨x, hx⟩ := eats _ _ _ ht
      have hcw : c ∈ w := by
        have : w = x ++ c :: rt := hx.rest
        rw [this]
        simp
      rw [h2 ⟨pt', c :: rt ++ T, ct ++ base⟩ c (rt ++ T) rfl (fun h => hw2 (h ▸ hcw)) (fun h => hw3 (h ▸ hcw)) (fun h => hw1 (h ▸ hcw)) (fun h => hw (h ▸ hcw))]
      simp [fin]

theorem first_none {α : Type} {r : Re} (he : r.empty = false) {c : Char} (hc : r.alphabet c = false) (pv : Option Char) (t : Text)
    (caps : List (Nat × Text)) (k : Pos → Option α) : r.run ⟨pv, c :: t, caps⟩ k = none := by
  refine run_none fun x hx => ?_
  exfalso
  obtain ⟨w, hw⟩ := eats _ _ _ hx
  cases w with
  | nil => exact absurd rfl (hw.some he)
  | cons d w =>
    have e : c :: t = d :: w ++ x.rest := hw.rest
    have := hw.chars d List.mem_cons_self
    rw [← (List.cons.inj e).1, hc] at this
    cases this

theorem v4_alphabet {c : Char} (h : K.digit c = false) :
    (localV4 K).alphabet c = (localV4 bare).alphabet c ∧ (otherV4 K).alphabet c = (otherV4 bare).alphabet c := by
  have h : K.digit c = bare.digit c := h
  constructor
  · simp only [localV4, dotMid, dotEnd, byteMid, byteEnd, dig, alts, seqs, Re.alphabet, Re.times, Re.between, Re.upTo, Re.opt, h]
  · simp only [otherV4, dotMid, dotEnd, byteMid, byteEnd, dig, alts, seqs, Re.alphabet, Re.times, Re.between, Re.upTo, Re.opt, h]

/-- The last alternative of hosts. -/
def nameRp : Re :=
    (seqs [
      .opt (.seq (.cap 9 (.seq label (.opt (.many (.seq (char '.') label))))) (char '.')),
      .cap 10 label,
      char '.',
      .cap 11 (.seq ((Re.alt (.seq (lit "xn--") word) letter).times 2) (.many (.alt (.seq (lit "xn--") word) letter))),
      .opt (.cap 12 (.plus (char '.')))])

def localRp : Re := Re.seq (.cap 5 (lit "localhost")) (.opt (.cap 6 (.plus (char '.'))))
def bracketRp : Re := (char '[').seq ((Re.cap 8 v6).seq (char ']'))

theorem host_alts : hostRp K = (Re.cap 4 (localV4 K)).alt (localRp.alt ((Re.cap 7 (otherV4 K)).alt (bracketRp.alt nameRp))) := rfl

/-- An alternative without colons and brackets. -/
structure Plain (r : Re) : Prop where
  proper : r.Proper
  forward : r.forward = true
  some : r.empty = false
  colon : r.alphabet ':' = false
  slash : r.alphabet '/' = false
  open_ : r.alphabet '[' = false

theorem local_plain (hK : K.Fine) : Plain (Re.cap 4 (localV4 K)) := by
  have h : ∀ c : Char, c.toNat < 128 → isDigit c = false → (Re.cap 4 (localV4 K)).alphabet c = (localV4 bare).alphabet c := fun c hc hd =>
    (v4_alphabet ((hK.digit c hc).trans hd)).1
  exact ⟨localV4_proper, rfl, rfl, (h _ (by decide) (by decide)).trans (by decide +kernel), (h _ (by decide) (by decide)).trans (by decide +kernel),
    (h _ (by decide) (by decide)).trans (by decide +kernel)⟩

theorem other_plain (hK : K.Fine) : Plain (Re.cap 7 (otherV4 K)) := by
  have h : ∀ c : Char, c.toNat < 128 → isDigit c = false → (Re.cap 7 (otherV4 K)).alphabet c = (otherV4 bare).alphabet c := fun c hc hd =>
    (v4_alphabet ((hK.digit c hc).trans hd)).2
  exact ⟨otherV4_proper, rfl, rfl, (h _ (by decide) (by decide)).trans (by decide +kernel), (h _ (by decide) (by decide)).trans (by decide +kernel),
    (h _ (by decide) (by decide)).trans (by decide +kernel)⟩

theorem localname_plain : Plain localRp :=
  ⟨(host_proper (K := bare)).2.1, by decide, by decide, by decide, by decide, by decide⟩

theorem name_plain : Plain nameRp :=
  ⟨(host_proper (K := bare)).2.2.2.2, by decide, by decide, by decide, by decide, by decide⟩

/-- A host is without colons, or between brackets. -/
theorem full_shape (hK : K.Fine) {w : Text} {g : List (Nat × Text)} (h : (hostRp K).full w = some g) :
    (':' ∉ w ∧ (∀ t, w ≠ '[' :: t) ∧ w ≠ []) ∨ ∃ x, w = '[' :: (x ++ [']']) ∧ ']' ∉ x := by
  rw [full_eq] at h
  obtain ⟨t, ht, hf⟩ := sound _ _ _ _ h
  have hr : t.rest = [] := by
    unfold fin at hf
    split at hf
    · assumption
    · cases hf
  have plain : ∀ r, Plain r → r.Sem ⟨none, w, []⟩ t → ':' ∉ w ∧ (∀ t, w ≠ '[' :: t) ∧ w ≠ [] := by
    intro r hp h
    obtain ⟨x, hx⟩ := eats _ _ _ h
    have e : w = x := by
      have := hx.rest
      rw [hr, List.append_nil] at this
      exact this
    subst e
    refine ⟨not_mem hx hp.colon, fun t e => ?_, hx.some hp.some⟩
    exact not_mem hx hp.open_ (by rw [e]; simp)
  rw [host_alts] at ht
  rcases ht with ht | ht | ht | ht | ht
  · exact .inl (plain _ (local_plain hK) ht)
  · exact .inl (plain _ localname_plain ht)
  · exact .inl (plain _ (other_plain hK) ht)
  · right
    obtain ⟨a, ha, b, hb, hd⟩ := ht
    obtain ⟨ea, _⟩ := char_sem rfl (.inl (by decide)) ha
    obtain ⟨ed, _⟩ := char_sem rfl (.inl (by decide)) hd
    obtain ⟨x, m, hm, hx, e, _⟩ := eats_cap hb
    have ea : w = '[' :: a.rest := ea
    exact ⟨x, by rw [ea, e, ed, hr], not_mem hx (by decide +kernel)⟩
  · exact .inl (plain _ name_plain ht)

theorem v6_forward : (Re.cap 8 v6).forward = true := by decide +kernel

/-- A host is found before a port or a path as it is found alone. -/
theorem host_run (hK : K.Fine) {w T : Text} {g : List (Nat × Text)} (h : (hostRp K).full w = some g) {pv : Option Char} {base : List (Nat × Text)}
    {k : Pos → Option (List (Nat × Text))} {F : List (Nat × Text) → List (Nat × Text)}
    (hT : T = [] ∨ (∃ t, T = '/' :: t) ∨ ∃ t, T = ':' :: t)
    (h1 : ∀ pv c, k ⟨pv, T, c ++ base⟩ = some (F c))
    (h2 : ∀ s c t, s.rest = c :: t → c ≠ '?' → c ≠ '#' → c ≠ '/' → c ≠ ':' → k s = none)
    (hw1 : '/' ∉ w) (hw2 : '?' ∉ w) (hw3 : '#' ∉ w) :
    (hostRp K).run ⟨pv, w ++ T, base⟩ k = some (F g) := by
  have hs := full_shape hK h
  rw [full_eq] at h
  have key : (hostRp K).run ⟨pv, w ++ T, base⟩ k = ((hostRp K).run ⟨none, w, []⟩ fin).map F := by
    rw [host_alts]
    simp only [alt_run]
    rcases hs with ⟨hc, hb, hne⟩ | ⟨x, hx, hx'⟩
    · rw [side_run (local_plain hK).proper (local_plain hK).forward (local_plain hK).colon (local_plain hK).slash hT h1 h2 hc hw1 hw2 hw3,
        side_run localname_plain.proper localname_plain.forward localname_plain.colon localname_plain.slash hT h1 h2 hc hw1 hw2 hw3,
        side_run (other_plain hK).proper (other_plain hK).forward (other_plain hK).colon (other_plain hK).slash hT h1 h2 hc hw1 hw2 hw3,
        side_run name_plain.proper name_plain.forward name_plain.colon name_plain.slash hT h1 h2 hc hw1 hw2 hw3]
      have hn : bracketRp.run ⟨pv, w ++ T, base⟩ k = none ∧ bracketRp.run ⟨none, w, []⟩ fin = none := by
        cases w with
        | nil => exact absurd rfl hne
        | cons c w =>
          have hc' : c ≠ '[' := fun e => hb w (by rw [e])
          constructor
          · rw [bracketRp, seq_run]
            exact char_none rfl (.inl (by decide)) _ (fun r e => hc' (List.cons.inj e).1)
          · rw [bracketRp, seq_run]
            exact char_none rfl (.inl (by decide)) _ (fun r e => hc' (List.cons.inj e).1)
      rw [hn.1, hn.2]
      cases (Re.cap 4 (localV4 K)).run ⟨none, w, []⟩ fin <;> cases localRp.run ⟨none, w, []⟩ fin <;>
        cases (Re.cap 7 (otherV4 K)).run ⟨none, w, []⟩ fin <;> rfl
    · subst hx
      have n1 : ∀ r, Plain r → ∀ (pv : Option Char) (t : Text) (caps : List (Nat × Text)) (k : Pos → Option (List (Nat × Text))),
          r.run ⟨pv, '[' :: t, caps⟩ k = none := fun r hp pv t caps k => first_none hp.some hp.open_ pv t caps k
      simp only [List.cons_append, n1 _ (local_plain hK), n1 _ localname_plain, n1 _ (other_plain hK), n1 _ name_plain]
      have b1 : bracketRp.run ⟨pv, '[' :: (x ++ [']'] ++ T), base⟩ k = ((Re.cap 8 v6).run ⟨none, x, []⟩ fin).map F := by
        rw [bracketRp, seq_run, char_run, seq_run, List.append_assoc]
        refine run_like F (Re.cap 8 v6) v6_proper v6_forward ?_ _ _ _ _ ⟨rfl, rfl⟩ ?_
        · intro c t e
          cases e
          decide +kernel
        · intro t' t ht hL
          obtain ⟨pt, rt, ct⟩ := t
          obtain ⟨pt', rt', ct'⟩ := t'
          cases (show rt' = rt ++ ([']'] ++ T) from hL.rest)
          cases (show ct' = ct ++ base from hL.caps)
          cases rt with
          | nil =>
            show (char ']').run ⟨pt', ']' :: T, ct ++ base⟩ k = _
            rw [char_run, h1]
            rfl
          | cons c rt =>
            obtain ⟨y, hy⟩ := eats _ _ _ ht
            have hcx : c ∈ x := by
              have : x = y ++ c :: rt := hy.rest
              rw [this]
              simp
            rw [char_none rfl (.inl (by decide)) _ (fun r e => hx' (by rw [← (List.cons.inj e).1]; exact hcx))]
            simp [fin]
      have b2 : bracketRp.run ⟨none, '[' :: (x ++ [']']), []⟩ fin = ((Re.cap 8 v6).run ⟨none, x, []⟩ fin).map id := by
        rw [bracketRp, seq_run, char_run, seq_run]
        refine run_like id (Re.cap 8 v6) v6_proper v6_forward ?_ _ _ _ _ ⟨rfl, rfl⟩ ?_
        · intro c t e
          cases e
          decide +kernel
        · intro t' t ht hL
          obtain ⟨pt, rt, ct⟩ := t
          obtain ⟨pt', rt', ct'⟩ := t'
          cases (show rt' = rt ++ [']'] from hL.rest)
          cases (show ct' = ct ++ [] from hL.caps)
          cases rt with
          | nil =>
            show (char ']').run ⟨pt', [']'], ct ++ []⟩ fin = _
            rw [char_run]
            simp [fin]
          | cons c rt =>
            obtain ⟨y, hy⟩ := eats _ _ _ ht
            have hcx : c ∈ x := by
              have : x = y ++ c :: rt := hy.rest
              rw [this]
              simp
            rw [char_none rfl (.inl (by decide)) _ (fun r e => hx' (by rw [← (List.cons.inj e).1]; exact hcx))]
            simp [fin]
      rw [b1, b2]
      cases (Re.cap 8 v6).run ⟨none, x, []⟩ fin <;> rfl
  rw [key, h]
  rfl

/-! ### The user -/

def userCaps (n p : Text) : List (Nat × Text) := (if p = [] then [] else [(3, p)]) ++ if n = [] then [] else [(2, n)]

def infoRp : Re := (Re.opt (.cap 2 (.lazyPlus (.chr isName)))).seq
  ((Re.opt (.seq (char ':') (.opt (.cap 3 (.plus (.chr isSecret)))))).seq (char '@'))

theorem user_eq : userRp = infoRp.opt := rfl
theorem info_proper : infoRp.Proper := user_proper.1

theorem info_sem {s t : Pos} (h : infoRp.Sem s t) :
    ∃ (n : Text) (c : Option Text), s.rest = n ++ ((c.map (':' :: ·)).getD [] ++ '@' :: t.rest) ∧ (∀ x ∈ n, isName x = true) ∧
      (∀ x ∈ c.getD [], isSecret x = true) ∧ t = ⟨some '@', t.rest, userCaps n (c.getD []) ++ s.caps⟩ := by
  obtain ⟨a, ha, b, hb, hc⟩ := h
  obtain ⟨ec, ec'⟩ := char_sem rfl (.inl (by decide)) hc
  have hn : ∃ n : Text, s.rest = n ++ a.rest ∧ (∀ c ∈ n, isName c = true) ∧ a.caps = (if n = [] then [] else [(2, n)]) ++ s.caps := by
    rcases opt_sem ha with ha | ha
    · obtain ⟨w, m, hm, hw, e, _, _, hcp⟩ := eats_cap ha
      refine ⟨w, e, fun c hc => ?_, ?_⟩
      · simpa [Re.lazyPlus, Re.alphabet] using hw.chars c hc
      · obtain ⟨l, el, hl⟩ := hw.caps
        cases l with
        | nil => rw [hcp, if_neg (hw.some (by rfl)), el]; rfl
        | cons x l => exact absurd (hl x List.mem_cons_self) (by simp [Re.lazyPlus, Re.groups])
    · subst ha
      exact ⟨[], rfl, fun _ h => (by cases h), rfl⟩
  obtain ⟨n, en, hn, cn⟩ := hn
  rcases opt_sem hb with hb | hb
  · obtain ⟨p, hp, hq⟩ := hb
    obtain ⟨ep, ep'⟩ := char_sem rfl (.inl (by decide)) hp
    have cp : p.caps = a.caps := by rw [ep']
    have hpw : ∃ w : Text, p.rest = w ++ b.rest ∧ (∀ c ∈ w, isSecret c = true) ∧ b.caps = (if w = [] then [] else [(3, w)]) ++ p.caps := by
      rcases opt_sem hq with hq | hq
      · obtain ⟨w, m, hm, hw, e, _, _, hcp⟩ := eats_cap hq
        refine ⟨w, e, fun c hc => ?_, ?_⟩
        · simpa [Re.plus, Re.alphabet] using hw.chars c hc
        · obtain ⟨l, el, hl⟩ := hw.caps
          cases l with
          | nil => rw [hcp, if_neg (hw.some (by rfl)), el]; rfl
          | cons x l => exact absurd (hl x List.mem_cons_self) (by simp [Re.plus, Re.groups])
      · subst hq
        exact ⟨[], rfl, fun _ h => (by cases h), rfl⟩
    obtain ⟨w, ew, hw, cw⟩ := hpw
    refine ⟨n, some w, by rw [en, ep, ew, ec]; simp, hn, hw, ?_⟩
    rw [ec', cw, cp, cn]
    simp [userCaps]
  · subst hb
    refine ⟨n, none, by rw [en, ec]; simp, hn, fun _ h => (by cases h), ?_⟩
    rw [ec', cn]
    simp [userCaps]

theorem info_of {n p : Text} (hn : ∀ x ∈ n, isName x = true) (hp : ∀ x ∈ p, isSecret x = true) (pv : Option Char) (r : Text)
    (caps : List (Nat × Text)) : infoRp.Sem ⟨pv, n ++ ':' :: (p ++ '@' :: r), caps⟩ ⟨some '@', r, userCaps n p ++ caps⟩ := by
  have h1 : ∃ pv', ((Re.opt (.cap 2 (.lazyPlus (.chr isName))))).Sem ⟨pv, n ++ ':' :: (p ++ '@' :: r), caps⟩
      ⟨pv', ':' :: (p ++ '@' :: r), (if n = [] then [] else [(2, n)]) ++ caps⟩ := by
    cases n with
    | nil => exact ⟨pv, .inr rfl⟩
    | cons c n =>
      obtain ⟨pv', h⟩ := star_of (g := false) (p := isName) n (some c) (':' :: (p ++ '@' :: r)) caps (fun d hd => hn d (List.mem_cons_of_mem _ hd))
      exact ⟨pv', .inl (cap_of (r := .lazyPlus (.chr isName)) ⟨_, ⟨c, _, rfl, hn c List.mem_cons_self, rfl⟩, h⟩ rfl)⟩
  have h2 : ∀ pv caps, ∃ pv', ((Re.opt (.cap 3 (.plus (.chr isSecret))))).Sem ⟨pv, p ++ '@' :: r, caps⟩
      ⟨pv', '@' :: r, (if p = [] then [] else [(3, p)]) ++ caps⟩ := by
    intro pv caps
    cases p with
    | nil => exact ⟨pv, .inr rfl⟩
    | cons c n =>
      obtain ⟨pv', h⟩ := star_of (g := true) (p := isSecret) n (some c) ('@' :: r) caps (fun d hd => hp d (List.mem_cons_of_mem _ hd))
      exact ⟨pv', .inl (cap_of (r := .plus (.chr isSecret)) ⟨_, ⟨c, _, rfl, hp c List.mem_cons_self, rfl⟩, h⟩ rfl)⟩
  obtain ⟨p1, h1⟩ := h1
  obtain ⟨p2, h2⟩ := h2 (some ':') ((if n = [] then [] else [(2, n)]) ++ caps)
  refine ⟨_, h1, _, .inl ⟨_, char_of _ _ _ _, h2⟩, ?_⟩
  rw [userCaps, List.append_assoc]
  exact char_of _ _ _ _

theorem user_some {n p : Text} (hn : ∀ x ∈ n, isName x = true) (hp : ∀ x ∈ p, isSecret x = true) {pv : Option Char} {r : Text}
    {caps : List (Nat × Text)} {k : Pos → Option (List (Nat × Text))} {x : List (Nat × Text)} (hk : k ⟨some '@', r, userCaps n p ++ caps⟩ = some x) :
    userRp.run ⟨pv, n ++ ':' :: (p ++ '@' :: r), caps⟩ k = some x := by
  rw [user_eq]
  refine opt_det (run_det info_proper (info_of hn hp pv r caps) hk ?_)
  intro t y ht hy
  obtain ⟨n', c, e, hn', hc', et⟩ := info_sem ht
  have nx : ∀ x, isName x = false → x ∉ n := fun x hx hm => by rw [hn x hm] at hx; cases hx
  have px : ∀ x, isSecret x = false → x ∉ p := fun x hx hm => by rw [hp x hm] at hx; cases hx
  have nx' : ∀ x, isName x = false → x ∉ n' := fun x hx hm => by rw [hn' x hm] at hx; cases hx
  have cx' : ∀ x, isSecret x = false → x ∉ c.getD [] := fun x hx hm => by rw [hc' x hm] at hx; cases hx
  have e : n ++ ':' :: (p ++ '@' :: r) = n' ++ ((c.map (':' :: ·)).getD [] ++ '@' :: t.rest) := e
  have h1 := cut_append (x := '@') (a := n ++ ':' :: p) ('@' :: r) (by simp [nx '@' (by decide), px '@' (by decide)])
  have h2 := cut_append (x := '@') (a := n' ++ (c.map (':' :: ·)).getD []) ('@' :: t.rest) (by
    have h1 := cx' '@' (by decide)
    have h2 := nx' '@' (by decide)
    cases c with
    | none => simpa using h2
    | some c =>
      have h1 : '@' ∉ c := h1
      simp [h1, h2])
  have e' : n ++ ':' :: p ++ '@' :: r = n' ++ (c.map (':' :: ·)).getD [] ++ '@' :: t.rest := by simpa using e
  rw [e', h2] at h1
  simp [cut] at h1
  obtain ⟨e1, er⟩ := h1
  have h3 := cut_append (x := ':') (a := n) (':' :: p) (nx ':' (by decide))
  have h4 := cut_append (x := ':') (a := n') ((c.map (':' :: ·)).getD []) (nx' ':' (by decide))
  rw [← e1, h4] at h3
  cases c with
  | none => simp [cut] at h3
  | some c =>
    simp [cut] at h3
    rw [et, er, h3.1, h3.2] at hy
    exact (Option.some.inj (hk.symm.trans hy)).symm

theorem user_none {s : Pos} {k : Pos → Option (List (Nat × Text))} (h : ∀ i r, s.rest = i ++ '@' :: r → '/' ∈ i) : userRp.run s k = k s := by
  rw [user_eq, opt_run, run_none]
  · rfl
  · intro t ht
    exfalso
    obtain ⟨n, c, e, hn, hc, _⟩ := info_sem ht
    have nx : '/' ∉ n := fun hm => absurd (hn _ hm) (by decide)
    have cx : '/' ∉ c.getD [] := fun hm => absurd (hc _ hm) (by decide)
    have := h (n ++ (c.map (':' :: ·)).getD []) t.rest (by rw [e]; simp)
    cases c with
    | none =>
      simp at this
      exact nx this
    | some c =>
      have cx : '/' ∉ c := cx
      simp [nx, cx] at this

/-! ### All before the query -/

theorem auth_run {H P : Re} {R : Text} {caps : List (Nat × Text)} {k : Pos → Option (List (Nat × Text))} {x : List (Nat × Text)}
    (h : (userRp.run ⟨some '/', R, caps⟩ fun t => H.run t fun t => P.run t k) = some x) :
    (Re.opt (seqs [.alt (.behind (· == some ':')) (.behind (· == none)), .opt (lit "//"), userRp, H, P])).run ⟨some ':', '/' :: '/' :: R, caps⟩ k =
      some x := by
  refine opt_det ?_
  have h1 : (Re.opt (lit "//")).run ⟨some ':', '/' :: '/' :: R, caps⟩ (fun t => userRp.run t fun t => H.run t fun t => P.run t k) = some x := by
    refine opt_det ?_
    show (char '/').run ⟨some ':', '/' :: '/' :: R, caps⟩ (fun t => (char '/').run t fun t => userRp.run t fun t => H.run t fun t => P.run t k) = some x
    rw [char_run, char_run]
    exact h
  show (Re.alt (.behind (· == some ':')) (.behind (· == none))).run ⟨some ':', '/' :: '/' :: R, caps⟩
    (fun t => (Re.opt (lit "//")).run t fun t => userRp.run t fun t => H.run t fun t => P.run t k) = some x
  rw [alt_run]
  have : (Re.behind (· == some ':')).run ⟨some ':', '/' :: '/' :: R, caps⟩
    (fun t => (Re.opt (lit "//")).run t fun t => userRp.run t fun t => H.run t fun t => P.run t k) = some x := h1
  rw [this]
  rfl

theorem authority_eq : authorityRp K = Re.opt (seqs [.alt (.behind (· == some ':')) (.behind (· == none)), .opt (lit "//"), userRp, hostRp K,
    portRp K]) := rfl

def isScheme (x : Char) : Bool := isLetter x || isDigit x || x == '.' || x == '+' || x == '-'

theorem scheme_eq : schemeRp = .opt (.seq (.cap 1 (.lazyPlus (.chr isScheme))) (char ':')) := rfl

theorem scheme_run {s R : Text} (hs : ∀ c ∈ s, isScheme c = true) (hne : s ≠ []) {k : Pos → Option (List (Nat × Text))} {x : List (Nat × Text)}
    (h : k ⟨some ':', R, [(1, s)]⟩ = some x) : schemeRp.run ⟨none, s ++ ':' :: R, []⟩ k = some x := by
  rw [scheme_eq]
  have hpr : (Re.seq (.cap 1 (.lazyPlus (.chr isScheme))) (char ':')).Proper := ⟨⟨trivial, trivial, rfl⟩, trivial⟩
  refine opt_det (run_det hpr (t := ⟨some ':', R, [(1, s)]⟩) ?_ h ?_)
  · cases s with
    | nil => exact absurd rfl hne
    | cons c s =>
      obtain ⟨pv', h⟩ := star_of (g := false) (p := isScheme) s (some c) (':' :: R) [] (fun d hd => hs d (List.mem_cons_of_mem _ hd))
      exact ⟨_, cap_of (r := .lazyPlus (.chr isScheme)) ⟨_, ⟨c, _, rfl, hs c List.mem_cons_self, rfl⟩, h⟩ rfl, char_of _ _ _ _⟩
  · intro t y ⟨a, ha, hb⟩ hy
    obtain ⟨eb, eb'⟩ := char_sem rfl (.inl (by decide)) hb
    obtain ⟨w, m, hm, hw, e, _, _, hc⟩ := eats_cap ha
    have hx : ':' ∉ w := not_mem hw (by decide)
    have hx' : ':' ∉ s := fun hm => absurd (hs _ hm) (by decide)
    have e : s ++ ':' :: R = w ++ a.rest := e
    rw [eb] at e
    obtain ⟨rfl, er⟩ := split_colon hx' hx e
    obtain ⟨l, el, hl⟩ := hw.caps
    cases l with
    | nil =>
      rw [eb', ← er, hc, el] at hy
      exact (Option.some.inj (h.symm.trans hy)).symm
    | cons x l => exact absurd (hl x List.mem_cons_self) (by simp [Re.lazyPlus, Re.groups])

/-- A user as text. -/
def userOpt : Option (Text × Text) → Text
  | none => []
  | some (n, p) => n ++ ':' :: (p ++ ['@'])
def userOptCaps : Option (Text × Text) → List (Nat × Text)
  | none => []
  | some (n, p) => userCaps n p

theorem host_marks (hK : K.Fine) {w : Text} {g : List (Nat × Text)} (h : (hostRp K).full w = some g) : '/' ∉ w ∧ '?' ∉ w ∧ '#' ∉ w ∧ '@' ∉ w := by
  rw [full_eq] at h
  obtain ⟨t, ht, hf⟩ := sound _ _ _ _ h
  obtain ⟨x, hx⟩ := eats _ _ _ ht
  have hr : t.rest = [] := by
    unfold fin at hf
    split at hf
    · assumption
    · cases hf
  have e : w = x := by
    have := hx.rest
    rw [hr, List.append_nil] at this
    exact this
  subst e
  refine ⟨not_mem hx (not_host ((hK.digit _ (by decide)).trans (by decide)) (by decide +kernel)),
    not_mem hx (not_host ((hK.digit _ (by decide)).trans (by decide)) (by decide +kernel)),
    not_mem hx (not_host ((hK.digit _ (by decide)).trans (by decide)) (by decide +kernel)),
    not_mem hx (not_host ((hK.digit _ (by decide)).trans (by decide)) (by decide +kernel))⟩

theorem before_slash : ∀ {a i : Text} {p : Option Text} {r : Text}, '@' ∉ a → a ++ pathOpt p = i ++ '@' :: r → '/' ∈ i := by
  intro a
  induction a with
  | nil =>
    intro i p r _ e
    cases p with
    | none => cases i <;> cases e
    | some p =>
      cases i with
      | nil => exact absurd (List.cons.inj e).1 (by decide)
      | cons c i => rw [← (List.cons.inj e).1]; simp
  | cons d a ih =>
    intro i p r h e
    cases i with
    | nil => exact absurd (List.cons.inj e).1 (fun h' => h (by rw [h']; simp))
    | cons c i => exact List.mem_cons_of_mem _ (ih (fun h' => h (List.mem_cons_of_mem _ h')) (List.cons.inj e).2)

/-- The parts before the query are found again in the text they were put together to. -/
theorem front_full (hK : K.Fine) {s w : Text} {user : Option (Text × Text)} {d p : Option Text} {g : List (Nat × Text)}
    (hs : ∀ c ∈ s, isScheme c = true) (hne : s ≠ []) (hu : ∀ n q, user = some (n, q) → (∀ c ∈ n, isName c = true) ∧ ∀ c ∈ q, isSecret c = true)
    (hg : (hostRp K).full w = some g) (hd : ∀ x, d = some x → 2 ≤ x.length ∧ x.length ≤ 5 ∧ ∀ c ∈ x, K.digit c = true)
    (hp : ∀ c ∈ p.getD [], isPath c = true) :
    (urlRp K).full (s ++ ':' :: '/' :: '/' :: (userOpt user ++ (w ++ (portOpt d ++ pathOpt p)))) =
      some (pathCaps p ++ (portCaps d ++ (g ++ (userOptCaps user ++ [(1, s)])))) := by
  obtain ⟨m1, m2, m3, m4⟩ := host_marks hK hg
  rw [urlRp_eq, full_eq, seq_run]
  refine scheme_run hs hne ?_
  rw [seq_run, authority_eq]
  refine auth_run ?_
  have hd' : '@' ∉ portOpt d := by
    cases d with
    | none => simp [portOpt]
    | some x =>
      have := (hd x rfl).2.2
      simp only [portOpt, List.mem_cons, not_or]
      refine ⟨by decide, fun h => ?_⟩
      have := this _ h
      rw [hK.digit _ (by decide)] at this
      exact absurd this (by decide)
  have key : ∀ pv base, (hostRp K).run ⟨pv, w ++ (portOpt d ++ pathOpt p), base⟩ (fun t => (portRp K).run t (rest5 K)) =
      some (pathCaps p ++ (portCaps d ++ (g ++ base))) := by
    intro pv base
    refine host_run hK hg (F := fun c => pathCaps p ++ (portCaps d ++ (c ++ base))) ?_ ?_ ?_ m1 m2 m3
    · cases d with
      | none => cases p with
        | none => exact .inl rfl
        | some p => exact .inr (.inl ⟨_, rfl⟩)
      | some d => exact .inr (.inr ⟨_, rfl⟩)
    · intro pv c
      exact port_some hK hd hp
    · intro s c t e h1 h2 h3 h4
      exact port_none e h1 h2 h3 h4
  cases user with
  | none =>
    have h := user_none (s := ⟨some '/', w ++ (portOpt d ++ pathOpt p), [(1, s)]⟩) (k := fun t => (hostRp K).run t (fun t => (portRp K).run t (rest5 K)))
      (fun i r e => before_slash (a := w ++ portOpt d) (p := p) (by simp [m4, hd']) (by rw [List.append_assoc]; exact e))
    exact h.trans (key _ _)
  | some u =>
    obtain ⟨n, q⟩ := u
    obtain ⟨h1, h2⟩ := hu n q rfl
    have h := user_some (pv := some '/') (caps := [(1, s)]) (k := fun t => (hostRp K).run t (fun t => (portRp K).run t (rest5 K))) h1 h2 (key (some '@') _)
    have e : userOpt (some (n, q)) ++ (w ++ (portOpt d ++ pathOpt p)) = n ++ ':' :: (q ++ '@' :: (w ++ (portOpt d ++ pathOpt p))) := by
      simp [userOpt]
    rw [e]
    exact h

/-- A path alone is found again. -/
theorem path_full (hK : K.Fine) {p : Text} (hp : ∀ c ∈ p, isPath c = true) (h0 : ∀ t, p ≠ '/' :: t) :
    (urlRp K).full ('/' :: p) = some [(14, '/' :: p)] := by
  rw [urlRp_eq, full_eq, seq_run]
  have h1 : schemeRp.run ⟨none, '/' :: p, []⟩ (fun t => ((authorityRp K).seq (pathRp.seq ((queryRp K).seq (fragmentRp K)))).run t fin) =
      ((authorityRp K).seq (pathRp.seq ((queryRp K).seq (fragmentRp K)))).run ⟨none, '/' :: p, []⟩ fin := by
    rw [scheme_eq, opt_run, first_none (by rfl) (by decide)]
    rfl
  rw [h1, seq_run]
  have h2 : (authorityRp K).run ⟨none, '/' :: p, []⟩ (rest5 K) = rest5 K ⟨none, '/' :: p, []⟩ := by
    rw [authority_eq, opt_run, run_none]
    · rfl
    · intro t ⟨a, ha, b, hb, c, hc, d, hd, _⟩
      exfalso
      have ea : a = ⟨none, '/' :: p, []⟩ := by
        rcases ha with ⟨_, h⟩ | ⟨_, h⟩ <;> exact h
      subst ea
      have eb : b = ⟨none, '/' :: p, []⟩ := by
        rcases opt_sem hb with ⟨x, hx, hy⟩ | h
        · have hy : (char '/').Sem x b := hy
          obtain ⟨e1, _⟩ := char_sem rfl (.inl (by decide)) hx
          obtain ⟨e2, _⟩ := char_sem rfl (.inl (by decide)) hy
          exact absurd (((List.cons.inj e1).2).trans e2) (h0 _)
        · exact h
      subst eb
      have ec : c = ⟨none, '/' :: p, []⟩ := by
        rcases user_sem hc rfl rfl with ⟨h, _⟩ | ⟨i, e, _, h, _⟩
        · exact h
        · cases i with
          | nil => exact absurd (List.cons.inj e).1 (by decide)
          | cons x i =>
            have : '/' = x := (List.cons.inj e).1
            exact absurd (by rw [← this]; simp) h
      subst ec
      obtain ⟨w, hw⟩ := eats _ _ _ hd
      cases w with
      | nil => exact absurd rfl (hw.some (by rfl))
      | cons x w =>
        have hx := hw.chars x List.mem_cons_self
        have e : '/' :: p = x :: w ++ d.rest := hw.rest
        rw [← (List.cons.inj e).1, not_host ((hK.digit _ (by decide)).trans (by decide)) (by decide +kernel)] at hx
        cases hx
  refine h2.trans ?_
  exact rest5_some (pv := none) (p := some p) (caps := []) hp

end Verif.UrlText
