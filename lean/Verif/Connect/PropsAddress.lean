import Verif.Connect.Address

/-!
# C241: the first address of a host which can be connected to is connected to
-/

namespace Verif.Connect.Address

/-- Binding to one of the local addresses: those before it could not be bound to. -/
inductive Bound : List (Option Nat) → List Nat → Prop where
  | here (l : List (Option Nat)) : Bound (none :: l) []
  | later (e : Nat) {l es} : Bound l es → Bound (some e :: l) (e :: es)

/-- An address which cannot be connected to, and the errors it gives. -/
inductive Fails (isLocal : Bool) : Try → List Nat → Prop where
  /-- none of the local addresses could be bound to -/
  | unbound {t : Try} {es : List Nat} (hl : isLocal = true) (hb : t.binds = es.map some) (hs : t.socket = none) : Fails isLocal t es
  /-- it could not be connected to -/
  | refused {t : Try} {es : List Nat} {e : Nat} (hb : if isLocal then Bound t.binds es else es = []) (hc : t.connect = some e) (hf : t.fatal = false)
      (hs : t.socket = none) : Fails isLocal t (es ++ [e])

/-- An address which can. -/
inductive Works (isLocal : Bool) (t : Try) : Prop where
  | mk (es : List Nat) (hb : if isLocal then Bound t.binds es else es = []) (hc : t.connect = none) (ht : t.transport = none) (hs : t.socket = none)

theorem bind_bound {l : List (Option Nat)} {es : List Nat} (h : Bound l es) : bind l = (es, true) := by
  induction h with
  | here l => rfl
  | later e _ ih => simp [bind, ih]

theorem bind_unbound (es : List Nat) : bind (es.map some) = (es, false) := by
  induction es with
  | nil => rfl
  | cons e es ih => simp [bind, ih]

theorem loop_fails {isLocal : Bool} {t : Try} {es : List Nat} (h : Fails isLocal t es) (i : Nat) (before : List Nat) (l : List Try) :
    loop isLocal i before (t :: l) =
      { loop isLocal (i + 1) (before ++ es) l with
        opened := i :: (loop isLocal (i + 1) (before ++ es) l).opened, closed := i :: (loop isLocal (i + 1) (before ++ es) l).closed } := by
  cases h with
  | unbound hl hb hs =>
    subst hl
    rw [loop]
    simp only [hs, hb, bind_unbound, ↓reduceIte]
    simp
  | refused hb hc hf hs =>
    rw [loop]
    cases isLocal with
    | true => simp only [hs, bind_bound hb, hc, hf, ↓reduceIte]; simp
    | false =>
      simp only [Bool.false_eq_true, ↓reduceIte] at hb
      subst hb
      simp [hs, hc, hf]

theorem loop_works {isLocal : Bool} {t : Try} (h : Works isLocal t) (i : Nat) (before : List Nat) (l : List Try) :
    loop isLocal i before (t :: l) = { opened := [i], got := .protocol i } := by
  obtain ⟨es, hb, hc, ht, hs⟩ := h
  rw [loop]
  cases isLocal with
  | true => simp only [hs, bind_bound hb, hc, ht, ↓reduceIte]
  | false => simp [hs, hc, ht]

/-- All of the addresses of a list fail. -/
inductive AllFail (isLocal : Bool) : List Try → List Nat → Prop where
  | nil : AllFail isLocal [] []
  | cons {t l es fs} : Fails isLocal t es → AllFail isLocal l fs → AllFail isLocal (t :: l) (es ++ fs)

theorem loop_all {isLocal : Bool} {a : List Try} {es : List Nat} (h : AllFail isLocal a es) :
    ∀ (i : Nat) (before : List Nat) (l : List Try), ∃ o, loop isLocal i before (a ++ l) =
      { loop isLocal (i + a.length) (before ++ es) l with
        opened := o ++ (loop isLocal (i + a.length) (before ++ es) l).opened, closed := o ++ (loop isLocal (i + a.length) (before ++ es) l).closed } := by
  induction h with
  | nil => intro i before l; exact ⟨[], by simp⟩
  | @cons t a _ _ hf _ ih =>
    intro i before l
    obtain ⟨o, ho⟩ := ih (i + 1) (before ++ _) l
    refine ⟨i :: o, ?_⟩
    rw [List.cons_append, loop_fails hf, ho]
    simp only [List.length_cons, List.append_assoc, List.cons_append]
    rw [show i + 1 + a.length = i + (a.length + 1) by omega]

/-- C241, if sockets can be made for the addresses: the first address which works is connected to. -/
theorem C241_first_partial {isLocal : Bool} {a : List Try} {es : List Nat} {t : Try} (ha : AllFail isLocal a es) (ht : Works isLocal t) (l : List Try) :
    (connectTo isLocal (a ++ t :: l)).got = .protocol a.length := by
  obtain ⟨o, ho⟩ := loop_all ha 0 [] (t :: l)
  rw [connectTo, ho, loop_works ht]
  simp

/-- C241, if none does: the error is told if there is one only or they are all the same, and all of them otherwise. -/
theorem C241_none_partial {isLocal : Bool} {a : List Try} {es : List Nat} (ha : AllFail isLocal a es) (hne : es ≠ []) :
    (∃ e, (connectTo isLocal a).got = .raised e ∧ ∀ x ∈ es, x = e) ∨ ((connectTo isLocal a).got = .multiple es ∧ ∃ x ∈ es, ∃ y ∈ es, x ≠ y) := by
  obtain ⟨o, ho⟩ := loop_all ha 0 [] []
  rw [List.append_nil] at ho
  have hg : (connectTo isLocal a).got = give es := by
    rw [connectTo, ho]
    simp [loop]
  rw [hg]
  rcases es with _ | ⟨e, rest⟩
  · exact absurd rfl hne
  · rw [show give (e :: rest) = if rest.all (· == e) then .raised e else .multiple (e :: rest) from rfl]
    by_cases h : rest.all (· == e) = true
    · rw [if_pos h]
      refine .inl ⟨e, rfl, ?_⟩
      intro x hx
      rcases List.mem_cons.1 hx with hx | hx
      · exact hx
      · simpa using List.all_eq_true.1 h x hx
    · rw [if_neg h]
      refine .inr ⟨rfl, ?_⟩
      simp only [Bool.not_eq_true, List.all_eq_false] at h
      obtain ⟨x, hx, hn⟩ := h
      exact ⟨x, by simp [hx], e, by simp, by simpa using hn⟩

/-- C241: of the sockets which were made all but that of the connection returned are closed, however it ends. -/
theorem C241_closed (isLocal : Bool) (l : List Try) :
    (connectTo isLocal l).opened = (connectTo isLocal l).closed ∨
      ∃ i, (connectTo isLocal l).got = .protocol i ∧ (connectTo isLocal l).opened = (connectTo isLocal l).closed ++ [i] := by
  suffices H : ∀ i es, (loop isLocal i es l).opened = (loop isLocal i es l).closed ∨
      ∃ j, (loop isLocal i es l).got = .protocol j ∧ (loop isLocal i es l).opened = (loop isLocal i es l).closed ++ [j] from H 0 []
  induction l with
  | nil => intro i es; exact .inl rfl
  | cons t l ih =>
    intro i es
    rw [loop]
    split
    · exact .inl rfl
    · generalize (if isLocal = true then bind t.binds else ([], true)) = b
      dsimp only
      by_cases hb : b.2 = true
      · rw [if_pos hb]
        split
        · split
          · exact .inr ⟨i, rfl, rfl⟩
          · exact .inl rfl
        · rename_i e _
          by_cases hf : t.fatal = true
          · rw [if_pos hf]
            exact .inl rfl
          · rw [if_neg hf]
            rcases ih (i + 1) (es ++ b.1 ++ [e]) with h | ⟨j, h1, h2⟩
            · exact .inl (by simp only [h])
            · exact .inr ⟨j, h1, by simp only [h2]; rfl⟩
      · rw [if_neg hb]
        rcases ih (i + 1) (es ++ b.1) with h | ⟨j, h1, h2⟩
        · exact .inl (by simp only [h])
        · exact .inr ⟨j, h1, by simp only [h2]; rfl⟩

/-- C241 is violated: the socket is made outside of what is guarded, so that an address of a family the machine does not have ends it all, whatever
addresses follow. -/
theorem C241_family_violated (isLocal : Bool) (t : Try) (e : Nat) (l : List Try) (hs : t.socket = some e) : (connectTo isLocal (t :: l)).got = .raised e := by
  simp [connectTo, loop, hs]

/-- Of two local addresses the second can be bound to; nobody listens at the first address, but at the second. -/
example : connectTo true [{ binds := [some 98, none], connect := some 111 }, { binds := [none] }] = { opened := [0, 1], closed := [0], got := .protocol 1 } := by
  decide

example : (connectTo true [{ binds := [some 98, none], connect := some 111 }, { binds := [some 98, some 98] }]).got = .multiple [98, 111, 98, 98] ∧
    (connectTo false [{ connect := some 111 }, { connect := some 111 }]).got = .raised 111 ∧
    (connectTo false [{ socket := some 97 }, {}]).got = .raised 97 := by
  decide

end Verif.Connect.Address
