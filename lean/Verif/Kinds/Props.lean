import Verif.Kinds.Model

namespace Verif.Kinds

/-! ## Specification -/

/-- What Python compiles: a plain function, a generator, a coroutine or a coroutine generator; the bits 5, 7, 8 and 9 tell
which. Bit 8 is set for generators which were made to coroutines. -/
inductive Kind
  | plain
  | generator (made : Bool)
  | coroutine
  | coroutineGenerator
  deriving DecidableEq

/-- Bits of code of that kind; the other bits are any. -/
def Compiled (flags : Nat) : Kind → Prop
  | .plain => flags.testBit 5 = false ∧ flags.testBit 7 = false ∧ flags.testBit 8 = false ∧ flags.testBit 9 = false
  | .generator made => flags.testBit 5 = true ∧ flags.testBit 7 = false ∧ flags.testBit 8 = made ∧ flags.testBit 9 = false
  | .coroutine => flags.testBit 5 = false ∧ flags.testBit 7 = true ∧ flags.testBit 8 = false ∧ flags.testBit 9 = false
  | .coroutineGenerator => flags.testBit 5 = false ∧ flags.testBit 7 = false ∧ flags.testBit 8 = false ∧ flags.testBit 9 = true

/-- What a call gives; `awaitable`: what a plain function gives. -/
def called (flags : Nat) (awaitable : Bool) : Kind → Made
  | .plain => .value awaitable
  | .generator _ => .generator flags
  | .coroutine => .coroutine flags
  | .coroutineGenerator => .coroutineGenerator flags

/-- A function, or methods of methods of it. -/
inductive Wraps : Obj → Nat → Prop
  | function (flags : Nat) : Wraps (.function flags) flags
  | method (o : Obj) (flags : Nat) (h : Wraps o flags) : Wraps (.method o) flags

theorem and_pow (n k : Nat) : (n &&& 2 ^ k ≠ 0) ↔ n.testBit k = true := by
  constructor
  · intro h
    cases hb : n.testBit k with
    | true => rfl
    | false =>
      refine absurd (Nat.eq_of_testBit_eq fun i => ?_) h
      rw [Nat.testBit_and, Nat.testBit_two_pow, Nat.zero_testBit]
      by_cases hi : k = i
      · subst hi; simp [hb]
      · simp [hi]
  · intro hb h
    have : (n &&& 2 ^ k).testBit k = true := by rw [Nat.testBit_and, hb, Nat.testBit_two_pow_self]; rfl
    rw [h, Nat.zero_testBit] at this
    cases this

theorem and32 (n : Nat) : (n &&& flagGenerator ≠ 0) ↔ n.testBit 5 = true := and_pow n 5
theorem and256 (n : Nat) : (n &&& flagIterable ≠ 0) ↔ n.testBit 8 = true := and_pow n 8
theorem and512 (n : Nat) : (n &&& flagCoroutineGenerator ≠ 0) ↔ n.testBit 9 = true := and_pow n 9
theorem and384 (n : Nat) : (n &&& flagCoroutineAll ≠ 0) ↔ n.testBit 7 = true ∨ n.testBit 8 = true := by
  have h : n &&& flagCoroutineAll = (n &&& 2 ^ 7) ||| (n &&& 2 ^ 8) := by
    rw [← Nat.and_or_distrib_left]; rfl
  rw [h, Ne, Nat.or_eq_zero_iff, ← and_pow n 7, ← and_pow n 8]
  constructor
  · intro h
    by_cases h1 : n &&& 2 ^ 7 = 0
    · exact .inr fun h2 => h ⟨h1, h2⟩
    · exact .inl h1
  · rintro (h | h) ⟨h1, h2⟩
    · exact h h1
    · exact h h2

theorem wraps_code (o : Obj) (flags : Nat) (h : Wraps o flags) : o.isFunction = true ∧ o.code = some flags := by
  induction h with
  | function f => exact ⟨rfl, rfl⟩
  | method o f _ ih => exact ⟨rfl, ih.2⟩

theorem flagged_wraps (o : Obj) (flags flag : Nat) (h : Wraps o flags) :
    flagged o flag = some (decide (flags &&& flag ≠ 0)) := by
  obtain ⟨h1, h2⟩ := wraps_code o flags h
  unfold flagged
  rw [if_pos h1, h2]
  dsimp only
  split <;> simp_all

/-! ## C368: functions and what they give -/

/-- C368: a function or method is told to be of a kind exactly if what its call gives is told to be of that kind. -/
theorem C368_called (o : Obj) (flags : Nat) (k : Kind) (a : Bool) (ho : Wraps o flags) (hk : Compiled flags k) :
    isCoroutineFunction o = some (isCoroutine (called flags a k)) ∧
      isGeneratorFunction o = some (isGenerator (called flags a k)) ∧
      isCoroutineGeneratorFunction o = some (isCoroutineGenerator (called flags a k)) := by
  unfold isCoroutineFunction isGeneratorFunction isCoroutineGeneratorFunction
  simp only [flagged_wraps o flags _ ho, and384, and32, and512]
  cases k <;> simp only [Compiled] at hk <;> obtain ⟨h5, h7, h8, h9⟩ := hk <;>
    simp [called, isCoroutine, isGenerator, isCoroutineGenerator, and256, and512, h5, h7, h8, h9, -ne_eq]

/-- C368: coroutines and generators made to coroutines can be awaited, and other things exactly if their type allows it. -/
theorem C368_awaitable (flags : Nat) (k : Kind) (a : Bool) (hk : Compiled flags k) :
    isAwaitable (called flags a k) = true ↔ (k = .coroutine ∨ k = .generator true ∨ (k = .plain ∧ a = true)) := by
  cases k with
  | plain => cases a <;> simp [called, isAwaitable, isCoroutine, hasAwait]
  | generator m =>
    obtain ⟨_, _, h8, _⟩ := hk
    simp only [called, isAwaitable, isCoroutine, hasAwait, and256, h8]
    cases m <;> simp
  | coroutine => simp [called, isAwaitable, isCoroutine]
  | coroutineGenerator => simp [called, isAwaitable, isCoroutine, hasAwait]

example : isCoroutineFunction (.method (.function (3 ||| 128))) = some true := by decide
example : isGeneratorFunction (.function (3 ||| 32)) = some true ∧ isCoroutineFunction (.function (3 ||| 32)) = some false := by decide

/-! ## C369: the kinds exclude each other -/

/-- C369: of the three kinds at most one is told, if the function is not a generator made to a coroutine. -/
theorem C369_exclusive_partial (o : Obj) (flags : Nat) (k : Kind) (ho : Wraps o flags) (hk : Compiled flags k) (hm : k ≠ .generator true) :
    (isCoroutineFunction o = some true ↔ k = .coroutine) ∧ (isGeneratorFunction o = some true ↔ k = .generator false) ∧
      (isCoroutineGeneratorFunction o = some true ↔ k = .coroutineGenerator) := by
  unfold isCoroutineFunction isGeneratorFunction isCoroutineGeneratorFunction
  simp only [flagged_wraps o flags _ ho, and384, and32, and512]
  cases k with
  | generator m =>
    cases m with
    | true => exact absurd rfl hm
    | false => obtain ⟨h5, h7, h8, h9⟩ := hk; simp [h5, h7, h8, h9]
  | _ => obtain ⟨h5, h7, h8, h9⟩ := hk; simp [h5, h7, h8, h9]

/-- C369: but such a one is told to be both a coroutine function and a generator function, and what it gives to be both a
coroutine and a generator. -/
theorem C369_both_violated (o : Obj) (flags : Nat) (ho : Wraps o flags) (hk : Compiled flags (.generator true)) (a : Bool) :
    isCoroutineFunction o = some true ∧ isGeneratorFunction o = some true ∧
      isCoroutine (called flags a (.generator true)) = true ∧ isGenerator (called flags a (.generator true)) = true := by
  obtain ⟨h5, h7, h8, h9⟩ := hk
  unfold isCoroutineFunction isGeneratorFunction
  simp only [flagged_wraps o flags _ ho, and384, and32]
  simp only [called, isCoroutine, isGenerator, and256]
  simp [h5, h8]

/-! ## C370: the kind is told of everything -/

/-- C370: functions, their methods, and what is neither are told without an error. -/
theorem C370_told_partial (o : Obj) (flag : Nat) (h : (∃ flags, Wraps o flags) ∨ ∀ o', o ≠ .method o') : (flagged o flag).isSome := by
  rcases h with ⟨flags, h⟩ | h
  · rw [flagged_wraps o flags flag h]; rfl
  · cases o with
    | function f => rw [flagged_wraps _ f flag (.function f)]; rfl
    | method o => exact absurd rfl (h o)
    | type => rfl
    | other => rfl

/-- C370: but a method of a type, as `methodize` makes it, raises an AttributeError. -/
theorem C370_method_violated :
    isCoroutineFunction (.method .type) = none ∧ isGeneratorFunction (.method .type) = none ∧
      isCoroutineGeneratorFunction (.method .type) = none := by
  decide

/-! ## C371: to_coroutine -/

/-- C371: a generator function is made to a coroutine function, a coroutine function stays as it is, anything else is
refused. -/
theorem C371_made (flags : Nat) (k : Kind) (hk : Compiled flags k) :
    (∀ o, toCoroutine (.function flags) = some o →
        isCoroutineFunction o = some true ∧ ∃ f, o = .function f ∧ ∀ i, i ≠ 8 → f.testBit i = flags.testBit i) ∧
      (toCoroutine (.function flags) = none ↔ (k = .plain ∨ k = .coroutineGenerator)) ∧
      (toCoroutine (.function flags) = some (.function flags) ↔ (k = .coroutine ∨ k = .generator true)) ∧
      toCoroutine (.method (.function flags)) = none ∧ toCoroutine .type = none ∧ toCoroutine .other = none := by
  have hor : ∀ n : Nat, isCoroutineFunction (.function (n ||| flagIterable)) = some true := by
    intro n
    unfold isCoroutineFunction
    rw [flagged_wraps _ _ _ (.function _)]
    have : (n ||| flagIterable).testBit 8 = true := by
      rw [Nat.testBit_or, flagIterable, show (256 : Nat) = 2 ^ 8 from rfl, Nat.testBit_two_pow_self]; simp
    simp only [and384, this, or_true, decide_true]
  have hbit : ∀ (n i : Nat), i ≠ 8 → (n ||| flagIterable).testBit i = n.testBit i := by
    intro n i hi
    rw [Nat.testBit_or, flagIterable, show (256 : Nat) = 2 ^ 8 from rfl, Nat.testBit_two_pow_of_ne (by omega)]
    simp
  have hcf : (flags.testBit 7 = true ∨ flags.testBit 8 = true) → isCoroutineFunction (.function flags) = some true := by
    intro h
    unfold isCoroutineFunction
    rw [flagged_wraps _ _ _ (.function _)]
    simp only [and384]
    simpa using h
  refine ⟨?_, ?_, ?_, rfl, rfl, rfl⟩ <;> simp only [toCoroutine]
  · intro o h
    split at h
    · rename_i h1
      cases h
      exact ⟨hcf ((and384 flags).1 h1), flags, rfl, fun _ _ => rfl⟩
    · split at h
      · cases h
      · cases h
        exact ⟨hor flags, _, rfl, fun i hi => hbit flags i hi⟩
  · simp only [and384, and32]
    cases k <;> simp only [Compiled] at hk <;> obtain ⟨h5, h7, h8, h9⟩ := hk <;> simp [h5, h7, h8]
    all_goals (split <;> simp)
  · simp only [and384, and32]
    cases k with
    | generator m =>
      obtain ⟨h5, h7, h8, h9⟩ := hk
      cases m with
      | true => simp [h5, h7, h8]
      | false =>
        simp [h5, h7, h8]
        intro he
        have : (flags ||| flagIterable).testBit 8 = true := by
          rw [Nat.testBit_or, flagIterable, show (256 : Nat) = 2 ^ 8 from rfl, Nat.testBit_two_pow_self]; simp
        rw [he, h8] at this
        cases this
    | _ => obtain ⟨h5, h7, h8, h9⟩ := hk; simp [h5, h7, h8]

/-- C371: making it again changes nothing. -/
theorem C371_idempotent (o o' : Obj) (h : toCoroutine o = some o') : toCoroutine o' = some o' := by
  cases o with
  | function flags =>
    simp only [toCoroutine] at h
    split at h
    · rename_i h1
      cases h
      simp only [toCoroutine]
      rw [if_pos h1]
    · split at h
      · cases h
      · cases h
        simp only [toCoroutine]
        rw [if_pos]
        rw [and384, Nat.testBit_or, Nat.testBit_or]
        right
        rw [flagIterable, show (256 : Nat) = 2 ^ 8 from rfl, Nat.testBit_two_pow_self]
        simp
  | _ => cases h

example : toCoroutine (.function (3 ||| 32)) = some (.function (3 ||| 32 ||| 256)) := by decide
example : toCoroutine (.function 3) = none := by decide

/-! ## C372: method likes -/

/-- The types after some were defined in order. -/
def defined (reserved : Ty → Option Int) (ns : List Nat) : Types := ns.foldl Types.define { reserved := reserved }

theorem defined_sub (ns : List Nat) (s : Types) :
    (ns.foldl Types.define s).sub = s.sub ++ ns.map .like ∧ (ns.foldl Types.define s).reserved = s.reserved := by
  induction ns generalizing s with
  | nil => simp
  | cons n ns ih =>
    have := ih (s.define n)
    simp only [List.foldl_cons, List.map_cons]
    rw [this.1, this.2]
    simp [Types.define]

/-- C372: method likes are Python's methods and the instances of the types which inherit from it. -/
theorem C372_like_partial (reserved : Ty → Option Int) (ns : List Nat) (t : Ty) :
    (defined reserved ns).isInstance none t = true ↔ t = .method ∨ ∃ n ∈ ns, t = .like n := by
  unfold Types.isInstance defined
  rw [(defined_sub ns _).1]
  simp only [decide_eq_true_eq, List.mem_append, List.mem_map, List.mem_singleton]
  constructor
  · rintro (h | ⟨n, hn, rfl⟩)
    · exact .inl h
    · exact .inr ⟨n, hn, rfl⟩
  · rintro (h | ⟨n, hn, rfl⟩)
    · exact .inl h
    · exact .inr ⟨n, hn, rfl⟩

/-- C372: but every one of them is an instance of each of these types, also of those it has nothing to do with. -/
theorem C372_instance_violated (reserved : Ty → Option Int) (ns : List Nat) (c n : Nat) (hn : n ∈ ns) :
    (defined reserved ns).isInstance (some c) (.like n) = true ∧ (defined reserved ns).isInstance (some c) .method = true :=
  ⟨(C372_like_partial reserved ns (.like n)).2 (.inr ⟨n, hn, rfl⟩), (C372_like_partial reserved ns .method).2 (.inl rfl)⟩

/-- C372: the count of reserved parameters is that of the type if it has one (but minus one), else one for method likes; and
anything else is refused. -/
theorem C372_reserved_partial (reserved : Ty → Option Int) (ns : List Nat) (t : Ty) :
    (∀ r, reserved t = some r → r ≠ -1 → (defined reserved ns).reservedCount t = some r) ∧
      (reserved t = none → (t = .method ∨ ∃ n ∈ ns, t = .like n) → (defined reserved ns).reservedCount t = some 1) ∧
      (reserved t = none → ¬(t = .method ∨ ∃ n ∈ ns, t = .like n) → (defined reserved ns).reservedCount t = none) := by
  have hr : (defined reserved ns).reserved = reserved := (defined_sub ns _).2
  have hm := C372_like_partial reserved ns t
  simp only [Types.isInstance, decide_eq_true_eq] at hm
  unfold Types.reservedCount
  rw [hr]
  refine ⟨fun r h hne => ?_, fun h ht => ?_, fun h ht => ?_⟩
  · simp [h, hne]
  · simp only [h, Option.getD_none]
    rw [if_neg (by simp), if_pos (hm.2 ht)]
  · simp only [h, Option.getD_none]
    rw [if_neg (by simp), if_neg (fun hh => ht (hm.1 hh))]

end Verif.Kinds
