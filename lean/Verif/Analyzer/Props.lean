import Verif.Analyzer.Model

/-!
# Analyzing of callables: parameters, how many are accepted, whether a type can be instanced
-/

namespace Verif.Analyzer

/-- A function as it is written: parameters with their default values, `*args`, keyword only parameters,
`**kwargs`, other variables. -/
structure Signature where
  pos : List (Nat × Option Nat)
  posonly : Nat := 0
  args : Option Nat := none
  kw : List (Nat × Option Nat) := []
  kwargs : Option Nat := none
  locals : List Nat := []
  deriving DecidableEq, Repr

/-- Nothing without a default follows anything with one. -/
def Trailing (l : List (Nat × Option Nat)) : Prop :=
  ∃ a b, l = a ++ b ∧ (∀ p ∈ a, p.2 = none) ∧ ∀ p ∈ b, p.2 ≠ none

/-- What Python demands: parameters with defaults are behind those without, names are different. -/
structure Valid (s : Signature) : Prop where
  trailing : Trailing s.pos
  names : ((s.pos ++ s.kw).map (·.1)).Nodup

def pairs (l : List (Nat × Option Nat)) : List (Nat × Nat) := l.filterMap fun p => p.2.map fun v => (p.1, v)

/-- What Python makes of it. -/
def compiled (s : Signature) : Function where
  argcount := s.pos.length
  posonly := s.posonly
  kwonly := s.kw.length
  varnames := s.pos.map (·.1) ++ s.kw.map (·.1) ++ s.args.toList ++ s.kwargs.toList ++ s.locals
  varargs := s.args.isSome
  varkeywords := s.kwargs.isSome
  defaults := if s.pos.filterMap (·.2) = [] then none else some (s.pos.filterMap (·.2))
  kwdefaults := if pairs s.kw = [] then none else some (pairs s.kw)

/-- Its parameters, the first `alloc` of which are reserved. -/
def expected (s : Signature) (alloc : Nat) : List Parameter :=
  s.pos.mapIdx (fun i p => ⟨p.1, p.2, if i < s.posonly then .posOnly else .pos, decide (i < alloc)⟩) ++
    s.args.toList.map (fun n => ⟨n, none, .args, decide (s.pos.length < alloc)⟩) ++
    s.kw.map (fun p => ⟨p.1, p.2, .kwOnly, false⟩) ++
    s.kwargs.toList.map fun n => ⟨n, none, .kwargs, false⟩

/-! ## Parameters -/

theorem get_append (d e : List (Nat × Nat)) (n : Nat) : get (d ++ e) n = (get d n).or (get e n) := by
  induction d with
  | nil => simp [get]
  | cons p d ih =>
    obtain ⟨k, v⟩ := p
    simp only [List.cons_append, get]
    split
    · rfl
    · exact ih

theorem get_pairs_none (l : List (Nat × Option Nat)) (n : Nat) (h : n ∉ l.map (·.1)) : get (pairs l) n = none := by
  induction l with
  | nil => rfl
  | cons p l ih =>
    obtain ⟨k, v⟩ := p
    simp only [List.map_cons, List.mem_cons, not_or] at h
    have hk : ¬k = n := fun e => h.1 e.symm
    cases v with
    | none => simpa [pairs] using ih h.2
    | some v =>
      have := ih h.2
      simp only [pairs] at this
      simp [pairs, get, hk, this]

theorem get_pairs (l : List (Nat × Option Nat)) (hn : (l.map (·.1)).Nodup) (p : Nat × Option Nat) (hp : p ∈ l) :
    get (pairs l) p.1 = p.2 := by
  induction l with
  | nil => simp at hp
  | cons q l ih =>
    obtain ⟨k, v⟩ := q
    simp only [List.map_cons, List.nodup_cons] at hn
    rcases List.mem_cons.1 hp with rfl | hp
    · cases v with
      | none =>
        have := get_pairs_none l k hn.1
        simpa [pairs] using this
      | some v => simp [pairs, get]
    · have hk : ¬k = p.1 := fun e => hn.1 (e ▸ List.mem_map_of_mem hp)
      have := ih hn.2 hp
      cases v with
      | none => simpa [pairs] using this
      | some v =>
        simp only [pairs] at this
        simp [pairs, get, hk, this]

theorem positionalDefaults_all (b : List (Nat × Option Nat)) (hb : ∀ p ∈ b, p.2 ≠ none) :
    positionalDefaults (b.map (·.1)) (b.filterMap (·.2)) = .ok (pairs b) := by
  induction b with
  | nil => rfl
  | cons p b ih =>
    obtain ⟨k, v⟩ := p
    cases v with
    | none => exact absurd rfl (hb (k, none) List.mem_cons_self)
    | some v =>
      have := ih fun q hq => hb q (List.mem_cons_of_mem _ hq)
      simp [positionalDefaults, this, pairs]

theorem filterMap_none {α : Type} (a : List (Nat × Option Nat)) (h : ∀ p ∈ a, p.2 = none) (f : Nat → Nat → α) :
    a.filterMap (fun p => p.2.map (f p.1)) = [] := by
  rw [List.filterMap_eq_nil_iff]
  intro p hp
  rw [h p hp]; rfl

theorem values_none (a : List (Nat × Option Nat)) (h : ∀ p ∈ a, p.2 = none) : a.filterMap (·.2) = [] := by
  rw [List.filterMap_eq_nil_iff]; exact h

theorem values_length (b : List (Nat × Option Nat)) (h : ∀ p ∈ b, p.2 ≠ none) : (b.filterMap (·.2)).length = b.length := by
  induction b with
  | nil => rfl
  | cons p b ih =>
    obtain ⟨k, v⟩ := p
    cases v with
    | none => exact absurd rfl (h (k, none) List.mem_cons_self)
    | some v => simp [ih fun q hq => h q (List.mem_cons_of_mem _ hq)]

theorem pairs_length (l : List (Nat × Option Nat)) : (pairs l).length = (l.filterMap (·.2)).length := by
  induction l with
  | nil => rfl
  | cons p l ih =>
    obtain ⟨k, v⟩ := p
    simp only [pairs] at ih
    cases v <;> simp [pairs, ih]

theorem positional_ok (l : List (Nat × Option Nat)) (h : Trailing l) :
    ofPositional (if l.filterMap (·.2) = [] then none else some (l.filterMap (·.2))) l.length (l.map (·.1)) =
      .ok (pairs l) := by
  unfold ofPositional
  obtain ⟨a, b, rfl, ha, hb⟩ := h
  have hp : pairs (a ++ b) = pairs b := by
    unfold pairs
    rw [List.filterMap_append, filterMap_none a ha fun k v => (k, v)]; rfl
  have hv : (a ++ b).filterMap (·.2) = b.filterMap (·.2) := by rw [List.filterMap_append, values_none a ha]; rfl
  rw [hv, hp]
  split
  · rename_i hn
    split at hn
    · rename_i h0
      have : b.length = 0 := by rw [← values_length b hb, h0]; rfl
      rw [List.length_eq_zero_iff.1 this]; rfl
    · simp at hn
  · rename_i values hs
    split at hs
    · simp at hs
    · cases hs
      rw [values_length b hb]
      have : ((a ++ b).map (·.1)).drop ((a ++ b).length - b.length) = b.map (·.1) := by
        rw [List.map_append, List.drop_left']; simp
      rw [this, positionalDefaults_all b hb]

theorem keywordDefaults_ok (values : List (Nat × Nat)) (b : List (Nat × Option Nat)) (hb : ∀ p ∈ b, p.2 ≠ none)
    (hv : ∀ p ∈ b, get values p.1 = p.2) : keywordDefaults values (b.map (·.1)) = .ok (pairs b) := by
  induction b with
  | nil => rfl
  | cons p b ih =>
    obtain ⟨k, v⟩ := p
    have hk := hv (k, v) List.mem_cons_self
    cases v with
    | none => exact absurd rfl (hb (k, none) List.mem_cons_self)
    | some v =>
      have := ih (fun q hq => hb q (List.mem_cons_of_mem _ hq)) (fun q hq => hv q (List.mem_cons_of_mem _ hq))
      simp only at hk
      simp [keywordDefaults, hk, this, pairs]

theorem keywordDefaults_error (values : List (Nat × Nat)) (b : List (Nat × Option Nat)) (p : Nat × Option Nat)
    (hp : p ∈ b) (h0 : p.2 = none) (hv : ∀ p ∈ b, get values p.1 = p.2) : keywordDefaults values (b.map (·.1)) = .error .key := by
  induction b with
  | nil => simp at hp
  | cons q b ih =>
    obtain ⟨k, v⟩ := q
    have hk := hv (k, v) List.mem_cons_self
    simp only at hk
    cases v with
    | none => simp [keywordDefaults, hk]
    | some v =>
      rcases List.mem_cons.1 hp with rfl | hp
      · simp at h0
      · have := ih hp fun q hq => hv q (List.mem_cons_of_mem _ hq)
        simp [keywordDefaults, hk, this]

theorem keyword_ok (l : List (Nat × Option Nat)) (hn : (l.map (·.1)).Nodup) (h : Trailing l) :
    ofKeywords (if pairs l = [] then none else some (pairs l)) l.length (l.map (·.1)) = .ok (pairs l) := by
  unfold ofKeywords
  split
  · rename_i hs
    split at hs
    · rename_i h0; rw [h0]
    · simp at hs
  · rename_i values hs
    split at hs
    · simp at hs
    · cases hs
      have hg := fun p hp => get_pairs l hn p hp
      obtain ⟨a, b, rfl, ha, hb⟩ := h
      have hp : pairs (a ++ b) = pairs b := by
        unfold pairs
        rw [List.filterMap_append, filterMap_none a ha fun k v => (k, v)]; rfl
      rw [hp, pairs_length, values_length b hb]
      have : ((a ++ b).map (·.1)).drop ((a ++ b).length - b.length) = b.map (·.1) := by
        rw [List.map_append, List.drop_left']; simp
      rw [this]
      rw [hp] at hg
      exact keywordDefaults_ok _ b hb fun p hp => hg p (List.mem_append_right _ hp)

theorem values_length_le (l : List (Nat × Option Nat)) : (l.filterMap (·.2)).length ≤ l.length :=
  List.length_filterMap_le _ _

theorem values_full (l : List (Nat × Option Nat)) (h : (l.filterMap (·.2)).length = l.length) : ∀ p ∈ l, p.2 ≠ none := by
  induction l with
  | nil => simp
  | cons q l ih =>
    obtain ⟨k, v⟩ := q
    have hle := values_length_le l
    cases v with
    | none =>
      have h' : (l.filterMap (·.2)).length = l.length + 1 := h
      omega
    | some v =>
      have h' : (l.filterMap (·.2)).length + 1 = l.length + 1 := h
      intro p hp
      rcases List.mem_cons.1 hp with rfl | hp
      · simp
      · exact ih (by omega) p hp

theorem keyword_error (l : List (Nat × Option Nat)) (hn : (l.map (·.1)).Nodup) (h : ¬Trailing l) :
    ofKeywords (if pairs l = [] then none else some (pairs l)) l.length (l.map (·.1)) = .error .key := by
  unfold ofKeywords
  have hg := fun p hp => get_pairs l hn p hp
  have hex : ∃ p ∈ l.drop (l.length - (pairs l).length), p.2 = none := by
    apply Classical.byContradiction
    intro hc
    have hc' : ∀ p ∈ l.drop (l.length - (pairs l).length), p.2 ≠ none := fun p hp h0 => hc ⟨p, hp, h0⟩
    apply h
    refine ⟨l.take (l.length - (pairs l).length), l.drop (l.length - (pairs l).length), (List.take_append_drop _ _).symm, ?_, hc'⟩
    have h1 := values_length _ hc'
    have h2 : (l.filterMap (·.2)).length =
        ((l.take (l.length - (pairs l).length)).filterMap (·.2)).length +
          ((l.drop (l.length - (pairs l).length)).filterMap (·.2)).length := by
      rw [← List.length_append, ← List.filterMap_append, List.take_append_drop]
    have h3 := pairs_length l
    have h4 := values_length_le l
    rw [List.length_drop] at h1
    have h5 : ((l.take (l.length - (pairs l).length)).filterMap (·.2)) = [] := List.length_eq_zero_iff.1 (by omega)
    rw [List.filterMap_eq_nil_iff] at h5
    exact h5
  obtain ⟨p, hp, h0⟩ := hex
  split
  · rename_i hs
    split at hs
    · rename_i he
      rw [he] at hp
      simp at hp
    · simp at hs
  · rename_i values hs
    split at hs
    · simp at hs
    · cases hs
      rw [← List.map_drop]
      exact keywordDefaults_error _ _ p hp h0 fun q hq => hg q (List.mem_of_mem_drop hq)

theorem positional_eq (d : List (Nat × Nat)) (posonly alloc : Nat) (l : List (Nat × Option Nat)) (i : Nat)
    (h : ∀ p ∈ l, get d p.1 = p.2) :
    positional d posonly alloc i (l.map (·.1)) =
      l.mapIdx fun j p => ⟨p.1, p.2, if i + j < posonly then .posOnly else .pos, decide (i + j < alloc)⟩ := by
  induction l generalizing i with
  | nil => rfl
  | cons p l ih =>
    have h1 := h p List.mem_cons_self
    rw [List.map_cons, List.mapIdx_cons]
    unfold positional
    rw [ih (i + 1) fun q hq => h q (List.mem_cons_of_mem _ hq), h1]
    simp only [Nat.add_zero, List.cons.injEq, true_and]
    congr 1
    funext j p
    rw [show i + 1 + j = i + (j + 1) by omega]

theorem allDefaults_ok (s : Signature) (hv : Valid s) (hk : Trailing s.kw) :
    allDefaults (compiled s) (s.pos.map (·.1)) (s.kw.map (·.1)) = .ok (pairs s.pos ++ pairs s.kw) := by
  have hn := hv.names
  rw [List.map_append, List.nodup_append] at hn
  unfold allDefaults
  have h1 := positional_ok s.pos hv.trailing
  have h2 := keyword_ok s.kw hn.2.1 hk
  simp only [compiled]
  rw [h1]
  dsimp only
  rw [h2]

theorem allDefaults_error (s : Signature) (hv : Valid s) (hk : ¬Trailing s.kw) :
    allDefaults (compiled s) (s.pos.map (·.1)) (s.kw.map (·.1)) = .error .key := by
  have hn := hv.names
  rw [List.map_append, List.nodup_append] at hn
  unfold allDefaults
  have h1 := positional_ok s.pos hv.trailing
  have h2 := keyword_error s.kw hn.2.1 hk
  simp only [compiled]
  rw [h1]
  dsimp only
  rw [h2]

theorem names_of (s : Signature) :
    (compiled s).varnames.take (compiled s).argcount = s.pos.map (·.1) ∧
      ((compiled s).varnames.drop (compiled s).argcount).take (compiled s).kwonly = s.kw.map (·.1) ∧
        ((compiled s).varnames.drop (compiled s).argcount).drop (compiled s).kwonly =
          s.args.toList ++ s.kwargs.toList ++ s.locals := by
  have h1 : s.pos.length = (s.pos.map (·.1)).length := by simp
  have h2 : s.kw.length = (s.kw.map (·.1)).length := by simp
  simp only [compiled, List.append_assoc]
  rw [h1, h2]
  refine ⟨List.take_left, ?_, ?_⟩
  · rw [List.drop_left, List.take_left]
  · rw [List.drop_left, List.drop_left]

/-- C308: the parameters of a function are those which are written, when keyword only parameters with
defaults are behind those without. -/
theorem C308_parameters_partial (s : Signature) (alloc : Nat) (hv : Valid s) (hk : Trailing s.kw)
    (ha : alloc ≤ s.pos.length ∨ s.args ≠ none) : analyze (compiled s) alloc = .ok (expected s alloc) := by
  obtain ⟨h1, h2, h3⟩ := names_of s
  have hn := hv.names
  rw [List.map_append, List.nodup_append] at hn
  unfold analyze
  dsimp only
  rw [h1, h2, h3, allDefaults_ok s hv hk]
  dsimp only
  have hgp : ∀ p ∈ s.pos, get (pairs s.pos ++ pairs s.kw) p.1 = p.2 := by
    intro p hp
    rw [get_append, get_pairs s.pos hn.1 p hp,
      get_pairs_none s.kw p.1 fun hm => hn.2.2 p.1 (List.mem_map_of_mem hp) p.1 hm rfl, Option.or_none]
  have hgk : ∀ p ∈ s.kw, get (pairs s.pos ++ pairs s.kw) p.1 = p.2 := by
    intro p hp
    rw [get_append, get_pairs s.kw hn.2.1 p hp,
      get_pairs_none s.pos p.1 fun hm => hn.2.2 p.1 hm p.1 (List.mem_map_of_mem hp) rfl, Option.none_or]
  rw [if_neg]
  · rw [positional_eq _ _ _ _ _ hgp]
    unfold expected
    simp only [compiled, Nat.zero_add]
    congr 1
    congr 1
    · congr 1
      · congr 1
        rcases Option.eq_none_or_eq_some s.args with h | ⟨x, h⟩
        · simp [h]
        · simp [h]; rfl
      · rw [List.map_map]
        exact List.map_congr_left fun p hp => by simp [hgk p hp]
    · rcases Option.eq_none_or_eq_some s.args with h | ⟨x, h⟩ <;>
        rcases Option.eq_none_or_eq_some s.kwargs with h' | ⟨y, h'⟩ <;> simp [h, h']
  · rintro ⟨h1, h2⟩
    rcases ha with ha | ha
    · simp only [compiled] at h1; omega
    · simp only [compiled] at h2
      cases h : s.args with
      | none => exact ha h
      | some x => rw [h] at h2; simp at h2

/-- C308: any other function, which is valid too, can not be analyzed: `KeyError` is raised. -/
theorem C308_keyword_defaults_violated (s : Signature) (alloc : Nat) (hv : Valid s) (hk : ¬Trailing s.kw) :
    analyze (compiled s) alloc = .error .key := by
  obtain ⟨h1, h2, h3⟩ := names_of s
  unfold analyze
  dsimp only
  rw [h1, h2, h3, allDefaults_error s hv hk]

/-- C308: a method which has no place for what is reserved is refused. -/
theorem C308_refused (s : Signature) (alloc : Nat) (hv : Valid s) (hk : Trailing s.kw) (ha : s.pos.length < alloc)
    (hn : s.args = none) : analyze (compiled s) alloc = .error .type := by
  obtain ⟨h1, h2, h3⟩ := names_of s
  unfold analyze
  dsimp only
  rw [h1, h2, h3, allDefaults_ok s hv hk]
  dsimp only
  rw [if_pos ⟨ha, by simp [compiled, hn]⟩]

/-- `def f(self, a, b = 7, *args, c, d = 8, **kwargs)` as a method. -/
example : analyze (compiled ⟨[(0, none), (1, none), (2, some 7)], 0, some 3, [(4, none), (5, some 8)], some 6, [9]⟩) 1 =
    .ok [⟨0, none, .pos, true⟩, ⟨1, none, .pos, false⟩, ⟨2, some 7, .pos, false⟩, ⟨3, none, .args, false⟩,
      ⟨4, none, .kwOnly, false⟩, ⟨5, some 8, .kwOnly, false⟩, ⟨6, none, .kwargs, false⟩] := by rfl

/-- `def f(*, c = 8, d)` -/
example : analyze (compiled { pos := [], kw := [(0, some 8), (1, none)] }) 0 = .error .key := by rfl

/-! ## How many positional parameters are accepted -/

theorem trailing_drop (l : List (Nat × Option Nat)) (h : Trailing l) (n : Nat) : Trailing (l.drop n) := by
  obtain ⟨a, b, rfl, ha, hb⟩ := h
  refine ⟨a.drop n, b.drop (n - a.length), List.drop_append, fun p hp => ha p (List.mem_of_mem_drop hp),
    fun p hp => hb p (List.mem_of_mem_drop hp)⟩

/-- The positional parameters from an index on. -/
def from' (s : Signature) (alloc i : Nat) (l : List (Nat × Option Nat)) : List Parameter :=
  l.mapIdx fun j p => ⟨p.1, p.2, if i + j < s.posonly then .posOnly else .pos, decide (i + j < alloc)⟩

theorem from_cons (s : Signature) (alloc i : Nat) (p : Nat × Option Nat) (l : List (Nat × Option Nat)) :
    from' s alloc i (p :: l) =
      ⟨p.1, p.2, if i < s.posonly then .posOnly else .pos, decide (i < alloc)⟩ :: from' s alloc (i + 1) l := by
  unfold from'
  rw [List.mapIdx_cons]
  simp only [Nat.add_zero, List.cons.injEq, true_and]
  congr 1
  funext j p
  rw [show i + 1 + j = i + (j + 1) by omega]

theorem kind_positional (n : Nat) (d : Option Nat) (c : Prop) [Decidable c] (r : Bool) :
    (Parameter.mk n d (if c then .posOnly else .pos) r).isPositional = true := by
  unfold Parameter.isPositional
  split <;> rfl

/-- What is behind the positional parameters. -/
def others (s : Signature) (alloc : Nat) : List Parameter :=
  s.args.toList.map (fun n => ⟨n, none, .args, decide (s.pos.length < alloc)⟩) ++
    s.kw.map (fun p => ⟨p.1, p.2, .kwOnly, false⟩) ++ s.kwargs.toList.map fun n => ⟨n, none, .kwargs, false⟩

theorem expected_eq (s : Signature) (alloc : Nat) : expected s alloc = from' s alloc 0 s.pos ++ others s alloc := by
  unfold expected from' others
  simp only [Nat.zero_add, List.append_assoc]

theorem others_not (s : Signature) (alloc : Nat) : ∀ p ∈ others s alloc, p.isPositional = false := by
  intro p hp
  unfold others at hp
  simp only [List.mem_append, List.mem_map] at hp
  rcases hp with (⟨n, _, rfl⟩ | ⟨q, _, rfl⟩) | ⟨n, _, rfl⟩ <;> rfl

theorem others_length (s : Signature) (alloc : Nat) :
    (others s alloc).length = 0 ↔ s.args = none ∧ s.kw = [] ∧ s.kwargs = none := by
  unfold others
  cases s.args <;> cases s.kwargs <;> simp

theorem range_reserved (s : Signature) (alloc : Nat) (T : List Parameter) (l : List (Nat × Option Nat)) (i : Nat)
    (h1 : i ≤ alloc) (h2 : alloc ≤ i + l.length) :
    rangeFrom (from' s alloc i l ++ T) i 0 = rangeFrom (from' s alloc alloc (l.drop (alloc - i)) ++ T) alloc 0 := by
  induction l generalizing i with
  | nil =>
    have : i = alloc := by simp at h2; omega
    subst this; simp
  | cons p l ih =>
    rcases Nat.lt_or_ge i alloc with h | h
    · rw [from_cons, List.cons_append]
      rw [rangeFrom, kind_positional]
      simp only [h, decide_true, Bool.not_true, Bool.false_eq_true, if_false, if_true]
      rw [ih (i + 1) (by omega) (by simp at h2; omega)]
      rw [show alloc - i = (alloc - (i + 1)) + 1 by omega, List.drop_succ_cons]
    · have : i = alloc := by omega
      subst this; simp

theorem range_free (s : Signature) (alloc : Nat) (T : List Parameter) (hT : ∀ p ∈ T, p.isPositional = false)
    (a b : List (Nat × Option Nat)) (ha : ∀ p ∈ a, p.2 = none) (hb : ∀ p ∈ b, p.2 ≠ none) (i start : Nat) (h : alloc ≤ i) :
    rangeFrom (from' s alloc i (a ++ b) ++ T) i start =
      if b = [] then (start + a.length, start + a.length)
      else (i + a.length, i + a.length + b.length + T.length) := by
  induction a generalizing i start with
  | nil =>
    cases b with
    | nil =>
      cases T with
      | nil => simp [from', rangeFrom]
      | cons t T => simp [from', rangeFrom, hT t List.mem_cons_self]
    | cons p b =>
      have hp := hb p List.mem_cons_self
      rw [List.nil_append, from_cons, List.cons_append, rangeFrom, kind_positional]
      have h' : ¬i < alloc := by omega
      have hs : p.2.isSome = true := by cases h : p.2 with | none => exact absurd h hp | some _ => rfl
      simp only [h', decide_false, Bool.not_true, Bool.false_eq_true, if_false, hs, if_true]
      simp [from']
      omega
  | cons p a ih =>
    have hp := ha p List.mem_cons_self
    rw [List.cons_append, from_cons, List.cons_append, rangeFrom, kind_positional]
    have h' : ¬i < alloc := by omega
    simp only [h', decide_false, Bool.not_true, Bool.false_eq_true, if_false, hp, Option.isSome_none]
    rw [ih (fun q hq => ha q (List.mem_cons_of_mem _ hq)) (i + 1) (start + 1) (by omega)]
    split <;> simp <;> omega

/-- A call with `n` positional arguments behind the reserved ones has a place for every one of them and an
argument for every parameter without a default; `*args` and keyword only parameters aside. -/
def Fits (s : Signature) (alloc n : Nat) : Prop :=
  alloc + n ≤ s.pos.length ∧ ∀ i p, s.pos[i]? = some p → p.2 = none → i < alloc + n

theorem fits_iff (s : Signature) (alloc n : Nat) (h : alloc ≤ s.pos.length) (a b : List (Nat × Option Nat))
    (hs : s.pos.drop alloc = a ++ b) (ha : ∀ p ∈ a, p.2 = none) (hb : ∀ p ∈ b, p.2 ≠ none) :
    Fits s alloc n ↔ a.length ≤ n ∧ n ≤ a.length + b.length := by
  have hl : s.pos.length = alloc + (a.length + b.length) := by
    have := congrArg List.length hs
    simp at this; omega
  have hget : ∀ i, s.pos[alloc + i]? = (a ++ b)[i]? := by
    intro i
    rw [← hs, List.getElem?_drop]
  constructor
  · rintro ⟨h1, h2⟩
    refine ⟨?_, by omega⟩
    apply Classical.byContradiction
    intro hc
    have hlt : n < a.length := by omega
    have := h2 (alloc + n) a[n] (by rw [hget, List.getElem?_append_left hlt, List.getElem?_eq_getElem hlt]) (ha _ (List.getElem_mem hlt))
    omega
  · rintro ⟨h1, h2⟩
    refine ⟨by omega, ?_⟩
    intro i p hp h0
    apply Classical.byContradiction
    intro hc
    obtain ⟨j, rfl⟩ := Nat.exists_eq_add_of_le (show alloc ≤ i by omega)
    rw [hget, List.getElem?_append_right (by omega)] at hp
    exact hb p (List.mem_of_getElem? hp) h0

/-- The range is exactly the numbers of arguments which fit. -/
def Right (s : Signature) (alloc : Nat) (r : Nat × Nat) : Prop := ∀ n, Fits s alloc n ↔ r.1 ≤ n ∧ n ≤ r.2

theorem range_right (s : Signature) (alloc : Nat) (hv : Valid s) (h : alloc ≤ s.pos.length) :
    Right s alloc (range (expected s alloc)) ↔
      (∀ p ∈ s.pos.drop alloc, p.2 = none) ∨ (alloc = 0 ∧ s.args = none ∧ s.kw = [] ∧ s.kwargs = none) := by
  obtain ⟨a, b, hs, ha, hb⟩ := trailing_drop s.pos hv.trailing alloc
  have hr : range (expected s alloc) =
      if b = [] then (0 + a.length, 0 + a.length)
      else (alloc + a.length, alloc + a.length + b.length + (others s alloc).length) := by
    unfold range
    rw [expected_eq, range_reserved s alloc _ s.pos 0 (by omega) (by omega), Nat.sub_zero, hs]
    exact range_free s alloc _ (others_not s alloc) a b ha hb alloc 0 (by omega)
  have hf := fits_iff s alloc
  rw [hr, ← others_length s alloc, hs]
  unfold Right
  by_cases hb0 : b = []
  · rw [if_pos hb0]
    subst hb0
    constructor
    · intro _
      left; intro p hp
      exact ha p (by simpa using hp)
    · intro _ n
      rw [hf n h a [] hs ha hb]
      simp
  · rw [if_neg hb0]
    have hbl : 0 < b.length := List.length_pos_iff.2 hb0
    constructor
    · intro H
      right
      have h1 := (H a.length).1 ((hf _ h a b hs ha hb).2 ⟨by omega, by omega⟩)
      have h2 := (hf _ h a b hs ha hb).1
        ((H (alloc + a.length + b.length + (others s alloc).length)).2 ⟨by dsimp only; omega, by dsimp only; omega⟩)
      dsimp only at h1
      omega
    · rintro (h0 | ⟨h0, h1⟩)
      · cases b with
        | nil => exact absurd rfl hb0
        | cons p b => exact absurd (h0 p (by simp)) (hb p List.mem_cons_self)
      · intro n
        rw [hf n h a b hs ha hb]
        dsimp only
        omega

/-- C309: the range of numbers of positional arguments is right when no parameter that is not reserved has a
default, or when nothing is reserved and all parameters are positional. -/
theorem C309_range_partial (s : Signature) (alloc : Nat) (hv : Valid s) (hk : Trailing s.kw) (h : alloc ≤ s.pos.length)
    (hd : (∀ p ∈ s.pos.drop alloc, p.2 = none) ∨ (alloc = 0 ∧ s.args = none ∧ s.kw = [] ∧ s.kwargs = none)) :
    ∃ ps, analyze (compiled s) alloc = .ok ps ∧ Right s alloc (range ps) :=
  ⟨_, C308_parameters_partial s alloc hv hk (Or.inl h), (range_right s alloc hv h).2 hd⟩

/-- C309: it is wrong for every method with a default. -/
theorem C309_method_violated (s : Signature) (alloc : Nat) (hv : Valid s) (hk : Trailing s.kw) (h : alloc ≤ s.pos.length)
    (h0 : 0 < alloc) (p : Nat × Option Nat) (hp : p ∈ s.pos.drop alloc) (hd : p.2 ≠ none) :
    ∃ ps, analyze (compiled s) alloc = .ok ps ∧ ¬Right s alloc (range ps) := by
  refine ⟨_, C308_parameters_partial s alloc hv hk (Or.inl h), fun H => ?_⟩
  rcases (range_right s alloc hv h).1 H with h1 | h1
  · exact hd (h1 p hp)
  · omega

/-- C309: and for every function with a default, and with a parameter which is not positional. -/
theorem C309_others_counted_violated (s : Signature) (alloc : Nat) (hv : Valid s) (hk : Trailing s.kw) (h : alloc ≤ s.pos.length)
    (ho : s.args ≠ none ∨ s.kw ≠ [] ∨ s.kwargs ≠ none) (p : Nat × Option Nat) (hp : p ∈ s.pos.drop alloc) (hd : p.2 ≠ none) :
    ∃ ps, analyze (compiled s) alloc = .ok ps ∧ ¬Right s alloc (range ps) := by
  refine ⟨_, C308_parameters_partial s alloc hv hk (Or.inl h), fun H => ?_⟩
  rcases (range_right s alloc hv h).1 H with h1 | ⟨_, h1, h2, h3⟩
  · exact hd (h1 p hp)
  · rcases ho with ho | ho | ho
    · exact ho h1
    · exact ho h2
    · exact ho h3

/-- `def f(self, a, b = 7)` as a method: one or two arguments, but two or three are told. -/
example : (match analyze (compiled { pos := [(0, none), (1, none), (2, some 7)] }) 1 with
    | .ok ps => range ps | .error _ => (0, 0)) = (2, 3) := by rfl

/-- `def f(a, b = 7, **kwargs)`: one or two, one to three are told. -/
example : (match analyze (compiled { pos := [(1, none), (2, some 7)], kwargs := some 3 }) 0 with
    | .ok ps => range ps | .error _ => (0, 0)) = (1, 3) := by rfl

/-! ## Counts -/

theorem freePositional_others (T : List Parameter) (hT : ∀ p ∈ T, p.isPositional = false) : freePositional T = [] := by
  cases T with
  | nil => rfl
  | cons t T => simp [freePositional, hT t List.mem_cons_self]

theorem requiredPositional_others (T : List Parameter) (hT : ∀ p ∈ T, p.isPositional = false) : requiredPositional T = 0 := by
  cases T with
  | nil => rfl
  | cons t T => simp [requiredPositional, hT t List.mem_cons_self]

theorem free_eq (s : Signature) (alloc : Nat) (T : List Parameter) (hT : ∀ p ∈ T, p.isPositional = false)
    (l : List (Nat × Option Nat)) (i : Nat) :
    (freePositional (from' s alloc i l ++ T)).map (fun p => (p.name, p.default)) = l.drop (alloc - i) ∧
      requiredPositional (from' s alloc i l ++ T) = (l.drop (alloc - i)).countP (·.2.isNone) := by
  induction l generalizing i with
  | nil => simp [from', freePositional_others T hT, requiredPositional_others T hT]
  | cons p l ih =>
    obtain ⟨h1, h2⟩ := ih (i + 1)
    rw [from_cons, List.cons_append, freePositional, requiredPositional, kind_positional]
    rcases Nat.lt_or_ge i alloc with h | h
    · simp only [h, decide_true, Bool.not_true, Bool.false_eq_true, if_false, if_true]
      rw [h1, h2, show alloc - i = (alloc - (i + 1)) + 1 by omega, List.drop_succ_cons]
      exact ⟨rfl, rfl⟩
    · have h' : ¬i < alloc := by omega
      simp only [h', decide_false, Bool.not_true, Bool.false_eq_true, if_false]
      rw [show alloc - i = 0 by omega, List.drop_zero]
      rw [show alloc - (i + 1) = 0 by omega, List.drop_zero] at h1 h2
      constructor
      · rw [List.map_cons, h1]
      · rw [h2, List.countP_cons]
        cases p.2 <;> simp

theorem keywords_skip (a b : List Parameter) (h : ∀ p ∈ a, p.kind ≠ .kwOnly) : requiredKeywords (a ++ b) = requiredKeywords b := by
  induction a with
  | nil => rfl
  | cons p a ih =>
    have h1 := h p List.mem_cons_self
    rw [List.cons_append, requiredKeywords, if_pos h1]
    exact ih fun q hq => h q (List.mem_cons_of_mem _ hq)

theorem keywords_none (T : List Parameter) (h : ∀ p ∈ T, p.kind ≠ .kwOnly) : requiredKeywords T = 0 := by
  have := keywords_skip T [] h
  rw [List.append_nil] at this
  rw [this]; rfl

theorem keywords_count (T : List Parameter) (hT : ∀ p ∈ T, p.kind ≠ .kwOnly) (a b : List (Nat × Option Nat))
    (ha : ∀ p ∈ a, p.2 = none) (hb : ∀ p ∈ b, p.2 ≠ none) :
    requiredKeywords ((a ++ b).map (fun p => ⟨p.1, p.2, .kwOnly, false⟩) ++ T) = (a ++ b).countP (·.2.isNone) := by
  induction a with
  | nil =>
    have h0 : b.countP (·.2.isNone) = 0 := by
      rw [List.countP_eq_zero]
      intro p hp h
      exact hb p hp (by simpa using h)
    rw [List.nil_append, h0]
    cases b with
    | nil => exact keywords_none T hT
    | cons p b =>
      have hp := hb p List.mem_cons_self
      have hs : p.2.isSome = true := by cases h : p.2 with | none => exact absurd h hp | some _ => rfl
      simp [requiredKeywords, hs]
  | cons p a ih =>
    have hp := ha p List.mem_cons_self
    have := ih fun q hq => ha q (List.mem_cons_of_mem _ hq)
    rw [List.cons_append, List.map_cons, List.cons_append, requiredKeywords]
    simp only [ne_eq, not_true, if_false, hp, Option.isSome_none, Bool.false_eq_true]
    rw [this, List.countP_cons]
    simp [hp]

/-- C310: the positional parameters that are not reserved, how many of them must be given, and how many
keyword only parameters must be given, are right. -/
theorem C310_counts (s : Signature) (alloc : Nat) (hv : Valid s) (hk : Trailing s.kw)
    (ha : alloc ≤ s.pos.length ∨ s.args ≠ none) :
    ∃ ps, analyze (compiled s) alloc = .ok ps ∧
      (freePositional ps).map (fun p => (p.name, p.default)) = s.pos.drop alloc ∧
      requiredPositional ps = (s.pos.drop alloc).countP (·.2.isNone) ∧
      requiredKeywords ps = s.kw.countP (·.2.isNone) := by
  refine ⟨_, C308_parameters_partial s alloc hv hk ha, ?_⟩
  have h := free_eq s alloc _ (others_not s alloc) s.pos 0
  rw [Nat.sub_zero, ← expected_eq] at h
  refine ⟨h.1, h.2, ?_⟩
  rw [expected_eq]
  unfold others
  rw [keywords_skip, List.append_assoc, keywords_skip]
  · obtain ⟨a, b, hs, h1, h2⟩ := hk
    rw [hs]
    exact keywords_count _ (by simp only [List.mem_map]; rintro p ⟨n, _, rfl⟩; simp) a b h1 h2
  · simp only [List.mem_map]; rintro p ⟨n, _, rfl⟩; simp
  · intro p hp
    unfold from' at hp
    rw [List.mem_mapIdx] at hp
    obtain ⟨i, hi, rfl⟩ := hp
    dsimp only
    split <;> simp

/-! ## Instancing -/

theorem canInstance_iff (ps : List Parameter) : canInstance ps = true ↔ ∀ p ∈ ps, p.reserved = false → p.default ≠ none := by
  induction ps with
  | nil => simp [canInstance]
  | cons p ps ih =>
    rw [canInstance]
    cases hr : p.reserved
    · cases hd : p.default with
      | none => simp [hr, hd]
      | some d => simp [hr, hd, ih]
    · simp [hr, ih]

/-- A call without arguments, but the reserved ones, is accepted. -/
def AcceptsNothing (s : Signature) (alloc : Nat) : Prop :=
  (∀ i p, s.pos[i]? = some p → p.2 = none → i < alloc) ∧ ∀ p ∈ s.kw, p.2 ≠ none

theorem canInstance_expected (s : Signature) (alloc : Nat) (h : alloc ≤ s.pos.length) :
    canInstance (expected s alloc) = true ↔ AcceptsNothing s alloc ∧ s.args = none ∧ s.kwargs = none := by
  rw [canInstance_iff]
  unfold expected AcceptsNothing
  simp only [List.mem_append, List.mem_map, List.mem_mapIdx]
  constructor
  · intro H
    refine ⟨⟨?_, ?_⟩, ?_, ?_⟩
    · intro i p hp h0
      obtain ⟨hi, hp'⟩ := List.getElem?_eq_some_iff.1 hp
      have := H ⟨p.1, p.2, if i < s.posonly then .posOnly else .pos, decide (i < alloc)⟩
        (Or.inl (Or.inl (Or.inl ⟨i, hi, by rw [hp']⟩)))
      apply Classical.byContradiction
      intro hc
      exact this (by simp; omega) h0
    · intro p hp
      exact H ⟨p.1, p.2, .kwOnly, false⟩ (Or.inl (Or.inr ⟨p, hp, rfl⟩)) rfl
    · cases ha : s.args with
      | none => rfl
      | some n =>
        exact absurd rfl (H ⟨n, none, .args, decide (s.pos.length < alloc)⟩
          (Or.inl (Or.inl (Or.inr ⟨n, by simp [ha], rfl⟩))) (by simp; omega))
    · cases hk : s.kwargs with
      | none => rfl
      | some n => exact absurd rfl (H ⟨n, none, .kwargs, false⟩ (Or.inr ⟨n, by simp [hk], rfl⟩) rfl)
  · rintro ⟨⟨h1, h2⟩, h3, h4⟩ p hp hr
    rcases hp with ((⟨i, hi, rfl⟩ | ⟨n, hn, rfl⟩) | ⟨q, hq, rfl⟩) | ⟨n, hn, rfl⟩
    · intro h0
      have := h1 i s.pos[i] (List.getElem?_eq_getElem hi) h0
      simp at hr; omega
    · simp [h3] at hn
    · exact h2 q hq
    · simp [h4] at hn

/-- C311: a type which can be instanced is one whose constructor accepts a call without arguments. -/
theorem C311_sound (s : Signature) (alloc : Nat) (hv : Valid s) (hk : Trailing s.kw) (h : alloc ≤ s.pos.length)
    (ps : List Parameter) (hp : analyze (compiled s) alloc = .ok ps) (hc : canInstance ps = true) : AcceptsNothing s alloc := by
  rw [C308_parameters_partial s alloc hv hk (Or.inl h)] at hp
  cases hp
  exact ((canInstance_expected s alloc h).1 hc).1

/-- C311: and every such type can be, without `*args` and `**kwargs`. -/
theorem C311_complete_partial (s : Signature) (alloc : Nat) (hv : Valid s) (hk : Trailing s.kw) (h : alloc ≤ s.pos.length)
    (h1 : s.args = none) (h2 : s.kwargs = none) (ha : AcceptsNothing s alloc) :
    ∃ ps, analyze (compiled s) alloc = .ok ps ∧ canInstance ps = true :=
  ⟨_, C308_parameters_partial s alloc hv hk (Or.inl h), (canInstance_expected s alloc h).2 ⟨ha, h1, h2⟩⟩

/-- C311: with either it never is, though no argument needs to be given for them. -/
theorem C311_variable_parameters_violated (s : Signature) (alloc : Nat) (hv : Valid s) (hk : Trailing s.kw)
    (h : alloc ≤ s.pos.length) (h1 : s.args ≠ none ∨ s.kwargs ≠ none) :
    ∃ ps, analyze (compiled s) alloc = .ok ps ∧ canInstance ps = false := by
  refine ⟨_, C308_parameters_partial s alloc hv hk (Or.inl h), ?_⟩
  apply Bool.eq_false_iff.2
  intro hc
  obtain ⟨_, h2, h3⟩ := (canInstance_expected s alloc h).1 hc
  rcases h1 with h1 | h1
  · exact h1 h2
  · exact h1 h3

/-- `def __new__(cls, **kwargs)` -/
example : AcceptsNothing { pos := [(0, none)], kwargs := some 1 } 1 ∧
    (match analyze (compiled { pos := [(0, none)], kwargs := some 1 }) 1 with
      | .ok ps => canInstance ps | .error _ => true) = false := by
  refine ⟨⟨?_, by simp⟩, by rfl⟩
  intro i p hp _
  have := (List.getElem?_eq_some_iff.1 hp).1
  simpa using this

end Verif.Analyzer
