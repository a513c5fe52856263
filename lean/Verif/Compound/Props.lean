import Verif.Compound.Model

/-!
# Building of compound types: theorems
-/

namespace Verif.Compound

/-! ## What is built was given -/

/-- What is known of a detail of which the layers seen so far are given. -/
def Given (es : List Entry) (d : Detail) : Prop :=
  (d.inst = true → Entry.slot ∈ es) ∧ (d.inst = false → d.implemented = true → Entry.implemented d.value ∈ es)

theorem given_detail (done : Bool) (e : Entry) (es : List Entry) (h : e ∈ es) : Given es (detail done e) := by
  cases e <;> simp [Given, detail] <;> exact h

theorem given_mono (es es' : List Entry) (d : Detail) (h : Given es d) (hs : ∀ e ∈ es, e ∈ es') : Given es' d :=
  ⟨fun hi => hs _ (h.1 hi), fun hi hm => hs _ (h.2 hi hm)⟩

theorem given_transfer (es : List Entry) (s a : Detail) (hs : Given es s) (ha : Given es a) : Given es (transfer s a) := by
  unfold transfer
  split
  · exact ⟨fun h => ha.1 h, fun h h' => ha.2 h h'⟩
  · exact hs

theorem given_transferMethod (es : List Entry) (s a : Detail) (hs : Given es s) (ha : Given es a) : Given es (transferMethod s a) := by
  unfold transferMethod
  split
  · rename_i h
    obtain ⟨h1, h2, h3⟩ := h
    split
    · exact hs
    · rename_i hn
      have hai : a.inst = false := by
        simp only [Detail.isMethod, Bool.and_eq_true, Bool.not_eq_true'] at h2
        exact h2.1
      have ham : a.implemented = true := by
        cases hm : a.implemented with
        | true => rfl
        | false => rw [hm] at h3; simp at hn; rw [hn] at h3; exact absurd rfl h3
      exact ⟨fun h => hs.1 h, fun _ _ => ha.2 hai ham⟩
  · exact hs

theorem given_apply (agree : Nat → Nat → Bool) (es : List Entry) (s a d : Detail) (hs : Given es s) (ha : Given es a)
    (h : apply agree s a = some d) : Given es d := by
  unfold apply at h
  split at h
  · cases h
  · split at h
    · cases h
    · split at h
      · cases h
      · cases h
        exact given_transfer es _ a (given_transferMethod es s a hs ha) ha

theorem given_components (agree : Nat → Nat → Bool) (all es : List Entry) (hsub : ∀ e ∈ es, e ∈ all) (o : Option Detail) (d : Detail)
    (ho : ∀ x, o = some x → Given all x) (h : components agree o es = some (some d)) : Given all d := by
  induction es generalizing o with
  | nil =>
    cases o <;> simp only [components, Option.some.injEq] at h
    · cases h
    · exact ho d (by rw [h])
  | cons e es ih =>
    have hsub' : ∀ x ∈ es, x ∈ all := fun x hx => hsub x (List.mem_cons_of_mem _ hx)
    have he : Given all (detail false e) := given_detail false e all (hsub e List.mem_cons_self)
    cases o with
    | none =>
      rw [components] at h
      exact ih hsub' _ (fun x hx => by cases hx; exact he) h
    | some x =>
      rw [components] at h
      cases ha : apply agree x (detail false e) with
      | none => rw [ha] at h; cases h
      | some y =>
        rw [ha] at h
        refine ih hsub' _ (fun z hz => ?_) h
        cases hz
        exact given_apply agree all x _ y (ho x rfl) he ha

theorem given_base (type base : Option Entry) (all : List Entry) (ht : ∀ e, type = some e → e ∈ all) (hb : ∀ e, base = some e → e ∈ all)
    (o : Option Detail) (h : baseDetail type base = some o) : ∀ x, o = some x → Given all x := by
  intro x hx
  subst hx
  cases type with
  | none =>
    cases base with
    | none => simp [baseDetail] at h
    | some b =>
      simp only [baseDetail, Option.some.injEq] at h
      subst h
      exact given_detail true b all (hb b rfl)
  | some t =>
    cases base with
    | none =>
      simp only [baseDetail, Option.some.injEq] at h
      subst h
      exact given_detail false t all (ht t rfl)
    | some b =>
      have h1 := given_detail true b all (hb b rfl)
      have h2 := given_detail false t all (ht t rfl)
      simp only [baseDetail] at h
      split at h
      · cases h
      · split at h
        · cases h
        · simp only [Option.some.injEq] at h
          subst h
          have h3 : Given all (transferSlot (detail true b) (detail false t)) := by
            unfold transferSlot
            split
            · rename_i hh
              refine ⟨fun hi => h2.1 hi, fun hi => ?_⟩
              change (detail false t).inst = false at hi
              rw [hh.2.1] at hi
              cases hi
            · exact h2
          unfold transferBack
          split
          · exact h3
          · split
            · exact ⟨fun hi => h1.1 hi, fun hi hm => h1.2 hi hm⟩
            · exact h3

/-- C334: an attribute of a type which was built is one a layer implements, and is a slot only if a layer has it so. -/
theorem C334_given (agree : Nat → Nat → Bool) (type base : Option Entry) (layers : List Entry) (b : Built)
    (h : build agree type base layers = some b) :
    match b with
    | .attribute v => v ≠ .placeholder ∧ (type = some (.implemented v) ∨ base = some (.implemented v) ∨ .implemented v ∈ layers)
    | .slot => type = some .slot ∨ base = some .slot ∨ .slot ∈ layers
    | .inherited => type = some .slot ∨ base = some .slot ∨ .slot ∈ layers := by
  have hmem : ∀ e, e ∈ type.toList ++ base.toList ++ layers → type = some e ∨ base = some e ∨ e ∈ layers := by
    intro e he
    simpa [or_assoc, eq_comm] using he
  unfold build at h
  cases hb : baseDetail type base with
  | none => rw [hb] at h; cases h
  | some o =>
    rw [hb] at h
    dsimp only at h
    have hg := given_base type base (type.toList ++ base.toList ++ layers) (by rintro e rfl; simp) (by rintro e rfl; simp) o hb
    cases hc : components agree o layers with
    | none => rw [hc] at h; cases h
    | some od =>
      rw [hc] at h
      cases od with
      | none => cases h
      | some d =>
        have hd := given_components agree (type.toList ++ base.toList ++ layers) layers (by intro e he; simp [he]) o d hg hc
        dsimp only at h
        split at h
        · cases h
        · rename_i hi
          split at h
          · rename_i hs
            have := hmem _ (hd.1 hs)
            split at h <;> (cases h; exact this)
          · rename_i hs
            cases h
            have hs' : d.inst = false := by simpa using hs
            simp [Detail.isImplemented, hs'] at hi
            exact ⟨hi.2, hmem _ (hd.2 hs' hi.1)⟩

/-! ## Methods -/

/-- A method which is expected, or one which is there. -/
def IsMethod : Entry → Prop
  | .theory (.method _) => True
  | .implemented (.method _) => True
  | _ => False

theorem apply_methods (agree : Nat → Nat → Bool) (i j : Bool) (n m : Nat) :
    apply agree ⟨false, i, .method n⟩ ⟨false, j, .method m⟩ =
      if (i && j) || !agree n m then none else some ⟨false, i || j, .method (if j then m else n)⟩ := by
  cases i <;> cases j <;> cases h : agree n m <;>
    simp [apply, checkGet, Detail.isGet, checkMethod, Detail.isMethod, checkConstant, Detail.isConstant, h, transferMethod, transfer]

/-- How many layers implement it. -/
def implementations : List Entry → Nat
  | [] => 0
  | .implemented _ :: es => implementations es + 1
  | _ :: es => implementations es

theorem components_methods (agree : Nat → Nat → Bool) (hag : ∀ n m, agree n m = true) (es : List Entry) (hm : ∀ e ∈ es, IsMethod e)
    (i : Bool) (n : Nat) :
    (i.toNat + implementations es ≤ 1 →
      ∃ d, components agree (some ⟨false, i, .method n⟩) es = some (some d) ∧ d.inst = false ∧
        d.implemented = decide (i.toNat + implementations es = 1) ∧
        (i = true → d.value = .method n) ∧ ∀ v, Entry.implemented v ∈ es → d.value = v) ∧
      (1 < i.toNat + implementations es → components agree (some ⟨false, i, .method n⟩) es = none) := by
  induction es generalizing i n with
  | nil =>
    constructor
    · intro _
      refine ⟨_, rfl, rfl, ?_, fun _ => rfl, by simp⟩
      cases i <;> simp [implementations]
    · intro h
      cases i <;> simp [implementations] at h
  | cons e es ih =>
    have ih' := ih fun x hx => hm x (List.mem_cons_of_mem _ hx)
    have he := hm e List.mem_cons_self
    cases e with
    | slot => cases he
    | theory v =>
      cases v with
      | method m =>
        have hap : apply agree ⟨false, i, .method n⟩ (detail false (.theory (.method m))) = some ⟨false, i, .method n⟩ := by
          rw [detail, apply_methods]
          simp [hag]
        have heq : components agree (some ⟨false, i, .method n⟩) (.theory (.method m) :: es) =
            components agree (some ⟨false, i, .method n⟩) es := by
          rw [components, hap]
        rw [heq]
        simp only [implementations]
        obtain ⟨h1, h2⟩ := ih' i n
        refine ⟨fun h => ?_, h2⟩
        obtain ⟨d, a, b, c, e1, e2⟩ := h1 h
        exact ⟨d, a, b, c, e1, fun v hv => by simp at hv; exact e2 v hv⟩
      | _ => cases he
    | implemented v =>
      cases v with
      | method m =>
        cases i with
        | true =>
          have hap : apply agree ⟨false, true, .method n⟩ (detail false (.implemented (.method m))) = none := by
            rw [detail, apply_methods]; simp
          constructor
          · intro h; simp [implementations] at h; omega
          · intro _; rw [components, hap]
        | false =>
          have hap : apply agree ⟨false, false, .method n⟩ (detail false (.implemented (.method m))) = some ⟨false, true, .method m⟩ := by
            rw [detail, apply_methods]; simp [hag]
          have heq : components agree (some ⟨false, false, .method n⟩) (.implemented (.method m) :: es) =
              components agree (some ⟨false, true, .method m⟩) es := by
            rw [components, hap]
          rw [heq]
          obtain ⟨h1, h2⟩ := ih' true m
          simp only [implementations, Bool.toNat_false, Bool.toNat_true, Nat.zero_add] at h1 h2 ⊢
          constructor
          · intro h
            obtain ⟨d, a, b, c, e1, e2⟩ := h1 (by omega)
            refine ⟨d, a, b, ?_, by simp, ?_⟩
            · rw [c]; congr 1; apply propext; omega
            · intro v hv
              simp at hv
              rcases hv with rfl | hv
              · exact e1 trivial
              · exact e2 v hv
          · intro h; exact h2 (by omega)
      | _ => cases he

/-- C335: a method of components is the one which is implemented, in whatever order the layers are, and building is
refused if there is none or more than one. -/
theorem C335_methods_partial (agree : Nat → Nat → Bool) (hag : ∀ n m, agree n m = true) (layers : List Entry)
    (hm : ∀ e ∈ layers, IsMethod e) :
    (∀ v, implementations layers = 1 → .implemented v ∈ layers → build agree none none layers = some (.attribute v)) ∧
      (implementations layers ≠ 1 → build agree none none layers = none) := by
  cases layers with
  | nil => exact ⟨fun v h => by simp [implementations] at h, fun _ => rfl⟩
  | cons e es =>
    have hes : ∀ x ∈ es, IsMethod x := fun x hx => hm x (List.mem_cons_of_mem _ hx)
    have he := hm e List.mem_cons_self
    have hb : ∀ (i : Bool) (n : Nat), detail false e = ⟨false, i, .method n⟩ → implementations (e :: es) = i.toNat + implementations es →
        (i = true → e = .implemented (.method n)) → (i = false → ∀ v, e ≠ .implemented v) →
        (∀ v, implementations (e :: es) = 1 → .implemented v ∈ e :: es → build agree none none (e :: es) = some (.attribute v)) ∧
          (implementations (e :: es) ≠ 1 → build agree none none (e :: es) = none) := by
      intro i n hd hc hi1 hi0
      have hbuild : build agree none none (e :: es) =
          match components agree (some ⟨false, i, .method n⟩) es with
          | none => none
          | some none => none
          | some (some d) =>
            if !d.isImplemented then none
            else if d.inst then if d.implemented then some .inherited else some .slot
            else some (.attribute d.value) := by
        simp only [build, baseDetail, components, hd]
        rfl
      obtain ⟨h1, h2⟩ := components_methods agree hag es hes i n
      rw [hbuild, hc]
      constructor
      · intro v hone hv
        obtain ⟨d, a, b, c, e1, e2⟩ := h1 (by omega)
        have hval : d.value = v ∧ ∃ k, v = .method k := by
          rcases List.mem_cons.1 hv with hv | hv
          · cases hci : i with
            | true =>
              have := hi1 hci
              rw [this] at hv
              cases hv
              exact ⟨e1 hci, n, rfl⟩
            | false => exact absurd hv.symm (hi0 hci v)
          · refine ⟨e2 v hv, ?_⟩
            have := hes _ hv
            cases v with
            | method k => exact ⟨k, rfl⟩
            | _ => cases this
        rw [a]
        dsimp only
        obtain ⟨hv1, k, hk⟩ := hval
        have hdi : d.implemented = true := by rw [c]; exact decide_eq_true hone
        rw [if_neg (by simp [Detail.isImplemented, hdi, hv1, hk]), if_neg (by simp [b]), hv1]
      · intro hne
        by_cases hle : i.toNat + implementations es ≤ 1
        · obtain ⟨d, a, b, c, _⟩ := h1 hle
          rw [a]
          dsimp only
          have hdi : d.implemented = false := by rw [c]; exact decide_eq_false hne
          rw [if_pos (by simp [Detail.isImplemented, b, hdi])]
        · rw [h2 (by omega)]
    cases e with
    | slot => cases he
    | theory v =>
      cases v with
      | method n => exact hb false n rfl (by simp [implementations]) (by simp) (by simp)
      | _ => cases he
    | implemented v =>
      cases v with
      | method n => exact hb true n rfl (by simp [implementations]; omega) (by simp) (by simp)
      | _ => cases he

/-- C335: methods whose parameters do not match are refused, wherever these layers are behind each other at the start. -/
theorem C335_mismatch (agree : Nat → Nat → Bool) (n m : Nat) (h : agree n m = false) (first second : Entry) (rest : List Entry)
    (hf : first = .theory (.method n) ∨ first = .implemented (.method n))
    (hs : second = .theory (.method m) ∨ second = .implemented (.method m)) :
    build agree none none (first :: second :: rest) = none := by
  rcases hf with rfl | rfl <;> rcases hs with rfl | rfl <;>
    simp [build, baseDetail, components, detail, apply_methods, h]

/-- C335: but of two properties the first is taken, and a constant hides a method. -/
theorem C335_others_violated (agree : Nat → Nat → Bool) (n m : Nat) :
    build agree none none [.implemented (.descriptor n), .implemented (.descriptor m)] = some (.attribute (.descriptor n)) ∧
      build agree none none [.implemented (.half n), .implemented (.half m)] = some (.attribute (.half n)) ∧
      build agree none none [.implemented (.constant n), .implemented (.method m)] = some (.attribute (.constant n)) := by
  simp [build, baseDetail, components, detail, apply, checkGet, Detail.isGet, checkMethod, Detail.isMethod, checkConstant,
    Detail.isConstant, transferMethod, transfer, Detail.isImplemented]

/-- C336: an expected property is not taken from a later layer, only from an earlier one. -/
theorem C336_order_violated (agree : Nat → Nat → Bool) (n m : Nat) :
    build agree none none [.theory (.descriptor n), .implemented (.descriptor m)] = none ∧
      build agree none none [.theory (.descriptor n), .slot] = none ∧
      build agree none none [.implemented (.descriptor m), .theory (.descriptor n)] = some (.attribute (.descriptor m)) ∧
      build agree none none [.slot, .theory (.descriptor n)] = some .slot := by
  simp [build, baseDetail, components, detail, apply, checkGet, Detail.isGet, checkMethod, Detail.isMethod, checkConstant,
    Detail.isConstant, transferMethod, transfer, Detail.isImplemented]

example : build (fun _ _ => true) none none [.theory (.method 1), .implemented (.method 2), .theory (.method 3)] =
    some (.attribute (.method 2)) := by decide

/-! ## Constants -/

theorem apply_constants (agree : Nat → Nat → Bool) (n m : Nat) :
    apply agree ⟨false, true, .constant n⟩ ⟨false, true, .constant m⟩ = if n = m then some ⟨false, true, .constant n⟩ else none := by
  by_cases h : n = m <;>
    simp [apply, checkGet, Detail.isGet, checkMethod, Detail.isMethod, checkConstant, Detail.isConstant, h, transferMethod, transfer]

/-- C337: constants must be the same in all components. -/
theorem C337_constants (agree : Nat → Nat → Bool) (n : Nat) (rest : List Nat) :
    ((∀ m ∈ rest, m = n) →
      build agree none none ((n :: rest).map fun m => .implemented (.constant m)) = some (.attribute (.constant n))) ∧
      ((∃ m ∈ rest, m ≠ n) → build agree none none ((n :: rest).map fun m => .implemented (.constant m)) = none) := by
  have key : ∀ rest : List Nat,
      ((∀ m ∈ rest, m = n) → components agree (some ⟨false, true, .constant n⟩) (rest.map fun m => .implemented (.constant m)) =
        some (some ⟨false, true, .constant n⟩)) ∧
        ((∃ m ∈ rest, m ≠ n) → components agree (some ⟨false, true, .constant n⟩) (rest.map fun m => .implemented (.constant m)) = none) := by
    intro rest
    induction rest with
    | nil => exact ⟨fun _ => rfl, by simp⟩
    | cons m rest ih =>
      rw [List.map_cons, components, detail, apply_constants]
      by_cases h : n = m
      · subst h
        rw [if_pos rfl]
        dsimp only
        refine ⟨fun hh => ih.1 fun k hk => hh k (List.mem_cons_of_mem _ hk), fun ⟨k, hk, hne⟩ => ?_⟩
        rcases List.mem_cons.1 hk with rfl | hk
        · exact absurd rfl hne
        · exact ih.2 ⟨k, hk, hne⟩
      · rw [if_neg h]
        exact ⟨fun hh => absurd (hh m List.mem_cons_self).symm h, fun _ => rfl⟩
  obtain ⟨h1, h2⟩ := key rest
  simp only [build, baseDetail, List.map_cons, components, detail]
  constructor
  · intro h
    rw [h1 h]
    simp [Detail.isImplemented]
  · intro h
    rw [h2 h]

/-! ## Slots -/

/-- The result of merging slots. -/
theorem components_slots (agree : Nat → Nat → Bool) (i : Bool) (k : Nat) :
    components agree (some ⟨true, i, .constant 0⟩) (List.replicate k .slot) = some (some ⟨true, i, .constant 0⟩) := by
  induction k with
  | zero => rfl
  | succ k ih =>
    rw [List.replicate_succ, components]
    have : apply agree ⟨true, i, .constant 0⟩ (detail false .slot) = some ⟨true, i, .constant 0⟩ := by
      cases i <;> simp [detail, apply, checkGet, Detail.isGet, checkMethod, Detail.isMethod, checkConstant, Detail.isConstant,
        transferMethod, transfer]
    rw [this]
    exact ih

/-- C338: an instance attribute is in the slots of the new type exactly if the base type does not have it. -/
theorem C338_slots (agree : Nat → Nat → Bool) (type base : Option Entry) (k : Nat) (ht : type = none ∨ type = some .slot)
    (hb : base = none ∨ base = some .slot) (hsome : type ≠ none ∨ base ≠ none ∨ k ≠ 0) :
    build agree type base (List.replicate k .slot) = some (if base = none then .slot else .inherited) := by
  have hd : ∀ i : Bool, (match components agree (some ⟨true, i, .constant 0⟩) (List.replicate k .slot) with
          | none => none
          | some none => none
          | some (some d) =>
            if !d.isImplemented then none
            else if d.inst then if d.implemented then some Built.inherited else some .slot
            else some (.attribute d.value)) = some (if i then .inherited else .slot) := by
    intro i
    rw [components_slots]
    cases i <;> simp [Detail.isImplemented]
  rcases ht with rfl | rfl <;> rcases hb with rfl | rfl
  · cases k with
    | zero => simp at hsome
    | succ k =>
      simp only [build, baseDetail, List.replicate_succ, components, detail]
      rw [components_slots]
      simp [Detail.isImplemented]
  · exact hd true
  · exact hd false
  · exact hd true

/-! ## Placeholders -/

/-- C339: `NotImplemented` is replaced by what components implement. -/
theorem C339_placeholder_partial (agree : Nat → Nat → Bool) (v : Impl) (hv : v ≠ .placeholder) (hd : ∀ n, v ≠ .descriptor n) :
    build agree (some (.implemented .placeholder)) none [.implemented v] = some (.attribute v) ∧
      build agree none none [.implemented .placeholder, .implemented v] = some (.attribute v) := by
  cases v <;>
    simp_all [build, baseDetail, components, detail, apply, checkGet, Detail.isGet, checkMethod, Detail.isMethod, checkConstant,
      Detail.isConstant, transferMethod, transfer, Detail.isImplemented]

/-- C339: but not by properties and instance attributes: building is refused. -/
theorem C339_descriptors_violated (agree : Nat → Nat → Bool) (n : Nat) :
    build agree (some (.implemented .placeholder)) none [.implemented (.descriptor n)] = none ∧
      build agree (some (.implemented .placeholder)) none [.slot] = none := by
  simp [build, baseDetail, components, detail, apply, checkGet, Detail.isGet]

/-- C339: nor does a placeholder behind an implementation change it. -/
theorem C339_behind (agree : Nat → Nat → Bool) (v : Impl) (hv : v ≠ .placeholder) (hd : ∀ n, v ≠ .descriptor n) :
    build agree none none [.implemented v, .implemented .placeholder] = some (.attribute v) := by
  cases v <;>
    simp_all [build, baseDetail, components, detail, apply, checkGet, Detail.isGet, checkMethod, Detail.isMethod, checkConstant,
      Detail.isConstant, transferMethod, transfer, Detail.isImplemented]

/-! ## The type and its base type -/

/-- C341: what the type itself implements is taken over what its base type does, constants excepted. -/
theorem C341_over_partial (agree : Nat → Nat → Bool) (n m : Nat) :
    build agree (some (.implemented (.method n))) (some (.implemented (.method m))) [] = some (.attribute (.method n)) ∧
      build agree (some (.implemented (.descriptor n))) (some (.implemented (.descriptor m))) [] = some (.attribute (.descriptor n)) ∧
      build agree (some (.implemented (.half n))) (some (.implemented (.half m))) [] = some (.attribute (.half n)) ∧
      (build agree (some (.implemented (.constant n))) (some (.implemented (.constant m))) [] =
        if n = m then some (.attribute (.constant n)) else none) ∧
      build agree (some .slot) (some (.implemented (.descriptor m))) [] = some .slot ∧
      build agree (some (.implemented (.descriptor n))) (some .slot) [] = none := by
  by_cases h : n = m
  · subst h
    simp [build, baseDetail, components, detail, checkGet, Detail.isGet, checkConstant, Detail.isConstant, transferSlot, transferBack,
      Detail.isImplemented]
  · simp [build, baseDetail, components, detail, checkGet, Detail.isGet, checkConstant, Detail.isConstant, transferSlot, transferBack,
      Detail.isImplemented, h, Ne.symm h]

/-- C341: what is missing in the type itself is taken from the base type, and `NotImplemented` is filled in. -/
theorem C341_from_base (agree : Nat → Nat → Bool) (v : Impl) (hv : v ≠ .placeholder) (hd : ∀ n, v ≠ .descriptor n) :
    build agree none (some (.implemented v)) [] = some (.attribute v) ∧
      build agree (some (.implemented .placeholder)) (some (.implemented v)) [] = some (.attribute v) ∧
      build agree (some (.implemented v)) (some (.implemented .placeholder)) [] = some (.attribute v) := by
  cases v <;>
    simp_all [build, baseDetail, components, detail, checkGet, Detail.isGet, checkConstant, Detail.isConstant, transferSlot, transferBack,
      Detail.isImplemented]

/-- C341: but a method the type only expects is not taken from the base type, though it is from a component. -/
theorem C341_theory_violated (agree : Nat → Nat → Bool) (n m : Nat) (h : agree n m = true) :
    build agree (some (.theory (.method n))) (some (.implemented (.method m))) [] = none ∧
      build agree (some (.theory (.method n))) none [.implemented (.method m)] = some (.attribute (.method m)) := by
  simp [build, baseDetail, components, detail, apply, checkGet, Detail.isGet, checkMethod, Detail.isMethod, checkConstant,
    Detail.isConstant, transferMethod, transfer, Detail.isImplemented, transferSlot, transferBack, h]

/-! ## Base types -/

/-- What is a component, in order. -/
inductive Components : List Base → List Nat → Prop
  | nil : Components [] []
  | root (bs : List Base) (cs : List Nat) : Components bs cs → Components (.root :: bs) cs
  | type (n : Nat) (bs : List Base) (cs : List Nat) : Components bs cs → Components (.type n :: bs) cs
  | component (n : Nat) (bs : List Base) (cs : List Nat) : Components bs cs → Components (.component n :: bs) (n :: cs)

/-- The base types which are neither components nor roots, in order. -/
inductive Types : List Base → List Nat → Prop
  | nil : Types [] []
  | root (bs : List Base) (ts : List Nat) : Types bs ts → Types (.root :: bs) ts
  | component (n : Nat) (bs : List Base) (ts : List Nat) : Types bs ts → Types (.component n :: bs) ts
  | type (n : Nat) (bs : List Base) (ts : List Nat) : Types bs ts → Types (.type n :: bs) (n :: ts)

theorem separate_some (direct : Option Nat) (bs : List Base) (d : Option Nat) (cs : List Nat) (h : separate direct bs = some (d, cs)) :
    Components bs cs ∧ ∃ ts, Types bs ts ∧ direct.toList ++ ts = d.toList := by
  induction bs generalizing direct d cs with
  | nil => simp only [separate, Option.some.injEq, Prod.mk.injEq] at h; obtain ⟨rfl, rfl⟩ := h; exact ⟨.nil, [], .nil, by simp⟩
  | cons b bs ih =>
    cases b with
    | root =>
      obtain ⟨h1, ts, h2, h3⟩ := ih direct d cs h
      exact ⟨.root _ _ h1, ts, .root _ _ h2, h3⟩
    | component n =>
      simp only [separate] at h
      cases hs : separate direct bs with
      | none => rw [hs] at h; cases h
      | some r =>
        obtain ⟨d', cs'⟩ := r
        rw [hs] at h
        simp only [Option.some.injEq, Prod.mk.injEq] at h
        obtain ⟨rfl, rfl⟩ := h
        obtain ⟨h1, ts, h2, h3⟩ := ih direct d' cs' hs
        exact ⟨.component _ _ _ h1, ts, .component _ _ _ h2, h3⟩
    | type n =>
      cases direct with
      | none =>
        rw [separate] at h
        obtain ⟨h1, ts, h2, h3⟩ := ih (some n) d cs h
        exact ⟨.type _ _ _ h1, n :: ts, .type _ _ _ h2, by simpa using h3⟩
      | some m => cases h
    | other => cases h

/-- C340: base types are separated to one type and the components in order; more types are refused. -/
theorem C340_separated (bs : List Base) (d : Option Nat) (cs : List Nat) :
    separate none bs = some (d, cs) ↔ Components bs cs ∧ Types bs d.toList := by
  constructor
  · intro h
    obtain ⟨h1, ts, h2, h3⟩ := separate_some none bs d cs h
    simp at h3
    rw [h3] at h2
    exact ⟨h1, h2⟩
  · have key : ∀ (bs : List Base) (direct : Option Nat) (ts cs : List Nat) (d : Option Nat), Components bs cs → Types bs ts →
        direct.toList ++ ts = d.toList → separate direct bs = some (d, cs) := by
      intro bs
      induction bs with
      | nil =>
        intro direct ts cs d h1 h2 h3
        cases h1; cases h2
        cases direct <;> cases d <;> simp_all [separate]
      | cons b bs ih =>
        intro direct ts cs d h1 h2 h3
        cases h1 with
        | root _ _ h1 => cases h2 with | root _ _ h2 => exact ih direct ts cs d h1 h2 h3
        | component n _ cs' h1 =>
          cases h2 with
          | component _ _ _ h2 => rw [separate, ih direct ts cs' d h1 h2 h3]
        | type n _ _ h1 =>
          cases h2 with
          | type _ _ ts' h2 =>
            cases direct with
            | none => rw [separate]; exact ih (some n) ts' cs d h1 h2 (by simpa using h3)
            | some m => cases d <;> simp at h3
    rintro ⟨h1, h2⟩
    exact key bs none d.toList cs d h1 h2 (by simp)

example : separate none [.root, .component 1, .type 7, .component 2] = some (some 7, [1, 2]) ∧ separate none [.type 1, .type 2] = none := by
  decide

end Verif.Compound
