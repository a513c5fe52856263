import Verif.Modulize.Model

/-!
# Types made to modules, and groups of causes: theorems
-/

namespace Verif.Modulize

theorem within_iff (m q : Text) : within m q = true ↔ ∃ rest, q = m ++ 46 :: rest := by
  constructor
  · intro h
    simp only [within, Bool.and_eq_true, decide_eq_true_eq] at h
    obtain ⟨⟨h1, h2⟩, t, h3⟩ := h
    subst h3
    cases t with
    | nil => simp at h1
    | cons c t => simp at h2; exact ⟨t, by rw [h2]⟩
  · rintro ⟨rest, rfl⟩
    simp [within]

/-- C329: a function of the module of the type sees the names of the new module, has its path, and is as it was
otherwise, but for the defaults of its keyword only parameters. -/
theorem C329_function_partial (f : Fn) (globals : Nat) (source typeName path : Text) (h : f.module = source) :
    let new := modulizeFunction f globals source typeName path
    new.globals = globals ∧ new.module = path ∧ new.code = f.code ∧ new.name = f.name ∧ new.defaults = f.defaults ∧
      new.closure = f.closure ∧ ∀ rest, f.qualname = typeName ++ 46 :: rest → new.qualname = rest := by
  dsimp only
  unfold modulizeFunction
  rw [if_neg (by simp [h])]
  cases hw : within typeName f.qualname with
  | true =>
    refine ⟨rfl, rfl, rfl, rfl, rfl, rfl, ?_⟩
    intro rest hr
    simp [hr]
  | false =>
    refine ⟨rfl, rfl, rfl, rfl, rfl, rfl, ?_⟩
    intro rest hr
    rw [(within_iff _ _).2 ⟨rest, hr⟩] at hw
    cases hw

/-- C329: others are left as they are. -/
theorem C329_others (f : Fn) (globals : Nat) (source typeName path : Text) (h : f.module ≠ source) :
    modulizeFunction f globals source typeName path = f := by
  rw [modulizeFunction, if_pos h]

/-- C329: the defaults of keyword only parameters are lost. -/
theorem C329_keyword_defaults_violated (f : Fn) (globals : Nat) (source typeName path : Text) (h : f.module = source) (d : Nat)
    (hd : f.kwdefaults = some d) : (modulizeFunction f globals source typeName path).kwdefaults ≠ f.kwdefaults := by
  unfold modulizeFunction
  rw [if_neg (by simp [h]), hd]
  dsimp only
  split <;> simp

example : modulizeFunction ⟨[1], [88, 46, 102], [102], 5, [88, 46, 102], 6, some 7, 8, 9⟩ 3 [1] [88] [1, 46, 88] =
    ⟨[1, 46, 88], [102], [102], 5, [88, 46, 102], 6, none, 8, 3⟩ := by decide

/-! ## Types in types -/

/-- A function of a type, directly or of one of its types which were defined in the source module within the type which is
modulized. -/
inductive Inside (source typeName : Text) : Attrs → List Text → Bool → Fn → Prop
  | here (name : Text) (static : Bool) (f : Fn) (rest : Attrs) : Inside source typeName (.cons name (.fn static f) rest) [name] static f
  | deeper (name q : Text) (attrs rest : Attrs) (at' : List Text) (static : Bool) (f : Fn) :
    Inside source typeName attrs at' static f →
    Inside source typeName (.cons name (.ty source (typeName ++ 46 :: q) attrs) rest) (name :: at') static f
  | later (name : Text) (value : Val) (rest : Attrs) (at' : List Text) (static : Bool) (f : Fn) :
    Inside source typeName rest at' static f → Inside source typeName (.cons name value rest) at' static f

/-- A function at a place, whatever the types on the way are. -/
inductive At : Attrs → List Text → Bool → Fn → Prop
  | here (name : Text) (static : Bool) (f : Fn) (rest : Attrs) : At (.cons name (.fn static f) rest) [name] static f
  | deeper (name m q : Text) (attrs rest : Attrs) (at' : List Text) (static : Bool) (f : Fn) :
    At attrs at' static f → At (.cons name (.ty m q attrs) rest) (name :: at') static f
  | later (name : Text) (value : Val) (rest : Attrs) (at' : List Text) (static : Bool) (f : Fn) :
    At rest at' static f → At (.cons name value rest) at' static f

/-- C330: all functions of the types in a type are moved with it. -/
theorem C330_inside_partial (globals : Nat) (source typeName path : Text) (attrs : Attrs) (place : List Text) (static : Bool) (f : Fn)
    (h : Inside source typeName attrs place static f) :
    At (modulizeAttrs globals source typeName path attrs) place false (modulizeFunction f globals source typeName path) := by
  induction h with
  | here name static f rest => simp only [modulizeAttrs, modulizeValue]; exact .here _ _ _ _
  | deeper name q attrs rest at' static f _ ih =>
    simp only [modulizeAttrs, modulizeValue]
    rw [if_neg (by simp), if_pos ((within_iff _ _).2 ⟨q, rfl⟩)]
    exact .deeper _ _ _ _ _ _ _ _ ih
  | later name value rest at' static f _ ih =>
    simp only [modulizeAttrs]
    exact .later _ _ _ _ _ _ ih

/-- C330: static methods of types in the type are none any more. -/
theorem C330_static_violated (globals : Nat) (source typeName path q name : Text) (f : Fn) :
    modulizeValue globals source typeName path (.ty source (typeName ++ 46 :: q) (.cons name (.fn true f) .nil)) =
      .ty path q (.cons name (.fn false (modulizeFunction f globals source typeName path)) .nil) := by
  simp only [modulizeValue, modulizeAttrs]
  rw [if_neg (by simp), if_pos ((within_iff _ _).2 ⟨q, rfl⟩)]
  simp

/-! ## Modules -/

/-- A name is set on the module. -/
inductive Visible : Attrs → Text → Val → Prop
  | here (name : Text) (value : Val) (rest : Attrs) : (¬([95, 95] <+: name ∧ [95, 95] <:+ name) ∨ name = [95, 95, 100, 111, 99, 95, 95]) →
    (∀ n, value ≠ .skipped n) → Visible (.cons name value rest) name value
  | later (name : Text) (value : Val) (rest : Attrs) (name' : Text) (value' : Val) :
    Visible rest name' value' → Visible (.cons name value rest) name' value'

theorem moduleNames_iff (globals : Nat) (source typeName path : Text) (attrs : Attrs) (name : Text) (v : Val) :
    (name, v) ∈ moduleNames globals source typeName path attrs ↔
      ∃ value, Visible attrs name value ∧ v = modulizeValue globals source typeName path value := by
  match attrs with
  | .nil =>
    simp only [moduleNames, List.not_mem_nil, false_iff]
    rintro ⟨_, h, _⟩
    cases h
  | .cons n value rest =>
    have ih := moduleNames_iff globals source typeName path rest name v
    have hiff : (dunder n = true ∧ n ≠ docName) ↔
        ¬(¬([95, 95] <+: n ∧ [95, 95] <:+ n) ∨ n = [95, 95, 100, 111, 99, 95, 95]) := by
      simp only [dunder, docName, Bool.and_eq_true, decide_eq_true_eq, not_or, Classical.not_not, ne_eq]
    have hlater : (∀ value', Visible (.cons n value rest) name value' → Visible rest name value') →
        ((name, v) ∈ moduleNames globals source typeName path rest ↔
          ∃ value', Visible (.cons n value rest) name value' ∧ v = modulizeValue globals source typeName path value') := by
      intro hl
      rw [ih]
      constructor
      · rintro ⟨x, hx, e⟩; exact ⟨x, .later _ _ _ _ _ hx, e⟩
      · rintro ⟨x, hx, e⟩; exact ⟨x, hl x hx, e⟩
    unfold moduleNames
    by_cases hd : dunder n = true ∧ n ≠ docName
    · rw [if_pos hd]
      apply hlater
      intro x hx
      cases hx with
      | here _ _ _ h1 _ => exact absurd h1 (hiff.1 hd)
      | later _ _ _ _ _ h => exact h
    · rw [if_neg hd]
      have hok : ¬([95, 95] <+: n ∧ [95, 95] <:+ n) ∨ n = [95, 95, 100, 111, 99, 95, 95] :=
        Classical.byContradiction fun h => hd (hiff.2 h)
      have hcons : (∀ k, value ≠ .skipped k) →
          ((name, v) ∈ (n, modulizeValue globals source typeName path value) :: moduleNames globals source typeName path rest ↔
            ∃ value', Visible (.cons n value rest) name value' ∧ v = modulizeValue globals source typeName path value') := by
        intro hs
        rw [List.mem_cons, ih]
        constructor
        · rintro (h | ⟨x, hx, e⟩)
          · cases h; exact ⟨value, .here _ _ _ hok hs, rfl⟩
          · exact ⟨x, .later _ _ _ _ _ hx, e⟩
        · rintro ⟨x, hx, e⟩
          cases hx with
          | here _ _ _ _ _ => exact Or.inl (by rw [e])
          | later _ _ _ _ _ h => exact Or.inr ⟨x, h, e⟩
      cases value with
      | skipped k =>
        apply hlater
        intro x hx
        cases hx with
        | here _ _ _ _ h => exact absurd rfl (h k)
        | later _ _ _ _ _ h => exact h
      | fn s f => exact hcons (by simp)
      | ty a b c => exact hcons (by simp)
      | other k => exact hcons (by simp)

/-- C331: the new module is registered under its path and has exactly the names of the type which are no special ones. -/
theorem C331_module_partial (w : World) (source typeName : Text) (attrs : Attrs) (h : w.registry literal = none) :
    let path := source ++ 46 :: typeName
    let r := modulize w source typeName attrs
    r.1.registry path = some r.2 ∧ r.2 = w.next ∧
      ∀ name v, (name, v) ∈ r.1.names r.2 ↔ ∃ value, Visible attrs name value ∧ v = modulizeValue r.2 source typeName path value := by
  dsimp only
  have hg : getModule w (source ++ 46 :: typeName) = ({ registry := fun p => if p = source ++ 46 :: typeName then some w.next else w.registry p
                                                        names := fun m => if m = w.next then [] else w.names m
                                                        next := w.next + 1 }, w.next) := by
    rw [getModule, h]
  unfold modulize
  dsimp only
  rw [hg]
  refine ⟨by simp, rfl, ?_⟩
  intro name v
  simp only [if_true, List.nil_append]
  exact moduleNames_iff _ _ _ _ _ _ _

/-- C332: modulizing a type again does not update the module which is there, but makes another. -/
theorem C332_again_violated (w : World) (source typeName : Text) (attrs attrs' : Attrs) (h : w.registry literal = none)
    (hp : source ++ 46 :: typeName ≠ literal) :
    (modulize (modulize w source typeName attrs).1 source typeName attrs').2 ≠ (modulize w source typeName attrs).2 := by
  have h1 := C331_module_partial w source typeName attrs h
  dsimp only at h1
  have hr : (modulize w source typeName attrs).1.registry literal = none := by
    unfold modulize getModule
    dsimp only
    rw [h]
    dsimp only
    rw [if_neg (Ne.symm hp), h]
  have hn : (modulize w source typeName attrs).1.next = w.next + 1 := by
    unfold modulize getModule
    dsimp only
    rw [h]
  have h2 := C331_module_partial (modulize w source typeName attrs).1 source typeName attrs' hr
  dsimp only at h2
  rw [h2.2.1, h1.2.1, hn]
  omega

/-- C332: what refers to the first module does not see the new names. -/
theorem C332_other_modules (w : World) (source typeName : Text) (attrs : Attrs) (h : w.registry literal = none) (m : Nat)
    (hm : m < w.next) : (modulize w source typeName attrs).1.names m = w.names m := by
  unfold modulize getModule
  dsimp only
  rw [h]
  dsimp only
  rw [if_neg (by omega), if_neg (by omega)]

/-- C332: with a module of the name `module_path` loaded, it is taken for every type. -/
theorem C332_literal_violated (w : World) (m : Nat) (h : w.registry literal = some m) (source typeName source' typeName' : Text)
    (attrs attrs' : Attrs) :
    (modulize w source typeName attrs).2 = m ∧ (modulize (modulize w source typeName attrs).1 source' typeName' attrs').2 = m := by
  have hr : (modulize w source typeName attrs).1.registry literal = some m := by
    unfold modulize getModule
    dsimp only
    rw [h]
    exact h
  constructor
  · unfold modulize getModule
    dsimp only
    rw [h]
  · generalize (modulize w source typeName attrs).1 = w' at hr
    unfold modulize getModule
    dsimp only
    rw [hr]

/-! ## Groups of causes -/

/-- The exception of a cause. -/
inductive Exception : Cause → Nat → Prop
  | instance (n : Nat) : Exception (.instance n) n
  | type (n : Nat) : Exception (.type (some n)) n

/-- The exceptions of causes, in order. -/
inductive Exceptions : List Cause → List Nat → Prop
  | nil : Exceptions [] []
  | cons (c : Cause) (n : Nat) (cs : List Cause) (ns : List Nat) : Exception c n → Exceptions cs ns → Exceptions (c :: cs) (n :: ns)

theorem validate_iff (cs : List Cause) (ns : List Nat) : validate cs = some ns ↔ Exceptions cs ns := by
  induction cs generalizing ns with
  | nil =>
    simp only [validate, Option.some.injEq]
    constructor
    · rintro rfl; exact .nil
    · intro h; cases h; rfl
  | cons c cs ih =>
    constructor
    · intro h
      cases c with
      | «instance» n =>
        simp only [validate, Option.map_eq_some_iff] at h
        obtain ⟨l, hl, rfl⟩ := h
        exact .cons _ _ _ _ (.instance n) ((ih l).1 hl)
      | type m =>
        cases m with
        | none => simp [validate] at h
        | some n =>
          simp only [validate, Option.map_eq_some_iff] at h
          obtain ⟨l, hl, rfl⟩ := h
          exact .cons _ _ _ _ (.type n) ((ih l).1 hl)
      | other n => simp [validate] at h
    · intro h
      cases h with
      | cons _ n _ ns hc hs =>
        have := (ih ns).2 hs
        cases hc <;> simp [validate, this]

/-- C333: of two or more causes a group with their exceptions is made, or `TypeError` raised if one is none. -/
theorem C333_group_partial (causes : List Cause) (h : 2 ≤ causes.length) :
    (∀ ns, causeGroup causes = .group ns ↔ Exceptions causes ns) ∧
      (causeGroup causes = .typeError ↔ ¬∃ ns, Exceptions causes ns) := by
  match causes, h with
  | a :: b :: cs, _ =>
    unfold causeGroup
    rw [if_neg (by simp)]
    dsimp only
    rcases Option.eq_none_or_eq_some (validate (a :: b :: cs)) with hv | ⟨l, hv⟩
    · rw [hv]
      have hno : ∀ ns, ¬Exceptions (a :: b :: cs) ns := by
        intro ns he
        rw [(validate_iff _ _).2 he] at hv
        cases hv
      exact ⟨fun ns => ⟨fun e => (by cases e), fun he => absurd he (hno ns)⟩, ⟨fun _ ⟨ns, he⟩ => hno ns he, fun _ => rfl⟩⟩
    · rw [hv]
      have hl := (validate_iff _ _).1 hv
      refine ⟨fun ns => ⟨fun e => (by cases e; exact hl), fun he => ?_⟩, ⟨fun e => (by cases e), fun hn => absurd ⟨l, hl⟩ hn⟩⟩
      rw [(validate_iff _ _).2 he] at hv
      cases hv
      rfl

/-- C333: none gives `None`. -/
theorem C333_none : causeGroup [] = .none := rfl

/-- C333: a single cause is given back, exception or not. -/
theorem C333_single_violated (n : Nat) : causeGroup [.other n] ≠ .typeError ∧ causeGroup [.other n, .other n] = .typeError := by
  simp [causeGroup, validate]

example : causeGroup [.instance 1, .type (some 2), .instance 3] = .group [1, 2, 3] := by decide

end Verif.Modulize
