import Verif.Describe.Model

/-!
# Representing of exceptions: properties
-/

namespace Verif.Describe

/-- Plain texts and subclasses whose `str` works. -/
inductive Says : Str → String → Prop
  | plain (s : String) : Says (.plain s) s
  | sub (s : String) : Says (.sub (.ok s)) s

theorem says_iff (t : Str) (s : String) : t.str = .ok s ↔ Says t s := by
  constructor
  · intro h
    cases t with
    | plain p => cases h; exact .plain s
    | sub r => simp only [Str.str] at h; subst h; exact .sub s
  · rintro (_ | _) <;> rfl

/-- How a value is shown: by `repr`, else by the name of its type. -/
inductive Shown (v : Value) : String → Prop
  | repr (r : Str) (s : String) : v.repr = .ok r → Says r s → Shown v s
  | type (n : String) : v.repr = .error .other → Says v.typeName n → Shown v ("<" ++ n ++ ">")

theorem shown_iff (v : Value) (s : String) : valueRepr v = .ok s ↔ Shown v s := by
  constructor
  · intro h
    rw [valueRepr] at h
    rcases hr : v.repr with (_ | _) | r
    · rw [hr] at h; cases h
    · rw [hr] at h
      dsimp only at h
      rcases hn : v.typeName.str with e | n
      · rw [hn] at h; cases h
      · rw [hn] at h; cases h; exact .type n hr ((says_iff _ _).1 hn)
    · rw [hr] at h; exact .repr r s hr ((says_iff _ _).1 h)
  · rintro (⟨r, _, hr, hs⟩ | ⟨n, hr, hn⟩)
    · rw [valueRepr, hr]; exact (says_iff _ _).2 hs
    · rw [valueRepr, hr]
      dsimp only
      rw [(says_iff _ _).2 hn]

/-! ## C392: what is written -/

/-- C392: Without parameters and with the default constructors: the name of the type. -/
theorem C392_name (x : Exception) (n : String) (hd : x.default = true) (ha : x.args = some []) (hn : Says x.typeName n) :
    generic x = .ok n := by
  rw [generic, simple, hd, ha, if_neg (by simp)]
  simp [(says_iff _ _).2 hn]

/-- C392: With one parameter: the name and the parameter, as it is if it is a text, else as shown. -/
theorem C392_one (x : Exception) (n s : String) (v : Value) (hd : x.default = true) (ha : x.args = some [v])
    (hn : Says x.typeName n) (hv : (∃ t, v.text = some t ∧ Says t s) ∨ (v.text = none ∧ Shown v s)) :
    generic x = .ok (n ++ ": " ++ s) := by
  have hs : simpleValue v = .ok s := by
    rw [simpleValue]
    rcases hv with ⟨t, ht, hs⟩ | ⟨ht, hs⟩
    · rw [ht]; exact (says_iff _ _).2 hs
    · rw [ht]; exact (shown_iff _ _).2 hs
  rw [generic, simple, hd, ha, if_neg (by simp)]
  simp [(says_iff _ _).2 hn, hs]

/-- An exception which is not shown the simple way. -/
def Unusual (x : Exception) : Prop := x.default = false ∨ x.args = none ∨ ∃ a b l, x.args = some (a :: b :: l)

theorem unusual_simple (x : Exception) (h : Unusual x) : simple x = .ok none := by
  rw [simple]
  rcases h with h | h | ⟨a, b, l, h⟩
  · rw [h]; rfl
  · rw [h]; split <;> rfl
  · rw [h]
    split
    · rfl
    · simp

/-- C392: Every other one: what its `repr` gives. -/
theorem C392_repr (x : Exception) (r : Str) (s : String) (h : Unusual x) (hr : x.repr = .ok r) (hs : Says r s) :
    generic x = .ok s := by
  rw [generic, unusual_simple x h]
  dsimp only
  rw [hr]
  exact (says_iff _ _).2 hs

/-- Texts with commas between. -/
def commas : List String → String
  | [] => ""
  | [s] => s
  | s :: t :: l => s ++ (", " ++ commas (t :: l))

theorem join_eq (l : List String) (a : String) : l.foldl (· ++ ·) a = a ++ l.foldl (· ++ ·) "" := by
  induction l generalizing a with
  | nil => simp
  | cons x l ih =>
    rw [List.foldl_cons, List.foldl_cons, ih, ih ("" ++ x), String.empty_append, String.append_assoc]

theorem join_cons (x : String) (l : List String) : String.join (x :: l) = x ++ String.join l := by
  simp only [String.join, List.foldl_cons]
  rw [join_eq, String.empty_append]

theorem join_append (a b : List String) : String.join (a ++ b) = String.join a ++ String.join b := by
  induction a with
  | nil => simp [String.join]
  | cons x a ih => rw [List.cons_append, join_cons, join_cons, ih, String.append_assoc]

/-- Values shown one by one. -/
inductive AllShown : List Value → List String → Prop
  | nil : AllShown [] []
  | cons (v : Value) (s : String) (vs : List Value) (ss : List String) : Shown v s → AllShown vs ss →
      AllShown (v :: vs) (s :: ss)

theorem elements_eq (vs : List Value) (ss : List String) (h : AllShown vs ss) :
    ∃ parts, elements vs = .ok parts ∧ String.join parts = commas ss := by
  induction h with
  | nil => exact ⟨[], rfl, rfl⟩
  | cons v s vs ss hv hvs ih =>
    obtain ⟨parts, h1, h2⟩ := ih
    rw [elements, (shown_iff v s).2 hv]
    dsimp only
    rw [h1]
    cases hvs with
    | nil =>
      cases h1
      exact ⟨[s], rfl, by simp [String.join, commas]⟩
    | cons v' s' vs ss =>
      refine ⟨s :: ", " :: parts, by simp, ?_⟩
      rw [join_cons, join_cons, h2, commas]

/-- C392: If `repr` raises: the name of the type and all parameters shown, with a line above which tells so. -/
theorem C392_fallback (x : Exception) (n : String) (vs : List Value) (ss : List String) (h : Unusual x)
    (hr : x.repr = .error .other) (hn : Says x.typeName n) (ha : x.args = some vs ∨ (x.args = none ∧ vs = []))
    (hs : AllShown vs ss) :
    generic x = .ok ("> repr(exception) raised, using fallback representation.\n" ++ (n ++ ("(" ++ (commas ss ++ ")")))) := by
  rw [generic, unusual_simple x h]
  dsimp only
  rw [hr]
  dsimp only
  have hg : x.args.getD [] = vs := by
    rcases ha with ha | ⟨ha, hv⟩
    · rw [ha]; rfl
    · rw [ha, hv]; rfl
  obtain ⟨parts, h1, h2⟩ := elements_eq vs ss hs
  rw [fallback, (says_iff _ _).2 hn, hg, h1]
  simp only [List.cons_append, List.nil_append]
  rw [join_cons, join_cons, join_cons, join_append, h2]
  simp [String.join]

example : generic ⟨.plain "E", false, some [⟨none, .ok (.plain "1"), .plain "int"⟩, ⟨none, .error .other, .plain "A"⟩],
    .error .other⟩ = .ok "> repr(exception) raised, using fallback representation.\nE(1, <A>)" := by
  rfl

/-! ## C393: nothing is raised -/

/-- A text whose `str` raises nothing but exits. -/
def Tame (t : Str) : Prop := t.str ≠ .error .other

/-- Every text user code gives is tame: the name of a type, a text parameter, what `repr` gives. -/
def TameValue (v : Value) : Prop := (∀ t, v.text = some t → Tame t) ∧ (∀ t, v.repr = .ok t → Tame t) ∧ Tame v.typeName

theorem tame_value (v : Value) (h : TameValue v) : valueRepr v ≠ .error .other := by
  rw [valueRepr]
  rcases hr : v.repr with (_ | _) | r
  · simp
  · dsimp only
    have := h.2.2
    rw [Tame] at this
    rcases hn : v.typeName.str with e | n
    · rw [hn] at this; exact this
    · simp
  · exact h.2.1 r hr

theorem tame_elements (vs : List Value) (h : ∀ v ∈ vs, TameValue v) : elements vs ≠ .error .other := by
  induction vs with
  | nil => simp [elements]
  | cons v vs ih =>
    have h1 := tame_value v (h v (by simp))
    have h2 := ih fun v hv => h v (List.mem_cons_of_mem _ hv)
    rw [elements]
    rcases hv : valueRepr v with e | s
    · rw [hv] at h1; exact fun he => h1 (by simpa using he)
    · dsimp only
      rcases he : elements vs with e | ss
      · rw [he] at h2; exact fun h => h2 (by simpa using h)
      · simp

/-- C393: Nothing but a KeyboardInterrupt or a SystemExit of user code is raised, if the texts it gives can be made plain.
Missing: subclasses of `str` whose `__str__` raises. -/
theorem C393_tame_partial (x : Exception) (hn : Tame x.typeName) (hr : ∀ t, x.repr = .ok t → Tame t)
    (ha : ∀ vs, x.args = some vs → ∀ v ∈ vs, TameValue v) : generic x ≠ .error .other := by
  have hf : fallback x ≠ .error .other := by
    rw [fallback]
    rw [Tame] at hn
    rcases hs : x.typeName.str with e | n
    · rw [hs] at hn; exact fun h => hn (by simpa using h)
    · dsimp only
      have he : elements (x.args.getD []) ≠ .error .other := by
        rcases Option.eq_none_or_eq_some x.args with h | ⟨vs, h⟩
        · rw [h]; simp [elements]
        · rw [h]; exact tame_elements vs (ha vs h)
      rcases hes : elements (x.args.getD []) with e | ss
      · rw [hes] at he; exact fun h => he (by simpa using h)
      · simp
  have hsimple : simple x ≠ .error .other := by
    rw [simple]
    split
    · simp
    · rcases Option.eq_none_or_eq_some x.args with h | ⟨vs, h⟩
      · rw [h]; simp
      · rw [h]
        dsimp only
        split
        · simp
        · rw [Tame] at hn
          rcases hs : x.typeName.str with e | n
          · rw [hs] at hn; exact fun h => hn (by simpa using h)
          · dsimp only
            cases vs with
            | nil => simp
            | cons v vs =>
              dsimp only
              have hv := ha _ h v (by simp)
              have hsv : simpleValue v ≠ .error .other := by
                rw [simpleValue]
                rcases Option.eq_none_or_eq_some v.text with ht | ⟨t, ht⟩
                · rw [ht]; exact tame_value v hv
                · rw [ht]; exact hv.1 t ht
              rcases hss : simpleValue v with e | s
              · rw [hss] at hsv; exact fun h => hsv (by simpa using h)
              · simp
  rw [generic]
  rcases hss : simple x with e | (_ | s)
  · rw [hss] at hsimple; exact fun h => hsimple (by simpa using h)
  · dsimp only
    rcases hx : x.repr with (_ | _) | r
    · simp
    · exact hf
    · exact hr r hx
  · simp

/-- C393: A KeyboardInterrupt or a SystemExit raised by the `repr` of the exception, or of its only parameter, is let out. -/
theorem C393_exit (x : Exception) :
    (Unusual x → x.repr = .error .exit → generic x = .error .exit) ∧
      (∀ v, x.default = true → x.args = some [v] → Tame x.typeName → v.text = none → v.repr = .error .exit →
        generic x = .error .exit) := by
  constructor
  · intro h hr
    rw [generic, unusual_simple x h]
    dsimp only
    rw [hr]
  · intro v hd ha hn ht hr
    have hv : simpleValue v = .error .exit := by rw [simpleValue, ht]; dsimp only; rw [valueRepr, hr]
    rw [generic, simple, hd, ha, if_neg (by simp)]
    rw [Tame] at hn
    rcases hs : x.typeName.str with (_ | _) | n
    · simp
    · exact absurd hs hn
    · simp [hv]

/-- C393: A text parameter of a subclass of `str` whose `__str__` raises makes the representing of its exception raise. -/
theorem C393_text_violated (n : String) (r : Except Exc Str) (v : Value) (h : v.text = some (.sub (.error .other))) :
    generic ⟨.plain n, true, some [v], r⟩ = .error .other := by
  simp [generic, simple, Str.str, simpleValue, h]

/-- C393: So does a `repr` which gives such a text, even though a `repr` which raises does not. -/
theorem C393_repr_violated (n : Str) (args : Option (List Value)) :
    generic ⟨n, false, args, .ok (.sub (.error .other))⟩ = .error .other := by
  simp [generic, simple, Str.str]

example : generic ⟨.plain "E", false, none, .error .other⟩ =
    .ok "> repr(exception) raised, using fallback representation.\nE()" := by
  rfl

end Verif.Describe
