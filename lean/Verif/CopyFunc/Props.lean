import Verif.CopyFunc.Model

/-
Properties of copying of functions: C433 and C434.
-/

namespace Verif.CopyFunc

/-! ### C433 -/

/-- C433: a copy is a new function, which is called as the copied one, after any history; all
functions there were stay as they are. -/
theorem C433_called_alike_partial (docOf : Nat → Option Nat) (s : St) (l : List Op) (i : Nat) (f : Func)
    (hf : (run docOf s l).funcs[i]? = some f) :
    ∃ g, (run docOf s (l ++ [.copy i])).funcs = (run docOf s l).funcs ++ [g] ∧ g.name = f.name ∧
      g.code = f.code ∧ g.globals = f.globals ∧ g.closure = f.closure ∧ g.defaults = f.defaults ∧
      ∀ k, (behaviour (run docOf s (l ++ [.copy i])) g).keywords k = (behaviour (run docOf s l) f).keywords k := by
  have e : run docOf s (l ++ [.copy i]) = step docOf (run docOf s l) (.copy i) := by simp [run]
  rw [e]
  generalize run docOf s l = t at hf ⊢
  refine ⟨copyFunc docOf f, ?_, rfl, rfl, rfl, rfl, rfl, fun k => ?_⟩
  · simp only [step, hf]
  · simp only [step, hf]; rfl

/-! ### C434 -/

/-- The function an operation is done to. -/
def target : Op → Option Nat
  | .copy _ => none
  | .defaults i _ => some i
  | .kwdefaults i _ => some i
  | .item i _ _ => some i
  | .doc i _ => some i

/-- The operation changes the inside of a dictionary. -/
def Inside : Op → Prop
  | .item .. => True
  | _ => False

theorem step_other (docOf : Nat → Option Nat) (s : St) (o : Op) (i : Nat) (f : Func) (h : s.funcs[i]? = some f)
    (ht : target o ≠ some i) (hi : ¬ Inside o) :
    (step docOf s o).funcs[i]? = some f ∧ (step docOf s o).dicts = s.dicts := by
  have mod : ∀ (j : Nat) (g : Func → Func), j ≠ i → (s.funcs.modify j g)[i]? = some f := by
    intro j g hj; simp [h, hj]
  match o with
  | .copy j =>
    simp only [step]
    split
    · exact ⟨h, rfl⟩
    · refine ⟨?_, rfl⟩
      show (s.funcs ++ _)[i]? = _
      rcases List.getElem?_eq_some_iff.1 h with ⟨hl, _⟩
      rw [List.getElem?_append_left hl, h]
  | .defaults j d => exact ⟨mod j _ fun e => ht (by rw [e]; rfl), rfl⟩
  | .kwdefaults j d => exact ⟨mod j _ fun e => ht (by rw [e]; rfl), rfl⟩
  | .doc j d => exact ⟨mod j _ fun e => ht (by rw [e]; rfl), rfl⟩
  | .item j k v => exact absurd trivial hi

/-- C434, what holds: whatever is set on other functions, a function stays as it is and is called
as before, if no dictionary of defaults is changed inside. -/
theorem C434_independent_partial (docOf : Nat → Option Nat) (l : List Op) : ∀ (s : St) (i : Nat) (f : Func),
    s.funcs[i]? = some f → (∀ o ∈ l, target o ≠ some i ∧ ¬ Inside o) →
    (run docOf s l).funcs[i]? = some f ∧ behaviour (run docOf s l) f = behaviour s f := by
  induction l with
  | nil => intro s i f h _; exact ⟨h, rfl⟩
  | cons o l ih =>
    intro s i f h hl
    obtain ⟨h1, h2⟩ := step_other docOf s o i f h (hl o (by simp)).1 (hl o (by simp)).2
    obtain ⟨g1, g2⟩ := ih (step docOf s o) i f h1 fun x hx => hl x (by simp [hx])
    refine ⟨g1, ?_⟩
    show behaviour (run docOf (step docOf s o) l) f = _
    rw [g2]; unfold behaviour; rw [h2]

/-- C434 is violated: the dictionary of the defaults of keywords is shared: setting a default of the
copy sets that of the copied function, whatever it was. -/
theorem C434_shared_violated (docOf : Nat → Option Nat) (s : St) (i d : Nat) (f : Func) (hf : s.funcs[i]? = some f)
    (hd : f.kwdefaults = some d) (k v : Nat) :
    (run docOf s [.copy i, .item s.funcs.length k v]).funcs[i]? = some f ∧
    (behaviour (run docOf s [.copy i, .item s.funcs.length k v]) f).keywords k = some v := by
  have e1 : step docOf s (.copy i) = { s with funcs := s.funcs ++ [copyFunc docOf f] } := by simp only [step, hf]
  have hk : (s.funcs ++ [copyFunc docOf f])[s.funcs.length]?.bind Func.kwdefaults = some d := by
    rw [List.getElem?_concat_length]; exact hd
  have e2 : run docOf s [.copy i, .item s.funcs.length k v] =
      { funcs := s.funcs ++ [copyFunc docOf f], dicts := fun e => if e = d then (k, v) :: s.dicts e else s.dicts e } := by
    show step docOf (step docOf s (.copy i)) (.item s.funcs.length k v) = _
    rw [e1]; simp only [step, hk]
  rw [e2]
  refine ⟨?_, ?_⟩
  · rcases List.getElem?_eq_some_iff.1 hf with ⟨hl, _⟩
    show (s.funcs ++ _)[i]? = _
    rw [List.getElem?_append_left hl, hf]
  · simp [behaviour, hd]

/-- C433 is violated: a documentation which was set is not copied, nor are annotations. -/
theorem C433_documentation_violated (docOf : Nat → Option Nat) (f : Func) (d : Nat) (h : f.doc = some d)
    (hc : docOf f.code ≠ some d) : (copyFunc docOf f).doc ≠ f.doc ∧ (copyFunc docOf f).annotations = [] := by
  refine ⟨?_, rfl⟩
  rw [h]; exact hc

def sample : St := ⟨[⟨1, 2, 3, [4], none, some 0, some 6, [(7, 8)]⟩], fun _ => [(9, 10)]⟩

example : (run (fun _ => none) sample [.copy 0, .defaults 1 [5], .doc 1 (some 3)]).funcs =
    [⟨1, 2, 3, [4], none, some 0, some 6, [(7, 8)]⟩, ⟨1, 2, 3, [5], none, some 0, some 3, []⟩] := by decide
example : (behaviour (run (fun _ => none) sample [.copy 0, .item 1 9 11]) ⟨1, 2, 3, [4], none, some 0, some 6, [(7, 8)]⟩).keywords 9 =
    some 11 := by decide

end Verif.CopyFunc
