import Verif.Owned.Model

/-
Properties of properties of classes: C423, C424 and C425.
-/

namespace Verif.Owned

/-! ### C423 -/

/-- C423 is violated: of a class the name given to the property is never looked at; if the
class has no attribute `class_name`, `AttributeError` is raised. -/
theorem C423_class_violated (className : Nat) (fget : Nat → Nat) :
    nameGet className fget none none = none ∧
    ∀ n, n ≠ className → nameGet className fget (some n) none ≠ some className :=
  ⟨rfl, fun n h e => h (by simpa [nameGet] using e)⟩

/-- The module after uses: the last one set if it is text, else the one of the property type. -/
inductive Kept (own first : Nat) : List MOp → Nat → Prop where
  | nil : Kept own first [] first
  | text (l obj n g) : g = .str n ∨ g = .sub n → Kept own first (l ++ [.set obj g]) n
  | noText (l obj g) : g = .none ∨ g = .other → Kept own first (l ++ [.set obj g]) own
  | del (l obj n) : Kept own first l n → Kept own first (l ++ [.del obj]) n

/-- C423: the module of a class is the one set the last, through any of its instances. -/
theorem C423_module_partial (own first : Nat) (l : List MOp) (n : Nat) (h : Kept own first l n) (needs fget : Nat) :
    moduleGet (mrun own first l) needs fget none = some n := by
  show some _ = _
  congr 1
  induction h with
  | nil => rfl
  | text l obj n g hg => rcases hg with rfl | rfl <;> simp [mrun, mstep, moduleOf]
  | noText l obj g hg => rcases hg with rfl | rfl <;> simp [mrun, mstep, moduleOf]
  | del l obj n _ ih => simpa [mrun, mstep] using ih

/-- C423 is violated: of instances the function is called without the instance; one which needs
it raises, whatever was set. -/
theorem C423_module_of_instances_violated (own first : Nat) (l : List MOp) (needs fget obj : Nat) (h : needs ≠ 0) :
    moduleGet (mrun own first l) needs fget (some obj) = none := by
  simp [moduleGet, h]

example : mrun 9 1 [.set 5 (.str 2), .del 5, .set 6 (.sub 3), .del 7] = 3 := by decide
example : mrun 9 1 [.set 5 (.str 2), .set 6 .other] = 9 := by decide
example : nameGet 4 (· + 1) none (some 6) = some 7 := by decide

/-! ### C424 -/

/-- What should be called for an access of a class property. -/
inductive Wanted (p : CP) (cls : Nat) : Op → Option Call → Prop where
  | get (b f) : p.fget = some f → Wanted p cls (.get b) (some ⟨f, cls, none⟩)
  | noGet (b) : p.fget = none → Wanted p cls (.get b) none
  | set (b v f) : p.fset = some f → Wanted p cls (.set b v) (some ⟨f, cls, some v⟩)
  | noSet (b v) : p.fset = none → Wanted p cls (.set b v) none
  | del (b f) : p.fdel = some f → Wanted p cls (.del b) (some ⟨f, cls, none⟩)
  | noDel (b) : p.fdel = none → Wanted p cls (.del b) none

/-- Setting and deleting is done through instances. -/
def Tame (o : Op) : Prop := match o with
  | .get _ => True
  | .set b _ => b = true
  | .del b => b = true

/-- The calls which should be done. -/
inductive WantedAll (p : CP) (cls : Nat) : List Op → List Call → Prop where
  | nil : WantedAll p cls [] []
  | call (o l c cs) : Wanted p cls o (some c) → WantedAll p cls l cs → WantedAll p cls (o :: l) (c :: cs)
  | raise (o l cs) : Wanted p cls o none → WantedAll p cls l cs → WantedAll p cls (o :: l) cs

theorem access_wanted (p : CP) (cls : Nat) (o : Op) (ht : Tame o) (c : Option Call) (h : Wanted p cls o c) :
    access cls (.prop p) o = (.prop p, c.map fun c => [c]) := by
  cases h with
  | get b f e => simp [access, e]
  | noGet b e => simp [access, e]
  | set b v f e => obtain rfl : b = true := ht; simp [access, e]
  | noSet b v e => obtain rfl : b = true := ht; simp [access, e]
  | del b f e => obtain rfl : b = true := ht; simp [access, e]
  | noDel b e => obtain rfl : b = true := ht; simp [access, e]

/-- C424, what holds: if the class is only read, the functions of a property are called with
the class for every access, in order; accesses without function raise and call nothing. -/
theorem C424_calls_partial (p : CP) (cls : Nat) (l : List Op) (ht : ∀ o ∈ l, Tame o) (cs : List Call)
    (h : WantedAll p cls l cs) : calls cls (.prop p) l = cs := by
  induction h with
  | nil => rfl
  | call o l c cs hw _ ih =>
    have := access_wanted p cls o (ht o (by simp)) _ hw
    simp only [calls, this, Option.map_some, Option.getD_some]
    rw [ih fun x hx => ht x (by simp [hx])]; rfl
  | raise o l cs hw _ ih =>
    have := access_wanted p cls o (ht o (by simp)) _ hw
    simp only [calls, this, Option.map_none, Option.getD_none]
    rw [ih fun x hx => ht x (by simp [hx])]; rfl

theorem no_calls (cls : Nat) (l : List Op) : ∀ s, (∀ p, s ≠ Slot.prop p) → calls cls s l = [] := by
  induction l with
  | nil => intro s _; rfl
  | cons o l ih =>
    intro s hs
    have : (∀ p, (access cls s o).1 ≠ .prop p) ∧ (access cls s o).2.getD [] = [] := by
      cases s with
      | prop p => exact absurd rfl (hs p)
      | value v =>
        match o with
        | .get _ => exact ⟨by simp [access], rfl⟩
        | .set true _ => exact ⟨by simp [access], rfl⟩
        | .set false _ => exact ⟨by simp [access], rfl⟩
        | .del true => exact ⟨by simp [access], rfl⟩
        | .del false => exact ⟨by simp [access], rfl⟩
      | gone =>
        match o with
        | .get _ => exact ⟨by simp [access], rfl⟩
        | .set true _ => exact ⟨by simp [access], rfl⟩
        | .set false _ => exact ⟨by simp [access], rfl⟩
        | .del true => exact ⟨by simp [access], rfl⟩
        | .del false => exact ⟨by simp [access], rfl⟩
    show (access cls s o).2.getD [] ++ calls cls (access cls s o).1 l = []
    rw [this.2, ih _ this.1]; rfl

/-- C424 is violated: setting through the class replaces the property; nothing is called then
nor by any access after it. -/
theorem C424_set_violated (p : CP) (cls v : Nat) (l : List Op) : calls cls (.prop p) (.set false v :: l) = [] := by
  show [] ++ calls cls (.value v) l = []
  rw [no_calls cls l _ (by simp)]; rfl

/-- C424 is violated: so does deleting through the class. -/
theorem C424_del_violated (p : CP) (cls : Nat) (l : List Op) : calls cls (.prop p) (.del false :: l) = [] := by
  show [] ++ calls cls .gone l = []
  rw [no_calls cls l _ (by simp)]; rfl

example : calls 7 (.prop ⟨some 1, some 2, none, none⟩) [.get false, .set true 5, .del true, .get true] =
    [⟨1, 7, none⟩, ⟨2, 7, some 5⟩, ⟨1, 7, none⟩] := by decide

/-! ### C425 -/

/-- The last getter, setter and deleter added. -/
def lastGetter (l : List Add) : Option Nat := l.reverse.findSome? fun a => match a with | .getter f => some f | _ => none
def lastSetter (l : List Add) : Option Nat := l.reverse.findSome? fun a => match a with | .setter f => some f | _ => none
def lastDeleter (l : List Add) : Option Nat := l.reverse.findSome? fun a => match a with | .deleter f => some f | _ => none
/-- The documentation of the first getter which has one. -/
def firstDoc (docOf : Nat → Option Nat) (l : List Add) : Option Nat :=
  l.findSome? fun a => match a with | .getter f => docOf f | _ => none

/-- C425: a property has the functions added last, else those it was made with; its
documentation is the given one, else that of the first getter which has one. -/
theorem C425_built (docOf : Nat → Option Nat) (g s d doc : Option Nat) (l : List Add) :
    CP.build docOf (CP.new docOf g s d doc) l =
      ⟨(lastGetter l).or g, (lastSetter l).or s, (lastDeleter l).or d,
        (doc.or (g.bind docOf)).or (firstDoc docOf l)⟩ := by
  have hnew : CP.new docOf g s d doc = ⟨g, s, d, doc.or (g.bind docOf)⟩ := by
    cases doc <;> rfl
  have go : ∀ (l : List Add) (p : CP), (∀ f, p.fget = some f → p.doc = none → docOf f = none) →
      CP.build docOf p l = ⟨(lastGetter l).or p.fget, (lastSetter l).or p.fset, (lastDeleter l).or p.fdel,
        p.doc.or (firstDoc docOf l)⟩ := by
    intro l
    induction l with
    | nil => intro p _; simp [CP.build, lastGetter, lastSetter, lastDeleter, firstDoc]
    | cons a l ih =>
      intro p hp
      have hold : p.doc.or (p.fget.bind docOf) = p.doc := by
        rcases hd : p.doc with _ | x
        · rcases hg : p.fget with _ | f
          · rfl
          · simp [hp f hg hd]
        · rfl
      have hn : ∀ g s d doc, CP.new docOf g s d doc = ⟨g, s, d, doc.or (g.bind docOf)⟩ := by
        intro g s d doc; cases doc <;> rfl
      show CP.build docOf (CP.add docOf p a) l = _
      cases a with
      | getter f =>
        simp only [CP.add, hn]
        rw [ih _ (by intro f' e h; simp only [Option.some.injEq] at e; subst e
                     simp only [Option.or_eq_none_iff] at h; exact h.2)]
        simp [lastGetter, lastSetter, lastDeleter, firstDoc, List.findSome?_append, List.findSome?_cons, Option.or_assoc]
        rcases p.doc with _ | x
        · rcases docOf f with _ | y <;> simp
        · simp
      | setter f =>
        simp only [CP.add, hn, hold]
        rw [ih ⟨p.fget, some f, p.fdel, p.doc⟩ hp]
        simp [lastGetter, lastSetter, lastDeleter, firstDoc, List.findSome?_append]
      | deleter f =>
        simp only [CP.add, hn, hold]
        rw [ih ⟨p.fget, p.fset, some f, p.doc⟩ hp]
        simp [lastGetter, lastSetter, lastDeleter, firstDoc, List.findSome?_append]
  rw [hnew, go]
  rintro f e h
  simp only at e h
  subst e
  simp only [Option.or_eq_none_iff] at h
  exact h.2

example : CP.build (fun f => if f = 3 then some 30 else none) (CP.new (fun f => if f = 3 then some 30 else none) (some 1) none none none)
    [.setter 2, .getter 3, .getter 4, .deleter 5] = ⟨some 4, some 2, some 5, some 30⟩ := by decide

end Verif.Owned
