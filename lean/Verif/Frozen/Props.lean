import Verif.Frozen.Model

/-
Properties of virtual proxies of frames and exceptions: C426 and C427.
-/

namespace Verif.Frozen

/-! ### C426 -/

/-- A frame with no variables at all. -/
structure Bare (f : Frame) : Prop where
  builtins : f.builtins = none
  globals : f.globals = none
  locals : f.locals = none
  tracing : f.tracing = none

/-- The frame was made by proxying: one which is virtual has a tracing function only with
variables. -/
def Usual (f : Frame) : Prop :=
  f.virtual = true → f.builtins = none → f.globals = none → f.locals = none → f.tracing = none

theorem freeze_false (f : Frame) (hu : Usual f) :
    Bare (f.freeze false) ∧ (f.freeze false).rest = f.rest ∧ (f.freeze false).virtual = true := by
  obtain ⟨v, r, b, g, l, t⟩ := f
  unfold Frame.freeze Frame.hasVariables
  cases v with
  | false => exact ⟨⟨rfl, rfl, rfl, rfl⟩, rfl, rfl⟩
  | true =>
    cases b with
    | some _ => exact ⟨⟨rfl, rfl, rfl, rfl⟩, rfl, rfl⟩
    | none => cases g with
      | some _ => exact ⟨⟨rfl, rfl, rfl, rfl⟩, rfl, rfl⟩
      | none => cases l with
        | some _ => exact ⟨⟨rfl, rfl, rfl, rfl⟩, rfl, rfl⟩
        | none => exact ⟨⟨rfl, rfl, rfl, hu rfl rfl rfl rfl⟩, rfl, rfl⟩

/-- C426: a frame frozen with variables has all of them and everything else. -/
theorem C426_with (f : Frame) : f.freeze true = { f with virtual := true } := by
  obtain ⟨v, r, b, g, l, t⟩ := f
  unfold Frame.freeze
  cases v with
  | false => rfl
  | true =>
    have : ∀ x, le x true = true := fun x => by cases x <;> rfl
    simp [this]

/-- C426, what holds: if the frames were made by proxying, after dropping of variables every
frame of the exception is virtual and has none, and there are as many groups of as many
frames, with everything else the same. -/
theorem C426_dropped_partial (e : Exc) (hu : ∀ g ∈ e.groups, ∀ f ∈ g.frames, Usual f) :
    (∀ g ∈ e.drop.groups, ∀ f ∈ g.frames, Bare f ∧ f.virtual = true) ∧ e.drop.rep = e.rep ∧
    e.drop.groups.map (fun g => (g.count, g.frames.map Frame.rest)) =
      e.groups.map (fun g => (g.count, g.frames.map Frame.rest)) := by
  refine ⟨fun g hg f hf => ?_, rfl, ?_⟩
  · obtain ⟨g', hg', rfl⟩ := List.mem_map.1 hg
    obtain ⟨f', hf', rfl⟩ := List.mem_map.1 hf
    exact ⟨(freeze_false f' (hu g' hg' f' hf')).1, (freeze_false f' (hu g' hg' f' hf')).2.2⟩
  · show (e.groups.map Group.bare).map _ = _
    rw [List.map_map]
    apply List.map_congr_left
    intro g hg
    show (g.count, (g.frames.map fun f => f.freeze false).map Frame.rest) = _
    rw [List.map_map]
    congr 1
    apply List.map_congr_left
    intro f hf
    exact (freeze_false f (hu g hg f hf)).2.1

/-- C426: what was dropped is told to have no variables, for all frames. -/
theorem C426_told (e : Exc) : e.drop.hasVariables = false := by
  have hf : ∀ f : Frame, (f.freeze false).hasVariables = false := by
    rintro ⟨v, r, b, g, l, t⟩
    unfold Frame.freeze
    cases v <;> cases b <;> cases g <;> cases l <;> rfl
  unfold Exc.hasVariables
  rw [List.any_eq_false]
  intro g hg
  obtain ⟨g', -, rfl⟩ := List.mem_map.1 hg
  rw [Bool.not_eq_true]
  unfold Group.hasVariables
  rw [List.any_eq_false]
  intro f hf'
  obtain ⟨f', -, rfl⟩ := List.mem_map.1 hf'
  rw [hf f']; decide

/-- C426 is violated: a virtual frame which has only a tracing function keeps it. -/
theorem C426_tracing_violated (rest t : Nat) :
    ((⟨true, rest, none, none, none, some t⟩ : Frame).freeze false).tracing = some t := rfl

example : (⟨false, 5, some 1, some 2, some 3, some 4⟩ : Frame).freeze false = ⟨true, 5, none, none, none, none⟩ := by decide
example : (⟨true, 5, none, none, some 3, some 4⟩ : Frame).freeze false = ⟨true, 5, none, none, none, none⟩ := by decide
example : (⟨false, 5, some 1, none, some 3, some 4⟩ : Frame).freeze true = ⟨true, 5, some 1, none, some 3, some 4⟩ := by decide
example : (Exc.drop ⟨false, 8, [⟨[⟨false, 5, some 1, none, none, none⟩], 3⟩]⟩).groups =
    [⟨[⟨true, 5, none, none, none, none⟩], 3⟩] := by decide

/-! ### C427 -/

/-- Dropping of variables of objects. -/
def drops (h : Heap) (l : List Nat) : Heap := l.foldl dropAt h

theorem drops_other (l : List Nat) : ∀ (h : Heap) (i : Nat), i ∉ l → (drops h l)[i]? = h[i]? := by
  induction l with
  | nil => intro h i _; rfl
  | cons j l ih =>
    intro h i hi
    show (drops (dropAt h j) l)[i]? = _
    rw [ih _ _ (fun hm => hi (by simp [hm]))]
    unfold dropAt
    rw [List.getElem?_modify_ne]
    rintro rfl; exact hi (by simp)

/-- C427, what holds: of a proxy which is not virtual a new one is made, with the same variables
or none as asked; whatever is dropped of others, the first stays as it was; whatever is
dropped of others, so does the new. -/
theorem C427_independent_partial (h : Heap) (i : Nat) (e : Exc) (he : h[i]? = some e) (hv : e.virtual = false)
    (w : Bool) :
    (make h i w).2 ≠ i ∧ h[(make h i w).2]? = none ∧
    (∀ l, i ∉ l → (drops (make h i w).1 l)[i]? = some e) ∧
    (∀ l, (make h i w).2 ∉ l → ∃ n, (drops (make h i w).1 l)[(make h i w).2]? = some n ∧ n.virtual = true ∧
      n.rep = e.rep ∧ (w = true → n.groups = e.groups) ∧ (w = false → n.hasVariables = false)) := by
  have hi : i < h.length := by
    rcases List.getElem?_eq_some_iff.1 he with ⟨hi, _⟩; exact hi
  have hm : make h i w = (h ++ [{ virtual := true, rep := e.rep, groups := if w then e.groups else e.groups.map Group.bare }], h.length) := by
    unfold make; rw [he]; simp [hv]
  rw [hm]
  refine ⟨by show h.length ≠ i; omega, by simp, fun l hl => ?_, fun l hl => ?_⟩
  · rw [drops_other l _ _ hl, List.getElem?_append_left hi, he]
  · refine ⟨{ virtual := true, rep := e.rep, groups := if w then e.groups else e.groups.map Group.bare },
      by rw [drops_other l _ _ hl]; exact List.getElem?_concat_length, rfl, rfl, ?_, ?_⟩
    · rintro rfl; rfl
    · rintro rfl; exact C426_told e

/-- C427: asked for without variables no frame of the proxy which is given has any, also of a
virtual one, if its frames were made by proxying. -/
theorem C427_without (h : Heap) (i : Nat) (e : Exc) (he : h[i]? = some e)
    (hu : ∀ g ∈ e.groups, ∀ f ∈ g.frames, Usual f) :
    ∃ n, (make h i false).1[(make h i false).2]? = some n ∧ n.rep = e.rep ∧
      ∀ g ∈ n.groups, ∀ f ∈ g.frames, Bare f := by
  unfold make; rw [he]; dsimp only
  split
  · rename_i hc
    refine ⟨e, he, rfl, fun g hg f hf => ?_⟩
    rw [Bool.and_eq_true] at hc
    have h0 : e.hasVariables = false := by
      cases hx : e.hasVariables with
      | false => rfl
      | true => rw [hx] at hc; exact absurd hc.2 (by decide)
    have h1 := List.any_eq_false.1 h0 g hg
    rw [Bool.not_eq_true] at h1
    have h2 := List.any_eq_false.1 h1 f hf
    have hu := hu g hg f hf
    obtain ⟨v, r, b, gl, l, t⟩ := f
    cases v with
    | false => exact absurd rfl h2
    | true =>
      simp [Frame.hasVariables] at h2
      exact ⟨h2.1.1, h2.1.2, h2.2, hu rfl h2.1.1 h2.1.2 h2.2⟩
  · refine ⟨_, List.getElem?_concat_length, rfl, fun g hg f hf => ?_⟩
    exact ((C426_dropped_partial e hu).1 g hg f hf).1

/-- C427 is violated: of a virtual proxy asked for with variables the very same is given: dropping
the variables of what was given drops those of the first. -/
theorem C427_same_violated (h : Heap) (i : Nat) (e : Exc) (he : h[i]? = some e) (hv : e.virtual = true)
    (hh : e.hasVariables = true) :
    ∃ n, (dropAt (make h i true).1 (make h i true).2)[i]? = some n ∧ n.hasVariables = false ∧ n ≠ e := by
  have hm : make h i true = (h, i) := by
    unfold make; rw [he]
    have : le e.hasVariables true = true := by rw [hh]; rfl
    simp [hv, this]
  rw [hm]
  refine ⟨e.drop, ?_, C426_told e, fun hc => ?_⟩
  · unfold dropAt; rw [List.getElem?_modify_eq, he]; rfl
  · have := C426_told e
    rw [hc, hh] at this; exact absurd this (by decide)

example : make [⟨false, 8, [⟨[⟨false, 5, some 1, none, none, none⟩], 3⟩]⟩] 0 false =
    ([⟨false, 8, [⟨[⟨false, 5, some 1, none, none, none⟩], 3⟩]⟩, ⟨true, 8, [⟨[⟨true, 5, none, none, none, none⟩], 3⟩]⟩], 1) := by decide
example : (make [⟨true, 8, [⟨[⟨true, 5, some 1, none, none, none⟩], 3⟩]⟩] 0 true).2 = 0 := by decide

end Verif.Frozen
