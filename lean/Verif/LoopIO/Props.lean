import Verif.LoopIO.Model

/-!
# Callbacks of file descriptors

C213: a file descriptor is watched for what it has callbacks for. C214: callbacks run when their event is reported, and not
after they were removed.
-/
namespace Verif.LoopIO

/-! ### C213 -/

/-- What should be: the callbacks for reading and those for writing do not know of each other. `user` are the handles
which somebody cancelled. -/
structure Spec where
  next : Nat
  reader : Nat → Option Nat
  writer : Nat → Option Nat
  user : List Nat

def Spec.new : Spec := ⟨0, fun _ => none, fun _ => none, []⟩

/-- An event removes a callback which was cancelled. -/
def sweep (user : List Nat) (on : Bool) (h : Option Nat) : Option Nat :=
  match h with
  | some h => if on ∧ h ∈ user then none else some h
  | none => none

def Spec.event (t : Spec) (e : Nat × Bool × Bool) : Spec :=
  { t with reader := fun fd => if fd = e.1 then sweep t.user e.2.1 (t.reader fd) else t.reader fd,
           writer := fun fd => if fd = e.1 then sweep t.user e.2.2 (t.writer fd) else t.writer fd }

def Spec.step (t : Spec) : Op → Spec
  | .addReader fd => { t with next := t.next + 1, reader := fun f => if f = fd then some t.next else t.reader f }
  | .removeReader fd => { t with reader := fun f => if f = fd then none else t.reader f }
  | .addWriter fd => { t with next := t.next + 1, writer := fun f => if f = fd then some t.next else t.writer f }
  | .removeWriter fd => { t with writer := fun f => if f = fd then none else t.writer f }
  | .cancel h => { t with user := h :: t.user }
  | .poll es => es.foldl Spec.event t
  | .runOne => t

def spec (l : List Op) : Spec := l.foldl Spec.step Spec.new

/-- The key for the callbacks. -/
def keyOf : Option Nat → Option Nat → Option Key
  | none, none => none
  | r, w => some ⟨r.isSome, w.isSome, r, w⟩

/-- The state is the one of the specification; a registered handle is cancelled if somebody cancelled it; no handle is
registered twice. -/
structure Good (s : L) (t : Spec) : Prop where
  keys : ∀ fd, s.keys fd = keyOf (t.reader fd) (t.writer fd)
  next : s.next = t.next
  below : ∀ fd h, t.reader fd = some h ∨ t.writer fd = some h → h < t.next
  reader : ∀ fd h, t.reader fd = some h → (h ∈ s.cancelled ↔ h ∈ t.user)
  writer : ∀ fd h, t.writer fd = some h → (h ∈ s.cancelled ↔ h ∈ t.user)
  rr : ∀ fd fd' h, t.reader fd = some h → t.reader fd' = some h → fd = fd'
  ww : ∀ fd fd' h, t.writer fd = some h → t.writer fd' = some h → fd = fd'
  rw : ∀ fd fd' h, t.reader fd = some h → t.writer fd' ≠ some h
  old : ∀ h ∈ s.cancelled, h < t.next ∨ h ∈ t.user
  user : ∀ h ∈ t.user, h ∈ s.cancelled

theorem Good.new : Good L.new Spec.new := by
  refine ⟨fun _ => rfl, rfl, ?_, ?_, ?_, ?_, ?_, ?_, ?_, ?_⟩ <;> simp [Spec.new, L.new]

/-- What is in the key. -/
theorem Good.key {s : L} {t : Spec} (g : Good s t) (fd : Nat) :
    (t.reader fd = none ∧ t.writer fd = none ∧ s.keys fd = none) ∨
      s.keys fd = some ⟨(t.reader fd).isSome, (t.writer fd).isSome, t.reader fd, t.writer fd⟩ := by
  have h := g.keys fd
  rcases hr : t.reader fd with _ | r <;> rcases hw : t.writer fd with _ | w <;> rw [hr, hw] at h
  · exact .inl ⟨rfl, rfl, h⟩
  · exact .inr h
  · exact .inr h
  · exact .inr h

/-- The fields after `add_reader`. -/
theorem Good.addReader_fields {s : L} {t : Spec} (g : Good s t) (fd : Nat) :
    (s.addReader fd).keys = set s.keys fd (keyOf (some s.next) (t.writer fd)) ∧
      (s.addReader fd).next = s.next + 1 ∧ (s.addReader fd).cancelled = cancelled s.cancelled (t.reader fd) ∧
      (s.addReader fd).ready = s.ready ∧ (s.addReader fd).ran = s.ran := by
  rcases g.key fd with ⟨hr, hw, hk⟩ | hk
  · simp only [L.addReader, hk, hr, hw, keyOf, cancelled, Option.isSome]; simp
  · simp only [L.addReader, hk]
    rcases t.writer fd with _ | w <;> simp [keyOf]

theorem Good.addWriter_fields {s : L} {t : Spec} (g : Good s t) (fd : Nat) :
    (s.addWriter fd).keys = set s.keys fd (keyOf (t.reader fd) (some s.next)) ∧
      (s.addWriter fd).next = s.next + 1 ∧ (s.addWriter fd).cancelled = cancelled s.cancelled (t.writer fd) ∧
      (s.addWriter fd).ready = s.ready ∧ (s.addWriter fd).ran = s.ran := by
  rcases g.key fd with ⟨hr, hw, hk⟩ | hk
  · simp only [L.addWriter, hk, hr, hw, keyOf, cancelled, Option.isSome]; simp
  · simp only [L.addWriter, hk]
    rcases t.reader fd with _ | w <;> simp [keyOf]

theorem Good.removeReader_fields {s : L} {t : Spec} (g : Good s t) (fd : Nat) :
    (s.removeReader fd).keys = set s.keys fd (keyOf none (t.writer fd)) ∧
      (s.removeReader fd).next = s.next ∧ (s.removeReader fd).cancelled = cancelled s.cancelled (t.reader fd) ∧
      (s.removeReader fd).ready = s.ready ∧ (s.removeReader fd).ran = s.ran := by
  rcases g.key fd with ⟨hr, hw, hk⟩ | hk
  · simp only [L.removeReader, hk, hr, hw, keyOf, cancelled]
    refine ⟨?_, by trivial, by trivial, by trivial, by trivial⟩
    funext j; by_cases hj : j = fd <;> simp [set, hj, hk]
  · simp only [L.removeReader, hk]
    rcases t.writer fd with _ | w <;> simp [keyOf]

theorem Good.removeWriter_fields {s : L} {t : Spec} (g : Good s t) (fd : Nat) :
    (s.removeWriter fd).keys = set s.keys fd (keyOf (t.reader fd) none) ∧
      (s.removeWriter fd).next = s.next ∧ (s.removeWriter fd).cancelled = cancelled s.cancelled (t.writer fd) ∧
      (s.removeWriter fd).ready = s.ready ∧ (s.removeWriter fd).ran = s.ran := by
  rcases g.key fd with ⟨hr, hw, hk⟩ | hk
  · simp only [L.removeWriter, hk, hr, hw, keyOf, cancelled]
    refine ⟨?_, by trivial, by trivial, by trivial, by trivial⟩
    funext j; by_cases hj : j = fd <;> simp [set, hj, hk]
  · simp only [L.removeWriter, hk]
    rcases t.reader fd with _ | w <;> simp [keyOf]

theorem mem_cancelled (l : List Nat) (o : Option Nat) (h : Nat) : h ∈ cancelled l o ↔ o = some h ∨ h ∈ l := by
  cases o with
  | none => simp [cancelled]
  | some x => simp [cancelled, eq_comm]

theorem Good.addReader {s : L} {t : Spec} (g : Good s t) (fd : Nat) :
    Good (s.addReader fd) (t.step (.addReader fd)) := by
  obtain ⟨f1, f2, f3, -, -⟩ := g.addReader_fields fd
  have hn := g.next
  constructor
  · intro j
    rw [f1]
    by_cases hj : j = fd
    · subst hj; simp [set, Spec.step, hn]
    · simp [set, Spec.step, hj, g.keys j]
  · rw [f2, hn]; rfl
  · intro j h hh
    simp only [Spec.step] at hh ⊢
    by_cases hj : j = fd
    · simp only [hj, if_true] at hh
      rcases hh with hh | hh
      · cases hh; omega
      · have := g.below fd h (.inr hh); omega
    · simp only [hj, if_false] at hh
      have := g.below j h hh; omega
  · intro j h hh
    simp only [Spec.step] at hh ⊢
    rw [f3, mem_cancelled]
    by_cases hj : j = fd
    · simp only [hj, if_true] at hh
      cases hh
      refine ⟨fun hx => ?_, fun hx => .inr (g.user _ hx)⟩
      rcases hx with hx | hx
      · exact absurd (g.below fd _ (.inl hx)) (Nat.lt_irrefl _)
      · rcases g.old _ hx with ho | ho
        · exact absurd ho (Nat.lt_irrefl _)
        · exact ho
    · simp only [hj, if_false] at hh
      rw [← g.reader j h hh]
      exact ⟨fun hx => hx.resolve_left (fun hx => hj (g.rr j fd h hh hx)), .inr⟩
  · intro j h hh
    simp only [Spec.step] at hh ⊢
    rw [f3, mem_cancelled, ← g.writer j h hh]
    exact ⟨fun hx => hx.resolve_left (fun hx => g.rw fd j h hx hh), .inr⟩
  · intro j j' h hh hh'
    simp only [Spec.step] at hh hh'
    by_cases hj : j = fd <;> by_cases hj' : j' = fd <;> simp only [hj, hj', if_true, if_false] at hh hh'
    · rw [hj, hj']
    · cases hh; exact absurd (g.below j' _ (.inl hh')) (Nat.lt_irrefl _)
    · cases hh'; exact absurd (g.below j _ (.inl hh)) (Nat.lt_irrefl _)
    · exact g.rr j j' h hh hh'
  · exact g.ww
  · intro j j' h hh hh'
    simp only [Spec.step] at hh hh'
    by_cases hj : j = fd <;> simp only [hj, if_true, if_false] at hh
    · cases hh; exact absurd (g.below j' _ (.inr hh')) (Nat.lt_irrefl _)
    · exact g.rw j j' h hh hh'
  · intro h hh
    rw [f3, mem_cancelled] at hh
    simp only [Spec.step]
    rcases hh with hh | hh
    · have := g.below fd h (.inl hh); omega
    · rcases g.old h hh with ho | ho
      · omega
      · exact .inr ho
  · intro h hh
    rw [f3, mem_cancelled]
    exact .inr (g.user h hh)

theorem Good.addWriter {s : L} {t : Spec} (g : Good s t) (fd : Nat) :
    Good (s.addWriter fd) (t.step (.addWriter fd)) := by
  obtain ⟨f1, f2, f3, -, -⟩ := g.addWriter_fields fd
  have hn := g.next
  constructor
  · intro j
    rw [f1]
    by_cases hj : j = fd
    · subst hj; simp [set, Spec.step, hn]
    · simp [set, Spec.step, hj, g.keys j]
  · rw [f2, hn]; rfl
  · intro j h hh
    simp only [Spec.step] at hh ⊢
    by_cases hj : j = fd
    · simp only [hj, if_true] at hh
      rcases hh with hh | hh
      · have := g.below fd h (.inl hh); omega
      · cases hh; omega
    · simp only [hj, if_false] at hh
      have := g.below j h hh; omega
  · intro j h hh
    simp only [Spec.step] at hh ⊢
    rw [f3, mem_cancelled, ← g.reader j h hh]
    exact ⟨fun hx => hx.resolve_left (fun hx => g.rw j fd h hh hx), .inr⟩
  · intro j h hh
    simp only [Spec.step] at hh ⊢
    rw [f3, mem_cancelled]
    by_cases hj : j = fd
    · simp only [hj, if_true] at hh
      cases hh
      refine ⟨fun hx => ?_, fun hx => .inr (g.user _ hx)⟩
      rcases hx with hx | hx
      · exact absurd (g.below fd _ (.inr hx)) (Nat.lt_irrefl _)
      · rcases g.old _ hx with ho | ho
        · exact absurd ho (Nat.lt_irrefl _)
        · exact ho
    · simp only [hj, if_false] at hh
      rw [← g.writer j h hh]
      exact ⟨fun hx => hx.resolve_left (fun hx => hj (g.ww j fd h hh hx)), .inr⟩
  · exact g.rr
  · intro j j' h hh hh'
    simp only [Spec.step] at hh hh'
    by_cases hj : j = fd <;> by_cases hj' : j' = fd <;> simp only [hj, hj', if_true, if_false] at hh hh'
    · rw [hj, hj']
    · cases hh; exact absurd (g.below j' _ (.inr hh')) (Nat.lt_irrefl _)
    · cases hh'; exact absurd (g.below j _ (.inr hh)) (Nat.lt_irrefl _)
    · exact g.ww j j' h hh hh'
  · intro j j' h hh hh'
    simp only [Spec.step] at hh hh'
    by_cases hj : j' = fd <;> simp only [hj, if_true, if_false] at hh'
    · cases hh'; exact absurd (g.below j _ (.inl hh)) (Nat.lt_irrefl _)
    · exact g.rw j j' h hh hh'
  · intro h hh
    rw [f3, mem_cancelled] at hh
    simp only [Spec.step]
    rcases hh with hh | hh
    · have := g.below fd h (.inr hh); omega
    · rcases g.old h hh with ho | ho
      · omega
      · exact .inr ho
  · intro h hh
    rw [f3, mem_cancelled]
    exact .inr (g.user h hh)

theorem Good.removeReader {s : L} {t : Spec} (g : Good s t) (fd : Nat) :
    Good (s.removeReader fd) (t.step (.removeReader fd)) := by
  obtain ⟨f1, f2, f3, -, -⟩ := g.removeReader_fields fd
  have key : ∀ j h, (t.step (.removeReader fd)).reader j = some h → t.reader j = some h ∧ j ≠ fd := by
    intro j h hh
    simp only [Spec.step] at hh
    by_cases hj : j = fd
    · rw [if_pos hj] at hh; cases hh
    · rw [if_neg hj] at hh; exact ⟨hh, hj⟩
  constructor
  · intro j
    rw [f1]
    by_cases hj : j = fd
    · subst hj; simp [set, Spec.step]
    · simp [set, Spec.step, hj, g.keys j]
  · rw [f2, g.next]; rfl
  · intro j h hh
    exact g.below j h (hh.imp (fun x => (key j h x).1) id)
  · intro j h hh
    obtain ⟨hh, hj⟩ := key j h hh
    show _ ↔ h ∈ t.user
    rw [f3, mem_cancelled, ← g.reader j h hh]
    exact ⟨fun hx => hx.resolve_left (fun hx => hj (g.rr j fd h hh hx)), .inr⟩
  · intro j h hh
    show _ ↔ h ∈ t.user
    rw [f3, mem_cancelled, ← g.writer j h hh]
    exact ⟨fun hx => hx.resolve_left (fun hx => g.rw fd j h hx hh), .inr⟩
  · intro j j' h hh hh'
    exact g.rr j j' h (key j h hh).1 (key j' h hh').1
  · exact g.ww
  · intro j j' h hh hh'
    exact g.rw j j' h (key j h hh).1 hh'
  · intro h hh
    rw [f3, mem_cancelled] at hh
    rcases hh with hh | hh
    · exact .inl (g.below fd h (.inl hh))
    · exact g.old h hh
  · intro h hh
    rw [f3, mem_cancelled]
    exact .inr (g.user h hh)

theorem Good.removeWriter {s : L} {t : Spec} (g : Good s t) (fd : Nat) :
    Good (s.removeWriter fd) (t.step (.removeWriter fd)) := by
  obtain ⟨f1, f2, f3, -, -⟩ := g.removeWriter_fields fd
  have key : ∀ j h, (t.step (.removeWriter fd)).writer j = some h → t.writer j = some h ∧ j ≠ fd := by
    intro j h hh
    simp only [Spec.step] at hh
    by_cases hj : j = fd
    · rw [if_pos hj] at hh; cases hh
    · rw [if_neg hj] at hh; exact ⟨hh, hj⟩
  constructor
  · intro j
    rw [f1]
    by_cases hj : j = fd
    · subst hj; simp [set, Spec.step]
    · simp [set, Spec.step, hj, g.keys j]
  · rw [f2, g.next]; rfl
  · intro j h hh
    exact g.below j h (hh.imp id (fun x => (key j h x).1))
  · intro j h hh
    show _ ↔ h ∈ t.user
    rw [f3, mem_cancelled, ← g.reader j h hh]
    exact ⟨fun hx => hx.resolve_left (fun hx => g.rw j fd h hh hx), .inr⟩
  · intro j h hh
    obtain ⟨hh, hj⟩ := key j h hh
    show _ ↔ h ∈ t.user
    rw [f3, mem_cancelled, ← g.writer j h hh]
    exact ⟨fun hx => hx.resolve_left (fun hx => hj (g.ww j fd h hh hx)), .inr⟩
  · exact g.rr
  · intro j j' h hh hh'
    exact g.ww j j' h (key j h hh).1 (key j' h hh').1
  · intro j j' h hh hh'
    exact g.rw j j' h hh (key j' h hh').1
  · intro h hh
    rw [f3, mem_cancelled] at hh
    rcases hh with hh | hh
    · exact .inl (g.below fd h (.inr hh))
    · exact g.old h hh
  · intro h hh
    rw [f3, mem_cancelled]
    exact .inr (g.user h hh)

/-- Only what is watched and what is cancelled matters. -/
theorem Good.congr {s s' : L} {t : Spec} (g : Good s t) (h1 : s'.keys = s.keys) (h2 : s'.next = s.next)
    (h3 : s'.cancelled = s.cancelled) : Good s' t := by
  constructor
  · rw [h1]; exact g.keys
  · rw [h2]; exact g.next
  · exact g.below
  · rw [h3]; exact g.reader
  · rw [h3]; exact g.writer
  · exact g.rr
  · exact g.ww
  · exact g.rw
  · rw [h3]; exact g.old
  · rw [h3]; exact g.user

/-- The handles which an event runs. -/
def live (user : List Nat) (on : Bool) : Option Nat → List Nat
  | some h => if on ∧ h ∉ user then [h] else []
  | none => []

theorem Good.pollReader {s : L} {t : Spec} (g : Good s t) (fd : Nat) (on : Bool) :
    Good (s.pollReader fd (t.reader fd) (on && (t.reader fd).isSome))
        { t with reader := fun j => if j = fd then sweep t.user on (t.reader j) else t.reader j } ∧
      (s.pollReader fd (t.reader fd) (on && (t.reader fd).isSome)).ready = s.ready ++ live t.user on (t.reader fd) ∧
      (s.pollReader fd (t.reader fd) (on && (t.reader fd).isSome)).ran = s.ran := by
  have same : sweep t.user on (t.reader fd) = t.reader fd →
      { t with reader := fun j => if j = fd then sweep t.user on (t.reader j) else t.reader j } = t := by
    intro h
    have : (fun j => if j = fd then sweep t.user on (t.reader j) else t.reader j) = t.reader := by
      funext j; by_cases hj : j = fd
      · rw [if_pos hj, hj, h]
      · rw [if_neg hj]
    rw [this]
  rcases hr : t.reader fd with _ | h
  · rw [hr] at same
    rw [same rfl]
    exact ⟨g, (List.append_nil _).symm, rfl⟩
  · rw [hr] at same
    cases on with
    | false =>
      have e : sweep t.user false (some h) = some h := by simp [sweep]
      rw [same e]
      refine ⟨g, ?_, rfl⟩
      simp [L.pollReader, live]
    | true =>
      by_cases hu : h ∈ t.user
      · have hc : h ∈ s.cancelled := g.user h hu
        have e : s.pollReader fd (some h) (true && (some h).isSome) = s.removeReader fd := by
          simp [L.pollReader, hc]
        rw [e]
        obtain ⟨-, -, -, f4, f5⟩ := g.removeReader_fields fd
        refine ⟨?_, ?_, f5⟩
        · have := g.removeReader fd
          have e2 : (fun j => if j = fd then sweep t.user true (t.reader j) else t.reader j) =
              (fun j => if j = fd then none else t.reader j) := by
            funext j; by_cases hj : j = fd
            · rw [if_pos hj, if_pos hj, hj, hr]; simp [sweep, hu]
            · rw [if_neg hj, if_neg hj]
          rw [e2]; exact this
        · rw [f4]; simp [live, hu]
      · have hc : h ∉ s.cancelled := fun hc => hu ((g.reader fd h hr).1 hc)
        have e : sweep t.user true (some h) = some h := by simp [sweep, hu]
        rw [same e]
        have e2 : s.pollReader fd (some h) (true && (some h).isSome) = { s with ready := s.ready ++ [h] } := by
          simp [L.pollReader, hc]
        rw [e2]
        refine ⟨g.congr rfl rfl rfl, ?_, rfl⟩
        simp [live, hu]

theorem Good.pollWriter {s : L} {t : Spec} (g : Good s t) (fd : Nat) (on : Bool) :
    Good (s.pollWriter fd (t.writer fd) (on && (t.writer fd).isSome))
        { t with writer := fun j => if j = fd then sweep t.user on (t.writer j) else t.writer j } ∧
      (s.pollWriter fd (t.writer fd) (on && (t.writer fd).isSome)).ready = s.ready ++ live t.user on (t.writer fd) ∧
      (s.pollWriter fd (t.writer fd) (on && (t.writer fd).isSome)).ran = s.ran := by
  have same : sweep t.user on (t.writer fd) = t.writer fd →
      { t with writer := fun j => if j = fd then sweep t.user on (t.writer j) else t.writer j } = t := by
    intro h
    have : (fun j => if j = fd then sweep t.user on (t.writer j) else t.writer j) = t.writer := by
      funext j; by_cases hj : j = fd
      · rw [if_pos hj, hj, h]
      · rw [if_neg hj]
    rw [this]
  rcases hr : t.writer fd with _ | h
  · rw [hr] at same
    rw [same rfl]
    exact ⟨g, (List.append_nil _).symm, rfl⟩
  · rw [hr] at same
    cases on with
    | false =>
      have e : sweep t.user false (some h) = some h := by simp [sweep]
      rw [same e]
      refine ⟨g, ?_, rfl⟩
      simp [L.pollWriter, live]
    | true =>
      by_cases hu : h ∈ t.user
      · have hc : h ∈ s.cancelled := g.user h hu
        have e : s.pollWriter fd (some h) (true && (some h).isSome) = s.removeWriter fd := by
          simp [L.pollWriter, hc]
        rw [e]
        obtain ⟨-, -, -, f4, f5⟩ := g.removeWriter_fields fd
        refine ⟨?_, ?_, f5⟩
        · have := g.removeWriter fd
          have e2 : (fun j => if j = fd then sweep t.user true (t.writer j) else t.writer j) =
              (fun j => if j = fd then none else t.writer j) := by
            funext j; by_cases hj : j = fd
            · rw [if_pos hj, if_pos hj, hj, hr]; simp [sweep, hu]
            · rw [if_neg hj, if_neg hj]
          rw [e2]; exact this
        · rw [f4]; simp [live, hu]
      · have hc : h ∉ s.cancelled := fun hc => hu ((g.writer fd h hr).1 hc)
        have e : sweep t.user true (some h) = some h := by simp [sweep, hu]
        rw [same e]
        have e2 : s.pollWriter fd (some h) (true && (some h).isSome) = { s with ready := s.ready ++ [h] } := by
          simp [L.pollWriter, hc]
        rw [e2]
        refine ⟨g.congr rfl rfl rfl, ?_, rfl⟩
        simp [live, hu]

/-- What one event does. -/
theorem Good.event {s : L} {t : Spec} (g : Good s t) (e : Nat × Bool × Bool) :
    Good (s.event e) (t.event e) ∧
      (s.event e).ready = s.ready ++ (live t.user e.2.1 (t.reader e.1) ++ live t.user e.2.2 (t.writer e.1)) ∧
      (s.event e).ran = s.ran := by
  rcases g.key e.1 with ⟨hr, hw, hk⟩ | hk
  · have e1 : s.event e = s := by simp only [L.event, hk]
    have e2 : t.event e = t := by
      have r : (fun j => if j = e.1 then sweep t.user e.2.1 (t.reader j) else t.reader j) = t.reader := by
        funext j; by_cases hj : j = e.1
        · rw [if_pos hj, hj, hr]; rfl
        · rw [if_neg hj]
      have w : (fun j => if j = e.1 then sweep t.user e.2.2 (t.writer j) else t.writer j) = t.writer := by
        funext j; by_cases hj : j = e.1
        · rw [if_pos hj, hj, hw]; rfl
        · rw [if_neg hj]
      simp only [Spec.event, r, w]
    rw [e1, e2, hr, hw]
    exact ⟨g, by simp [live], rfl⟩
  · have e1 : s.event e = (s.pollReader e.1 (t.reader e.1) (e.2.1 && (t.reader e.1).isSome)).pollWriter e.1 (t.writer e.1)
        (e.2.2 && (t.writer e.1).isSome) := by simp only [L.event, hk]
    rw [e1]
    obtain ⟨g1, r1, n1⟩ := g.pollReader e.1 e.2.1
    obtain ⟨g2, r2, n2⟩ := g1.pollWriter e.1 e.2.2
    refine ⟨g2, ?_, n2.trans n1⟩
    rw [r2, r1, List.append_assoc]

theorem Good.poll (es : List (Nat × Bool × Bool)) : ∀ {s : L} {t : Spec}, Good s t →
    Good (es.foldl L.event s) (es.foldl Spec.event t) := by
  induction es with
  | nil => exact fun g => g
  | cons e es ih => exact fun g => ih (g.event e).1

theorem Good.step {s : L} {t : Spec} (g : Good s t) (o : Op) : Good (LoopIO.step s o) (t.step o) := by
  cases o with
  | addReader fd => exact g.addReader fd
  | removeReader fd => exact g.removeReader fd
  | addWriter fd => exact g.addWriter fd
  | removeWriter fd => exact g.removeWriter fd
  | cancel h =>
    refine ⟨g.keys, g.next, g.below, ?_, ?_, g.rr, g.ww, g.rw, ?_, ?_⟩
    · intro j h' hh
      have := g.reader j h' hh
      simp only [LoopIO.step, Spec.step, List.mem_cons, this]
    · intro j h' hh
      have := g.writer j h' hh
      simp only [LoopIO.step, Spec.step, List.mem_cons, this]
    · intro h' hh
      simp only [LoopIO.step, List.mem_cons] at hh
      rcases hh with hh | hh
      · exact .inr (by simp [Spec.step, hh])
      · exact (g.old h' hh).imp id (fun x => by simp [Spec.step, x])
    · intro h' hh
      simp only [Spec.step, List.mem_cons] at hh
      simp only [LoopIO.step, List.mem_cons]
      exact hh.imp id (g.user h')
  | poll es => exact g.poll es
  | runOne =>
    show Good s.runOne t
    simp only [L.runOne]
    split
    · exact g
    · split
      · exact g.congr rfl rfl rfl
      · exact g.congr rfl rfl rfl

theorem Good.run (l : List Op) : ∀ {s : L} {t : Spec}, Good s t →
    Good (LoopIO.run s l) (l.foldl Spec.step t) := by
  induction l with
  | nil => exact fun g => g
  | cons o l ih => exact fun g => ih (g.step o)

/-- C213. A file descriptor is watched for reading exactly if it has a callback for reading, and for writing exactly if it
has one for writing; what is added, removed or noticed to be cancelled for one of them does not touch the other. -/
theorem C213_watched (l : List Op) (fd : Nat) :
    (run L.new l).keys fd = keyOf ((spec l).reader fd) ((spec l).writer fd) :=
  (Good.new.run l).keys fd

/-- C213. Removing tells whether there was a callback. -/
theorem C213_removed (l : List Op) (fd : Nat) :
    (run L.new l).hasReader fd = ((spec l).reader fd).isSome ∧
      (run L.new l).hasWriter fd = ((spec l).writer fd).isSome := by
  have h := C213_watched l fd
  simp only [L.hasReader, L.hasWriter, h]
  rcases (spec l).reader fd with _ | r <;> rcases (spec l).writer fd with _ | w <;> simp [keyOf]

/-- A callback for reading is replaced, the one for writing is cancelled and noticed. -/
example : (run L.new [.addReader 3, .addWriter 3, .addReader 3, .cancel 1, .poll [(3, false, true)]]).keys 3 =
      some ⟨true, false, some 2, none⟩ ∧
    (spec [.addReader 3, .addWriter 3, .addReader 3, .cancel 1, .poll [(3, false, true)]]).reader 3 = some 2 := by
  decide

example : (run L.new [.addReader 3, .addWriter 3, .removeReader 3, .removeWriter 3]).keys 3 = none := by decide

/-! ### C214 -/

/-- Cancelled handles stay cancelled, and do not run. -/
theorem silent (h : Nat) (o : Op) (s : L) (hc : h ∈ s.cancelled) :
    h ∈ (step s o).cancelled ∧ (step s o).ran.count h = s.ran.count h := by
  have add : ∀ x, h ∈ cancelled s.cancelled x := fun x => (mem_cancelled _ _ _).2 (.inr hc)
  have rr : ∀ fd (s : L), h ∈ s.cancelled → h ∈ (s.removeReader fd).cancelled ∧ (s.removeReader fd).ran = s.ran := by
    intro fd s hc
    simp only [L.removeReader]
    split
    · exact ⟨hc, rfl⟩
    · exact ⟨(mem_cancelled _ _ _).2 (.inr hc), rfl⟩
  have rw : ∀ fd (s : L), h ∈ s.cancelled → h ∈ (s.removeWriter fd).cancelled ∧ (s.removeWriter fd).ran = s.ran := by
    intro fd s hc
    simp only [L.removeWriter]
    split
    · exact ⟨hc, rfl⟩
    · exact ⟨(mem_cancelled _ _ _).2 (.inr hc), rfl⟩
  have pr : ∀ fd x m (s : L), h ∈ s.cancelled → h ∈ (s.pollReader fd x m).cancelled ∧ (s.pollReader fd x m).ran = s.ran := by
    intro fd x m s hc
    simp only [L.pollReader]
    split
    · split
      · split
        · exact rr fd s hc
        · exact ⟨hc, rfl⟩
      · exact ⟨hc, rfl⟩
    · exact ⟨hc, rfl⟩
  have pw : ∀ fd x m (s : L), h ∈ s.cancelled → h ∈ (s.pollWriter fd x m).cancelled ∧ (s.pollWriter fd x m).ran = s.ran := by
    intro fd x m s hc
    simp only [L.pollWriter]
    split
    · split
      · split
        · exact rw fd s hc
        · exact ⟨hc, rfl⟩
      · exact ⟨hc, rfl⟩
    · exact ⟨hc, rfl⟩
  cases o with
  | addReader fd =>
    simp only [step, L.addReader]
    split
    · exact ⟨hc, rfl⟩
    · exact ⟨add _, rfl⟩
  | removeReader fd => exact ⟨(rr fd s hc).1, by rw [step, (rr fd s hc).2]⟩
  | addWriter fd =>
    simp only [step, L.addWriter]
    split
    · exact ⟨hc, rfl⟩
    · exact ⟨add _, rfl⟩
  | removeWriter fd => exact ⟨(rw fd s hc).1, by rw [step, (rw fd s hc).2]⟩
  | cancel x => exact ⟨List.mem_cons_of_mem _ hc, rfl⟩
  | poll es =>
    have : ∀ (es : List (Nat × Bool × Bool)) (s : L), h ∈ s.cancelled →
        h ∈ (es.foldl L.event s).cancelled ∧ (es.foldl L.event s).ran = s.ran := by
      intro es
      induction es with
      | nil => exact fun s hc => ⟨hc, rfl⟩
      | cons e es ih =>
        intro s hc
        have he : h ∈ (s.event e).cancelled ∧ (s.event e).ran = s.ran := by
          simp only [L.event]
          split
          · exact ⟨hc, rfl⟩
          · rename_i k _
            have h1 := pr e.1 k.reader (e.2.1 && k.read) s hc
            have h2 := pw e.1 k.writer (e.2.2 && k.write) _ h1.1
            exact ⟨h2.1, h2.2.trans h1.2⟩
        exact ⟨(ih _ he.1).1, (ih _ he.1).2.trans he.2⟩
    exact ⟨(this es s hc).1, by rw [step, (this es s hc).2]⟩
  | runOne =>
    simp only [step, L.runOne]
    split
    · exact ⟨hc, rfl⟩
    · rename_i x l _
      split
      · exact ⟨hc, rfl⟩
      · rename_i hx
        refine ⟨hc, ?_⟩
        have : x ≠ h := fun e => hx (e ▸ hc)
        simp [List.count_append, this]

theorem silent_run (h : Nat) (l : List Op) : ∀ s : L, h ∈ s.cancelled → (run s l).ran.count h = s.ran.count h := by
  induction l with
  | nil => exact fun _ _ => rfl
  | cons o l ih =>
    intro s hc
    obtain ⟨h1, h2⟩ := silent h o s hc
    exact (ih _ h1).trans h2

/-- C214. A callback for reading which was removed, or replaced by another one, never runs again: not if its event was
reported before, and not if it is reported later. -/
theorem C214_reader_gone (l m : List Op) (fd h : Nat) (hr : (spec l).reader fd = some h) (o : Op)
    (ho : o = .removeReader fd ∨ o = .addReader fd) :
    (run L.new (l ++ o :: m)).ran.count h = (run L.new l).ran.count h := by
  have g := Good.new.run l
  have e : run L.new (l ++ o :: m) = run (step (run L.new l) o) m := by simp [run, List.foldl_append]
  have hr' : (List.foldl Spec.step Spec.new l).reader fd = some h := hr
  rw [e]
  rcases ho with rfl | rfl
  · obtain ⟨-, -, f3, -, f5⟩ := g.removeReader_fields fd
    have := silent_run h m ((run L.new l).removeReader fd) (by rw [f3, hr']; exact List.mem_cons_self)
    rw [f5] at this; exact this
  · obtain ⟨-, -, f3, -, f5⟩ := g.addReader_fields fd
    have := silent_run h m ((run L.new l).addReader fd) (by rw [f3, hr']; exact List.mem_cons_self)
    rw [f5] at this; exact this

/-- C214. The same for callbacks for writing. -/
theorem C214_writer_gone (l m : List Op) (fd h : Nat) (hr : (spec l).writer fd = some h) (o : Op)
    (ho : o = .removeWriter fd ∨ o = .addWriter fd) :
    (run L.new (l ++ o :: m)).ran.count h = (run L.new l).ran.count h := by
  have g := Good.new.run l
  have e : run L.new (l ++ o :: m) = run (step (run L.new l) o) m := by simp [run, List.foldl_append]
  have hr' : (List.foldl Spec.step Spec.new l).writer fd = some h := hr
  rw [e]
  rcases ho with rfl | rfl
  · obtain ⟨-, -, f3, -, f5⟩ := g.removeWriter_fields fd
    have := silent_run h m ((run L.new l).removeWriter fd) (by rw [f3, hr']; exact List.mem_cons_self)
    rw [f5] at this; exact this
  · obtain ⟨-, -, f3, -, f5⟩ := g.addWriter_fields fd
    have := silent_run h m ((run L.new l).addWriter fd) (by rw [f3, hr']; exact List.mem_cons_self)
    rw [f5] at this; exact this

/-- C214. And for handles which somebody cancelled. -/
theorem C214_cancelled (l m : List Op) (h : Nat) :
    (run L.new (l ++ .cancel h :: m)).ran.count h = (run L.new l).ran.count h := by
  have e : run L.new (l ++ .cancel h :: m) = run (step (run L.new l) (.cancel h)) m := by simp [run, List.foldl_append]
  rw [e]
  exact silent_run h m _ List.mem_cons_self

theorem event_other {t : Spec} {e : Nat × Bool × Bool} {fd : Nat} (h : fd ≠ e.1) :
    (t.event e).reader fd = t.reader fd ∧ (t.event e).writer fd = t.writer fd ∧ (t.event e).user = t.user := by
  simp [Spec.event, h]

theorem poll_ready (es : List (Nat × Bool × Bool)) : ∀ {s : L} {t : Spec}, Good s t → (es.map Prod.fst).Nodup →
    (es.foldl L.event s).ready =
        s.ready ++ es.flatMap (fun e => live t.user e.2.1 (t.reader e.1) ++ live t.user e.2.2 (t.writer e.1)) ∧
      (es.foldl L.event s).ran = s.ran := by
  induction es with
  | nil => intro s t _ _; simp
  | cons e es ih =>
    intro s t g hn
    simp only [List.map_cons, List.nodup_cons] at hn
    obtain ⟨g1, r1, n1⟩ := g.event e
    obtain ⟨r2, n2⟩ := ih g1 hn.2
    have same : ∀ x ∈ es, (fun e' => live (t.event e).user e'.2.1 ((t.event e).reader e'.1) ++
        live (t.event e).user e'.2.2 ((t.event e).writer e'.1)) x =
        (fun e' => live t.user e'.2.1 (t.reader e'.1) ++ live t.user e'.2.2 (t.writer e'.1)) x := by
      intro x hx
      have hne : x.1 ≠ e.1 := fun he => hn.1 (he ▸ List.mem_map_of_mem hx)
      obtain ⟨a, b, c⟩ := event_other (t := t) hne
      simp only [a, b, c]
    refine ⟨?_, n2.trans n1⟩
    simp only [List.foldl_cons, List.flatMap_cons]
    rw [r2, r1, List.append_assoc]
    congr 1
    rw [List.flatMap_def, List.flatMap_def, List.map_congr_left same]

theorem drain (l : List Nat) : ∀ s : L, s.ready = l → (∀ h ∈ l, h ∉ s.cancelled) →
    (run s (List.replicate l.length .runOne)).ran = s.ran ++ l ∧
      (run s (List.replicate l.length .runOne)).ready = [] := by
  induction l with
  | nil => intro s hs _; simp [run, hs]
  | cons h l ih =>
    intro s hs hl
    have e : s.runOne = { s with ready := l, ran := s.ran ++ [h] } := by
      have := hl h List.mem_cons_self
      simp [L.runOne, hs, this]
    have := ih s.runOne (by rw [e]) (by rw [e]; exact fun x hx => hl x (List.mem_cons_of_mem _ hx))
    simp only [List.length_cons, List.replicate_succ, run, List.foldl_cons, step] at this ⊢
    rw [this.1, this.2, e]
    simp

/-- The callbacks which have to run for the events. -/
def due (t : Spec) (es : List (Nat × Bool × Bool)) : List Nat :=
  es.flatMap fun e => live t.user e.2.1 (t.reader e.1) ++ live t.user e.2.2 (t.writer e.1)

theorem live_mem {u : List Nat} {on : Bool} {x : Option Nat} {h : Nat} (hh : h ∈ live u on x) :
    x = some h ∧ h ∉ u := by
  cases x with
  | none => cases hh
  | some y =>
    simp only [live] at hh
    split at hh
    · rename_i hc
      rw [List.mem_singleton] at hh
      exact ⟨by rw [hh], hh ▸ hc.2⟩
    · cases hh

/-- C214. If the events of distinct file descriptors are reported and nothing else is waiting to run, then exactly the
callbacks of these events run, each once, in the order of the events, and reading before writing. -/
theorem C214_reported (l : List Op) (es : List (Nat × Bool × Bool)) (hn : (es.map Prod.fst).Nodup)
    (hq : (run L.new l).ready = []) :
    (run L.new (l ++ .poll es :: List.replicate (due (spec l) es).length .runOne)).ran =
      (run L.new l).ran ++ due (spec l) es := by
  have g := Good.new.run l
  obtain ⟨r, n⟩ := poll_ready es g hn
  have g2 := g.poll es
  have e : run L.new (l ++ .poll es :: List.replicate (due (spec l) es).length .runOne) =
      run (es.foldl L.event (run L.new l)) (List.replicate (due (spec l) es).length .runOne) := by
    simp [run, List.foldl_append, step]
  rw [hq, List.nil_append] at r
  have hcanc : ∀ (es : List (Nat × Bool × Bool)) {s : L} {t : Spec}, Good s t → ∀ h, (∃ fd, t.reader fd = some h ∨ t.writer fd = some h) → h ∉ t.user →
      h ∉ (es.foldl L.event s).cancelled := by
    intro es
    induction es with
    | nil =>
      intro s t g h hr hu hc
      obtain ⟨fd, hr | hr⟩ := hr
      · exact hu ((g.reader fd h hr).1 hc)
      · exact hu ((g.writer fd h hr).1 hc)
    | cons e es ih =>
      intro s t g h hr hu
      refine ih (g.event e).1 h ?_ hu
      obtain ⟨fd, hr | hr⟩ := hr
      · refine ⟨fd, .inl ?_⟩
        simp only [Spec.event]
        split
        · simp [hr, sweep, hu]
        · exact hr
      · refine ⟨fd, .inr ?_⟩
        simp only [Spec.event]
        split
        · simp [hr, sweep, hu]
        · exact hr
  have := drain (due (spec l) es) (es.foldl L.event (run L.new l)) r (by
    intro h hh
    simp only [due, List.mem_flatMap, List.mem_append] at hh
    obtain ⟨e, -, hh | hh⟩ := hh
    · exact hcanc es g h ⟨e.1, .inl (live_mem hh).1⟩ (live_mem hh).2
    · exact hcanc es g h ⟨e.1, .inr (live_mem hh).1⟩ (live_mem hh).2)
  rw [e, this.1, n]

/-- Two file descriptors; the callback for writing of the first was cancelled. -/
example : due (spec [.addReader 3, .addWriter 3, .addWriter 4, .addReader 4, .cancel 1]) [(4, true, true), (3, true, true)] =
    [3, 2, 0] := by decide

/-- A reader which is replaced while it waits to run does not run. -/
example : (run L.new [.addReader 3, .poll [(3, true, false)], .addReader 3, .runOne, .poll [(3, true, false)], .runOne]).ran =
    [1] := by decide

end Verif.LoopIO
