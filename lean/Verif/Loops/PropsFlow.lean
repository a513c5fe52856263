import Verif.Loops.Flow
import Verif.Loops.Props

/-!
# Running of awaitables and coroutines: properties
-/

namespace Verif.Loops

/-! ## C390: `run` -/

/-- C390: Called by a loop it refuses and changes nothing; else it does not. -/
theorem C390_refused (w : World) (c : Caller) :
    ((w.runAwaitable c).2 = .refused ↔ ∃ n, c = .loop n) ∧ ((w.runAwaitable c).2 = .refused → (w.runAwaitable c).1 = w) := by
  cases c with
  | loop n => exact ⟨⟨fun _ => ⟨n, rfl⟩, fun _ => rfl⟩, fun _ => rfl⟩
  | plain t =>
    rw [World.runAwaitable]
    rcases w.detect t with ⟨w', _ | l⟩
    · exact ⟨⟨fun h => (by cases h), fun ⟨n, h⟩ => (by cases h)⟩, fun h => (by cases h)⟩
    · exact ⟨⟨fun h => (by cases h), fun ⟨n, h⟩ => (by cases h)⟩, fun h => (by cases h)⟩

/-- C390: It runs on the loop of the thread, if there is one; no loop is made, started or stopped. -/
theorem C390_existing (w : World) (t l : Nat) (h : Uses w t l) :
    (w.runAwaitable (.plain t)).2 = .on l ∧ (w.runAwaitable (.plain t)).1.loops = w.loops ∧
      (w.runAwaitable (.plain t)).1.listed = w.listed ∧ (w.runAwaitable (.plain t)).1.next = w.next := by
  have hd := (detect_some w t l).2 h
  obtain ⟨h1, h2, h3, -⟩ := detect_world w t
  rw [World.runAwaitable]
  generalize w.detect t = d at hd h1 h2 h3
  obtain ⟨w', r⟩ := d
  subst hd
  exact ⟨rfl, h1, h3, h2⟩

/-- C390: Else it runs on a new one, which is ended and not listed afterwards; all others and all links are as before, so
that other threads never see it. -/
theorem C390_own (before : List Op) (t : Nat) (h : ∀ l, ¬ Uses (run {} before) t l) :
    let w := run {} before
    let w' := (w.runAwaitable (.plain t)).1
    (w.runAwaitable (.plain t)).2 = .on w.next ∧ w'.loops w.next = some ⟨true, .ended⟩ ∧
      (∀ l, l ≠ w.next → w'.loops l = w.loops l) ∧ w'.listed = w.listed ∧ ∀ x, x ≠ t → w'.link x = w.link x := by
  have hm : Made (run {} before) := made_run before {} made_empty
  generalize run {} before = w at h hm
  dsimp only
  have hd : (w.detect t).2 = none := by
    rcases Option.eq_none_or_eq_some (w.detect t).2 with h' | ⟨l, h'⟩
    · exact h'
    · exact absurd ((detect_some w t l).1 h') (h l)
  obtain ⟨h1, h2, h3, h4, -⟩ := detect_world w t
  rw [World.runAwaitable]
  generalize w.detect t = d at hd h1 h2 h3 h4
  obtain ⟨w', r⟩ := d
  subst hd
  dsimp only at h1 h2 h3 h4 ⊢
  have hn : w.next ∉ w.listed := fun hx => Nat.lt_irrefl _ (hm.2.1 _ hx)
  simp only [World.make, run, List.foldl, step, h2, Nat.lt_succ_self, if_true]
  refine ⟨trivial, ?_, ?_, ?_, ?_⟩
  · simp [advance_loops]
  · intro l hl
    simp [advance_loops, hl, h1]
  · simp [World.advance, h3]
    exact fun a ha he => hn (he ▸ ha)
  · intro x hx
    simp only [advance_rest]
    exact h4 x hx

example : ((run {} []).runAwaitable (.plain 5)).2 = .on 0 ∧
    ((run {} [.create (.plain 5) false]).runAwaitable (.plain 5)).2 = .on 0 := by decide

/-! ## C391: `run_coroutine` -/

/-- C391: The task itself is given exactly to the loop it is to run on, a loop of another one gets a future of its own and
only other threads are blocked; the loop of the task is woken up exactly if it is not the caller. -/
theorem C391_given (w : World) (c : Caller) (given : Option Nat) (l : Nat) (g : Given) (woken : List Nat)
    (h : w.runCoroutine c given = some (l, g, woken)) :
    (given = some l ∨ (given = none ∧ (w.get c).2 = some l)) ∧ (g = .task ↔ c = .loop l) ∧
      (∀ n, g = .wrapped n ↔ c = .loop n ∧ n ≠ l) ∧ (g = .result ↔ ∃ t, c = .plain t) ∧
      (c = .loop l → woken = []) ∧ (c ≠ .loop l → woken = [l]) := by
  have ht := C366_woken w c given
  rw [World.runCoroutine] at h
  rcases ho : w.owner c given with ⟨w', _ | ⟨l', current⟩⟩
  · rw [ho] at h; cases h
  · rw [ho] at h
    have hc : (w.createTask c given).2 = some (l', if !current then [l'] else []) := by
      rw [World.createTask, ho]
    obtain ⟨t1, t2, t3⟩ := ht l' _ hc
    dsimp only at h
    cases current with
    | true =>
      simp only [if_true, Option.some.injEq, Prod.mk.injEq] at h
      obtain ⟨rfl, rfl, rfl⟩ := h
      have hcl : c = .loop l' := by
        refine Classical.byContradiction fun hne => ?_
        have := t3 hne
        simp at this
      subst hcl
      refine ⟨t1, by simp, fun n => ?_, by simp, by simp, by simp⟩
      simp only [Caller.loop.injEq, reduceCtorEq, ne_eq, false_iff, not_and, Classical.not_not]
      exact fun h => h.symm
    | false =>
      have hne : c ≠ .loop l' := fun hcl => by have := t2 hcl; simp at this
      cases c with
      | loop n =>
        simp only [Bool.false_eq_true, if_false, Option.some.injEq, Prod.mk.injEq] at h
        obtain ⟨rfl, rfl, rfl⟩ := h
        refine ⟨t1, by simpa using hne, fun m => ?_, by simp, fun hcl => absurd hcl hne, fun _ => rfl⟩
        constructor
        · intro hg; cases hg; exact ⟨rfl, fun he => hne (by rw [he])⟩
        · rintro ⟨hg, -⟩; cases hg; rfl
      | plain t =>
        simp only [Bool.false_eq_true, if_false, Option.some.injEq, Prod.mk.injEq] at h
        obtain ⟨rfl, rfl, rfl⟩ := h
        exact ⟨t1, by simp, by simp, by simp, fun hcl => absurd hcl hne, fun _ => rfl⟩

/-- C391: It fails exactly if no loop is given and the thread has none. -/
theorem C391_failed (w : World) (c : Caller) (given : Option Nat) :
    w.runCoroutine c given = none ↔ given = none ∧ ∃ t, c = .plain t ∧ ∀ l, ¬Uses w t l := by
  have hg := C362_get w c
  rw [World.runCoroutine]
  cases given with
  | some l =>
    simp only [World.owner]
    constructor
    · intro h
      split at h
      · cases h
      · cases c <;> cases h
    · rintro ⟨h, -⟩; cases h
  | none =>
    cases c with
    | loop n => simp [World.owner]
    | plain t =>
      simp only [World.owner]
      have := hg.2
      rw [World.get] at this
      rcases hd : w.detect t with ⟨w', _ | l⟩
      · rw [hd] at this
        simpa using this.1 rfl
      · rw [hd] at this
        simp only [Bool.false_eq_true, if_false, reduceCtorEq, true_and, false_iff]
        exact fun h => by cases this.2 h

example : (run {} [.create (.plain 5) false]).runCoroutine (.plain 5) none = some (0, .result, [0]) ∧
    (run {} []).runCoroutine (.loop 3) (some 4) = some (4, .wrapped 3, [4]) := by decide

end Verif.Loops
