import Verif.Loops.Model

namespace Verif.Loops

/-! ## Specification -/

/-- A loop which works or will: there, and not started yet or running. -/
inductive Works (w : World) (l : Nat) : Prop
  | created (d : Bool) (h : w.loops l = some ⟨d, .created⟩) : Works w l
  | running (d : Bool) (h : w.loops l = some ⟨d, .running⟩) : Works w l

/-- A loop which others may find. -/
def Found (w : World) (l : Nat) : Prop := w.loops l = some ⟨false, .created⟩ ∨ w.loops l = some ⟨false, .running⟩

/-- The loop of a thread: the one it is linked to if that works, else the first one of those listed which may be found. -/
inductive Uses (w : World) (t : Nat) (l : Nat) : Prop
  | linked (h : w.link t = some l) (hw : Works w l) : Uses w t l
  | found (p q : List Nat) (hl : ∀ x, w.link t = some x → ¬Works w x) (he : w.listed = p ++ l :: q) (hp : ∀ x ∈ p, ¬Found w x)
      (hf : Found w l) : Uses w t l

theorem usable_iff (w : World) (l : Nat) : w.usable l = true ↔ Works w l := by
  unfold World.usable
  constructor
  · intro h
    rcases hl : w.loops l with _ | ⟨d, p⟩
    · rw [hl] at h; simp at h
    · rw [hl] at h
      cases p <;> simp [Loop.isStopped] at h
      · exact .created d hl
      · exact .running d hl
  · rintro (⟨d, h⟩ | ⟨d, h⟩) <;> rw [h] <;> rfl

theorem taken_iff (w : World) (l : Nat) : w.taken l = true ↔ Found w l := by
  unfold World.taken Found
  rcases hl : w.loops l with _ | ⟨d, p⟩
  · simp
  · cases d <;> cases p <;> simp [Loop.isStopped]

theorem first_some (w : World) (ls : List Nat) (l : Nat) :
    w.first ls = some l ↔ ∃ p q, ls = p ++ l :: q ∧ (∀ x ∈ p, ¬Found w x) ∧ Found w l := by
  induction ls with
  | nil => simp [World.first]
  | cons y ys ih =>
    rw [World.first]
    split
    · rename_i h
      rw [taken_iff] at h
      constructor
      · intro e; cases e; exact ⟨[], ys, rfl, by simp, h⟩
      · rintro ⟨p, q, he, hp, hf⟩
        cases p with
        | nil => simp at he; rw [he.1]
        | cons a p => simp at he; exact absurd h (hp y (by simp [he.1]))
    · rename_i h
      rw [taken_iff] at h
      rw [ih]
      constructor
      · rintro ⟨p, q, he, hp, hf⟩
        refine ⟨y :: p, q, by simp [he], fun x hx => ?_, hf⟩
        rcases List.mem_cons.1 hx with rfl | hx
        · exact h
        · exact hp x hx
      · rintro ⟨p, q, he, hp, hf⟩
        cases p with
        | nil => simp at he; rw [he.1] at h; exact absurd hf h
        | cons a p => simp at he; exact ⟨p, q, he.2, fun x hx => hp x (List.mem_cons_of_mem _ hx), hf⟩

theorem detect_some (w : World) (t l : Nat) : (w.detect t).2 = some l ↔ Uses w t l := by
  have hsearch : (w.search t).2 = some l ↔ w.first w.listed = some l := by
    unfold World.search
    cases h : w.first w.listed <;> simp
  unfold World.detect
  rcases hk : w.link t with _ | x
  · dsimp only
    rw [hsearch, first_some]
    constructor
    · rintro ⟨p, q, he, hp, hf⟩; exact .found p q (by simp [hk]) he hp hf
    · rintro (⟨h, _⟩ | ⟨p, q, _, he, hp, hf⟩)
      · rw [hk] at h; cases h
      · exact ⟨p, q, he, hp, hf⟩
  · dsimp only
    split
    · rename_i hu
      rw [usable_iff] at hu
      constructor
      · intro h; cases h; exact .linked hk hu
      · rintro (⟨h, _⟩ | ⟨p, q, hl, _⟩)
        · rw [hk] at h; cases h; rfl
        · exact absurd hu (hl x hk)
    · rename_i hu
      rw [usable_iff] at hu
      rw [hsearch, first_some]
      constructor
      · rintro ⟨p, q, he, hp, hf⟩
        refine .found p q (fun y hy => ?_) he hp hf
        rw [hk] at hy; cases hy; exact hu
      · rintro (⟨h, hw⟩ | ⟨p, q, _, he, hp, hf⟩)
        · rw [hk] at h; cases h; exact absurd hw hu
        · exact ⟨p, q, he, hp, hf⟩

/-- Detecting changes nothing but the link of the thread. -/
theorem detect_world (w : World) (t : Nat) :
    (w.detect t).1.loops = w.loops ∧ (w.detect t).1.next = w.next ∧ (w.detect t).1.listed = w.listed ∧
      (∀ x, x ≠ t → (w.detect t).1.link x = w.link x) ∧
      (∀ l, (w.detect t).2 = some l → (w.detect t).1.link t = some l) ∧
      (∀ l, w.link t = some l → Works w l → (w.detect t).1 = w) := by
  have hs : (w.search t).1.loops = w.loops ∧ (w.search t).1.next = w.next ∧ (w.search t).1.listed = w.listed ∧
      (∀ x, x ≠ t → (w.search t).1.link x = w.link x) ∧
      (∀ l, (w.search t).2 = some l → (w.search t).1.link t = some l) := by
    unfold World.search
    cases h : w.first w.listed with
    | none => simp
    | some l => simp [World.linked]; intro x hx hh; exact absurd hh hx
  unfold World.detect
  rcases hk : w.link t with _ | x
  · dsimp only
    exact ⟨hs.1, hs.2.1, hs.2.2.1, hs.2.2.2.1, hs.2.2.2.2, by simp⟩
  · dsimp only
    split
    · refine ⟨rfl, rfl, rfl, fun _ _ => rfl, ?_, fun _ _ _ => rfl⟩
      intro l hl; cases hl; exact hk
    · rename_i hu
      rw [usable_iff] at hu
      refine ⟨hs.1, hs.2.1, hs.2.2.1, hs.2.2.2.1, hs.2.2.2.2, ?_⟩
      intro l hl hw
      cases hl
      exact absurd hw hu

/-! ## C362: which loop -/

/-- C362: a loop uses itself; another thread uses the loop it is linked to while that works, else the first one listed
which is not a daemon and runs; if there is none, a RuntimeError is raised. -/
theorem C362_get (w : World) (c : Caller) :
    (∀ l, (w.get c).2 = some l ↔ (c = .loop l ∨ ∃ t, c = .plain t ∧ Uses w t l)) ∧
      ((w.get c).2 = none ↔ ∃ t, c = .plain t ∧ ∀ l, ¬Uses w t l) := by
  cases c with
  | loop n =>
    constructor
    · intro l; simp [World.get]
    · simp [World.get]
  | plain t =>
    have h1 : ∀ l, (w.get (.plain t)).2 = some l ↔ Uses w t l := fun l => detect_some w t l
    constructor
    · intro l; rw [h1]; simp
    · constructor
      · intro h
        refine ⟨t, rfl, fun l hl => ?_⟩
        rw [(h1 l).2 hl] at h
        cases h
      · rintro ⟨t', ht, h⟩
        cases ht
        rcases Option.eq_none_or_eq_some (w.get (.plain t)).2 with h' | ⟨l, h'⟩
        · exact h'
        · exact absurd ((h1 l).1 h') (h l)

/-- C362: what another thread gets works. -/
theorem C362_works (w : World) (t l : Nat) (h : (w.get (.plain t)).2 = some l) : Works w l := by
  rcases (detect_some w t l).1 h with ⟨_, hw⟩ | ⟨p, q, _, _, _, hf⟩
  · exact hw
  · rcases hf with hf | hf
    · exact .created false hf
    · exact .running false hf

example : ((run {} [.create (.plain 0) false, .start 0, .run 0]).get (.plain 7)).2 = some 0 := by decide
example : ((run {} [.create (.plain 0) false, .start 0, .run 0, .stop 0]).get (.plain 0)).2 = none := by decide

/-! ## C363: the loop stays -/

/-- What does not end the use of loop `l` by thread `t`. -/
def Harmless (t l : Nat) : Op → Prop
  | .set (.plain t') _ => t' ≠ t
  | .start l' => l' ≠ l
  | .stop l' => l' ≠ l
  | .collect l' => l' ≠ l
  | _ => True

/-- Loops are made in order. -/
def Made (w : World) : Prop :=
  (∀ x, w.next ≤ x → w.loops x = none) ∧ (∀ x ∈ w.listed, x < w.next) ∧ ∀ t x, w.link t = some x → x < w.next

theorem advance_loops (w : World) (l : Nat) (p : Phase) (x : Nat) :
    (w.advance l p).loops x = if x = l then (w.loops l).map (fun y => { y with phase := p }) else w.loops x := by
  unfold World.advance
  cases h : w.loops l with
  | none => by_cases hx : x = l <;> simp [hx, h]
  | some y => by_cases hx : x = l <;> simp [hx]

theorem advance_rest (w : World) (l : Nat) (p : Phase) : (w.advance l p).next = w.next ∧ (w.advance l p).link = w.link := by
  unfold World.advance
  cases h : w.loops l <;> simp

theorem maybeSet_world (w : World) (c : Caller) (l : Nat) :
    (w.maybeSet c l).loops = w.loops ∧ (w.maybeSet c l).next = w.next ∧
      (∀ t, (∀ t', c = .plain t' → t' ≠ t) → (w.maybeSet c l).link t = w.link t) ∧
      (∀ t, c = .plain t → (∀ x, (w.detect t).2 = some x → (w.maybeSet c l) = (w.detect t).1) ∧
        ((w.detect t).2 = none → (w.maybeSet c l).link t = some l)) := by
  cases c with
  | loop n => simp [World.maybeSet]
  | plain t =>
    have hd := detect_world w t
    unfold World.maybeSet
    dsimp only
    rcases hdt : w.detect t with ⟨w', r⟩
    rw [hdt] at hd
    cases r with
    | none =>
      dsimp only
      refine ⟨hd.1, hd.2.1, fun t' h => ?_, ?_⟩
      · have := h t rfl
        simp [World.linked, Ne.symm this]
        exact hd.2.2.2.1 t' (Ne.symm this)
      · rintro t' h
        cases h
        simp [hdt, World.linked]
    | some x =>
      dsimp only
      refine ⟨hd.1, hd.2.1, fun t' h => hd.2.2.2.1 t' (Ne.symm (h t rfl)), ?_⟩
      rintro t' h
      cases h
      simp [hdt]

theorem detect_listed (w : World) (t x : Nat) (h : (w.detect t).2 = some x) : w.link t = some x ∨ x ∈ w.listed := by
  rcases (detect_some w t x).1 h with ⟨h, _⟩ | ⟨p, q, _, he, _, _⟩
  · exact .inl h
  · right; rw [he]; simp

theorem detect_made (w : World) (t : Nat) (hm : Made w) : Made (w.detect t).1 := by
  have hd := detect_world w t
  refine ⟨fun x hx => ?_, fun x hx => ?_, fun t' x hx => ?_⟩
  · rw [hd.1]; exact hm.1 x (by omega)
  · rw [hd.2.2.1] at hx; have := hm.2.1 x hx; omega
  · have hn := hd.2.1
    by_cases h : t' = t
    · subst h
      rcases Option.eq_none_or_eq_some (w.detect t').2 with h' | ⟨y, h'⟩
      · have : (w.detect t').1 = w := by
          unfold World.detect World.search at h' ⊢
          rcases hk : w.link t' with _ | z
          · rw [hk] at h'
            dsimp only at h' ⊢
            cases hf : w.first w.listed with
            | none => rfl
            | some l => rw [hf] at h'; cases h'
          · rw [hk] at h'
            dsimp only at h' ⊢
            split
            · rfl
            · rename_i hu
              rw [if_neg hu] at h'
              cases hf : w.first w.listed with
              | none => rfl
              | some l => rw [hf] at h'; cases h'
        rw [this] at hx ⊢
        exact hm.2.2 t' x hx
      · rw [hd.2.2.2.2.1 y h'] at hx
        cases hx
        rcases detect_listed w t' x h' with h2 | h2
        · have := hm.2.2 t' x h2; omega
        · have := hm.2.1 x h2; omega
    · rw [hd.2.2.2.1 t' h] at hx
      have := hm.2.2 t' x hx
      omega

theorem make_made (w : World) (d : Bool) (hm : Made w) : Made (w.make d).1 := by
  refine ⟨fun x hx => ?_, fun x hx => ?_, fun t x hx => ?_⟩
  · have hx' : w.next + 1 ≤ x := hx
    simp only [World.make]
    rw [if_neg (by omega)]
    exact hm.1 x (by omega)
  · have := hm.2.1 x hx
    simp [World.make]; omega
  · have := hm.2.2 t x hx
    simp [World.make]; omega

theorem linked_made (w : World) (t l : Nat) (hm : Made w) (h : l < w.next) : Made (w.linked t l) := by
  refine ⟨hm.1, hm.2.1, fun t' x hx => ?_⟩
  simp only [World.linked] at hx ⊢
  split at hx
  · cases hx; exact h
  · exact hm.2.2 t' x hx

theorem works_congr {w w' : World} {l : Nat} (h : w'.loops l = w.loops l) : Works w' l ↔ Works w l := by
  constructor
  · rintro (⟨d, e⟩ | ⟨d, e⟩)
    · exact .created d (h ▸ e)
    · exact .running d (h ▸ e)
  · rintro (⟨d, e⟩ | ⟨d, e⟩)
    · exact .created d (h ▸ e)
    · exact .running d (h ▸ e)

theorem works_lt {w : World} {l : Nat} (hm : Made w) (h : Works w l) : l ≠ w.next := by
  rintro rfl
  have := hm.1 w.next (Nat.le_refl _)
  rcases h with ⟨d, e⟩ | ⟨d, e⟩ <;> rw [this] at e <;> cases e

theorem advance_made (w : World) (l : Nat) (p : Phase) (hm : Made w) : Made (w.advance l p) := by
  have h := advance_rest w l p
  refine ⟨fun x hx => ?_, fun x hx => ?_, fun t x hx => ?_⟩
  · rw [h.1] at hx
    rw [advance_loops]
    split
    · rename_i h; subst h; simp [hm.1 _ hx]
    · exact hm.1 x hx
  · rw [h.1]
    refine hm.2.1 x ?_
    unfold World.advance at hx
    cases hl : w.loops l <;> rw [hl] at hx <;> exact hx
  · rw [h.2] at hx; rw [h.1]; exact hm.2.2 t x hx

theorem maybeSet_made (w : World) (c : Caller) (l : Nat) (hm : Made w) (hl : l < w.next) : Made (w.maybeSet c l) := by
  cases c with
  | loop n => exact hm
  | plain t =>
    have hd := detect_world w t
    have h := detect_made w t hm
    unfold World.maybeSet
    dsimp only
    rcases hdt : w.detect t with ⟨w', r⟩
    rw [hdt] at hd h
    cases r with
    | none => exact linked_made w' t l h (by have := hd.2.1; dsimp only at this; omega)
    | some x => exact h

theorem made_step (w : World) (op : Op) (hm : Made w) : Made (step w op) := by
  cases op with
  | get c => cases c with
    | loop n => exact hm
    | plain t => exact detect_made w t hm
  | getOrCreate c d => cases c with
    | loop n => exact hm
    | plain t =>
      have h := detect_made w t hm
      simp only [step, World.getOrCreate]
      rcases hdt : w.detect t with ⟨w', r⟩
      rw [hdt] at h
      cases r with
      | none => exact linked_made _ _ _ (make_made w' d h) (by simp [World.make])
      | some l => exact h
  | create c d => exact maybeSet_made _ _ _ (make_made w d hm) (Nat.lt_succ_self _)
  | set c l =>
    simp only [step]
    split
    · rename_i h
      cases c with
      | loop n => exact hm
      | plain t => exact linked_made w t l hm h
    · exact hm
  | start l =>
    simp only [step]
    split
    · rename_i h
      have ha := advance_made w l .starting hm
      have hr := advance_rest w l .starting
      refine ⟨ha.1, fun x hx => ?_, ha.2.2⟩
      show x < (w.advance l .starting).next
      rw [hr.1]
      rcases List.mem_append.1 hx with hx | hx
      · exact hm.2.1 x hx
      · simp at hx; omega
    · exact hm
  | run l => exact advance_made w l .running hm
  | stop l =>
    have ha := advance_made w l .ended hm
    have hr := advance_rest w l .ended
    refine ⟨ha.1, fun x hx => ?_, ha.2.2⟩
    show x < (w.advance l .ended).next
    rw [hr.1]
    exact hm.2.1 x (List.mem_filter.1 hx).1
  | collect l =>
    simp only [step]
    split
    · exact hm
    · refine ⟨fun x hx => ?_, hm.2.1, hm.2.2⟩
      dsimp only
      split
      · rfl
      · exact hm.1 x hx

theorem made_empty : Made {} := ⟨fun _ _ => rfl, fun x hx => by simp at hx, fun t x hx => by simp at hx⟩

theorem made_run (ops : List Op) (w : World) (hm : Made w) : Made (run w ops) := by
  induction ops generalizing w with
  | nil => exact hm
  | cons op ops ih => exact ih (step w op) (made_step w op hm)

theorem stays_step (w : World) (t l : Nat) (op : Op) (hm : Made w) (hk : w.link t = some l) (hw : Works w l) (hh : Harmless t l op) :
    (step w op).link t = some l ∧ Works (step w op) l := by
  have hdet : ∀ t', (w.detect t').1.link t = some l ∧ Works (w.detect t').1 l := by
    intro t'
    have hd := detect_world w t'
    refine ⟨?_, (works_congr (by rw [hd.1])).2 hw⟩
    by_cases h : t = t'
    · subst h; rw [hd.2.2.2.2.2 l hk hw]; exact hk
    · rw [hd.2.2.2.1 t h]; exact hk
  have hmake : ∀ d, (w.make d).1.loops l = w.loops l := by
    intro d
    simp [World.make, works_lt hm hw]
  cases op with
  | get c => cases c with
    | loop n => exact ⟨hk, hw⟩
    | plain t' => exact hdet t'
  | getOrCreate c d => cases c with
    | loop n => exact ⟨hk, hw⟩
    | plain t' =>
      have hd := detect_world w t'
      have h0 := hdet t'
      simp only [step, World.getOrCreate]
      rcases hdt : w.detect t' with ⟨w', r⟩
      rw [hdt] at hd h0
      cases r with
      | some x => exact h0
      | none =>
        have hne : t ≠ t' := by
          rintro rfl
          have := (detect_some w t l).2 (.linked hk hw)
          rw [hdt] at this
          cases this
        refine ⟨?_, ?_⟩
        · simp [World.linked, World.make, hne]; exact h0.1
        · refine (works_congr (w := w) ?_).2 hw
          have hl : l ≠ w'.next := by have := works_lt hm hw; have h2 := hd.2.1; dsimp only at h2; omega
          have h1 := hd.1
          dsimp only at h1
          simp [World.linked, World.make, hl, h1]
  | create c d =>
    have h := maybeSet_world (w.make d).1 c (w.make d).2
    have hk' : (w.make d).1.link t = some l := hk
    have hw' : Works (w.make d).1 l := (works_congr (hmake d)).2 hw
    show ((w.make d).1.maybeSet c (w.make d).2).link t = some l ∧ Works ((w.make d).1.maybeSet c (w.make d).2) l
    refine ⟨?_, (works_congr (by rw [h.1])).2 hw'⟩
    by_cases hc : c = .plain t
    · have h3 := h.2.2.2 t hc
      rw [h3.1 l ((detect_some _ t l).2 (.linked hk' hw')), (detect_world _ t).2.2.2.2.2 l hk' hw']
      exact hk'
    · rw [h.2.2.1 t (fun t' e he => hc (by rw [e, he]))]
      exact hk'
  | set c l' =>
    cases c with
    | loop n => simp only [step]; split <;> exact ⟨hk, hw⟩
    | plain t' =>
      have : t ≠ t' := Ne.symm hh
      simp only [step]
      split
      · refine ⟨?_, (works_congr (show (w.linked t' l').loops l = w.loops l from rfl)).2 hw⟩
        simp [World.set, World.linked, this]
        exact hk
      · exact ⟨hk, hw⟩
  | start l' =>
    have : l ≠ l' := Ne.symm hh
    simp only [step]
    split
    · refine ⟨?_, (works_congr (w := w) ?_).2 hw⟩
      · show (w.advance l' .starting).link t = some l
        rw [(advance_rest w l' _).2]; exact hk
      · show (w.advance l' .starting).loops l = w.loops l
        rw [advance_loops, if_neg this]
    · exact ⟨hk, hw⟩
  | run l' =>
    refine ⟨?_, ?_⟩
    · show (w.advance l' .running).link t = some l
      rw [(advance_rest w l' _).2]; exact hk
    · by_cases h : l = l'
      · subst h
        have hl := advance_loops w l .running l
        rw [if_pos rfl] at hl
        rcases hw with ⟨d, e⟩ | ⟨d, e⟩ <;> rw [e] at hl <;> exact .running d hl
      · exact (works_congr (by show (w.advance l' .running).loops l = w.loops l; rw [advance_loops, if_neg h])).2 hw
  | stop l' =>
    have : l ≠ l' := Ne.symm hh
    refine ⟨?_, (works_congr (w := w) ?_).2 hw⟩
    · show (w.advance l' .ended).link t = some l
      rw [(advance_rest w l' _).2]; exact hk
    · show (w.advance l' .ended).loops l = w.loops l
      rw [advance_loops, if_neg this]
  | collect l' =>
    have : l ≠ l' := Ne.symm hh
    simp only [step]
    split
    · exact ⟨hk, hw⟩
    · exact ⟨hk, (works_congr (by simp [this])).2 hw⟩

/-- C363: a thread which got a loop gets the same one ever after, whatever other threads and loops do, until that loop is
started, ended or freed or another one is set for the thread. -/
theorem C363_stays_partial (before ops : List Op) (t l : Nat) (h : ((run {} before).get (.plain t)).2 = some l)
    (hh : ∀ op ∈ ops, Harmless t l op) :
    ((run (step (run {} before) (.get (.plain t))) ops).get (.plain t)).2 = some l := by
  have hm0 : Made (run {} before) := made_run before {} made_empty
  have hd := detect_world (run {} before) t
  have hw0 := C362_works _ t l h
  have key : ∀ (ops : List Op) (w : World), Made w → w.link t = some l → Works w l → (∀ op ∈ ops, Harmless t l op) →
      ((run w ops).get (.plain t)).2 = some l := by
    intro ops
    induction ops with
    | nil => intro w _ hk hw _; exact (detect_some w t l).2 (.linked hk hw)
    | cons op ops ih =>
      intro w hm hk hw hh
      obtain ⟨h1, h2⟩ := stays_step w t l op hm hk hw (hh op List.mem_cons_self)
      exact ih (step w op) (made_step w op hm) h1 h2 (fun o ho => hh o (List.mem_cons_of_mem _ ho))
  exact key ops _ (made_step _ _ hm0) (hd.2.2.2.2.1 l h) ((works_congr (by show (World.detect _ t).1.loops l = _; rw [hd.1])).2 hw0) hh

/-- C363: but while its loop is starting, it is taken for a stopped one: the thread gets another loop and keeps that, though
its own runs afterwards. -/
theorem C363_starting_violated :
    let w := run {} [.create (.plain 0) false, .create (.plain 1) false, .start 1, .run 1]
    (w.get (.plain 0)).2 = some 0 ∧
      ((run w [.start 0]).get (.plain 0)).2 = some 1 ∧
      ((run w [.start 0, .get (.plain 0), .run 0]).get (.plain 0)).2 = some 1 ∧
      ((run w [.start 0, .run 0]).get (.plain 0)).2 = some 0 := by
  decide

/-! ## C364: creating -/

theorem make_uses (w : World) (d : Bool) (t l : Nat) (hm : Made w) : Uses (w.make d).1 t l ↔ Uses w t l := by
  have hl : ∀ x, x < w.next → (w.make d).1.loops x = w.loops x := by
    intro x hx
    simp [World.make, show x ≠ w.next by omega]
  have hf : ∀ x, x < w.next → (Found (w.make d).1 x ↔ Found w x) := by
    intro x hx
    unfold Found
    rw [hl x hx]
  constructor
  · rintro (⟨h, hw⟩ | ⟨p, q, h, he, hp, hfd⟩)
    · exact .linked h ((works_congr (hl l (hm.2.2 t l h))).1 hw)
    · have he' : w.listed = p ++ l :: q := he
      refine .found p q (fun x hx hwx => h x hx ((works_congr (hl x (hm.2.2 t x hx))).2 hwx)) he' (fun x hx hfx => hp x hx ?_) ?_
      · exact (hf x (hm.2.1 x (by rw [he']; simp [hx]))).2 hfx
      · exact (hf l (hm.2.1 l (by rw [he']; simp))).1 hfd
  · rintro (⟨h, hw⟩ | ⟨p, q, h, he, hp, hfd⟩)
    · exact .linked h ((works_congr (hl l (hm.2.2 t l h))).2 hw)
    · refine .found p q (fun x hx hwx => h x hx ((works_congr (hl x (hm.2.2 t x hx))).1 hwx)) he (fun x hx hfx => hp x hx ?_) ?_
      · exact (hf x (hm.2.1 x (by rw [he]; simp [hx]))).1 hfx
      · exact (hf l (hm.2.1 l (by rw [he]; simp))).2 hfd

/-- C364: `get_or_create_event_loop` gives what `get_event_loop` would, or makes a new loop, which is got from then on. -/
theorem C364_get_or_create (before : List Op) (t : Nat) (d : Bool) :
    let w := run {} before
    (∀ l, (w.get (.plain t)).2 = some l →
        (w.getOrCreate (.plain t) d).2 = l ∧ ((w.getOrCreate (.plain t) d).1.get (.plain t)).2 = some l ∧
          (w.getOrCreate (.plain t) d).1.loops = w.loops) ∧
      ((w.get (.plain t)).2 = none →
        w.loops (w.getOrCreate (.plain t) d).2 = none ∧
          (w.getOrCreate (.plain t) d).1.loops (w.getOrCreate (.plain t) d).2 = some ⟨d, .created⟩ ∧
          ((w.getOrCreate (.plain t) d).1.get (.plain t)).2 = some (w.getOrCreate (.plain t) d).2) := by
  intro w
  have hm : Made w := made_run before {} made_empty
  have hd := detect_world w t
  constructor
  · intro l h
    have hw := C362_works w t l h
    have h' : (w.detect t).2 = some l := h
    have hdl := hd.2.2.2.2.1 l h'
    have e : w.getOrCreate (.plain t) d = ((w.detect t).1, l) := by
      simp only [World.getOrCreate]
      rcases hdt : w.detect t with ⟨w', r⟩
      rw [hdt] at h'
      dsimp only at h'
      subst h'
      rfl
    refine ⟨by rw [e], ?_, by rw [e]; exact hd.1⟩
    rw [e]
    exact (detect_some _ t l).2 (.linked hdl ((works_congr (by rw [hd.1])).2 hw))
  · intro h
    have h' : (w.detect t).2 = none := h
    have e : w.getOrCreate (.plain t) d = ((((w.detect t).1).make d).1.linked t w.next, w.next) := by
      simp only [World.getOrCreate]
      rcases hdt : w.detect t with ⟨w', r⟩
      rw [hdt] at h' hd
      dsimp only at h'
      subst h'
      have := hd.2.1
      dsimp only at this
      simp [World.make, this]
    have hn := hd.2.1
    have hl : ((((w.detect t).1).make d).1.linked t w.next).loops w.next = some ⟨d, .created⟩ := by
      simp [World.linked, World.make, hn]
    rw [e]
    refine ⟨hm.1 _ (Nat.le_refl _), hl, ?_⟩
    exact (detect_some _ t _).2 (.linked (by simp [World.linked]) (.created d hl))

/-- C364: `create_event_loop` always makes a new loop; the thread gets what it would have got, or the new one if there was
none; a loop goes on using itself. -/
theorem C364_create (before : List Op) (t : Nat) (d : Bool) :
    let w := run {} before
    w.loops (w.create (.plain t) d).2 = none ∧
      (w.create (.plain t) d).1.loops (w.create (.plain t) d).2 = some ⟨d, .created⟩ ∧
      (∀ l, (w.get (.plain t)).2 = some l → ((w.create (.plain t) d).1.get (.plain t)).2 = some l) ∧
      ((w.get (.plain t)).2 = none → ((w.create (.plain t) d).1.get (.plain t)).2 = some (w.create (.plain t) d).2) ∧
      ∀ n, ((w.create (.loop n) d).1.get (.loop n)).2 = some n ∧ (w.create (.loop n) d).1.link = w.link := by
  intro w
  have hm : Made w := made_run before {} made_empty
  have hs := maybeSet_world (w.make d).1 (.plain t) (w.make d).2
  have hu := fun l => make_uses w d t l hm
  have hnew : (w.create (.plain t) d).1.loops w.next = some ⟨d, .created⟩ := by
    show ((w.make d).1.maybeSet (.plain t) (w.make d).2).loops w.next = _
    rw [hs.1]
    simp [World.make]
  refine ⟨hm.1 _ (Nat.le_refl _), hnew, fun l h => ?_, fun h => ?_, fun n => ⟨rfl, rfl⟩⟩
  · have h1 : ((w.make d).1.detect t).2 = some l := (detect_some _ t l).2 ((hu l).2 ((detect_some w t l).1 h))
    have hd := detect_world (w.make d).1 t
    have hw := C362_works (w.make d).1 t l h1
    show (((w.make d).1.maybeSet (.plain t) (w.make d).2).detect t).2 = some l
    rw [(hs.2.2.2 t rfl).1 l h1]
    exact (detect_some _ t l).2 (.linked (hd.2.2.2.2.1 l h1) ((works_congr (by rw [hd.1])).2 hw))
  · have h1 : ((w.make d).1.detect t).2 = none := by
      rcases Option.eq_none_or_eq_some ((w.make d).1.detect t).2 with h' | ⟨l, h'⟩
      · exact h'
      · have := (detect_some w t l).2 ((hu l).1 ((detect_some _ t l).1 h'))
        have h0 : (w.detect t).2 = none := h
        rw [h0] at this
        cases this
    exact (detect_some _ t _).2 (.linked ((hs.2.2.2 t rfl).2 h1) (.created d hnew))

/-! ## C365: one loop for all -/

/-- C365: threads which use no loop yet get the same one, if one is listed which may be found. -/
theorem C365_same_partial (w : World) (t1 t2 l : Nat) (h1 : ∀ x, w.link t1 = some x → ¬Works w x)
    (h2 : ∀ x, w.link t2 = some x → ¬Works w x) (h : (w.get (.plain t1)).2 = some l) (d : Bool) :
    ((step w (.get (.plain t1))).getOrCreate (.plain t2) d).2 = l := by
  have hd := detect_world w t1
  by_cases ht : t2 = t1
  · subst ht
    have hw := C362_works w t2 l h
    have hu : Uses (w.detect t2).1 t2 l := .linked (hd.2.2.2.2.1 l h) ((works_congr (by rw [hd.1])).2 hw)
    have := (detect_some _ t2 l).2 hu
    show ((w.detect t2).1.getOrCreate (.plain t2) d).2 = l
    simp only [World.getOrCreate]
    rcases hdt : (w.detect t2).1.detect t2 with ⟨w', r⟩
    rw [hdt] at this
    dsimp only at this
    subst this
    rfl
  · rcases (detect_some w t1 l).1 h with ⟨hk, hw⟩ | ⟨p, q, _, he, hp, hf⟩
    · exact absurd hw (h1 l hk)
    · have hlk : (w.detect t1).1.link t2 = w.link t2 := hd.2.2.2.1 t2 ht
      have hu : Uses (w.detect t1).1 t2 l := by
        refine .found p q (fun x hx hwx => ?_) (by rw [hd.2.2.1]; exact he) (fun x hx hfx => hp x hx ?_) ?_
        · rw [hlk] at hx
          exact h2 x hx ((works_congr (by rw [hd.1])).1 hwx)
        · unfold Found at hfx ⊢; rw [hd.1] at hfx; exact hfx
        · unfold Found at hf ⊢; rw [hd.1]; exact hf
      have := (detect_some _ t2 l).2 hu
      show ((w.detect t1).1.getOrCreate (.plain t2) d).2 = l
      simp only [World.getOrCreate]
      rcases hdt : (w.detect t1).1.detect t2 with ⟨w', r⟩
      rw [hdt] at this
      dsimp only at this
      subst this
      rfl

/-- C365: but a loop which was not started yet, or which is a daemon, is not found by other threads: they make further
ones. -/
theorem C365_many_violated (d : Bool) :
    let w := run {} [.getOrCreate (.plain 0) d]
    (w.get (.plain 0)).2 = some 0 ∧ (w.getOrCreate (.plain 1) d).2 = 1 ∧
      ((run w [.start 0, .run 0]).getOrCreate (.plain 1) d).2 = (if d then 1 else 0) := by
  cases d <;> decide

/-! ## C366: waking up -/

/-- C366: a task or a future is made on the loop given, else on the one of the thread; that loop is woken up exactly if it
is not the caller. -/
theorem C366_woken (w : World) (c : Caller) (given : Option Nat) (l : Nat) (woken : List Nat)
    (h : (w.createTask c given).2 = some (l, woken)) :
    (given = some l ∨ (given = none ∧ (w.get c).2 = some l)) ∧ (c = .loop l → woken = []) ∧ (c ≠ .loop l → woken = [l]) := by
  unfold World.createTask World.owner at h
  cases given with
  | some g =>
    simp at h
    obtain ⟨rfl, rfl⟩ := h
    refine ⟨.inl rfl, fun hc => by simp [hc], fun hc => by simp [hc]⟩
  | none =>
    cases c with
    | loop n =>
      simp at h
      obtain ⟨rfl, rfl⟩ := h
      exact ⟨.inr ⟨rfl, rfl⟩, fun _ => rfl, fun hc => absurd rfl hc⟩
    | plain t =>
      dsimp only at h
      rcases hdt : w.detect t with ⟨w', r⟩
      rw [hdt] at h
      cases r with
      | none => simp at h
      | some x =>
        simp at h
        obtain ⟨rfl, rfl⟩ := h
        refine ⟨.inr ⟨rfl, ?_⟩, (fun hc => by simp at hc), fun _ => rfl⟩
        simp [World.get, hdt]

/-- C366: it fails exactly if no loop is given and there is none for the thread. -/
theorem C366_failed (w : World) (c : Caller) (given : Option Nat) :
    (w.createTask c given).2 = none ↔ given = none ∧ (w.get c).2 = none := by
  unfold World.createTask World.owner
  cases given with
  | some g => simp
  | none =>
    cases c with
    | loop n => simp [World.get]
    | plain t =>
      dsimp only [World.get]
      rcases hdt : w.detect t with ⟨w', r⟩
      cases r <;> simp

example : ((run {} [.create (.plain 0) false, .start 0, .run 0]).createTask (.plain 3) none).2 = some (0, [0]) := by decide

/-! ## C367: setting -/

/-- C367: a loop which works and was set for a thread is got by it; no other thread is changed; a loop itself cannot set
one. -/
theorem C367_set_partial (w : World) (t l : Nat) (h : Works w l) :
    (w.set (.plain t) l).2 = true ∧ ((w.set (.plain t) l).1.get (.plain t)).2 = some l ∧
      (∀ t', t' ≠ t → (w.set (.plain t) l).1.link t' = w.link t') ∧ ∀ n, w.set (.loop n) l = (w, false) := by
  refine ⟨rfl, ?_, fun t' ht => by simp [World.set, World.linked, ht], fun n => rfl⟩
  exact (detect_some _ t l).2 (.linked (by simp [World.set, World.linked]) ((works_congr (show (w.linked t l).loops l = w.loops l from rfl)).2 h))

/-- C367: but one which ended, or is starting, is set without an error, and never got. -/
theorem C367_stopped_violated (w : World) (t l : Nat) (h : ¬Works w l) :
    (w.set (.plain t) l).2 = true ∧ ((w.set (.plain t) l).1.get (.plain t)).2 ≠ some l := by
  refine ⟨rfl, fun he => h ?_⟩
  exact (works_congr (show (w.linked t l).loops l = w.loops l from rfl)).1 (C362_works (w.linked t l) t l he)

end Verif.Loops
