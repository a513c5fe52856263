import Verif.Attributes.Props

/-!
# Proxies
-/

namespace Verif.Attributes

/-- What is expected: every proxy has its own overwrites. -/
structure Spec where
  count : Nat
  object : Nat → Nat
  over : Nat → Nat → Option Nat

/-- A further proxy. -/
def Spec.add (s : Spec) (object : Nat) (over : Nat → Option Nat) : Spec where
  count := s.count + 1
  object j := if j = s.count then object else s.object j
  over j := if j = s.count then over else s.over j

/-- One operation on proxies, as expected. -/
inductive Spec.Step : Spec → Op → Spec → Prop
  | new (s : Spec) (o : Nat) : Step s (.new o) (s.add o fun _ => none)
  | again (s : Spec) (i : Nat) : i < s.count → Step s (.again i) (s.add (s.object i) (s.over i))
  | deep (s : Spec) (i : Nat) : i < s.count → Step s (.deep i) (s.add (s.object i) (s.over i))
  | clean (s : Spec) (i : Nat) : i < s.count → Step s (.clean i) (s.add (s.object i) fun _ => none)
  | set (s : Spec) (i n v : Nat) : i < s.count →
    Step s (.set i n v) { s with over := fun j m => if j = i ∧ m = n then some v else s.over j m }
  | del (s : Spec) (i n : Nat) : i < s.count →
    Step s (.del i n) { s with over := fun j m => if j = i ∧ m = n then none else s.over j m }

/-- Many operations. -/
inductive Spec.Run : List Op → Spec → Prop
  | nil : Run [] ⟨0, fun _ => 0, fun _ _ => none⟩
  | snoc (ops : List Op) (s : Spec) (op : Op) (s' : Spec) : Run ops s → Spec.Step s op s' → Run (ops ++ [op]) s'

/-- What a proxy overwrites. -/
def overwritten (w : World) (p : Proxy) (name : Nat) : Option Nat :=
  match p.overwrites with
  | none => none
  | some d => look (w.dicts d) name

/-- The world is as expected. -/
structure Rel (w : World) (s : Spec) : Prop where
  count : w.count = s.count
  object : ∀ i, i < w.count → (w.proxies i).proxied = s.object i
  over : ∀ i, i < w.count → ∀ n, overwritten w (w.proxies i) n = s.over i n
  below : ∀ i d, i < w.count → (w.proxies i).overwrites = some d → d < w.next
  own : ∀ i j d, i < w.count → j < w.count → (w.proxies i).overwrites = some d → (w.proxies j).overwrites = some d → i = j
  filled : ∀ i d, i < w.count → (w.proxies i).overwrites = some d → w.dicts d ≠ []

theorem rel_add_none (w : World) (s : Spec) (h : Rel w s) (o : Nat) : Rel (w.add ⟨none, o⟩) (s.add o fun _ => none) where
  count := by simp [World.add, Spec.add, h.count]
  object i hi := by
    simp only [World.add, Spec.add, upd] at hi ⊢
    rw [← h.count]
    by_cases e : i = w.count
    · simp [e]
    · rw [if_neg e, if_neg e]; exact h.object i (by omega)
  over i hi n := by
    simp only [World.add, Spec.add, upd] at hi ⊢
    rw [← h.count]
    by_cases e : i = w.count
    · simp [e, overwritten]
    · rw [if_neg e, if_neg e]; exact h.over i (by omega) n
  below i d hi hd := by
    simp only [World.add, upd] at hi hd ⊢
    by_cases e : i = w.count
    · simp [e] at hd
    · rw [if_neg e] at hd; exact h.below i d (by omega) hd
  own i j d hi hj hid hjd := by
    simp only [World.add, upd] at hi hj hid hjd
    by_cases e : i = w.count
    · simp [e] at hid
    · by_cases e' : j = w.count
      · simp [e'] at hjd
      · rw [if_neg e] at hid; rw [if_neg e'] at hjd
        exact h.own i j d (by omega) (by omega) hid hjd
  filled i d hi hd := by
    simp only [World.add, upd] at hi hd ⊢
    by_cases e : i = w.count
    · simp [e] at hd
    · rw [if_neg e] at hd; exact h.filled i d (by omega) hd

theorem over_of_some (w : World) (s : Spec) (h : Rel w s) (i d : Nat) (hi : i < w.count) (hd : (w.proxies i).overwrites = some d) (n : Nat) :
    s.over i n = look (w.dicts d) n := by
  rw [← h.over i hi n, overwritten, hd]

theorem over_of_none (w : World) (s : Spec) (h : Rel w s) (i : Nat) (hi : i < w.count) (hd : (w.proxies i).overwrites = none) (n : Nat) :
    s.over i n = none := by
  rw [← h.over i hi n, overwritten, hd]

theorem spec_add_congr (s : Spec) (o o' : Nat) (f g : Nat → Option Nat) (h1 : o = o') (h2 : f = g) : s.add o f = s.add o' g := by
  rw [h1, h2]

theorem rel_deep (w : World) (s : Spec) (h : Rel w s) (i : Nat) (hi : i < w.count) : Rel (copyDeep w i) (s.add (s.object i) (s.over i)) := by
  unfold copyDeep
  rcases Option.eq_none_or_eq_some (w.proxies i).overwrites with ho | ⟨d, ho⟩
  · rw [ho]
    dsimp only
    rw [h.object i hi, spec_add_congr s _ (s.object i) (s.over i) (fun _ => none) rfl (funext (over_of_none w s h i hi ho))]
    exact rel_add_none w s h (s.object i)
  · rw [ho]
    dsimp only
    have hdn := h.below i d hi ho
    refine ⟨by simp [World.add, Spec.add, h.count], ?_, ?_, ?_, ?_, ?_⟩
    · intro j hj
      simp only [World.add, Spec.add, upd] at hj ⊢
      rw [← h.count]
      by_cases e : j = w.count
      · simp [e, h.object i hi]
      · rw [if_neg e, if_neg e]; exact h.object j (by omega)
    · intro j hj n
      simp only [World.add, Spec.add] at hj ⊢
      rw [← h.count]
      by_cases e : j = w.count
      · simp [e, overwritten, upd, over_of_some w s h i d hi ho]
      · rw [if_neg e]
        have hj' : j < w.count := by omega
        rw [← h.over j hj' n]
        simp only [overwritten, upd, if_neg e]
        rcases Option.eq_none_or_eq_some (w.proxies j).overwrites with hp | ⟨d', hp⟩
        · rw [hp]
        · rw [hp]
          dsimp only
          have := h.below j d' hj' hp
          rw [if_neg (by omega)]
    · intro j d' hj hd'
      simp only [World.add, upd] at hj hd' ⊢
      by_cases e : j = w.count
      · simp [e] at hd'; omega
      · rw [if_neg e] at hd'
        have := h.below j d' (by omega) hd'
        omega
    · intro j k d' hj hk hjd hkd
      simp only [World.add, upd] at hj hk hjd hkd
      by_cases e : j = w.count
      · by_cases e' : k = w.count
        · omega
        · simp [e] at hjd
          rw [if_neg e'] at hkd
          have := h.below k d' (by omega) hkd
          omega
      · rw [if_neg e] at hjd
        by_cases e' : k = w.count
        · simp [e'] at hkd
          have := h.below j d' (by omega) hjd
          omega
        · rw [if_neg e'] at hkd
          exact h.own j k d' (by omega) (by omega) hjd hkd
    · intro j d' hj hd'
      simp only [World.add, upd] at hj hd' ⊢
      by_cases e : j = w.count
      · simp [e] at hd'
        rw [if_pos hd'.symm]
        exact h.filled i d hi ho
      · rw [if_neg e] at hd'
        have := h.below j d' (by omega) hd'
        rw [if_neg (by omega)]
        exact h.filled j d' (by omega) hd'

theorem rel_set (w : World) (s : Spec) (h : Rel w s) (i name value : Nat) (hi : i < w.count) :
    Rel (setOverwrite w i name value) { s with over := fun j m => if j = i ∧ m = name then some value else s.over j m } := by
  unfold setOverwrite
  rcases Option.eq_none_or_eq_some (w.proxies i).overwrites with ho | ⟨d, ho⟩
  · rw [ho]
    dsimp only
    refine ⟨h.count, ?_, ?_, ?_, ?_, ?_⟩
    · intro j hj
      simp only [upd]
      by_cases e : j = i
      · subst e; simpa using h.object j hj
      · rw [if_neg e]; exact h.object j hj
    · intro j hj n
      simp only [overwritten, upd]
      by_cases e : j = i
      · subst e
        simp [look_put, over_of_none w s h j hj ho, look, eq_comm]
      · rw [if_neg e]
        rw [if_neg (by simp [e]), ← h.over j hj n, overwritten]
        rcases Option.eq_none_or_eq_some (w.proxies j).overwrites with hp | ⟨d', hp⟩
        · rw [hp]
        · rw [hp]
          dsimp only
          have := h.below j d' hj hp
          rw [if_neg (by omega)]
    · intro j d' hj hd'
      simp only [upd] at hd' ⊢
      by_cases e : j = i
      · simp [e] at hd'; omega
      · rw [if_neg e] at hd'
        have := h.below j d' hj hd'
        omega
    · intro j k d' hj hk hjd hkd
      simp only [upd] at hjd hkd
      by_cases e : j = i
      · by_cases e' : k = i
        · omega
        · simp [e] at hjd
          rw [if_neg e'] at hkd
          have := h.below k d' hk hkd
          omega
      · rw [if_neg e] at hjd
        by_cases e' : k = i
        · simp [e'] at hkd
          have := h.below j d' hj hjd
          omega
        · rw [if_neg e'] at hkd
          exact h.own j k d' hj hk hjd hkd
    · intro j d' hj hd'
      simp only [upd] at hd' ⊢
      by_cases e : j = i
      · simp [e] at hd'
        rw [if_pos hd'.symm]
        exact put_ne _ _ _
      · rw [if_neg e] at hd'
        have := h.below j d' hj hd'
        rw [if_neg (by omega)]
        exact h.filled j d' hj hd'
  · rw [ho]
    dsimp only
    refine ⟨h.count, h.object, ?_, h.below, h.own, ?_⟩
    · intro j hj n
      simp only [overwritten, upd]
      by_cases e : j = i
      · subst e
        rw [ho]
        dsimp only
        rw [if_pos rfl, look_put, over_of_some w s h j d hj ho]
        by_cases e' : name = n
        · simp [e']
        · rw [if_neg e', if_neg (by simp [Ne.symm e'])]
      · rw [if_neg (by simp [e]), ← h.over j hj n, overwritten]
        rcases Option.eq_none_or_eq_some (w.proxies j).overwrites with hp | ⟨d', hp⟩
        · rw [hp]
        · rw [hp]
          dsimp only
          rw [if_neg]
          intro e'
          subst e'
          exact e (h.own j i d' hj hi hp ho)
    · intro j d' hj hd'
      simp only [upd]
      by_cases e : d' = d
      · rw [if_pos e]; exact put_ne _ _ _
      · rw [if_neg e]; exact h.filled j d' hj hd'

theorem rel_del (w : World) (s : Spec) (h : Rel w s) (i name : Nat) (hi : i < w.count) :
    Rel (delOverwrite w i name) { s with over := fun j m => if j = i ∧ m = name then none else s.over j m } := by
  have same : s.over i name = none → Rel w { s with over := fun j m => if j = i ∧ m = name then none else s.over j m } := by
    intro hn
    have : (fun j m => if j = i ∧ m = name then none else s.over j m) = s.over := by
      funext j m
      by_cases e : j = i ∧ m = name
      · rw [if_pos e, e.1, e.2, hn]
      · rw [if_neg e]
    rw [this]
    exact h
  unfold delOverwrite
  rcases Option.eq_none_or_eq_some (w.proxies i).overwrites with ho | ⟨d, ho⟩
  · rw [ho]
    exact same (over_of_none w s h i hi ho name)
  · rw [ho]
    dsimp only
    rcases Option.eq_none_or_eq_some (look (w.dicts d) name) with hl | ⟨v, hl⟩
    · rw [hl]
      exact same (by rw [over_of_some w s h i d hi ho, hl])
    · rw [hl]
      dsimp only
      have hover : ∀ n, look (remove (w.dicts d) name) n = if n = name then none else s.over i n := by
        intro n
        rw [look_remove, over_of_some w s h i d hi ho]
        by_cases e : name = n
        · simp [e]
        · rw [if_neg e, if_neg (Ne.symm e)]
      have hother : ∀ j, j < w.count → j ≠ i → ∀ n, overwritten { w with dicts := upd w.dicts d (remove (w.dicts d) name) } (w.proxies j) n = s.over j n := by
        intro j hj e n
        rw [← h.over j hj n]
        simp only [overwritten, upd]
        rcases Option.eq_none_or_eq_some (w.proxies j).overwrites with hp | ⟨d', hp⟩
        · rw [hp]
        · rw [hp]
          dsimp only
          rw [if_neg]
          intro e'
          subst e'
          exact e (h.own j i d' hj hi hp ho)
      split
      · rename_i hnil
        refine ⟨h.count, ?_, ?_, ?_, ?_, ?_⟩
        · intro j hj
          simp only [upd]
          by_cases e : j = i
          · subst e; simpa using h.object j hj
          · rw [if_neg e]; exact h.object j hj
        · intro j hj n
          by_cases e : j = i
          · subst e
            have := hover n
            rw [hnil] at this
            simp only [overwritten, upd, if_true, true_and]
            rw [← this]; rfl
          · have := hother j hj e n
            simp only [overwritten, upd, if_neg e] at this ⊢
            rw [if_neg (by simp [e])]
            exact this
        · intro j d' hj hd'
          simp only [upd] at hd'
          by_cases e : j = i
          · simp [e] at hd'
          · rw [if_neg e] at hd'; exact h.below j d' hj hd'
        · intro j k d' hj hk hjd hkd
          simp only [upd] at hjd hkd
          by_cases e : j = i
          · simp [e] at hjd
          · by_cases e' : k = i
            · simp [e'] at hkd
            · rw [if_neg e] at hjd; rw [if_neg e'] at hkd
              exact h.own j k d' hj hk hjd hkd
        · intro j d' hj hd'
          simp only [upd] at hd' ⊢
          by_cases e : j = i
          · simp [e] at hd'
          · rw [if_neg e] at hd'
            rw [if_neg]
            · exact h.filled j d' hj hd'
            · intro e'; subst e'; exact e (h.own j i d' hj hi hd' ho)
      · rename_i hne
        refine ⟨h.count, h.object, ?_, h.below, h.own, ?_⟩
        · intro j hj n
          by_cases e : j = i
          · subst e
            simp only [overwritten, upd, ho, if_true, true_and]
            exact hover n
          · have := hother j hj e n
            dsimp only
            rw [if_neg (by simp [e])]
            exact this
        · intro j d' hj hd'
          simp only [upd]
          by_cases e : d' = d
          · rw [if_pos e]; exact hne
          · rw [if_neg e]; exact h.filled j d' hj hd'

theorem rel_step (w : World) (s s' : Spec) (op : Op) (h : Rel w s) (hs : Spec.Step s op s') : Rel (step w op) s' := by
  cases hs with
  | new o => exact rel_add_none w s h o
  | again i hi => rw [← h.count] at hi; rw [step, if_pos hi]; exact rel_deep w s h i hi
  | deep i hi => rw [← h.count] at hi; rw [step, if_pos hi]; exact rel_deep w s h i hi
  | clean i hi =>
    rw [← h.count] at hi
    rw [step, if_pos hi, copyClean, h.object i hi]
    exact rel_add_none w s h _
  | set i n v hi => rw [← h.count] at hi; rw [step, if_pos hi]; exact rel_set w s h i n v hi
  | del i n hi => rw [← h.count] at hi; rw [step, if_pos hi]; exact rel_del w s h i n hi

theorem rel_run (ops : List Op) (s : Spec) (h : Spec.Run ops s) : Rel (run {} ops) s := by
  induction h with
  | nil =>
    refine ⟨rfl, ?_, ?_, ?_, ?_, ?_⟩
    · intro i hi; exact absurd hi (Nat.not_lt_zero _)
    · intro i hi; exact absurd hi (Nat.not_lt_zero _)
    · intro i d hi; exact absurd hi (Nat.not_lt_zero _)
    · intro i j d hi; exact absurd hi (Nat.not_lt_zero _)
    · intro i d hi; exact absurd hi (Nat.not_lt_zero _)
  | snoc ops s op s' _ hs ih =>
    rw [run, List.foldl_append]
    exact rel_step _ s s' op ih hs

/-- C322: an attribute of a proxy is what this proxy overwrites, or else that of the proxied object; changing one
proxy changes no other, and copies keep the overwrites or have none. -/
theorem C322_values (getattr : Nat → Nat → Option Nat) (ops : List Op) (s : Spec) (h : Spec.Run ops s) (i name : Nat)
    (hi : i < s.count) :
    getValue getattr (run {} ops) i name =
      match s.over i name with
      | some v => some v
      | none => getattr (s.object i) name := by
  have hr := rel_run ops s h
  have hi' : i < (run {} ops).count := by rw [hr.count]; exact hi
  have ho := hr.over i hi' name
  unfold getValue getOverwrite
  unfold overwritten at ho
  rcases Option.eq_none_or_eq_some ((run {} ops).proxies i).overwrites with hp | ⟨d, hp⟩
  · rw [hp] at ho ⊢
    dsimp only at ho ⊢
    rw [← ho, hr.object i hi']
  · rw [hp] at ho ⊢
    dsimp only at ho ⊢
    rw [← ho]
    cases look ((run {} ops).dicts d) name with
    | none => dsimp only; rw [hr.object i hi']
    | some v => rfl

/-- C323: a proxy has a dictionary of overwrites exactly while it overwrites something, and has it alone. -/
theorem C323_dictionaries (ops : List Op) (s : Spec) (h : Spec.Run ops s) (i : Nat) (hi : i < s.count) :
    (((run {} ops).proxies i).overwrites ≠ none ↔ ∃ name v, s.over i name = some v) ∧
      ∀ j d, j < s.count → ((run {} ops).proxies i).overwrites = some d → ((run {} ops).proxies j).overwrites = some d → i = j := by
  have hr := rel_run ops s h
  have hi' : i < (run {} ops).count := by rw [hr.count]; exact hi
  refine ⟨?_, fun j d hj => hr.own i j d hi' (by rw [hr.count]; exact hj)⟩
  constructor
  · intro hne
    rcases Option.eq_none_or_eq_some ((run {} ops).proxies i).overwrites with hp | ⟨d, hp⟩
    · exact absurd hp hne
    · have hf := hr.filled i d hi' hp
      cases hd : (run {} ops).dicts d with
      | nil => exact absurd hd hf
      | cons e l =>
        obtain ⟨k, v⟩ := e
        exact ⟨k, v, by rw [over_of_some _ s hr i d hi' hp, hd]; simp [look]⟩
  · rintro ⟨name, v, hv⟩ hp
    rw [over_of_none _ s hr i hi' hp] at hv
    cases hv

/-- A copy does not follow what is set later. -/
example : let w := run {} [.new 9, .set 0 1 5, .deep 0, .set 0 1 6, .clean 1, .del 1 1]
    getValue (fun o n => some (100 * o + n)) w 0 1 = some 6 ∧ getValue (fun o n => some (100 * o + n)) w 1 1 = some 901 ∧
      getValue (fun o n => some (100 * o + n)) w 2 1 = some 901 ∧ (w.proxies 1).overwrites = none := by decide

end Verif.Attributes
