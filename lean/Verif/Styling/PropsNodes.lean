import Verif.Styling.Model

/-!
# Styling: details of the types of tokens
-/

namespace Verif.Styling

/-- A node has a lower parent. -/
def Ordered (parent : Nat → Option Nat) : Prop := ∀ u p, parent u = some p → p < u

/-- What was set: for every node the detail given last, `none` when none was or it was removed. -/
abbrev Given := Nat → Option Nat

/-- The detail a node shall have: its own, or the one its parent shall have. -/
inductive Shall (parent : Nat → Option Nat) (g : Given) : Nat → Option Nat → Prop
  | own (u x : Nat) : g u = some x → Shall parent g u (some x)
  | inherited (u p : Nat) (d : Option Nat) : g u = none → parent u = some p → Shall parent g p d → Shall parent g u d
  | nothing (u : Nat) : g u = none → parent u = none → Shall parent g u none

/-- What is called: `set_detail` of a node. -/
def calls (N : Nodes) : List (Nat × Option Nat) → Nodes
  | [] => N
  | (v, d) :: cs => calls (setDetail N v d true) cs

/-- What was given last. -/
def given (g : Given) : List (Nat × Option Nat) → Given
  | [] => g
  | (v, d) :: cs => given (fun u => if u = v then d else g u) cs

structure Inv (N : Nodes) (g : Given) : Prop where
  direct : ∀ u, N.direct u = true ↔ g u ≠ none
  own : ∀ u x, g u = some x → N.detail u = some x
  inherited : ∀ u p, g u = none → N.parent u = some p → N.detail u = N.detail p
  nothing : ∀ u, g u = none → N.parent u = none → N.detail u = none

theorem Inv.shall {N : Nodes} {g : Given} (h : Inv N g) (ho : Ordered N.parent) (u : Nat) :
    Shall N.parent g u (N.detail u) := by
  induction u using Nat.strongRecOn with
  | _ u ih =>
    cases hg : g u with
    | some x => rw [h.own u x hg]; exact .own u x hg
    | none =>
      cases hp : N.parent u with
      | none => rw [h.nothing u hg hp]; exact .nothing u hg hp
      | some p => rw [h.inherited u p hg hp]; exact .inherited u p _ hg hp (ih p (ho u p hp))

theorem reached_self (N : Nodes) (v fuel : Nat) : reached N v (fuel + 1) v = true := by
  simp [reached]

theorem reached_direct (N : Nodes) (v u fuel : Nat) (hne : u ≠ v) (hd : N.direct u = true) :
    reached N v fuel u = false := by
  cases fuel with
  | zero => rfl
  | succ f => simp [reached, hne, hd]

theorem reached_more (N : Nodes) (ho : Ordered N.parent) (v : Nat) : ∀ u f f' : Nat, u < f → u < f' →
    reached N v f u = reached N v f' u := by
  intro u
  induction u using Nat.strongRecOn with
  | _ u ih =>
    intro f f' hf hf'
    rcases f with _ | f
    · omega
    rcases f' with _ | f'
    · omega
    unfold reached
    split
    · rfl
    · split
      · rfl
      · cases hp : N.parent u with
        | none => rfl
        | some p =>
          have := ho u p hp
          exact ih p this f f' (by omega) (by omega)

theorem reached_parent (N : Nodes) (ho : Ordered N.parent) (v u p : Nat) (hne : u ≠ v) (hd : N.direct u = false)
    (hp : N.parent u = some p) : reached N v (u + 1) u = reached N v (p + 1) p := by
  have hlt := ho u p hp
  have e : reached N v (u + 1) u = reached N v u p := by
    show (if u = v then true else if N.direct u then false else _) = _
    rw [if_neg hne, hd]
    simp [hp]
  rw [e]
  exact reached_more N ho v p u (p + 1) hlt (by omega)

theorem reached_root (N : Nodes) (v u : Nat) (hne : u ≠ v) (hp : N.parent u = none) :
    reached N v (u + 1) u = false := by
  simp [reached, hne, hp]

/-- Spreading keeps details of what is not its begin in order. -/
theorem inv_spread {N : Nodes} {g : Given} (ho : Ordered N.parent) (v : Nat) (d : Option Nat)
    (direct : ∀ u, N.direct u = true ↔ g u ≠ none)
    (own : ∀ u x, u ≠ v → g u = some x → N.detail u = some x)
    (inherited : ∀ u p, u ≠ v → g u = none → N.parent u = some p → N.detail u = N.detail p)
    (nothing : ∀ u, u ≠ v → g u = none → N.parent u = none → N.detail u = none)
    (hv : ∀ x, g v = some x → d = some x)
    (hvp : ∀ p, g v = none → N.parent v = some p → d = N.detail p)
    (hvn : g v = none → N.parent v = none → d = none) : Inv (spread N v d) g := by
  have nd : ∀ u, g u = none → N.direct u = false := by
    intro u hu
    cases hc : N.direct u with
    | false => rfl
    | true => exact absurd hu ((direct u).1 hc)
  -- parents of the begin are not reached
  have low : ∀ u, u < v → reached N v (u + 1) u = false := by
    intro u
    induction u using Nat.strongRecOn with
    | _ u ih =>
      intro hu
      have hne : u ≠ v := by omega
      cases hd : N.direct u with
      | true => exact reached_direct N v u _ hne hd
      | false =>
        cases hp : N.parent u with
        | none => exact reached_root N v u hne hp
        | some p =>
          have := ho u p hp
          rw [reached_parent N ho v u p hne hd hp]
          exact ih p this (by omega)
  constructor
  · exact direct
  · intro u x hx
    show (if reached N v (u + 1) u then d else N.detail u) = some x
    by_cases hu : u = v
    · subst hu
      rw [if_pos (reached_self N u u)]
      exact hv x hx
    · rw [reached_direct N v u _ hu ((direct u).2 (by simp [hx]))]
      simpa using own u x hu hx
  · intro u p hg hp
    have hp' : N.parent u = some p := hp
    show (if reached N v (u + 1) u then d else N.detail u) = (if reached N v (p + 1) p then d else N.detail p)
    by_cases hu : u = v
    · subst hu
      rw [if_pos (reached_self N u u), low p (ho u p hp')]
      simpa using hvp p hg hp'
    · rw [reached_parent N ho v u p hu (nd u hg) hp', inherited u p hu hg hp']
  · intro u hg hp
    have hp' : N.parent u = none := hp
    show (if reached N v (u + 1) u then d else N.detail u) = none
    by_cases hu : u = v
    · subst hu
      rw [if_pos (reached_self N u u)]
      exact hvn hg hp'
    · rw [reached_root N v u hu hp']
      simpa using nothing u hu hg hp'

/-- What is called removes no detail of a node without a parent. -/
def NoRootRemoved (parent : Nat → Option Nat) (cs : List (Nat × Option Nat)) : Prop :=
  ∀ v, (v, none) ∈ cs → parent v ≠ none

theorem parent_setDetail (N : Nodes) (v : Nat) (d : Option Nat) (b : Bool) :
    (setDetail N v d b).parent = N.parent := by
  unfold setDetail spread
  cases d <;> dsimp only
  (repeat' split) <;> rfl

theorem inv_step {N : Nodes} {g : Given} (h : Inv N g) (ho : Ordered N.parent) (v : Nat) (d : Option Nat)
    (hr : d = none → N.parent v ≠ none) :
    Inv (setDetail N v d true) (fun u => if u = v then d else g u) := by
  rcases d with _ | x
  · unfold setDetail
    dsimp only
    by_cases hd : N.direct v = true
    · rw [if_pos hd]
      cases hp : N.parent v with
      | none => exact absurd hp (hr rfl)
      | some p =>
        dsimp only
        have hpv := ho v p hp
        have direct : ∀ u, put N.direct v false u = true ↔ (if u = v then none else g u) ≠ none := by
          intro u
          unfold put
          by_cases hu : u = v
          · simp [hu]
          · simpa [hu] using h.direct u
        split
        · refine inv_spread (N := { N with direct := put N.direct v false }) ho v _ direct ?_ ?_ ?_ ?_ ?_ ?_
          · intro u x hu hx
            rw [if_neg hu] at hx
            exact h.own u x hx
          · intro u q hu hg hq
            rw [if_neg hu] at hg
            exact h.inherited u q hg hq
          · intro u hu hg hq
            rw [if_neg hu] at hg
            exact h.nothing u hg hq
          · intro x hx
            simp at hx
          · intro q _ hq
            have : some p = some q := hp.symm.trans hq
            cases this
            rfl
          · intro _ hq
            have : some p = none := hp.symm.trans hq
            cases this
        · rename_i he
          have he' : N.detail v = N.detail p := by simpa using he
          constructor
          · exact direct
          · intro u x hx
            by_cases hu : u = v
            · simp [hu] at hx
            · rw [if_neg hu] at hx
              exact h.own u x hx
          · intro u q hg hq
            by_cases hu : u = v
            · subst hu
              have : some p = some q := hp.symm.trans hq
              cases this
              exact he'
            · rw [if_neg hu] at hg
              exact h.inherited u q hg hq
          · intro u hg hq
            by_cases hu : u = v
            · subst hu
              have : some p = none := hp.symm.trans hq
              cases this
            · rw [if_neg hu] at hg
              exact h.nothing u hg hq
    · rw [if_neg hd]
      have hgv : g v = none := by
        cases hc : g v with
        | none => rfl
        | some y => exact absurd ((h.direct v).2 (by simp [hc])) hd
      have e : (fun u => if u = v then none else g u) = g := by
        funext u
        by_cases hu : u = v
        · simp [hu, hgv]
        · simp [hu]
      rw [e]
      exact h
  · unfold setDetail
    dsimp only
    refine inv_spread (N := { N with direct := put N.direct v true }) ho v _ ?_ ?_ ?_ ?_ ?_ ?_ ?_
    · intro u
      show put N.direct v true u = true ↔ _
      unfold put
      by_cases hu : u = v
      · simp [hu]
      · simpa [hu] using h.direct u
    · intro u y hu hy
      rw [if_neg hu] at hy
      exact h.own u y hy
    · intro u q hu hg hq
      rw [if_neg hu] at hg
      exact h.inherited u q hg hq
    · intro u hu hg hq
      rw [if_neg hu] at hg
      exact h.nothing u hg hq
    · intro y hy
      simpa using hy
    · intro q hg _
      simp at hg
    · intro hg _
      simp at hg

theorem inv_calls (cs : List (Nat × Option Nat)) (N : Nodes) (g : Given) (h : Inv N g) (ho : Ordered N.parent)
    (hr : NoRootRemoved N.parent cs) : Inv (calls N cs) (given g cs) ∧ (calls N cs).parent = N.parent := by
  induction cs generalizing N g with
  | nil => exact ⟨h, rfl⟩
  | cons c cs ih =>
    rcases c with ⟨v, d⟩
    have h1 := inv_step h ho v d (fun hd => hr v (by simp [hd]))
    have hp := parent_setDetail N v d true
    have := ih (setDetail N v d true) _ h1 (by rw [hp]; exact ho)
      (by rw [hp]; exact fun w hw => hr w (by simp [hw]))
    exact ⟨this.1, this.2.trans hp⟩

/-- C299 (partial), full statement: the detail of a type of token is the one that was set for it, or the
one of the type it belongs to; after it was removed too. Proved when it is not removed from types which
belong to no other. -/
theorem C299_nearest_partial (parent : Nat → Option Nat) (ho : Ordered parent) (cs : List (Nat × Option Nat))
    (hr : NoRootRemoved parent cs) (u : Nat) :
    Shall parent (given (fun _ => none) cs) u ((calls { parent := parent } cs).detail u) := by
  have h0 : Inv { parent := parent } (fun _ => none) := by
    constructor <;> intros <;> simp_all
  have h := inv_calls cs { parent := parent } _ h0 ho hr
  have := h.1.shall (by rw [h.2]; exact ho) u
  rw [h.2] at this
  exact this

def exampleParent : Nat → Option Nat
  | 0 => none
  | n + 1 => some (n / 2)

example : Ordered exampleParent := by
  intro u p h
  cases u with
  | zero => simp [exampleParent] at h
  | succ n => simp [exampleParent] at h; omega

example : ((calls { parent := exampleParent } [(1, some 7), (3, some 8), (0, some 9), (1, none)]).detail 4,
    (calls { parent := exampleParent } [(1, some 7), (3, some 8), (0, some 9), (1, none)]).detail 3,
    (calls { parent := exampleParent } [(1, some 7), (3, some 8), (0, some 9)]).detail 4) = (some 9, some 8, some 7) := by
  decide

/-- C299: the detail of a type which belongs to no other can not be removed. -/
theorem C299_not_removed_violated (parent : Nat → Option Nat) (v x : Nat) (hp : parent v = none) :
    (calls { parent := parent } [(v, some x), (v, none)]).detail v = some x ∧
      Shall parent (given (fun _ => none) [(v, some x), (v, none)]) v none := by
  refine ⟨?_, .nothing v (by simp [given]) hp⟩
  simp [calls, setDetail, put, spread, reached, hp]

theorem kept_set (N : Nodes) (w v x : Nat) (h : N.direct v = false ∧ N.detail v = some x) :
    (setDetail N w (some x) false).direct v = false ∧ (setDetail N w (some x) false).detail v = some x := by
  refine ⟨?_, ?_⟩
  · show put N.direct w false v = false
    unfold put
    split
    · rfl
    · exact h.1
  · show (if _ then some x else N.detail v) = some x
    split
    · rfl
    · exact h.2

theorem kept_all (vs : List Nat) (N : Nodes) (v x : Nat) (h : N.direct v = false ∧ N.detail v = some x) :
    (setAll N x vs).direct v = false ∧ (setAll N x vs).detail v = some x := by
  induction vs generalizing N with
  | nil => exact h
  | cons w vs ih => exact ih _ (kept_set N w v x h)

theorem set_all (vs : List Nat) (N : Nodes) (v x : Nat) (hv : v ∈ vs) :
    (setAll N x vs).direct v = false ∧ (setAll N x vs).detail v = some x := by
  induction vs generalizing N with
  | nil => simp at hv
  | cons w vs ih =>
    rcases List.mem_cons.1 hv with rfl | hv
    · refine kept_all vs _ v x ⟨?_, ?_⟩
      · simp [setDetail, spread, put]
      · simp [setDetail, spread, reached]
    · exact ih _ hv

/-- C299: `set_highlight_html_all` gives its detail to all types, whatever was set before. -/
theorem C299_all_set (N : Nodes) (vs : List Nat) (x v : Nat) (hv : v ∈ vs) : (setAll N x vs).detail v = some x :=
  (set_all vs N v x hv).2

/-- C299: after it no detail can be removed from any type, until another one is set. -/
theorem C299_not_removed_after_all_violated (N : Nodes) (vs : List Nat) (x v w : Nat) (hv : v ∈ vs) (hw : w ∈ vs) :
    (setDetail (setAll N x vs) w none true).detail v = some x := by
  unfold setDetail
  dsimp only
  rw [if_neg (by simp [(set_all vs N w x hw).1])]
  exact (set_all vs N v x hv).2

end Verif.Styling
