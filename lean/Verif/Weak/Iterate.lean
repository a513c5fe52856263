import Verif.Weak.Algebra
import Verif.Weak.Settled

namespace Verif.Weak

variable {V : Type}

theorem notes_entries : ∀ (rs : List Ref) (t : Table V),
    (rs.foldl Table.addPending t).entries = t.entries ∧ (rs.foldl Table.addPending t).dead = t.dead ∧
      (rs.foldl Table.addPending t).iterating = t.iterating
  | [], _ => ⟨rfl, rfl, rfl⟩
  | r :: rs, t => by
    obtain ⟨a, b, c⟩ := notes_entries rs (t.addPending r)
    exact ⟨a.trans (by simp), b.trans (by simp), c.trans (by simp)⟩

/-- While an iterator is there a death takes nothing out of the built in container. -/
theorem step_die_iterating {cls : Nat → Nat} {kind : Kind} {t : Table V} (hi : t.iterating > 0) (o : Nat) :
    (t.step cls kind (.die o)).1.entries = t.entries ∧ (t.step cls kind (.die o)).1.iterating = t.iterating ∧
      ∀ x, (t.step cls kind (.die o)).1.live x = (t.live x && x != o) := by
  simp only [Table.step]
  by_cases hl : t.live o = true
  · rw [if_pos hl]
    dsimp only
    have hdie : t.die cls o = _ := callbacks_iterating (cls := cls)
      ((({ t with dead := o :: t.dead } : Table V).entries.map Prod.fst).filter (fun r => r.target == o))
      { t with dead := o :: t.dead } hi
    rw [hdie]
    obtain ⟨a, b, c⟩ := notes_entries
      ((({ t with dead := o :: t.dead } : Table V).entries.map Prod.fst).filter (fun r => r.target == o))
      ({ t with dead := o :: t.dead } : Table V)
    refine ⟨a, c, fun x => ?_⟩
    rw [← live_kill]
    unfold Table.live
    rw [b]
  · rw [if_neg hl]
    refine ⟨rfl, rfl, fun x => ?_⟩
    dsimp only
    by_cases hx : x = o
    · subst hx; simp [hl]
    · simp [hx]

theorem dieAll_iterating {cls : Nat → Nat} {kind : Kind} : ∀ (os : List Nat) {t : Table V}, t.iterating > 0 →
    (t.dieAll cls kind os).entries = t.entries ∧ (t.dieAll cls kind os).iterating = t.iterating ∧
      ∀ x, (t.dieAll cls kind os).live x = (t.live x && !os.contains x)
  | [], t, _ => ⟨rfl, rfl, fun x => by simp [Table.dieAll]⟩
  | o :: os, t, hi => by
    obtain ⟨a, b, c⟩ := step_die_iterating (cls := cls) (kind := kind) hi o
    obtain ⟨a', b', c'⟩ := dieAll_iterating (cls := cls) (kind := kind) os (t := (t.step cls kind (.die o)).1) (by omega)
    refine ⟨a'.trans a, b'.trans b, fun x => ?_⟩
    refine (c' x).trans ?_
    rw [c x, List.contains_cons, Bool.not_or, bne, Bool.and_assoc]

theorem visit_fields (t : Table V) (i : Nat) :
    (t.visit i).1.entries = t.entries ∧ (t.visit i).1.iterating = t.iterating ∧ (t.visit i).1.dead = t.dead := by
  unfold Table.visit
  split
  · exact ⟨rfl, rfl, rfl⟩
  · split
    · exact ⟨rfl, rfl, rfl⟩
    · exact ⟨by simp, by simp, by simp⟩

/-- The object has not died by step `i`. -/
def survives (deaths : Nat → List Nat) (i o : Nat) : Bool := (List.range (i + 1)).all fun j => !(deaths j).contains o

theorem iterateLoop_exact (cls : Nat → Nat) (kind : Kind) (deaths : Nat → List Nat) (t₀ : Table V) :
    ∀ (n i : Nat) (t : Table V), t.iterating > 0 → t.entries = t₀.entries → i + n = t₀.entries.length →
    (∀ x, t.live x = (t₀.live x && (List.range i).all fun j => !(deaths j).contains x)) →
    (t.iterateLoop cls kind deaths n i).1.entries = t₀.entries ∧
      (t.iterateLoop cls kind deaths n i).2 = (((t₀.entries.drop i).zipIdx i).filter
        (fun e => t₀.live e.1.1.target && survives deaths e.2 e.1.1.target)).map (fun e => e.1.1.target)
  | 0, i, t, _, he, hn, _ => by
    refine ⟨he, ?_⟩
    rw [List.drop_eq_nil_of_le (by omega)]
    rfl
  | n + 1, i, t, hi, he, hn, hl => by
    obtain ⟨a, b, c⟩ := dieAll_iterating (cls := cls) (kind := kind) (deaths i) hi
    obtain ⟨a', b', c'⟩ := visit_fields (t.dieAll cls kind (deaths i)) i
    have hlive : ∀ x, (t.dieAll cls kind (deaths i)).live x = (t₀.live x && survives deaths i x) := by
      intro x
      rw [c x, hl x]
      unfold survives
      rw [List.range_succ, List.all_append]
      simp [Bool.and_assoc]
    obtain ⟨x, y⟩ := iterateLoop_exact cls kind deaths t₀ n (i + 1) ((t.dieAll cls kind (deaths i)).visit i).1
      (by omega) (a'.trans (a.trans he)) (by omega) (fun x => by
        have : ((t.dieAll cls kind (deaths i)).visit i).1.live x = (t.dieAll cls kind (deaths i)).live x := by
          unfold Table.live
          rw [c']
        rw [this, hlive x]
        rfl)
    refine ⟨x, ?_⟩
    show ((t.dieAll cls kind (deaths i)).visit i).2.toList ++ _ = _
    rw [y]
    have hlt : i < t₀.entries.length := by omega
    rw [List.drop_eq_getElem_cons hlt, List.zipIdx_cons]
    have hg : (t.dieAll cls kind (deaths i)).entries[i]? = some t₀.entries[i] := by
      rw [a, he]
      exact List.getElem?_eq_getElem hlt
    unfold Table.visit
    rw [hg]
    dsimp only
    by_cases hv : (t.dieAll cls kind (deaths i)).live t₀.entries[i].1.target = true
    · rw [if_pos hv, List.filter_cons_of_pos (by rw [← hlive]; exact hv)]
      rfl
    · rw [if_neg hv, List.filter_cons_of_neg (by rw [← hlive]; exact hv)]
      rfl

/-- What a pass without deaths gives, by positions. -/
theorem view_targets (t : Table V) :
    t.view.map Prod.fst = (t.entries.filter (fun e => t.live e.1.target)).map (fun e => e.1.target) := by
  unfold Table.view
  generalize t.entries = es
  induction es with
  | nil => rfl
  | cons e es ih =>
    by_cases hl : t.live e.1.target = true
    · rw [List.filterMap_cons_some (by rw [if_pos hl]), List.filter_cons_of_pos (by simpa using hl), List.map_cons,
        List.map_cons, ih]
    · rw [List.filterMap_cons_none (by rw [if_neg hl]), List.filter_cons_of_neg (by simpa using hl), ih]

theorem zipIdx_filter_map {α : Type} (p : α → Bool) : ∀ (l : List α) (i : Nat),
    ((l.zipIdx i).filter (fun e => p e.1)).map Prod.fst = l.filter p
  | [], _ => rfl
  | a :: l, i => by
    rw [List.zipIdx_cons]
    by_cases h : p a = true
    · rw [List.filter_cons, if_pos (by exact h), List.filter_cons, if_pos h, List.map_cons, zipIdx_filter_map p l]
    · rw [List.filter_cons, if_neg (by exact h), List.filter_cons, if_neg h, zipIdx_filter_map p l]

theorem iterate_exact (cls : Nat → Nat) (kind : Kind) (deaths : Nat → List Nat) (t : Table V) :
    (t.iterate cls kind deaths).1.entries = t.entries ∧
      (t.iterate cls kind deaths).2 = ((t.entries.zipIdx).filter
        (fun e => t.live e.1.1.target && survives deaths e.2 e.1.1.target)).map (fun e => e.1.1.target) := by
  have h := iterateLoop_exact cls kind deaths t t.entries.length 0 (t.step cls kind .enter).1
    (Nat.succ_pos _) rfl (by omega) (fun x => by
      have : (t.step cls kind .enter).1.live x = t.live x := rfl
      rw [this]; simp)
  rw [List.drop_zero] at h
  exact h

theorem iterate_sublist (cls : Nat → Nat) (kind : Kind) (deaths : Nat → List Nat) (t : Table V) :
    (t.iterate cls kind deaths).2.Sublist (t.view.map Prod.fst) := by
  rw [(iterate_exact cls kind deaths t).2, view_targets, ← zipIdx_filter_map _ t.entries 0, List.map_map]
  refine List.Sublist.map _ ?_
  have : ∀ (l : List ((Ref × V) × Nat)), (l.filter
      (fun e => t.live e.1.1.target && survives deaths e.2 e.1.1.target)).Sublist
      (l.filter fun e => t.live e.1.1.target) := by
    intro l
    have hf : l.filter (fun e => t.live e.1.1.target && survives deaths e.2 e.1.1.target) =
        (l.filter fun e => t.live e.1.1.target).filter fun e => survives deaths e.2 e.1.1.target := by
      rw [List.filter_filter]
      congr 1
      funext e
      exact Bool.and_comm _ _
    rw [hf]
    exact List.filter_sublist
  exact this _

/-! ### A set and itself -/

theorem changing_first {body : List Ref × Nat → Ref → List Ref × Nat} {size : Nat} {s : List Ref × Nat} {r : Ref}
    {rest : List Ref} (hs : s.1.length = size) (hb : (body s r).1.length ≠ size) :
    changingLoop body size (r :: rest) s = (body s r, true) := by
  rw [changingLoop, if_neg (by simpa using hs)]
  cases rest with
  | nil => rw [changingLoop]; simp [hb]
  | cons x rest => rw [changingLoop, if_pos hb]

theorem refEq_self (cls : Nat → Nat) (live : Nat → Bool) (r : Ref) : refEq cls live r r = true := by
  unfold refEq
  split <;> simp

theorem discard_length {cls : Nat → Nat} {live : Nat → Bool} {s : List Ref} {r : Ref} (hr : r ∈ s) :
    (discardRef cls live s r).length + 1 = s.length := by
  unfold discardRef
  have := List.length_eraseP_of_mem (p := fun x => refEq cls live r x) hr (refEq_self cls live r)
  have hpos : 0 < s.length := List.length_pos_of_mem hr
  omega

theorem isub_self (cls : Nat → Nat) (live : Nat → Bool) (r : Ref) (s : List Ref) :
    setISubSelf cls live (r :: s) = (discardRef cls live (r :: s) r, true) := by
  have h := discard_length (cls := cls) (live := live) (List.mem_cons_self : r ∈ r :: s)
  unfold setISubSelf
  rw [changing_first (by rfl) (by dsimp only; omega)]

theorem changing_skip {body : List Ref × Nat → Ref → List Ref × Nat} {size : Nat} {s : List Ref × Nat}
    (hs : s.1.length = size) {r : Ref} (hb : (body s r).1.length ≠ size) {after : List Ref} :
    ∀ (before : List Ref), (∀ x ∈ before, body s x = s) →
    changingLoop body size (before ++ r :: after) s = (body s r, true)
  | [], _ => changing_first hs hb
  | x :: before, h => by
    rw [List.cons_append, changingLoop, if_neg (by simpa using hs)]
    rw [h x (by simp)]
    exact changing_skip hs hb before (fun y hy => h y (List.mem_cons_of_mem _ hy))

theorem ixor_self {cls : Nat → Nat} {live : Nat → Bool} {fresh : Nat} {before after : List Ref} {r : Ref}
    (hb : ∀ x ∈ before, live x.target = false) (hr : live r.target = true) :
    setIXorSelf cls live fresh (before ++ r :: after) = (discardRef cls live (before ++ r :: after) r, true) := by
  have hm : r ∈ before ++ r :: after := by simp
  have h := discard_length (cls := cls) (live := live) hm
  have hh : holds cls live (before ++ r :: after) r = true :=
    List.any_eq_true.2 ⟨r, hm, refEq_self cls live r⟩
  have hx : xorBody cls live (before ++ r :: after, fresh) r = (discardRef cls live (before ++ r :: after) r, fresh) := by
    unfold xorBody
    rw [if_pos hr]
    dsimp only
    rw [if_pos hh]
  unfold setIXorSelf
  rw [changing_skip (body := xorBody cls live) (s := (before ++ r :: after, fresh)) rfl (by
    rw [hx]; dsimp only; omega) before (fun x hx => by
      unfold xorBody
      rw [if_neg (by rw [hb x hx]; simp)])]
  dsimp only
  rw [hx]

end Verif.Weak
