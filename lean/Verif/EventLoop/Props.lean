import Verif.EventLoop.Model

/-! C26-C28 and C58: callbacks, timers and wake-ups of the event loop. -/
namespace Verif.EventLoop

/-! ### specification, in terms of what was done and seen -/

/-- The handles returned by `call_soon` and `call_soon_thread_safe`, in order. -/
def soonIds (tr : List (Op × Out)) : List Nat := tr.filterMap fun | (_, .soon i) => some i | _ => none

/-- The handles returned by `call_at`, with their deadlines. -/
def timersIn (tr : List (Op × Out)) : List (Nat × Nat) := tr.filterMap fun | (.callAt w, .timer i) => some (i, w) | _ => none

/-- The handles run, in order. -/
def ranIds (tr : List (Op × Out)) : List Nat := tr.filterMap fun | (_, .ran i) => some i | _ => none

/-- The clock. -/
def clock : List Op → Nat
  | [] => 0
  | .tick d :: ops => d + clock ops
  | _ :: ops => clock ops

/-! ### lemmas -/

/-- The handles that entered `_ready`, in order. -/
def enteredOut : Out → List Nat
  | .soon i => [i]
  | .collected i => [i]
  | .sockets l => l
  | _ => []

def entered (tr : List (Op × Out)) : List Nat := tr.flatMap fun e => enteredOut e.2

/-- The handles that left `_ready`, in order. -/
def handledOut : Out → List Nat
  | .ran i => [i]
  | .skipped i => [i]
  | _ => []

def handled (tr : List (Op × Out)) : List Nat := tr.flatMap fun e => handledOut e.2

theorem step_fifo (s : State) (op : Op) :
    s.ready ++ enteredOut (s.step op).2 = handledOut (s.step op).2 ++ (s.step op).1.ready := by
  cases op with
  | tick d => simp [State.step, enteredOut, handledOut]
  | callSoon => simp only [State.step]; split <;> simp [enteredOut, handledOut]
  | callSoonThreadSafe => simp only [State.step]; split <;> simp [enteredOut, handledOut]
  | wakeUp => simp only [State.step]; split <;> simp [enteredOut, handledOut]
  | callAt w => simp only [State.step]; split <;> simp [enteredOut, handledOut, State.create]
  | cancel i => simp [State.step, enteredOut, handledOut]
  | stop => simp [State.step, enteredOut, handledOut]
  | iterate =>
    simp only [State.step]
    split
    · split <;> simp [enteredOut, handledOut]
    · simp [enteredOut, handledOut]
  | collect h =>
    simp only [State.step]
    split
    · split
      · split
        · simp [enteredOut, handledOut]
        · split <;> simp [enteredOut, handledOut]
      · simp [enteredOut, handledOut]
    · simp [enteredOut, handledOut]
  | endCollect h =>
    simp only [State.step]
    split
    · split <;> simp [enteredOut, handledOut]
    · simp [enteredOut, handledOut]
  | selected n =>
    simp only [State.step]
    split
    · split
      · split <;> simp [enteredOut, handledOut]
      · simp [enteredOut, handledOut]
    · simp [enteredOut, handledOut]
  | runOne =>
    simp only [State.step]
    split
    · split
      · simp [enteredOut, handledOut]
      · rename_i i ready hr
        split <;> simp [enteredOut, handledOut, hr]
    · simp [enteredOut, handledOut]

theorem runAll_fifo (ops : List Op) : ∀ s : State,
    s.ready ++ entered (trace s ops) = handled (trace s ops) ++ (s.runAll ops).ready := by
  induction ops with
  | nil => intro s; simp [trace, entered, handled, State.runAll]
  | cons op ops ih =>
    intro s
    have h1 := step_fifo s op
    have h2 := ih (s.step op).1
    have e1 : entered (trace s (op :: ops)) = enteredOut (s.step op).2 ++ entered (trace (s.step op).1 ops) := by
      simp [trace, entered]
    have e2 : handled (trace s (op :: ops)) = handledOut (s.step op).2 ++ handled (trace (s.step op).1 ops) := by
      simp [trace, handled]
    have e3 : s.runAll (op :: ops) = (s.step op).1.runAll ops := rfl
    rw [e1, e2, e3, List.append_assoc, ← h2, ← List.append_assoc, ← List.append_assoc, h1]

theorem step_now (s : State) (op : Op) : (s.step op).1.now = s.now + clock [op] ∧ (s.step op).1.resolution = s.resolution := by
  cases op with
  | tick d => simp [State.step, clock]
  | callSoon => simp only [State.step]; split <;> simp [clock, State.create]
  | callSoonThreadSafe => simp only [State.step]; split <;> simp [clock, State.create]
  | wakeUp => simp only [State.step]; split <;> simp [clock]
  | callAt w => simp only [State.step]; split <;> simp [clock, State.create]
  | cancel i => simp [State.step, clock]
  | stop => simp [State.step, clock]
  | iterate =>
    simp only [State.step]
    split
    · split <;> simp [clock]
    · simp [clock]
  | collect h =>
    simp only [State.step]
    split
    · split
      · split
        · simp [clock]
        · split <;> simp [clock]
      · simp [clock]
    · simp [clock]
  | endCollect h =>
    simp only [State.step]
    split
    · split <;> simp [clock]
    · simp [clock]
  | selected n =>
    simp only [State.step]
    split
    · split
      · split <;> simp [clock, State.create]
      · simp [clock]
    · simp [clock]
  | runOne =>
    simp only [State.step]
    split
    · split
      · simp [clock]
      · split <;> simp [clock]
    · simp [clock]

theorem clock_cons (op : Op) (ops : List Op) : clock (op :: ops) = clock [op] + clock ops := by
  cases op <;> simp [clock]

theorem runAll_now (ops : List Op) : ∀ s : State, (s.runAll ops).now = s.now + clock ops ∧ (s.runAll ops).resolution = s.resolution := by
  induction ops with
  | nil => intro s; simp [State.runAll, clock]
  | cons op ops ih =>
    intro s
    have h1 := step_now s op
    have h2 := ih (s.step op).1
    rw [h1.1, h1.2] at h2
    rw [clock_cons]
    exact ⟨by rw [← Nat.add_assoc]; exact h2.1, h2.2⟩

theorem step_cancelled (s : State) (op : Op) (i : Nat) : i ∈ (s.step op).1.cancelled ↔ i ∈ s.cancelled ∨ op = .cancel i := by
  cases op with
  | tick d => simp [State.step]
  | callSoon => simp only [State.step]; split <;> simp [State.create]
  | callSoonThreadSafe => simp only [State.step]; split <;> simp [State.create]
  | wakeUp => simp only [State.step]; split <;> simp
  | callAt w => simp only [State.step]; split <;> simp [State.create]
  | cancel j =>
    simp only [State.step, List.mem_cons, Op.cancel.injEq]
    constructor
    · rintro (h | h)
      · exact Or.inr h.symm
      · exact Or.inl h
    · rintro (h | h)
      · exact Or.inr h
      · exact Or.inl h.symm
  | stop => simp [State.step]
  | iterate =>
    simp only [State.step]
    split
    · split <;> simp
    · simp
  | collect h =>
    simp only [State.step]
    split
    · split
      · split
        · simp
        · split <;> simp
      · simp
    · simp
  | endCollect h =>
    simp only [State.step]
    split
    · split <;> simp
    · simp
  | selected n =>
    simp only [State.step]
    split
    · split
      · split <;> simp [State.create]
      · simp
    · simp
  | runOne =>
    simp only [State.step]
    split
    · split
      · simp
      · split <;> simp
    · simp

theorem runAll_cancelled (ops : List Op) (i : Nat) : ∀ s : State, i ∈ (s.runAll ops).cancelled ↔ i ∈ s.cancelled ∨ .cancel i ∈ ops := by
  induction ops with
  | nil => intro s; simp [State.runAll]
  | cons op ops ih =>
    intro s
    have := ih (s.step op).1
    show i ∈ ((s.step op).1.runAll ops).cancelled ↔ _
    rw [this, step_cancelled, List.mem_cons, or_assoc]
    constructor
    · rintro (h | h | h)
      · exact Or.inl h
      · exact Or.inr (Or.inl h.symm)
      · exact Or.inr (Or.inr h)
    · rintro (h | h | h)
      · exact Or.inl h
      · exact Or.inr (Or.inl h.symm)
      · exact Or.inr (Or.inr h)

/-- The timers' deadlines are in order in `_ready`, and not after those left in `_scheduled` when the iteration began. -/
structure Ord (s : State) : Prop where
  sorted : s.ready.Pairwise fun a b => ∀ wa wb, s.kind a = .timer wa → s.kind b = .timer wb → wa ≤ wb
  sep : ∀ t ∈ s.ready, ∀ w, s.kind t = .timer w → ∀ u ∈ s.scheduled, u < s.mark → w ≤ s.whenOf u
  timers : ∀ u ∈ s.scheduled, ∃ w, s.kind u = .timer w
  inCollect : ∀ limit, s.phase = .collect limit → limit ≤ s.now + s.resolution ∧ (∀ u ∈ s.scheduled, u < s.mark)
  due : ∀ t ∈ s.ready, ∀ w, s.kind t = .timer w → w < s.now + s.resolution
  slt : ∀ u ∈ s.scheduled, u < s.next
  rlt : ∀ u ∈ s.ready, u < s.next
  nd : (s.ready ++ s.scheduled).Nodup
  mark : s.mark ≤ s.next

theorem ord_init (r : Nat) : Ord (.init r) := by constructor <;> simp [State.init]

theorem kind_old (s : State) (k : Kind) {i : Nat} (h : i < s.next) : (s.create k).kind i = s.kind i := by
  simp only [State.create]; rw [if_neg (by omega)]

theorem whenOf_congr (s t : State) (i : Nat) (h : t.kind i = s.kind i) : t.whenOf i = s.whenOf i := by
  simp [State.whenOf, h]

/-- A state that differs in its handles only by new ones that are no timers, put at the end of `_ready`. -/
theorem ord_append (s t : State) (h : Ord s) (l : List Nat) (hr : t.ready = s.ready ++ l) (hs : t.scheduled = s.scheduled)
    (hk : ∀ i, i < s.next → t.kind i = s.kind i) (hl : ∀ i ∈ l, s.next ≤ i ∧ i < t.next ∧ ∀ w, t.kind i ≠ .timer w) (hn : s.next ≤ t.next)
    (hnow : s.now ≤ t.now) (hres : t.resolution = s.resolution) (hm : t.mark = s.mark) (hlnd : l.Nodup)
    (hp : ∀ limit, t.phase = .collect limit → s.phase = .collect limit) : Ord t := by
  have hrk : ∀ i ∈ s.ready, t.kind i = s.kind i := fun i hi => hk i (h.rlt i hi)
  have hsk : ∀ i ∈ s.scheduled, t.kind i = s.kind i := fun i hi => hk i (h.slt i hi)
  have hold : ∀ i ∈ t.ready, ∀ w, t.kind i = .timer w → i ∈ s.ready := by
    intro i hi w hw
    rw [hr] at hi
    rcases List.mem_append.mp hi with hi | hi
    · exact hi
    · exact absurd hw ((hl i hi).2.2 w)
  refine ⟨?_, ?_, ?_, ?_, ?_, ?_, ?_, ?_, ?_⟩
  · rw [hr, List.pairwise_append]
    refine ⟨?_, ?_, ?_⟩
    · refine h.sorted.imp_of_mem ?_
      intro a b ha hb hab wa wb h1 h2
      exact hab wa wb (by rw [← hrk a ha]; exact h1) (by rw [← hrk b hb]; exact h2)
    · have : ∀ m : List Nat, (∀ i ∈ m, ∀ w, t.kind i ≠ .timer w) →
          m.Pairwise fun a b => ∀ wa wb, t.kind a = .timer wa → t.kind b = .timer wb → wa ≤ wb := by
        intro m
        induction m with
        | nil => intro _; exact List.Pairwise.nil
        | cons a m ih =>
          intro hm
          refine List.Pairwise.cons ?_ (ih fun i hi => hm i (List.mem_cons_of_mem _ hi))
          intro b _ wa _ ha _
          exact absurd ha (hm a (by simp) wa)
      exact this l fun i hi => (hl i hi).2.2
    · intro a _ b hb wa wb _ h2
      exact absurd h2 ((hl b hb).2.2 wb)
  · intro i hi w hw u hu hum
    have hi' := hold i hi w hw
    rw [hs] at hu; rw [hm] at hum
    rw [whenOf_congr s t u (hsk u hu)]
    exact h.sep i hi' w (by rw [← hrk i hi']; exact hw) u hu hum
  · intro u hu
    rw [hs] at hu
    rw [hsk u hu]; exact h.timers u hu
  · intro limit hl'
    obtain ⟨h1, h2⟩ := h.inCollect limit (hp limit hl')
    exact ⟨by omega, by rw [hs, hm]; exact h2⟩
  · intro i hi w hw
    have hi' := hold i hi w hw
    have := h.due i hi' w (by rw [← hrk i hi']; exact hw)
    omega
  · intro u hu; rw [hs] at hu; have := h.slt u hu; omega
  · intro u hu; rw [hr] at hu
    rcases List.mem_append.mp hu with hu | hu
    · have := h.rlt u hu; omega
    · exact (hl u hu).2.1
  · rw [hr, hs]
    have h0 := List.nodup_append.mp h.nd
    rw [List.append_assoc, List.nodup_append, List.nodup_append]
    refine ⟨h0.1, ⟨hlnd, h0.2.1, ?_⟩, ?_⟩
    · intro a ha b hb; have := (hl a ha).1; have := h.slt b hb; omega
    · intro a ha b hb
      rcases List.mem_append.mp hb with hb | hb
      · have := (hl b hb).1; have := h.rlt a ha; omega
      · exact h0.2.2 a ha b hb
  · have := h.mark; omega

theorem step_ord (s : State) (h : Ord s) (op : Op) : Ord (s.step op).1 := by
  have same : ∀ t : State, t.ready = s.ready → t.scheduled = s.scheduled → t.kind = s.kind → t.next = s.next → s.now ≤ t.now →
      t.resolution = s.resolution → t.mark = s.mark → (∀ limit, t.phase = .collect limit → s.phase = .collect limit) → Ord t := by
    intro t h1 h2 h3 h4 h5 h6 h7 h8
    exact ord_append s t h [] (by simp [h1]) h2 (fun i _ => by rw [h3]) (by simp) (by omega) h5 h6 h7 List.nodup_nil h8
  cases op with
  | tick d => exact same _ rfl rfl rfl rfl (by simp [State.step]) rfl rfl (fun _ h => h)
  | callSoon =>
    simp only [State.step]
    split
    · rename_i hp
      refine ord_append s _ h [s.next] rfl rfl (fun i hi => kind_old s _ hi) ?_ (by simp [State.create]) (by simp [State.create]) rfl rfl
        (by simp) (fun _ h => h)
      intro i hi; simp only [List.mem_singleton] at hi; subst hi
      exact ⟨Nat.le_refl _, by simp [State.create], by intro w; simp [State.create]⟩
    · exact h
  | callSoonThreadSafe =>
    simp only [State.step]
    split
    · exact h
    · refine ord_append s _ h [s.next] rfl rfl (fun i hi => kind_old s _ hi) ?_ (by simp [State.create]) (by simp [State.create]) rfl rfl
        (by simp) (fun _ h => h)
      intro i hi; simp only [List.mem_singleton] at hi; subst hi
      exact ⟨Nat.le_refl _, by simp [State.create], by intro w; simp [State.create]⟩
  | wakeUp =>
    simp only [State.step]
    split
    · exact h
    · exact same _ rfl rfl rfl rfl (Nat.le_refl _) rfl rfl (fun _ h => h)
  | callAt w =>
    simp only [State.step]
    split
    · rename_i hp
      have hk := fun i (hi : i < s.next) => kind_old s (.timer w) hi
      have hnew : (s.create (.timer w)).kind s.next = .timer w := by simp [State.create]
      refine ⟨?_, ?_, ?_, ?_, ?_, ?_, ?_, ?_, ?_⟩
      · refine h.sorted.imp_of_mem ?_
        intro a b ha hb hab wa wb h1 h2
        exact hab wa wb (by rw [← hk a (h.rlt a ha)]; exact h1) (by rw [← hk b (h.rlt b hb)]; exact h2)
      · intro i hi v hv u hu hum
        simp only [State.create] at hum
        rcases List.mem_append.mp hu with hu | hu
        · rw [show ({ s.create (.timer w) with scheduled := s.scheduled ++ [s.next] } : State).whenOf u = s.whenOf u from
            whenOf_congr s _ u (hk u (h.slt u hu))]
          exact h.sep i hi v (by rw [← hk i (h.rlt i hi)]; exact hv) u hu hum
        · simp only [List.mem_singleton] at hu; subst hu
          have := h.mark; omega
      · intro u hu
        rcases List.mem_append.mp hu with hu | hu
        · obtain ⟨v, hv⟩ := h.timers u hu
          exact ⟨v, (hk u (h.slt u hu)).trans hv⟩
        · simp only [List.mem_singleton] at hu; subst hu
          exact ⟨w, hnew⟩
      · intro limit hl
        simp only [State.create] at hl
        rw [hp] at hl; cases hl
      · intro i hi v hv
        exact h.due i hi v (by rw [← hk i (h.rlt i hi)]; exact hv)
      · intro u hu
        simp only [State.create]
        rcases List.mem_append.mp hu with hu | hu
        · have := h.slt u hu; omega
        · simp only [List.mem_singleton] at hu; omega
      · intro u hu
        have := h.rlt u hu
        simp only [State.create]; omega
      · show (s.ready ++ (s.scheduled ++ [s.next])).Nodup
        rw [← List.append_assoc, List.nodup_append]
        refine ⟨h.nd, by simp, ?_⟩
        intro a ha b hb; simp only [List.mem_singleton] at hb
        have : a < s.next := by
          rcases List.mem_append.mp ha with ha | ha
          · exact h.rlt a ha
          · exact h.slt a ha
        omega
      · have := h.mark
        show s.mark ≤ s.next + 1
        omega
    · exact h
  | cancel i => exact same _ rfl rfl rfl rfl (Nat.le_refl _) rfl rfl (fun _ h => h)
  | stop => exact same _ rfl rfl rfl rfl (Nat.le_refl _) rfl rfl (fun _ h => h)
  | iterate =>
    simp only [State.step]
    split
    · rename_i hp
      split
      · refine ⟨?_, ?_, h.timers, ?_, ?_, h.slt, h.rlt, h.nd, Nat.le_refl _⟩
        · simp only; rw [hp.2]; exact List.Pairwise.nil
        · simp only; rw [hp.2]; simp
        · intro limit hl
          simp only [Phase.collect.injEq] at hl
          exact ⟨by simp only; omega, h.slt⟩
        · simp only; rw [hp.2]; simp
      · exact same _ rfl rfl rfl rfl (Nat.le_refl _) rfl rfl (by simp)
    · exact h
  | collect head =>
    simp only [State.step]
    split
    · rename_i limit hp
      split
      · rename_i hh
        simp only [State.isHead, decide_eq_true_eq] at hh
        have hnd := List.nodup_append.mp h.nd
        have herase : ∀ u, u ∈ s.scheduled.erase head → u ∈ s.scheduled ∧ u ≠ head := by
          intro u hu; have := hnd.2.1.mem_erase_iff.mp hu; exact ⟨this.2, this.1⟩
        split
        · refine ⟨h.sorted, fun i hi w hw u hu hum => h.sep i hi w hw u (herase u hu).1 hum, fun u hu => h.timers u (herase u hu).1, ?_,
            h.due, fun u hu => h.slt u (herase u hu).1, h.rlt, ?_, h.mark⟩
          · intro l hl
            obtain ⟨h1, h2⟩ := h.inCollect l hl
            exact ⟨h1, fun u hu => h2 u (herase u hu).1⟩
          · show (s.ready ++ s.scheduled.erase head).Nodup
            rw [List.nodup_append]
            exact ⟨hnd.1, hnd.2.1.erase _, fun a ha b hb => hnd.2.2 a ha b (herase b hb).1⟩
        · split
          · exact h
          · rename_i hlt
            obtain ⟨h1, h2⟩ := h.inCollect limit hp
            obtain ⟨wh, hwh⟩ := h.timers head hh.1
            have hwo : s.whenOf head = wh := by simp [State.whenOf, hwh]
            refine ⟨?_, ?_, fun u hu => h.timers u (herase u hu).1, ?_, ?_, fun u hu => h.slt u (herase u hu).1, ?_, ?_, h.mark⟩
            · show (s.ready ++ [head]).Pairwise _
              rw [List.pairwise_append]
              refine ⟨h.sorted, by simp, ?_⟩
              intro a ha b hb wa wb h3 h4
              simp only [List.mem_singleton] at hb; subst hb
              have := h.sep a ha wa h3 b hh.1 (h2 b hh.1)
              have h4' : s.kind b = .timer wb := h4
              simp only [State.whenOf, h4'] at this; exact this
            · intro i hi w hw u hu hum
              have hu' := (herase u hu).1
              rcases List.mem_append.mp hi with hi | hi
              · exact h.sep i hi w hw u hu' hum
              · simp only [List.mem_singleton] at hi; subst hi
                have := hh.2 u hu'
                have hw' : s.kind i = .timer w := hw
                simp only [State.whenOf, hw'] at this; exact this
            · intro l hl
              obtain ⟨h3, h4⟩ := h.inCollect l hl
              exact ⟨h3, fun u hu => h4 u (herase u hu).1⟩
            · intro i hi w hw
              rcases List.mem_append.mp hi with hi | hi
              · exact h.due i hi w hw
              · simp only [List.mem_singleton] at hi; subst hi
                have hw' : s.kind i = .timer w := hw
                rw [hwh] at hw'; cases hw'
                show wh < s.now + s.resolution
                omega
            · intro u hu
              rcases List.mem_append.mp hu with hu | hu
              · exact h.rlt u hu
              · simp only [List.mem_singleton] at hu; subst hu; exact h.slt u hh.1
            · show (s.ready ++ [head] ++ s.scheduled.erase head).Nodup
              rw [List.nodup_append, List.nodup_append]
              refine ⟨⟨hnd.1, by simp, ?_⟩, hnd.2.1.erase _, ?_⟩
              · intro a ha b hb; simp only [List.mem_singleton] at hb; subst hb
                exact hnd.2.2 a ha b hh.1
              · intro a ha b hb
                rcases List.mem_append.mp ha with ha | ha
                · exact hnd.2.2 a ha b (herase b hb).1
                · simp only [List.mem_singleton] at ha; subst ha
                  exact fun e => (herase b hb).2 e.symm
      · exact h
    · exact h
  | endCollect head =>
    simp only [State.step]
    split
    · split
      · exact same _ rfl rfl rfl rfl (Nat.le_refl _) rfl rfl (by simp)
      · exact h
    · exact h
  | selected n =>
    simp only [State.step]
    split
    · split
      · split
        · refine ord_append s _ h (List.range' s.next n ++ [s.next + n]) (by simp) rfl ?_ ?_ (by simp [State.create]; omega)
            (by simp [State.create]) rfl rfl ?_ (by simp [State.create])
          · intro i hi
            simp only [State.create]
            rw [if_neg (by omega), if_neg (by omega)]
          · intro i hi
            rcases List.mem_append.mp hi with hi | hi
            · rw [List.mem_range'_1] at hi
              refine ⟨hi.1, by simp only [State.create]; omega, ?_⟩
              intro w
              simp only [State.create]
              rw [if_neg (by omega), if_pos hi.1]; simp
            · simp only [List.mem_singleton] at hi; subst hi
              exact ⟨by omega, by simp [State.create], by intro w; simp [State.create]⟩
          · rw [List.nodup_append]
            refine ⟨List.nodup_range' , by simp, ?_⟩
            intro a ha b hb
            rw [List.mem_range'_1] at ha
            simp only [List.mem_singleton] at hb
            omega
        · refine ord_append s _ h (List.range' s.next n) rfl rfl ?_ ?_ (by simp) (by simp) rfl rfl List.nodup_range' (by simp)
          · intro i hi
            simp only
            rw [if_neg (by omega)]
          · intro i hi
            rw [List.mem_range'_1] at hi
            refine ⟨hi.1, by simp only; omega, ?_⟩
            intro w
            simp only
            rw [if_pos hi.1]; simp
      · exact h
    · exact h
  | runOne =>
    simp only [State.step]
    split
    · split
      · exact h
      · rename_i hp i ready hr
        have hsub : ∀ u, u ∈ ready → u ∈ s.ready := fun u hu => by rw [hr]; exact List.mem_cons_of_mem _ hu
        have hsort := h.sorted
        rw [hr] at hsort
        have hnd := h.nd
        rw [hr, List.cons_append] at hnd
        split
        · exact ⟨(List.pairwise_cons.mp hsort).2, fun t ht => h.sep t (hsub t ht), h.timers, h.inCollect, fun t ht => h.due t (hsub t ht), h.slt,
            fun t ht => h.rlt t (hsub t ht), (List.nodup_cons.mp hnd).2, h.mark⟩
        · exact ⟨(List.pairwise_cons.mp hsort).2, fun t ht => h.sep t (hsub t ht), h.timers, h.inCollect, fun t ht => h.due t (hsub t ht), h.slt,
            fun t ht => h.rlt t (hsub t ht), (List.nodup_cons.mp hnd).2, h.mark⟩
    · exact h

theorem runAll_ord (ops : List Op) : ∀ s : State, Ord s → Ord (s.runAll ops) := by
  induction ops with
  | nil => intro s h; exact h
  | cons op ops ih => intro s h; exact ih _ (step_ord s h op)

theorem runAll_snoc (s : State) (ops : List Op) (op : Op) : s.runAll (ops ++ [op]) = ((s.runAll ops).step op).1 := by
  simp [State.runAll]

theorem runAll_append (s : State) (a b : List Op) : s.runAll (a ++ b) = (s.runAll a).runAll b := by
  simp [State.runAll]

theorem trace_append (s : State) (a b : List Op) : trace s (a ++ b) = trace s a ++ trace (s.runAll a) b := by
  induction a generalizing s with
  | nil => rfl
  | cons op a ih => simp [trace, State.runAll, ih]

theorem entered_append (a b : List (Op × Out)) : entered (a ++ b) = entered a ++ entered b := by simp [entered]

theorem timersIn_append (a b : List (Op × Out)) : timersIn (a ++ b) = timersIn a ++ timersIn b := by simp [timersIn]

theorem ranIds_append (a b : List (Op × Out)) : ranIds (a ++ b) = ranIds a ++ ranIds b := by simp [ranIds]

/-- What the trace says about the handles of a state. -/
structure Hist (s : State) (tr : List (Op × Out)) : Prop where
  tim : ∀ i w, (i, w) ∈ timersIn tr ↔ i < s.next ∧ s.kind i = .timer w
  elt : ∀ i ∈ entered tr, i < s.next
  nd : (entered tr ++ s.scheduled).Nodup
  acc : ∀ i w, (i, w) ∈ timersIn tr → i ∈ s.scheduled ∨ i ∈ entered tr ∨ i ∈ s.cancelled

theorem hist_init (r : Nat) : Hist (.init r) [] := by constructor <;> simp [State.init, timersIn, entered]

/-- A step that creates no timer and leaves `_scheduled` alone. -/
theorem hist_append (s t : State) (tr : List (Op × Out)) (op : Op) (o : Out) (h : Hist s tr) (ho : Ord s)
    (ht : timersIn [(op, o)] = []) (hs : t.scheduled = s.scheduled) (hc : ∀ i ∈ s.cancelled, i ∈ t.cancelled)
    (hn : s.next ≤ t.next) (hk : ∀ i, i < s.next → t.kind i = s.kind i)
    (hnew : ∀ i, s.next ≤ i → i < t.next → ∀ w, t.kind i ≠ .timer w)
    (hl : ∀ i ∈ enteredOut o, s.next ≤ i ∧ i < t.next) (hlnd : (enteredOut o).Nodup) : Hist t (tr ++ [(op, o)]) := by
  have he : entered (tr ++ [(op, o)]) = entered tr ++ enteredOut o := by simp [entered]
  refine ⟨?_, ?_, ?_, ?_⟩
  · intro i w
    rw [timersIn_append, ht, List.append_nil, h.tim]
    constructor
    · rintro ⟨h1, h2⟩; exact ⟨by omega, by rw [hk i h1]; exact h2⟩
    · rintro ⟨h1, h2⟩
      by_cases hi : i < s.next
      · exact ⟨hi, by rw [← hk i hi]; exact h2⟩
      · exact absurd h2 (hnew i (by omega) h1 w)
  · intro i hi
    rw [he] at hi
    rcases List.mem_append.mp hi with hi | hi
    · have := h.elt i hi; omega
    · exact (hl i hi).2
  · rw [he, hs]
    have h0 := List.nodup_append.mp h.nd
    rw [List.append_assoc, List.nodup_append, List.nodup_append]
    refine ⟨h0.1, ⟨hlnd, h0.2.1, ?_⟩, ?_⟩
    · intro a ha b hb; have := (hl a ha).1; have := ho.slt b hb; omega
    · intro a ha b hb
      rcases List.mem_append.mp hb with hb | hb
      · have := (hl b hb).1; have := h.elt a ha; omega
      · exact h0.2.2 a ha b hb
  · intro i w hi
    rw [timersIn_append, ht, List.append_nil] at hi
    rw [hs, he]
    rcases h.acc i w hi with h1 | h1 | h1
    · exact Or.inl h1
    · exact Or.inr (Or.inl (List.mem_append_left _ h1))
    · exact Or.inr (Or.inr (hc i h1))

theorem step_hist (s : State) (tr : List (Op × Out)) (h : Hist s tr) (ho : Ord s) (op : Op) :
    Hist (s.step op).1 (tr ++ [(op, (s.step op).2)]) := by
  have same : ∀ (t : State) (o : Out), timersIn [(op, o)] = [] → enteredOut o = [] → t.scheduled = s.scheduled →
      (∀ i ∈ s.cancelled, i ∈ t.cancelled) → t.next = s.next → t.kind = s.kind → Hist t (tr ++ [(op, o)]) := by
    intro t o h1 h2 h3 h4 h5 h6
    exact hist_append s t tr op o h ho h1 h3 h4 (by omega) (fun i _ => by rw [h6]) (fun i h1 h2 => by omega) (by simp [h2]) (by simp [h2])
  have skip : Hist s (tr ++ [(op, .none)]) := same s .none (by cases op <;> rfl) rfl rfl (fun _ h => h) rfl rfl
  cases op with
  | tick d => exact same _ _ rfl rfl rfl (fun _ h => h) rfl rfl
  | callSoon =>
    simp only [State.step]
    split
    · refine hist_append s _ tr _ _ h ho rfl rfl (fun _ h => h) (by simp [State.create]) (fun i hi => kind_old s _ hi) ?_ ?_ (by simp [enteredOut])
      · intro i h1 h2 w
        simp only [State.create] at h2 ⊢
        rw [if_pos (by omega)]; simp
      · simp [enteredOut, State.create]
    · exact skip
  | callSoonThreadSafe =>
    simp only [State.step]
    split
    · exact skip
    · refine hist_append s _ tr _ _ h ho rfl rfl (fun _ h => h) (by simp [State.create]) (fun i hi => kind_old s _ hi) ?_ ?_ (by simp [enteredOut])
      · intro i h1 h2 w
        simp only [State.create] at h2 ⊢
        rw [if_pos (by omega)]; simp
      · simp [enteredOut, State.create]
  | wakeUp =>
    simp only [State.step]
    split
    · exact skip
    · exact same _ _ rfl rfl rfl (fun _ h => h) rfl rfl
  | callAt w =>
    simp only [State.step]
    split
    · have he : entered (tr ++ [(Op.callAt w, Out.timer s.next)]) = entered tr := by simp [entered, enteredOut]
      have ht : timersIn (tr ++ [(Op.callAt w, Out.timer s.next)]) = timersIn tr ++ [(s.next, w)] := by simp [timersIn]
      refine ⟨?_, ?_, ?_, ?_⟩
      · intro i v
        rw [ht, List.mem_append, h.tim]
        simp only [State.create, List.mem_singleton, Prod.mk.injEq]
        constructor
        · rintro (⟨h1, h2⟩ | ⟨h1, h2⟩)
          · exact ⟨by omega, by rw [if_neg (by omega)]; exact h2⟩
          · exact ⟨by omega, by rw [if_pos h1, h2]⟩
        · rintro ⟨h1, h2⟩
          by_cases hi : i = s.next
          · rw [if_pos hi] at h2
            simp only [Kind.timer.injEq] at h2
            exact Or.inr ⟨hi, h2.symm⟩
          · rw [if_neg hi] at h2
            exact Or.inl ⟨by omega, h2⟩
      · intro i hi
        rw [he] at hi
        have := h.elt i hi
        simp only [State.create]; omega
      · rw [he]
        show (entered tr ++ (s.scheduled ++ [s.next])).Nodup
        rw [← List.append_assoc, List.nodup_append]
        refine ⟨h.nd, by simp, ?_⟩
        intro a ha b hb; simp only [List.mem_singleton] at hb
        have : a < s.next := by
          rcases List.mem_append.mp ha with ha | ha
          · exact h.elt a ha
          · exact ho.slt a ha
        omega
      · intro i v hi
        rw [ht] at hi
        rw [he]
        rcases List.mem_append.mp hi with hi | hi
        · rcases h.acc i v hi with h1 | h1 | h1
          · exact Or.inl (List.mem_append_left _ h1)
          · exact Or.inr (Or.inl h1)
          · exact Or.inr (Or.inr h1)
        · simp only [List.mem_singleton, Prod.mk.injEq] at hi
          exact Or.inl (List.mem_append_right _ (by simp [hi.1]))
    · exact skip
  | cancel i => exact same _ _ rfl rfl rfl (fun _ h => List.mem_cons_of_mem _ h) rfl rfl
  | stop => exact same _ _ rfl rfl rfl (fun _ h => h) rfl rfl
  | iterate =>
    simp only [State.step]
    split
    · split
      · exact same _ _ rfl rfl rfl (fun _ h => h) rfl rfl
      · exact same _ _ rfl rfl rfl (fun _ h => h) rfl rfl
    · exact skip
  | collect head =>
    simp only [State.step]
    split
    · split
      · rename_i hh
        simp only [State.isHead, decide_eq_true_eq] at hh
        have h0 := List.nodup_append.mp h.nd
        split
        · rename_i hc
          have he : entered (tr ++ [(Op.collect head, Out.dropped head)]) = entered tr := by simp [entered, enteredOut]
          have ht : timersIn (tr ++ [(Op.collect head, Out.dropped head)]) = timersIn tr := by simp [timersIn]
          refine ⟨by rw [ht]; exact h.tim, by rw [he]; exact h.elt, ?_, ?_⟩
          · rw [he, List.nodup_append]
            exact ⟨h0.1, h0.2.1.erase _, fun a ha b hb => h0.2.2 a ha b (List.mem_of_mem_erase hb)⟩
          · intro i v hi
            rw [ht] at hi; rw [he]
            rcases h.acc i v hi with h1 | h1 | h1
            · by_cases e : i = head
              · exact Or.inr (Or.inr (e ▸ hc))
              · exact Or.inl ((List.mem_erase_of_ne e).mpr h1)
            · exact Or.inr (Or.inl h1)
            · exact Or.inr (Or.inr h1)
        · split
          · exact skip
          · have he : entered (tr ++ [(Op.collect head, Out.collected head)]) = entered tr ++ [head] := by simp [entered, enteredOut]
            have ht : timersIn (tr ++ [(Op.collect head, Out.collected head)]) = timersIn tr := by simp [timersIn]
            refine ⟨by rw [ht]; exact h.tim, ?_, ?_, ?_⟩
            · rw [he]
              intro i hi
              rcases List.mem_append.mp hi with hi | hi
              · exact h.elt i hi
              · simp only [List.mem_singleton] at hi; subst hi; exact ho.slt i hh.1
            · rw [he]
              show (entered tr ++ [head] ++ s.scheduled.erase head).Nodup
              rw [List.nodup_append, List.nodup_append]
              refine ⟨⟨h0.1, by simp, ?_⟩, h0.2.1.erase _, ?_⟩
              · intro a ha b hb; simp only [List.mem_singleton] at hb; subst hb
                exact h0.2.2 a ha b hh.1
              · intro a ha b hb
                have hb' := h0.2.1.mem_erase_iff.mp hb
                rcases List.mem_append.mp ha with ha | ha
                · exact h0.2.2 a ha b hb'.2
                · simp only [List.mem_singleton] at ha; subst ha
                  exact fun e => hb'.1 e.symm
            · intro i v hi
              rw [ht] at hi; rw [he]
              rcases h.acc i v hi with h1 | h1 | h1
              · by_cases e : i = head
                · exact Or.inr (Or.inl (List.mem_append_right _ (by simp [e])))
                · exact Or.inl ((List.mem_erase_of_ne e).mpr h1)
              · exact Or.inr (Or.inl (List.mem_append_left _ h1))
              · exact Or.inr (Or.inr h1)
      · exact skip
    · exact skip
  | endCollect head =>
    simp only [State.step]
    split
    · split
      · exact same _ _ rfl rfl rfl (fun _ h => h) rfl rfl
      · exact skip
    · exact skip
  | selected n =>
    simp only [State.step]
    split
    · split
      · split
        · refine hist_append s _ tr _ _ h ho rfl rfl (fun _ h => h) (by simp [State.create]; omega) ?_ ?_ ?_ ?_
          · intro i hi
            simp only [State.create]
            rw [if_neg (by omega), if_neg (by omega)]
          · intro i h1 h2 w
            simp only [State.create]
            split
            · simp
            · simp
          · intro i hi
            simp only [enteredOut] at hi
            rcases List.mem_append.mp hi with hi | hi
            · rw [List.mem_range'_1] at hi
              exact ⟨hi.1, by simp only [State.create]; omega⟩
            · simp only [List.mem_singleton] at hi; subst hi
              exact ⟨by omega, by simp [State.create]⟩
          · simp only [enteredOut]
            rw [List.nodup_append]
            refine ⟨List.nodup_range', by simp, ?_⟩
            intro a ha b hb
            rw [List.mem_range'_1] at ha
            simp only [List.mem_singleton] at hb
            omega
        · refine hist_append s _ tr _ _ h ho rfl rfl (fun _ h => h) (by simp) ?_ ?_ ?_ List.nodup_range'
          · intro i hi
            simp only
            rw [if_neg (by omega)]
          · intro i h1 h2 w
            simp only
            rw [if_pos h1]; simp
          · intro i hi
            simp only [enteredOut] at hi
            rw [List.mem_range'_1] at hi
            exact ⟨hi.1, by simp only; omega⟩
      · exact skip
    · exact skip
  | runOne =>
    simp only [State.step]
    split
    · split
      · exact skip
      · split
        · exact same _ _ rfl rfl rfl (fun _ h => h) rfl rfl
        · exact same _ _ rfl rfl rfl (fun _ h => h) rfl rfl
    · exact skip

theorem runAll_hist (r : Nat) (ops : List Op) : Hist ((State.init r).runAll ops) (trace (.init r) ops) := by
  have gen : ∀ (ops : List Op) (s : State) (tr : List (Op × Out)), Ord s → Hist s tr → Hist (s.runAll ops) (tr ++ trace s ops) := by
    intro ops
    induction ops with
    | nil => intro s tr _ h; simpa [trace, State.runAll] using h
    | cons op ops ih =>
      intro s tr ho h
      have e : tr ++ trace s (op :: ops) = (tr ++ [(op, (s.step op).2)]) ++ trace (s.step op).1 ops := by simp [trace]
      rw [e]
      exact ih _ _ (step_ord s ho op) (step_hist s tr h ho op)
  simpa using gen ops (.init r) [] (ord_init r) (hist_init r)

/-- A handle that left `_ready` ran, or had been cancelled. -/
theorem handled_ran (ops : List Op) (i : Nat) : ∀ s : State, i ∈ handled (trace s ops) →
    i ∈ ranIds (trace s ops) ∨ i ∈ s.cancelled ∨ .cancel i ∈ ops := by
  induction ops with
  | nil => intro s h; simp [trace, handled] at h
  | cons op ops ih =>
    intro s h
    have e : handled (trace s (op :: ops)) = handledOut (s.step op).2 ++ handled (trace (s.step op).1 ops) := by simp [trace, handled]
    have er : ranIds (trace s (op :: ops)) = ranIds [(op, (s.step op).2)] ++ ranIds (trace (s.step op).1 ops) := by
      rw [← ranIds_append]; rfl
    rw [e] at h
    rw [er]
    rcases List.mem_append.mp h with h | h
    · cases ho : (s.step op).2 with
      | ran j => rw [ho] at h; left; apply List.mem_append_left; simpa [ranIds, handledOut] using h
      | skipped j =>
        rw [ho] at h
        simp only [handledOut, List.mem_singleton] at h
        subst h
        right; left
        cases op with
        | runOne =>
          simp only [State.step] at ho
          split at ho
          · split at ho
            · cases ho
            · split at ho
              · rename_i hc; simp only [Out.skipped.injEq] at ho; exact ho ▸ hc
              · cases ho
          · cases ho
        | tick | cancel | stop => simp [State.step] at ho
        | callSoon | callSoonThreadSafe | wakeUp | callAt => simp only [State.step] at ho; split at ho <;> cases ho
        | iterate =>
          simp only [State.step] at ho
          split at ho
          · split at ho <;> cases ho
          · cases ho
        | collect =>
          simp only [State.step] at ho
          split at ho
          · split at ho
            · split at ho
              · cases ho
              · split at ho <;> cases ho
            · cases ho
          · cases ho
        | endCollect =>
          simp only [State.step] at ho
          split at ho
          · split at ho <;> cases ho
          · cases ho
        | selected =>
          simp only [State.step] at ho
          split at ho
          · split at ho
            · split at ho <;> cases ho
            · cases ho
          · cases ho
      | _ => rw [ho] at h; simp [handledOut] at h
    · rcases ih _ h with h | h | h
      · exact Or.inl (List.mem_append_right _ h)
      · rcases (step_cancelled s op i).mp h with h | h
        · exact Or.inr (Or.inl h)
        · exact Or.inr (Or.inr (by simp [h]))
      · exact Or.inr (Or.inr (List.mem_cons_of_mem _ h))

theorem ran_sublist (tr : List (Op × Out)) : (ranIds tr).Sublist (handled tr) := by
  induction tr with
  | nil => exact List.Sublist.refl _
  | cons e tr ih =>
    obtain ⟨op, o⟩ := e
    have h1 : handled ((op, o) :: tr) = handledOut o ++ handled tr := by simp [handled]
    have h2 : ranIds ((op, o) :: tr) = ranIds [(op, o)] ++ ranIds tr := by rw [← ranIds_append]; rfl
    rw [h1, h2]
    refine List.Sublist.append ?_ ih
    cases o <;> simp [ranIds, handledOut]

theorem soon_sublist (tr : List (Op × Out)) : (soonIds tr).Sublist (entered tr) := by
  induction tr with
  | nil => exact List.Sublist.refl _
  | cons e tr ih =>
    obtain ⟨op, o⟩ := e
    have h1 : entered ((op, o) :: tr) = enteredOut o ++ entered tr := by simp [entered]
    have h2 : soonIds ((op, o) :: tr) = soonIds [(op, o)] ++ soonIds tr := by simp [soonIds]; cases o <;> rfl
    rw [h1, h2]
    refine List.Sublist.append ?_ ih
    cases o <;> simp [soonIds, enteredOut]

theorem filter_of_sublist {l m : List Nat} (h : l.Sublist m) (hnd : m.Nodup) : m.filter (· ∈ l) = l := by
  induction h with
  | slnil => rfl
  | @cons l m a h ih =>
    obtain ⟨ha, hnd⟩ := List.nodup_cons.mp hnd
    have : a ∉ l := fun hal => ha (h.subset hal)
    simp [this, ih hnd]
  | @cons_cons l m a h ih =>
    obtain ⟨ha, hnd⟩ := List.nodup_cons.mp hnd
    simp only [List.filter_cons, List.mem_cons, true_or, decide_true, if_true, List.cons.injEq, true_and]
    rw [← ih hnd]
    apply List.filter_congr
    intro x hx
    have hxa : x ≠ a := fun e => ha (e ▸ hx)
    simp only [List.mem_filter, decide_eq_decide]
    simp [hxa, hx]

theorem fifo_init (r : Nat) (ops : List Op) : entered (trace (.init r) ops) = handled (trace (.init r) ops) ++ ((State.init r).runAll ops).ready := by
  have := runAll_fifo ops (.init r)
  simpa [State.init] using this

/-! ### C26 -/

/-- C26. Callbacks run in the order in which they were scheduled: those run are, in order, a part of those scheduled. -/
theorem C26_in_order (r : Nat) (ops : List Op) :
    ((ranIds (trace (.init r) ops)).filter (· ∈ soonIds (trace (.init r) ops))).Sublist (soonIds (trace (.init r) ops)) := by
  have hh := runAll_hist r ops
  have hf := fifo_init r ops
  have hnd := (List.nodup_append.mp hh.nd).1
  have h1 : (ranIds (trace (.init r) ops)).Sublist (entered (trace (.init r) ops)) := by
    rw [hf]; exact (ran_sublist _).trans (List.sublist_append_left _ _)
  have := h1.filter (· ∈ soonIds (trace (.init r) ops))
  rwa [filter_of_sublist (soon_sublist (trace (.init r) ops)) hnd] at this

/-- C26. No handle runs twice. -/
theorem C26_at_most_once (r : Nat) (ops : List Op) : (ranIds (trace (.init r) ops)).Nodup := by
  have hnd := (List.nodup_append.mp (runAll_hist r ops).nd).1
  rw [fifo_init r ops] at hnd
  exact (List.nodup_append.mp hnd).1.sublist (ran_sublist _)

/-- C26. A handle that runs was not cancelled before. -/
theorem C26_not_after_cancel (r : Nat) (ops : List Op) (op : Op) (i : Nat) (h : (((State.init r).runAll ops).step op).2 = .ran i) :
    .cancel i ∉ ops := by
  intro hc
  have hc' : i ∈ ((State.init r).runAll ops).cancelled := (runAll_cancelled ops i _).mpr (Or.inr hc)
  generalize (State.init r).runAll ops = s at *
  cases op with
  | runOne =>
    simp only [State.step] at h
    split at h
    · split at h
      · cases h
      · split at h
        · cases h
        · rename_i hn; simp only [Out.ran.injEq] at h; exact hn (h ▸ hc')
    · cases h
  | tick | cancel | stop => simp [State.step] at h
  | callSoon | callSoonThreadSafe | wakeUp | callAt => simp only [State.step] at h; split at h <;> cases h
  | iterate =>
    simp only [State.step] at h
    split at h
    · split at h <;> cases h
    · cases h
  | collect =>
    simp only [State.step] at h
    split at h
    · split at h
      · split at h
        · cases h
        · split at h <;> cases h
      · cases h
    · cases h
  | endCollect =>
    simp only [State.step] at h
    split at h
    · split at h <;> cases h
    · cases h
  | selected =>
    simp only [State.step] at h
    split at h
    · split at h
      · split at h <;> cases h
      · cases h
    · cases h

/-- C26. No overtaking: when a callback ran, every callback scheduled before it ran, or was cancelled. -/
theorem C26_no_overtaking (r : Nat) (ops : List Op) (l₁ l₂ : List Nat) (i j : Nat)
    (h : soonIds (trace (.init r) ops) = l₁ ++ i :: l₂) (hj : j ∈ l₂) (hran : j ∈ ranIds (trace (.init r) ops)) :
    i ∈ ranIds (trace (.init r) ops) ∨ .cancel i ∈ ops := by
  have hh := runAll_hist r ops
  have hf := fifo_init r ops
  have hnd := (List.nodup_append.mp hh.nd).1
  have hsub := soon_sublist (trace (.init r) ops)
  have hi : i ∈ entered (trace (.init r) ops) := hsub.subset (by rw [h]; simp)
  rw [hf] at hi
  rcases List.mem_append.mp hi with hi | hi
  · rcases handled_ran ops i (.init r) hi with h | h | h
    · exact Or.inl h
    · simp [State.init] at h
    · exact Or.inr h
  · exfalso
    -- `i` is after `j` in `entered`, but before it in `soonIds`
    have hjh : j ∈ handled (trace (.init r) ops) := (ran_sublist _).subset hran
    rw [hf] at hnd hsub
    have hpair : ([j, i] : List Nat).Sublist (handled (trace (.init r) ops) ++ ((State.init r).runAll ops).ready) := by
      exact List.Sublist.append (List.singleton_sublist.mpr hjh) (List.singleton_sublist.mpr hi)
    have hpair' : ([i, j] : List Nat).Sublist (soonIds (trace (.init r) ops)) := by
      rw [h]
      exact (List.Sublist.cons_cons i (List.singleton_sublist.mpr hj)).trans (List.sublist_append_right _ _)
    have h2 := hpair'.trans hsub
    -- both orders in a list without duplicates
    have both : ∀ m : List Nat, m.Nodup → ([i, j] : List Nat).Sublist m → ([j, i] : List Nat).Sublist m → False := by
      intro m
      induction m with
      | nil => intro _ h; simp at h
      | cons a m ih =>
        intro hnd h1 h2
        obtain ⟨ha, hnd⟩ := List.nodup_cons.mp hnd
        cases h1 with
        | cons _ h1 =>
          cases h2 with
          | cons _ h2 => exact ih hnd h1 h2
          | cons_cons _ h2 => exact ha (h1.subset (by simp))
        | cons_cons _ h1 =>
          cases h2 with
          | cons _ h2 => exact ha (h2.subset (by simp))
          | cons_cons _ h2 => exact ha (h1.subset (by simp))
    exact both _ hnd h2 hpair

theorem drain_stays (s : State) (op : Op) (h : s.phase = .drain) (hr : s.ready ≠ []) : (s.step op).1.phase = .drain := by
  cases op with
  | iterate => simp [State.step, h, hr]
  | tick | cancel | stop => simp [State.step, h]
  | callSoon | callSoonThreadSafe | wakeUp | callAt => simp only [State.step]; split <;> simp [State.create, h]
  | collect | endCollect | selected => simp [State.step, h]
  | runOne =>
    simp only [State.step]
    rw [if_pos h]
    split
    · exact h
    · split <;> exact h

/-- C26. Scheduled callbacks are reached: one with `k` handles before it is run, or skipped as cancelled, by the time `k + 1`
handles were processed, whatever callbacks do meanwhile. -/
theorem C26_reached (ops : List Op) : ∀ (s : State) (pre post : List Nat) (i : Nat), s.phase = .drain → s.ready = pre ++ i :: post →
    pre.length < ops.count .runOne → i ∈ ranIds (trace s ops) ∨ i ∈ s.cancelled ∨ .cancel i ∈ ops := by
  intro s pre post i hp hr hc
  refine handled_ran ops i s ?_
  revert s pre post
  induction ops with
  | nil => intro s pre post _ _ h; simp at h
  | cons op ops ih =>
    intro s pre post hp hr hc
    have e : handled (trace s (op :: ops)) = handledOut (s.step op).2 ++ handled (trace (s.step op).1 ops) := by simp [trace, handled]
    rw [e]
    have hp' := drain_stays s op hp (by rw [hr]; simp)
    have hf := step_fifo s op
    by_cases ho : op = .runOne
    · subst ho
      cases pre with
      | nil =>
        apply List.mem_append_left
        simp only [List.nil_append] at hr
        simp only [State.step, hp, hr, if_true]
        split <;> simp [handledOut]
      | cons a pre =>
        apply List.mem_append_right
        refine ih _ pre (post) hp' ?_ (by simp only [List.count_cons_self, List.length_cons] at hc; omega)
        simp only [List.cons_append] at hr
        simp only [State.step, hp, hr, if_true]
        split <;> rfl
    · apply List.mem_append_right
      have hh : handledOut (s.step op).2 = [] := by
        cases op with
        | runOne => exact absurd rfl ho
        | iterate => simp [State.step, hr, handledOut]
        | tick | cancel | stop => rfl
        | callSoon | callSoonThreadSafe | wakeUp | callAt => simp only [State.step]; split <;> rfl
        | collect | endCollect | selected => simp [State.step, hp, handledOut]
      rw [hh, List.nil_append, hr, List.append_assoc] at hf
      refine ih _ pre (post ++ enteredOut (s.step op).2) hp' ?_ ?_
      · rw [← hf]; simp
      · rw [List.count_cons_of_ne ho] at hc; exact hc

/-- Instance: a callback schedules and cancels others. -/
example : let ops : List Op := [.callSoon, .callSoon, .callSoon, .runOne, .cancel 1, .callSoon, .runOne, .runOne, .runOne]
    soonIds (trace (.init 1) ops) = [0, 1, 2, 3] ∧ ranIds (trace (.init 1) ops) = [0, 2, 3] := by decide

/-! ### C27 -/

/-- C27. A timer does not run before its time, up to the clock's resolution. -/
theorem C27_not_before (r : Nat) (ops : List Op) (op : Op) (i w : Nat) (ht : (i, w) ∈ timersIn (trace (.init r) ops))
    (h : (((State.init r).runAll ops).step op).2 = .ran i) : w < clock ops + r := by
  have hh := runAll_hist r ops
  have ho := runAll_ord ops _ (ord_init r)
  have hn := runAll_now ops (.init r)
  have hk := ((hh.tim i w).mp ht).2
  have hmem : i ∈ ((State.init r).runAll ops).ready := by
    have hf := step_fifo ((State.init r).runAll ops) op
    rw [h] at hf
    simp only [enteredOut, handledOut, List.append_nil] at hf
    rw [hf]; simp
  have := ho.due i hmem w hk
  rw [hn.1, hn.2] at this
  simpa [State.init] using this

theorem step_mark (s : State) (h : s.mark ≤ s.next) (op : Op) : s.mark ≤ (s.step op).1.mark ∧ s.next ≤ (s.step op).1.next := by
  cases op with
  | tick | cancel | stop => simp [State.step]
  | callSoon | callSoonThreadSafe | wakeUp | callAt => simp only [State.step]; split <;> simp [State.create]
  | iterate =>
    simp only [State.step]
    split
    · split <;> simp [h]
    · simp
  | collect =>
    simp only [State.step]
    split
    · split
      · split
        · simp
        · split <;> simp
      · simp
    · simp
  | endCollect =>
    simp only [State.step]
    split
    · split <;> simp
    · simp
  | selected n =>
    simp only [State.step]
    split
    · split
      · split <;> simp [State.create]
        omega
      · simp
    · simp
  | runOne =>
    simp only [State.step]
    split
    · split
      · simp
      · split <;> simp
    · simp

theorem runAll_mark (ops : List Op) : ∀ s : State, Ord s → s.mark ≤ (s.runAll ops).mark := by
  induction ops with
  | nil => intro s _; exact Nat.le_refl _
  | cons op ops ih => intro s h; exact Nat.le_trans (step_mark s h.mark op).1 (ih _ (step_ord s h op))

theorem began_mark (s : State) (h : (s.step .iterate).2 = .began) :
    (s.step .iterate).1.mark = s.next ∧ (s.step .iterate).1.phase = .collect (s.now + s.resolution) := by
  simp only [State.step] at h ⊢
  split at h
  · rename_i hp
    split at h
    · rename_i hs; rw [if_pos hp, if_pos hs]; exact ⟨rfl, rfl⟩
    · cases h
  · cases h

/-- C27. Among the timers known when an iteration began, earlier deadlines go first: when a timer runs, every timer with an earlier
deadline that was scheduled before the iteration began has run, unless it was cancelled. -/
theorem C27_earlier_first (r : Nat) (ops₁ ops₂ : List Op) (op : Op) (a b wa wb : Nat)
    (hbegan : (((State.init r).runAll ops₁).step .iterate).2 = .began)
    (ha : (a, wa) ∈ timersIn (trace (.init r) ops₁)) (hb : (b, wb) ∈ timersIn (trace (.init r) (ops₁ ++ .iterate :: ops₂)))
    (hlt : wa < wb) (hran : (((State.init r).runAll (ops₁ ++ .iterate :: ops₂)).step op).2 = .ran b) :
    a ∈ ranIds (trace (.init r) (ops₁ ++ .iterate :: ops₂)) ∨ .cancel a ∈ ops₁ ++ .iterate :: ops₂ := by
  have hh1 := runAll_hist r ops₁
  have ho1 := runAll_ord ops₁ _ (ord_init r)
  have hh := runAll_hist r (ops₁ ++ .iterate :: ops₂)
  have ho := runAll_ord (ops₁ ++ .iterate :: ops₂) _ (ord_init r)
  have hf := fifo_init r (ops₁ ++ .iterate :: ops₂)
  have hm : a < ((State.init r).runAll (ops₁ ++ .iterate :: ops₂)).mark := by
    rw [runAll_append]
    have h1 := ((hh1.tim a wa).mp ha).1
    have h2 := runAll_mark ops₂ (((State.init r).runAll ops₁).step .iterate).1 (step_ord _ ho1 _)
    rw [(began_mark _ hbegan).1] at h2
    exact Nat.lt_of_lt_of_le h1 h2
  have ha' : (a, wa) ∈ timersIn (trace (.init r) (ops₁ ++ .iterate :: ops₂)) := by
    rw [trace_append, timersIn_append]; exact List.mem_append_left _ ha
  have hka := ((hh.tim a wa).mp ha').2
  have hkb := ((hh.tim b wb).mp hb).2
  obtain ⟨ready, hr⟩ : ∃ ready, ((State.init r).runAll (ops₁ ++ .iterate :: ops₂)).ready = b :: ready := by
    have hf := step_fifo ((State.init r).runAll (ops₁ ++ .iterate :: ops₂)) op
    rw [hran] at hf
    simp only [enteredOut, handledOut, List.append_nil] at hf
    exact ⟨_, hf⟩
  rcases hh.acc a wa ha' with h | h | h
  · exfalso
    have := ho.sep b (by rw [hr]; simp) wb hkb a h hm
    simp only [State.whenOf, hka] at this
    omega
  · rw [hf] at h
    rcases List.mem_append.mp h with h | h
    · rcases handled_ran _ a (.init r) h with h | h | h
      · exact Or.inl h
      · simp [State.init] at h
      · exact Or.inr h
    · exfalso
      rw [hr] at h
      rcases List.mem_cons.mp h with h | h
      · subst h
        rw [hka] at hkb; cases hkb; omega
      · have hs := ho.sorted
        rw [hr] at hs
        have := (List.pairwise_cons.mp hs).1 a h wb wa hkb hka
        omega
  · have := (runAll_cancelled _ a _).mp h
    rcases this with h | h
    · simp [State.init] at h
    · exact Or.inr h

/-- C27. At most once, and never after cancellation, are `C26_at_most_once` and `C26_not_after_cancel`, which are about all handles. -/
theorem C27_once_not_cancelled (r : Nat) (ops : List Op) (op : Op) (i w : Nat) (_ : (i, w) ∈ timersIn (trace (.init r) ops))
    (h : (((State.init r).runAll ops).step op).2 = .ran i) : i ∉ ranIds (trace (.init r) ops) ∧ .cancel i ∉ ops := by
  refine ⟨?_, C26_not_after_cancel r ops op i h⟩
  have hnd := C26_at_most_once r (ops ++ [op])
  rw [trace_append, ranIds_append] at hnd
  intro hi
  refine (List.nodup_append.mp hnd).2.2 i hi i ?_ rfl
  simp [trace, ranIds, h]

/-- Instance: two timers and a callback; the later scheduled timer has the earlier deadline. -/
example : let ops : List Op := [.callAt 5, .callAt 3, .iterate, .endCollect 1, .tick 4, .selected 0, .iterate, .collect 1, .endCollect 0, .selected 0,
      .runOne, .iterate, .endCollect 0, .tick 1, .selected 0, .iterate, .collect 0, .endCollect 0, .selected 0, .runOne]
    timersIn (trace (.init 1) ops) = [(0, 5), (1, 3)] ∧ ranIds (trace (.init 1) ops) = [1, 0] ∧ clock ops = 5 := by decide

/-! ### C28 -/

theorem step_kind (s : State) (op : Op) (i : Nat) (h : i < s.next) : (s.step op).1.kind i = s.kind i := by
  have hne : ¬ i = s.next := by omega
  have hnle : ¬ s.next ≤ i := by omega
  cases op with
  | tick | cancel | stop => rfl
  | callSoon | callSoonThreadSafe | callAt => simp only [State.step]; split <;> simp [State.create, hne]
  | wakeUp => simp only [State.step]; split <;> rfl
  | iterate =>
    simp only [State.step]
    split
    · split <;> rfl
    · rfl
  | collect =>
    simp only [State.step]
    split
    · split
      · split
        · rfl
        · split <;> rfl
      · rfl
    · rfl
  | endCollect =>
    simp only [State.step]
    split
    · split <;> rfl
    · rfl
  | selected n =>
    simp only [State.step]
    split
    · split
      · split
        · simp only [State.create]; rw [if_neg (by omega), if_neg hnle]
        · simp [hnle]
      · rfl
    · rfl
  | runOne =>
    simp only [State.step]
    split
    · split
      · rfl
      · split <;> rfl
    · rfl

/-- A timer that was due when the iteration began: it is in `_scheduled` only while collecting. -/
structure Due (i w : Nat) (s : State) : Prop where
  lt : i < s.next
  kind : s.kind i = .timer w
  sch : i ∈ s.scheduled → ∃ limit, s.phase = .collect limit ∧ w < limit

theorem step_due (s : State) (i w : Nat) (h : Due i w s) (ho : Ord s) (op : Op) : Due i w (s.step op).1 := by
  refine ⟨Nat.lt_of_lt_of_le h.lt (step_mark s ho.mark op).2, (step_kind s op i h.lt).trans h.kind, ?_⟩
  have hwo : s.whenOf i = w := by simp [State.whenOf, h.kind]
  have hlt := h.lt
  cases op with
  | tick | cancel | stop => exact h.sch
  | callSoon | callSoonThreadSafe | wakeUp => simp only [State.step]; split <;> exact h.sch
  | callAt v =>
    simp only [State.step]
    split
    · intro hi
      rcases List.mem_append.mp hi with hi | hi
      · exact h.sch hi
      · simp only [List.mem_singleton] at hi; omega
    · exact h.sch
  | iterate =>
    simp only [State.step]
    split
    · rename_i hp
      split
      · intro hi
        obtain ⟨l, h1, _⟩ := h.sch hi
        rw [hp.1] at h1; cases h1
      · intro hi
        obtain ⟨l, h1, _⟩ := h.sch hi
        rw [hp.1] at h1; cases h1
    · exact h.sch
  | collect head =>
    simp only [State.step]
    split
    · rename_i limit hp
      have : i ∈ s.scheduled.erase head → ∃ limit, s.phase = .collect limit ∧ w < limit := fun hi => h.sch (List.mem_of_mem_erase hi)
      split
      · split
        · exact this
        · split
          · exact h.sch
          · exact this
      · exact h.sch
    · exact h.sch
  | endCollect head =>
    simp only [State.step]
    split
    · rename_i limit hp
      split
      · rename_i hc
        intro hi
        exfalso
        rcases hc with hc | ⟨h1, _, h3⟩
        · simp only at hi; rw [hc] at hi; simp at hi
        · simp only [State.isHead, decide_eq_true_eq] at h1
          have := h1.2 i hi
          rw [hwo] at this
          obtain ⟨l, h4, h5⟩ := h.sch hi
          rw [hp] at h4; cases h4; omega
      · exact h.sch
    · exact h.sch
  | selected n =>
    simp only [State.step]
    split
    · rename_i u hp
      have : i ∈ s.scheduled → False := by
        intro hi
        obtain ⟨l, h1, _⟩ := h.sch hi
        rw [hp] at h1; cases h1
      split
      · split <;> exact fun hi => (this hi).elim
      · exact h.sch
    · exact h.sch
  | runOne =>
    simp only [State.step]
    split
    · split
      · exact h.sch
      · split <;> exact h.sch
    · exact h.sch

/-- C28, for iterations that end: when all ready handles of an iteration have been processed, every timer that was due when the iteration
began has run, or was cancelled. -/
theorem C28_due_timers_run_partial (r : Nat) (ops₁ ops₂ : List Op) (i w : Nat)
    (hbegan : (((State.init r).runAll ops₁).step .iterate).2 = .began)
    (ht : (i, w) ∈ timersIn (trace (.init r) ops₁)) (hdue : w < clock ops₁ + r)
    (hend : ((State.init r).runAll (ops₁ ++ .iterate :: ops₂)).phase = .drain ∧
      ((State.init r).runAll (ops₁ ++ .iterate :: ops₂)).ready = []) :
    i ∈ ranIds (trace (.init r) (ops₁ ++ .iterate :: ops₂)) ∨ .cancel i ∈ ops₁ ++ .iterate :: ops₂ := by
  have hh := runAll_hist r (ops₁ ++ .iterate :: ops₂)
  have hf := fifo_init r (ops₁ ++ .iterate :: ops₂)
  have ht' : (i, w) ∈ timersIn (trace (.init r) (ops₁ ++ .iterate :: ops₂)) := by
    rw [trace_append, timersIn_append]; exact List.mem_append_left _ ht
  rcases hh.acc i w ht' with h | h | h
  · exfalso
    have hk := ((runAll_hist r ops₁).tim i w).mp ht
    have hn := runAll_now ops₁ (.init r)
    have ho1 := runAll_ord ops₁ _ (ord_init r)
    have key : ∀ (ops : List Op) (s : State), Ord s → Due i w s → Due i w (s.runAll ops) := by
      intro ops
      induction ops with
      | nil => intro s _ h; exact h
      | cons op ops ih => intro s ho h; exact ih _ (step_ord s ho op) (step_due s i w h ho op)
    have hd : Due i w (((State.init r).runAll ops₁).step .iterate).1 := by
      refine ⟨Nat.lt_of_lt_of_le hk.1 (step_mark _ ho1.mark _).2, (step_kind _ _ i hk.1).trans hk.2, fun _ => ?_⟩
      refine ⟨_, (began_mark _ hbegan).2, ?_⟩
      rw [hn.1, hn.2]
      simpa [State.init] using hdue
    have := key ops₂ _ (step_ord _ ho1 _) hd
    rw [runAll_append] at h hend
    obtain ⟨l, h1, _⟩ := this.sch h
    have h2 := hend.1
    rw [show ((State.init r).runAll ops₁).runAll (.iterate :: ops₂) = (((State.init r).runAll ops₁).step .iterate).1.runAll ops₂ from rfl, h1] at h2
    cases h2
  · rw [hf, hend.2, List.append_nil] at h
    rcases handled_ran _ i (.init r) h with h | h | h
    · exact Or.inl h
    · simp [State.init] at h
    · exact Or.inr h
  · have := (runAll_cancelled _ i _).mp h
    rcases this with h | h
    · simp [State.init] at h
    · exact Or.inr h

/-- A callback that schedules itself again each time it runs, for `n` rounds of one clock unit each. -/
def selfRescheduling (n : Nat) : List Op := (List.replicate n [Op.tick 1, .runOne, .callSoon]).flatten

/-- C28 does not hold: with a callback that schedules itself again, a timer with deadline zero never runs, however long the loop goes
on: after `n` rounds the clock shows `n`, `n` callbacks ran, and the timer did not. -/
theorem C28_starved_violated (n : Nat) : let ops : List Op := [.callAt 0, .callSoon] ++ selfRescheduling n
    (0, 0) ∈ timersIn (trace (.init 1) ops) ∧ clock ops = n ∧ (ranIds (trace (.init 1) ops)).length = n ∧
    0 ∉ ranIds (trace (.init 1) ops) ∧ .cancel 0 ∉ ops := by
  have gen : ∀ (n : Nat) (s : State) (j : Nat), s.phase = .drain → s.ready = [j] → j ≠ 0 → s.next ≠ 0 → s.cancelled = [] →
      clock (selfRescheduling n) = n ∧ (ranIds (trace s (selfRescheduling n))).length = n ∧
      0 ∉ ranIds (trace s (selfRescheduling n)) ∧ .cancel 0 ∉ selfRescheduling n := by
    intro n
    induction n with
    | zero => intro s j _ _ _ _ _; simp [selfRescheduling, clock, trace, ranIds]
    | succ n ih =>
      intro s j h1 h2 h3 h4 h5
      have e : selfRescheduling (n + 1) = [.tick 1, .runOne, .callSoon] ++ selfRescheduling n := by
        simp [selfRescheduling, List.replicate_succ]
      rw [e, trace_append, ranIds_append]
      have hr : ranIds (trace s [.tick 1, .runOne, .callSoon]) = [j] := by
        simp [trace, State.step, h1, h2, h5, ranIds]
      have hs : (s.runAll [.tick 1, .runOne, .callSoon]).phase = .drain ∧ (s.runAll [.tick 1, .runOne, .callSoon]).ready = [s.next] ∧
          (s.runAll [.tick 1, .runOne, .callSoon]).next = s.next + 1 ∧ (s.runAll [.tick 1, .runOne, .callSoon]).cancelled = [] := by
        simp [State.runAll, State.step, h1, h2, h5, State.create]
      obtain ⟨i1, i2, i3, i4⟩ := ih _ s.next hs.1 hs.2.1 h4 (by omega) hs.2.2.2
      rw [hr]
      refine ⟨?_, ?_, ?_, ?_⟩
      · simp only [List.cons_append, List.nil_append, clock]; omega
      · simp only [List.length_append, List.length_singleton]; omega
      · simp only [List.mem_append, List.mem_singleton]
        rintro (h | h)
        · exact h3 h.symm
        · exact i3 h
      · simp only [List.cons_append, List.nil_append, List.mem_cons]
        rintro (h | h | h | h)
        · cases h
        · cases h
        · cases h
        · exact i4 h
  have hs : ((State.init 1).runAll [.callAt 0, .callSoon]).phase = .drain ∧ ((State.init 1).runAll [.callAt 0, .callSoon]).ready = [1] ∧
      ((State.init 1).runAll [.callAt 0, .callSoon]).next = 2 ∧ ((State.init 1).runAll [.callAt 0, .callSoon]).cancelled = [] := by decide
  obtain ⟨i1, i2, i3, i4⟩ := gen n _ 1 hs.1 hs.2.1 (by decide) (by omega) hs.2.2.2
  have hr : ranIds (trace (.init 1) [.callAt 0, .callSoon]) = [] := by decide
  have ht : timersIn (trace (.init 1) [.callAt 0, .callSoon]) = [(0, 0)] := by decide
  simp only
  rw [trace_append, ranIds_append, timersIn_append, hr, ht]
  refine ⟨by simp, ?_, i2, i3, ?_⟩
  · simpa [clock] using i1
  · simp only [List.cons_append, List.nil_append, List.mem_cons]
    rintro (h | h | h)
    · cases h
    · cases h
    · exact i4 h

/-! ### C58 -/

structure Awake (s : State) : Prop where
  ready : ∀ u, s.phase = .select u → s.ready = [] ∨ (∃ t ∈ u, t ≤ s.now) ∨ s.byte = true ∨ 0 < s.wakers
  timers : ∀ u, s.phase = .select u → ∀ i ∈ s.scheduled, ∃ t ∈ u, t ≤ s.now ∨ t ≤ s.whenOf i

theorem step_awake (s : State) (h : Awake s) (ho : Ord s) (op : Op) : Awake (s.step op).1 := by
  have drain : ∀ t : State, (∀ u, t.phase ≠ .select u) → Awake t := fun t ht => ⟨fun u hu => absurd hu (ht u), fun u hu => absurd hu (ht u)⟩
  cases op with
  | tick d =>
    refine ⟨?_, ?_⟩
    · intro u hu
      rcases h.ready u hu with h | ⟨t, h1, h2⟩ | h
      · exact Or.inl h
      · exact Or.inr (Or.inl ⟨t, h1, by simp only [State.step]; omega⟩)
      · exact Or.inr (Or.inr h)
    · intro u hu i hi
      obtain ⟨t, h1, h2⟩ := h.timers u hu i hi
      refine ⟨t, h1, ?_⟩
      rcases h2 with h2 | h2
      · left; simp only [State.step]; omega
      · right; exact h2
  | callSoon =>
    simp only [State.step]
    split
    · rename_i hp; exact drain _ (by simp [State.create, hp])
    · exact h
  | callSoonThreadSafe =>
    simp only [State.step]
    split
    · exact h
    · refine ⟨fun u hu => Or.inr (Or.inr (Or.inr (by simp))), ?_⟩
      intro u hu i hi
      obtain ⟨t, h1, h2⟩ := h.timers u hu i hi
      refine ⟨t, h1, ?_⟩
      rw [show ({ s.create .soon with ready := s.ready ++ [s.next], wakers := s.wakers + 1 } : State).whenOf i = s.whenOf i from
        whenOf_congr s _ i (kind_old s _ (ho.slt i hi))]
      exact h2
  | wakeUp =>
    simp only [State.step]
    split
    · exact h
    · exact ⟨fun u hu => Or.inr (Or.inr (Or.inl rfl)), h.timers⟩
  | callAt w =>
    simp only [State.step]
    split
    · rename_i hp; exact drain _ (by simp [State.create, hp])
    · exact h
  | cancel i => exact ⟨h.ready, h.timers⟩
  | stop => exact ⟨h.ready, h.timers⟩
  | iterate =>
    simp only [State.step]
    split
    · split
      · exact drain _ (by simp)
      · exact drain _ (by simp)
    · exact h
  | collect head =>
    simp only [State.step]
    split
    · rename_i limit hp
      split
      · split
        · exact drain _ (by simp [hp])
        · split
          · exact h
          · exact drain _ (by simp [hp])
      · exact h
    · exact h
  | endCollect head =>
    simp only [State.step]
    split
    · rename_i limit hp
      split
      · rename_i hc
        refine ⟨?_, ?_⟩
        · intro u hu
          simp only [Phase.select.injEq] at hu
          by_cases hr : s.ready = []
          · exact Or.inl hr
          · right; left
            rw [if_pos hr] at hu
            exact ⟨s.now, by simp [← hu], Nat.le_refl _⟩
        · intro u hu i hi
          simp only [Phase.select.injEq] at hu
          by_cases hr : s.ready = []
          · have hs : s.scheduled ≠ [] := by intro e; simp only at hi; rw [e] at hi; simp at hi
            rw [if_neg (by simpa using hr), if_pos hs] at hu
            refine ⟨s.whenOf head, by simp [← hu], Or.inr ?_⟩
            rcases hc with hc | ⟨h1, _, _⟩
            · exact absurd hc hs
            · simp only [State.isHead, decide_eq_true_eq] at h1
              exact h1.2 i hi
          · rw [if_pos hr] at hu
            exact ⟨s.now, by simp [← hu], Or.inl (Nat.le_refl _)⟩
      · exact h
    · exact h
  | selected n =>
    simp only [State.step]
    split
    · split
      · split
        · exact drain _ (by simp [State.create])
        · exact drain _ (by simp)
      · exact h
    · exact h
  | runOne =>
    simp only [State.step]
    split
    · rename_i hp
      split
      · exact h
      · split
        · exact drain _ (by simp [hp])
        · exact drain _ (by simp [hp])
    · exact h

theorem runAll_awake (r : Nat) (ops : List Op) : Awake ((State.init r).runAll ops) := by
  have gen : ∀ (ops : List Op) (s : State), Ord s → Awake s → Awake (s.runAll ops) := by
    intro ops
    induction ops with
    | nil => intro s _ h; exact h
    | cons op ops ih => intro s ho h; exact ih _ (step_ord s ho op) (step_awake s h ho op)
  exact gen ops _ (ord_init r) ⟨by simp [State.init], by simp [State.init]⟩

/-- C58. The loop does not sleep on work: if it is in `select` with a ready handle, and no other thread is about to wake it up, then
`select` returns without waiting. -/
theorem C58_no_sleep_on_ready (r : Nat) (ops : List Op) (u : Option Nat) (hp : ((State.init r).runAll ops).phase = .select u)
    (hr : ((State.init r).runAll ops).ready ≠ []) (hw : ((State.init r).runAll ops).wakers = 0) :
    ∃ l, (((State.init r).runAll ops).step (.selected 0)).2 = .sockets l := by
  have h := (runAll_awake r ops).ready u hp
  generalize (State.init r).runAll ops = s at *
  have hc : s.byte = true ∨ 0 < 0 ∨ (∃ t ∈ u, t ≤ s.now) := by
    rcases h with h | h | h | h
    · exact absurd h hr
    · exact Or.inr (Or.inr h)
    · exact Or.inl h
    · omega
  simp only [State.step, hp]
  rw [if_pos hc]
  split <;> exact ⟨_, rfl⟩

/-- C58. Nor past a deadline: `select` returns at the latest when the clock shows the deadline of any scheduled timer. -/
theorem C58_no_sleep_past_deadline (r : Nat) (ops : List Op) (u : Option Nat) (hp : ((State.init r).runAll ops).phase = .select u)
    (i : Nat) (hi : i ∈ ((State.init r).runAll ops).scheduled) (hnow : ((State.init r).runAll ops).whenOf i ≤ clock ops) :
    ∃ l, (((State.init r).runAll ops).step (.selected 0)).2 = .sockets l := by
  have h := (runAll_awake r ops).timers u hp i hi
  have hn := (runAll_now ops (.init r)).1
  generalize (State.init r).runAll ops = s at *
  have hn' : s.now = clock ops := by simpa [State.init] using hn
  have hc : s.byte = true ∨ 0 < 0 ∨ (∃ t ∈ u, t ≤ s.now) := by
    obtain ⟨t, h1, h2⟩ := h
    refine Or.inr (Or.inr ⟨t, h1, ?_⟩)
    omega
  simp only [State.step, hp]
  rw [if_pos hc]
  split <;> exact ⟨_, rfl⟩

/-- Instance: another thread appends while the loop sleeps forever; it is woken, and the handle runs. -/
example : let ops : List Op := [.iterate, .endCollect 0, .callSoonThreadSafe, .selected 0, .wakeUp, .selected 0, .runOne, .runOne]
    (trace (.init 1) ops).map (·.2) = [.began, .none, .soon 0, .none, .none, .sockets [1], .ran 0, .ran 1] ∧
    ((State.init 1).runAll ops).byte = false := by decide

end Verif.EventLoop
