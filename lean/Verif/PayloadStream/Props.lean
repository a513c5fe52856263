import Verif.PayloadStream.Model

/-! C33: data of a payload stream; C34: its terminal state and callbacks. -/
namespace Verif.PayloadStream

/-! ### specification -/

/-- The chunks accepted by the stream, in order. -/
def received (tr : List (Op × Out)) : List Bytes :=
  tr.flatMap fun e => match e.1 with
    | .chunk c => if e.2.ok then [c] else []
    | _ => []

/-- The chunks a consumer was given, in order. -/
def yields (i : Nat) (tr : List (Op × Out)) : List Bytes :=
  tr.flatMap fun e => match e.2.seen with
    | some (j, .yielded c) => if j = i then [c] else []
    | _ => []

/-- The ways the stream was told to be done and accepted it. -/
def finishes (tr : List (Op × Out)) : List Done :=
  tr.flatMap fun e => match e.1 with
    | .finish d => if e.2.ok then [d] else []
    | _ => []

/-- Callbacks added, and callbacks run. -/
def added (tr : List (Op × Out)) : List Nat := tr.flatMap fun e => match e.1 with
  | .addCallback c => [c]
  | _ => []

def ran (tr : List (Op × Out)) : List Nat := tr.flatMap fun e => e.2.ran

/-- One consumer. -/
def Only (i : Nat) (ops : List Op) : Prop := ∀ j, (.await j ∈ ops ∨ .iterate j ∈ ops) → j = i

/-! ### terminal state -/

theorem resolve_done (s : State) (f : Nat) (r : Fut) : (s.resolve f r).1.done = s.done ∧ (s.resolve f r).1.callbacks = s.callbacks := by
  unfold State.resolve; split <;> simp

theorem finish_done (s : State) (d : Done) : (s.finish d).1.done = some (s.done.getD d) ∧
    (s.finish d).2.ran = (if s.done.isSome then [] else s.callbacks.reverse) ∧
    (s.finish d).1.callbacks = (if s.done.isSome then s.callbacks else []) := by
  unfold State.finish
  cases h : s.done with
  | some d' => simp [h]
  | none =>
    simp only [Option.isSome_none, Bool.false_eq_true, if_false, Option.getD_none]
    cases hw : s.waiter with
    | none => simp only; split <;> simp
    | some f =>
      simp only
      split <;> simp [resolve_done]

theorem checkWait_done {s s' : State} {m : Mode} (h : s.checkWait m = some s') : s'.done = s.done ∧ s'.callbacks = s.callbacks := by
  unfold State.checkWait at h
  split at h
  · cases h; simp
  · split at h
    · cases h; simp
    · simp at h

theorem waitOn_done (s : State) (i : Nat) (c : Nat → Consumer) : (s.waitOn i c).done = s.done ∧ (s.waitOn i c).callbacks = s.callbacks := by
  unfold State.waitOn; split <;> simp

theorem iterHead_done (s : State) (i : Nat) : (s.iterHead i).1.done = s.done ∧ (s.iterHead i).1.callbacks = s.callbacks ∧ (s.iterHead i).2.ran = [] := by
  unfold State.iterHead
  split
  · simp [State.leave]
  · split
    · simp
    · split
      · simp [State.leave]
      · simp [waitOn_done]

/-- What a step does to the terminal state and the callbacks. -/
structure Terminal (s : State) (r : State × Out) (new : List Nat) : Prop where
  keep : s.done.isSome → r.1.done = s.done
  pending : r.1.done = none → r.2.ran = [] ∧ r.1.callbacks = s.callbacks ++ new
  first : s.done = none → r.1.done.isSome → r.2.ran.Perm (s.callbacks ++ new) ∧ r.1.callbacks = []
  later : s.done.isSome → r.2.ran = new ∧ r.1.callbacks = s.callbacks

theorem terminal_same (s : State) (r : State × Out) (h1 : r.1.done = s.done) (h2 : r.1.callbacks = s.callbacks) (h3 : r.2.ran = []) :
    Terminal s r [] := by
  refine ⟨fun _ => h1, fun _ => ⟨h3, by simp [h2]⟩, fun h h' => ?_, fun _ => ⟨h3, h2⟩⟩
  rw [h1, h] at h'; simp at h'

theorem terminal_finish (s : State) (d : Done) (r : State × Out) (h1 : r.1.done = (s.finish d).1.done)
    (h2 : r.1.callbacks = (s.finish d).1.callbacks) (h3 : r.2.ran = (s.finish d).2.ran) : Terminal s r [] := by
  obtain ⟨f1, f2, f3⟩ := finish_done s d
  rw [f1] at h1; rw [f3] at h2; rw [f2] at h3
  refine ⟨fun h => ?_, fun h => ?_, fun h _ => ?_, fun h => ?_⟩
  · rw [h1]; cases hd : s.done with
    | none => rw [hd] at h; simp at h
    | some d => rfl
  · rw [h1] at h; simp at h
  · rw [h2, h3, h]; simp [List.reverse_perm]
  · rw [h2, h3]; simp [h]

def newOf : Op → List Nat
  | .addCallback c => [c]
  | _ => []

theorem step_terminal (s : State) (op : Op) : Terminal s (s.step op) (newOf op) := by
  have same : ∀ (s' : State) (o : Out), s'.done = s.done → s'.callbacks = s.callbacks → o.ran = [] → Terminal s (s', o) [] :=
    fun s' o h1 h2 h3 => terminal_same s (s', o) h1 h2 h3
  have intr : ∀ i seen, Terminal s (s.interrupted i seen) [] := fun i seen => terminal_finish s .aborted _ rfl rfl rfl
  have join : ∀ s' : State, s'.done = s.done → s'.callbacks = s.callbacks → ∀ i, Terminal s (s'.join i) [] :=
    fun s' h1 h2 i => terminal_same s _ h1 h2 rfl
  have leave : ∀ s' : State, s'.done = s.done → s'.callbacks = s.callbacks → ∀ i seen, Terminal s (s'.leave i seen) [] :=
    fun s' h1 h2 i seen => terminal_same s _ h1 h2 rfl
  have iter : ∀ s' : State, s'.done = s.done → s'.callbacks = s.callbacks → ∀ i, Terminal s (s'.iterHead i) [] := by
    intro s' h1 h2 i
    obtain ⟨a, b, c⟩ := iterHead_done s' i
    exact terminal_same s _ (a.trans h1) (b.trans h2) c
  cases op with
  | chunk c =>
    simp only [State.step, newOf]
    split
    · exact same _ _ rfl rfl rfl
    split
    · split
      · split
        · exact same _ _ (resolve_done _ _ _).1 (resolve_done _ _ _).2 rfl
        · exact same _ _ (resolve_done _ _ _).1 (resolve_done _ _ _).2 rfl
      · exact same _ _ rfl rfl rfl
    · exact same _ _ rfl rfl rfl
  | finish d => exact terminal_finish s d _ rfl rfl rfl
  | addCallback c =>
    simp only [State.step, newOf]
    split
    · rename_i h
      refine ⟨fun _ => rfl, fun h' => ?_, fun h' => ?_, fun _ => ⟨rfl, rfl⟩⟩
      · simp only at h'; rw [h'] at h; simp at h
      · rw [h'] at h; simp at h
    · rename_i h
      refine ⟨fun _ => rfl, fun _ => ⟨rfl, rfl⟩, fun _ h' => absurd h' h, fun h' => absurd h' h⟩
  | await i =>
    simp only [State.step, newOf]
    split
    · exact same _ _ rfl rfl rfl
    split
    · exact leave _ rfl rfl _ _
    · rename_i s' hc
      obtain ⟨e1, e2⟩ := checkWait_done hc
      split
      · exact leave _ e1 e2 _ _
      · split
        · exact join _ e1 e2 _
        · exact same _ _ ((waitOn_done _ _ _).1.trans e1) ((waitOn_done _ _ _).2.trans e2) rfl
  | iterate i =>
    simp only [State.step, newOf]
    split
    · exact same _ _ rfl rfl rfl
    split
    · exact leave _ rfl rfl _ _
    · rename_i s' hc
      obtain ⟨e1, e2⟩ := checkWait_done hc
      exact iter _ e1 e2 _
  | resume i =>
    simp only [State.step, newOf]
    split
    · exact same _ _ rfl rfl rfl
    · exact same _ _ rfl rfl rfl
    · split
      · exact intr _ _
      · exact iter _ rfl rfl _
    · split
      · exact same _ _ rfl rfl rfl
      · split
        · exact intr _ _
        · split
          · exact same _ _ rfl rfl rfl
          · exact join _ rfl rfl _
          · exact intr _ _
          · exact intr _ _
    · split
      · exact same _ _ rfl rfl rfl
      · split
        · exact intr _ _
        · split
          · exact same _ _ rfl rfl rfl
          · exact leave _ rfl rfl _ _
          · exact same _ _ rfl rfl rfl
          · exact intr _ _
          · exact intr _ _
  | cancel i =>
    simp only [State.step, newOf]
    split
    · exact same _ _ rfl rfl rfl
    · exact same _ _ rfl rfl rfl
    · exact same _ _ rfl rfl rfl
    · split <;> exact same _ _ rfl rfl rfl
    · split <;> exact same _ _ rfl rfl rfl

/-- C34. A stream that is done stays done in the same way. -/
theorem C34_one_state (s : State) (d : Done) (h : s.done = some d) (ops : List Op) : (s.runAll ops).done = some d := by
  induction ops generalizing s with
  | nil => exact h
  | cons op ops ih => exact ih _ (by rw [(step_terminal s op).keep (by simp [h])]; exact h)

/-- C34. The first attempt succeeds. -/
theorem C34_first (s : State) (d : Done) (h : s.done = none) : (s.step (.finish d)).2.ok = true ∧ (s.step (.finish d)).1.done = some d := by
  refine ⟨?_, by rw [State.step, (finish_done s d).1, h]; rfl⟩
  simp [State.step, State.finish, h]

/-- C34. Later attempts report failure and change nothing. -/
theorem C34_later (s : State) (d : Done) (h : s.done.isSome) : s.step (.finish d) = (s, {}) := by
  simp [State.step, State.finish, h]

/-- C34. Later chunks are not taken. -/
theorem C34_no_chunk (s : State) (c : Bytes) (h : s.done.isSome) : s.step (.chunk c) = (s, {}) := by
  simp [State.step, h]

/-- C34. Every callback runs exactly once if the stream is done, and not before. -/
theorem C34_callbacks (ops : List Op) :
    (((({} : State).runAll ops).done.isSome → (ran (trace {} ops)).Perm (added (trace {} ops)))) ∧
    ((({} : State).runAll ops).done = none → ran (trace {} ops) = []) := by
  have gen : ∀ (ops : List Op) (s : State),
      (s.done.isSome → (s.runAll ops).done.isSome ∧ ran (trace s ops) = added (trace s ops)) ∧
      (s.done = none → (s.runAll ops).done.isSome → (ran (trace s ops)).Perm (s.callbacks ++ added (trace s ops))) ∧
      ((s.runAll ops).done = none → ran (trace s ops) = []) := by
    intro ops
    induction ops with
    | nil =>
      intro s
      refine ⟨fun h => ⟨h, rfl⟩, fun h h' => ?_, fun _ => rfl⟩
      simp only [State.runAll, List.foldl_nil] at h'
      rw [h] at h'; simp at h'
    | cons op ops ih =>
      intro s
      have t := step_terminal s op
      obtain ⟨i1, i2, i3⟩ := ih (s.step op).1
      have ea : added (trace s (op :: ops)) = newOf op ++ added (trace (s.step op).1 ops) := by
        cases op <;> simp [added, trace, newOf]
      have er : ran (trace s (op :: ops)) = (s.step op).2.ran ++ ran (trace (s.step op).1 ops) := by simp [ran, trace]
      have ed : (s.runAll (op :: ops)).done = ((s.step op).1.runAll ops).done := rfl
      rw [ea, er, ed]
      refine ⟨fun h => ?_, fun h h' => ?_, fun h => ?_⟩
      · have := i1 (by rw [t.keep h]; exact h)
        exact ⟨this.1, by rw [(t.later h).1, this.2]⟩
      · cases hd : (s.step op).1.done with
        | none =>
          have p := t.pending hd
          have := i2 hd h'
          rw [p.1, List.nil_append]
          rw [p.2] at this
          simpa using this
        | some d =>
          have f := t.first h (by simp [hd])
          have := i1 (by simp [hd])
          rw [this.2]
          have := f.1.append_right (added (trace (s.step op).1 ops))
          simpa using this
      · cases hd : (s.step op).1.done with
        | none => rw [(t.pending hd).1, i3 h]; rfl
        | some d =>
          have := (i1 (by simp [hd])).1
          rw [h] at this; simp at this
  obtain ⟨-, g2, g3⟩ := gen ops {}
  exact ⟨fun h => by simpa using g2 rfl h, g3⟩

/-- Instance: a stream done by an exception; one callback is added afterwards. -/
example :
    let ops : List Op := [.addCallback 1, .addCallback 2, .finish .exception, .finish .success, .addCallback 3]
    ran (trace {} ops) = [2, 1, 3] ∧ finishes (trace {} ops) = [.exception] := by decide +kernel

/-! ### data -/

/-- The chunk that was handed to a waiting consumer and not yet taken by it. -/
def hold (s : State) (i : Nat) : List Bytes :=
  match s.consumers i with
  | .iterating f => match s.futs f with
    | .result (some c) => [c]
    | _ => []
  | _ => []

structure Inv (s : State) (i : Nat) (R Y : List Bytes) : Prop where
  others : ∀ j, j ≠ i → s.consumers j = .idle
  pre : Y ++ hold s i <+: R
  all : s.raises = none → s.consumers i ≠ .finished → R = Y ++ hold s i ++ s.chunks
  pend : ∀ f, (s.consumers i = .iterating f ∨ s.consumers i = .whole f) → s.futs f = .pending → s.waiter = some f ∧ s.done = none
  pendc : ∀ f, s.consumers i = .iterating f → s.futs f = .pending → s.chunks = []
  wait : ∀ f, s.waiter = some f → (s.consumers i = .iterating f ∨ s.consumers i = .whole f) ∧ (s.futs f = .pending ∨ s.futs f = .cancelled)
  resN : ∀ f, s.consumers i = .iterating f → s.futs f = .result none → s.done = some .success ∧ s.chunks = []
  resW : ∀ f x, s.consumers i = .whole f → s.futs f = .result x → s.done = some .success
  modeI : (∃ f, s.consumers i = .iterating f) → s.mode = some .chunk
  modeH : s.consumers i = .head → s.mode = some .chunk
  modeW : (∃ f, s.consumers i = .whole f) → s.mode = some .whole
  doneW : s.done.isSome → s.waiter = none
  start : (s.consumers i = .idle ∨ ∃ f, s.consumers i = .whole f) → Y = []

def recvOf (op : Op) (o : Out) : List Bytes :=
  match op with
  | .chunk c => if o.ok then [c] else []
  | _ => []

def yieldOf (i : Nat) (o : Out) : List Bytes :=
  match o.seen with
  | some (j, .yielded c) => if j = i then [c] else []
  | _ => []

/-- A step, and what the consumer may see in it. -/
structure Good (s' : State) (o : Out) (i : Nat) (R Y : List Bytes) : Prop where
  inv : Inv s' i R (Y ++ yieldOf i o)
  returned : ∀ d, o.seen = some (i, .returned d) → s'.done = some .success ∧ d = R.flatten
  stopped : o.seen = some (i, .stopped) → s'.done = some .success ∧ Y = R

theorem good_finished (s' : State) (o : Out) (i : Nat) (R Y : List Bytes) (hc : s'.consumers i = .finished) (ho : ∀ j, j ≠ i → s'.consumers j = .idle)
    (hw : s'.waiter = none) (hp : Y <+: R) (hy : yieldOf i o = [])
    (h1 : ∀ d, o.seen = some (i, .returned d) → s'.done = some .success ∧ d = R.flatten)
    (h2 : o.seen = some (i, .stopped) → s'.done = some .success ∧ Y = R) : Good s' o i R Y := by
  refine ⟨?_, h1, h2⟩
  rw [hy, List.append_nil]
  constructor <;> simp_all [hold]

theorem finish_inv (s : State) (i : Nat) (R Y : List Bytes) (h : Inv s i R Y) (d : Done) : Inv (s.finish d).1 i R Y := by
  unfold State.finish
  split
  · exact h
  rename_i hd
  have hd : s.done = none := by simpa using hd
  have hall := h.all (by simp [State.raises, hd])
  have nores : ∀ f, s.consumers i = .iterating f → s.futs f ≠ .result none := by
    intro f hc hf
    have := (h.resN f hc hf).1; rw [hd] at this; simp at this
  have noresW : ∀ f x, s.consumers i = .whole f → s.futs f ≠ .result x := by
    intro f x hc hf
    have := h.resW f x hc hf; rw [hd] at this; simp at this
  cases hw : s.waiter with
  | none =>
    have nopend : ∀ f, (s.consumers i = .iterating f ∨ s.consumers i = .whole f) → s.futs f ≠ .pending := by
      intro f hc hf
      have := (h.pend f hc hf).1; rw [hw] at this; simp at this
    have main : ∀ chunks : List Bytes, ((d = .success ∨ d = .aborted) → chunks = s.chunks) →
        Inv { s with done := some d, chunks, callbacks := [], waiter := none } i R Y := by
      intro chunks hch
      have hh : hold { s with done := some d, chunks, callbacks := [], waiter := none } i = hold s i := rfl
      refine ⟨h.others, by rw [hh]; exact h.pre, fun hr hc => ?_, fun f hc hf => absurd hf (nopend f hc),
        fun f hc hf => absurd hf (nopend f (Or.inl hc)), fun f hf => by simp at hf, fun f hc hf => absurd hf (nores f hc),
        fun f x hc hf => absurd hf (noresW f x hc), h.modeI, h.modeH, h.modeW, fun _ => rfl, h.start⟩
      · have hds : d = .success := by
          cases d <;> simp_all [State.raises]
        rw [hh]; simp only; rw [hch (Or.inl hds)]; exact hall hc
    simp only
    split
    · rename_i hdc
      refine main [] ?_
      intro hx
      rcases hdc with e | e <;> rcases hx with e' | e' <;> rw [e] at e' <;> simp at e'
    · exact main s.chunks (fun _ => rfl)
  | some f =>
    obtain ⟨hcf, hff⟩ := h.wait f hw
    have hhold : hold s i = [] := by
      unfold hold
      rcases hcf with hc | hc
      · rw [hc]; simp only; rcases hff with e | e <;> rw [e]
      · rw [hc]
    have uniq : ∀ g, (s.consumers i = .iterating g ∨ s.consumers i = .whole g) → g = f := by
      intro g hg
      rcases hcf with hc | hc <;> rcases hg with hg | hg <;> rw [hc] at hg <;> simp at hg <;> exact hg.symm
    have main : ∀ (chunks : List Bytes) (futs : Nat → Fut), ((d = .success ∨ d = .aborted) → chunks = s.chunks) →
        (futs f = .cancelled ∨ (s.futs f = .pending ∧ futs f = if d = Done.success then .result none else .exc d)) →
        Inv { s with done := some d, chunks, callbacks := [], waiter := none, futs } i R Y := by
      intro chunks futs hch hfu
      have fnp : futs f ≠ .pending := by
        rcases hfu with e | ⟨-, e⟩
        · rw [e]; simp
        · rw [e]; split <;> simp
      have hh : hold { s with done := some d, chunks, callbacks := [], waiter := none, futs } i = [] := by
        unfold hold
        simp only
        rcases hcf with hc | hc
        · rw [hc]; simp only
          rcases hfu with e | ⟨-, e⟩
          · rw [e]
          · rw [e]; split
            · rename_i c hx; split at hx <;> simp at hx
            · rfl
        · rw [hc]
      refine ⟨h.others, ?_, fun hr hc => ?_, fun g hc hf => ?_, fun g hc hf => ?_, by simp, fun g hc hf => ?_,
        fun g x hc hf => ?_, h.modeI, h.modeH, h.modeW, fun _ => rfl, h.start⟩
      · rw [hh]; have := h.pre; rw [hhold] at this; exact this
      · have hds : d = .success := by cases d <;> simp_all [State.raises]
        rw [hh]; simp only
        rw [hch (Or.inl hds)]
        have := hall hc
        rw [hhold] at this; exact this
      · rw [uniq g hc] at hf; exact absurd hf fnp
      · rw [uniq g (Or.inl hc)] at hf; exact absurd hf fnp
      · rw [uniq g (Or.inl hc)] at hf hc
        simp only at hf
        rcases hfu with e | ⟨e', e⟩
        · rw [e] at hf; simp at hf
        · rw [e] at hf
          by_cases hds : d = .success
          · exact ⟨by rw [hds], by simp only; rw [hch (Or.inl hds)]; exact h.pendc f hc e'⟩
          · rw [if_neg hds] at hf; simp at hf
      · rw [uniq g (Or.inr hc)] at hf
        simp only at hf
        rcases hfu with e | ⟨e', e⟩
        · rw [e] at hf; simp at hf
        · rw [e] at hf
          by_cases hds : d = .success
          · simp [hds]
          · rw [if_neg hds] at hf; simp at hf
    have hcl : (d = .cancelled ∨ d = .exception) → ¬ (d = .success ∨ d = .aborted) := by
      rintro (e | e) (e' | e') <;> rw [e] at e' <;> simp at e'
    rcases hff with e | e
    · simp only [State.resolve, e, if_true]
      split
      · rename_i hdc; exact main [] _ (fun hx => absurd hx (hcl hdc)) (Or.inr ⟨e, by simp [set]⟩)
      · exact main s.chunks _ (fun _ => rfl) (Or.inr ⟨e, by simp [set]⟩)
    · simp only [State.resolve, e]
      split
      · rename_i hdc; exact main [] _ (fun hx => absurd hx (hcl hdc)) (Or.inl e)
      · exact main s.chunks _ (fun _ => rfl) (Or.inl e)

theorem finish_frame (s : State) (d : Done) : (s.finish d).1.consumers = s.consumers ∧ (s.finish d).1.toCancel = s.toCancel := by
  unfold State.finish
  split
  · simp
  · cases s.waiter with
    | none => simp only; split <;> simp
    | some f => simp only [State.resolve]; split <;> split <;> simp

theorem finish_waiter (s : State) (i : Nat) (R Y : List Bytes) (h : Inv s i R Y) (d : Done) : (s.finish d).1.waiter = none := by
  refine (finish_inv s i R Y h d).doneW ?_
  rw [(finish_done s d).1]; rfl

theorem set_others {s : State} {i : Nat} (c : Consumer) (h : ∀ j, j ≠ i → s.consumers j = .idle) :
    ∀ j, j ≠ i → set s.consumers i c j = .idle := by
  intro j hj; simp [set, hj, h j hj]

theorem interrupted_good (s : State) (i : Nat) (R Y : List Bytes) (h : Inv s i R Y) (seen : Seen)
    (hs : ∀ c, seen ≠ .yielded c) (hs1 : ∀ d, seen ≠ .returned d) (hs2 : seen ≠ .stopped) :
    Good (s.interrupted i seen).1 (s.interrupted i seen).2 i R Y := by
  refine good_finished _ _ i R Y (by simp [State.interrupted, State.leave, set]) ?_ (finish_waiter s i R Y h _)
    ((List.prefix_append _ _).trans h.pre) ?_ ?_ ?_
  · simp only [State.interrupted, State.leave, (finish_frame s _).1]
    exact set_others _ h.others
  · simp only [State.interrupted, State.leave, yieldOf]
    cases seen <;> simp_all
  · intro d hd; simp only [State.interrupted, State.leave] at hd; cases hd; exact absurd rfl (hs1 d)
  · intro hd; simp only [State.interrupted, State.leave] at hd; cases hd; exact absurd rfl hs2

theorem leave_good (s : State) (i : Nat) (R Y : List Bytes) (ho : ∀ j, j ≠ i → s.consumers j = .idle) (hp : Y <+: R) (hw : s.waiter = none) (seen : Seen)
    (hs : ∀ c, seen ≠ .yielded c) (hs1 : ∀ d, seen = .returned d → s.done = some .success ∧ d = R.flatten)
    (hs2 : seen = .stopped → s.done = some .success ∧ Y = R) :
    Good (s.leave i seen).1 (s.leave i seen).2 i R Y := by
  refine good_finished _ _ i R Y (by simp [State.leave, set]) (set_others _ ho) hw hp ?_ ?_ ?_
  · simp only [State.leave, yieldOf]
    cases seen <;> simp_all
  · intro d hd; simp only [State.leave] at hd; cases hd; exact hs1 d rfl
  · intro hd; simp only [State.leave] at hd; cases hd; exact hs2 rfl

/-- Waiting, from a consumer at its head or just beginning. -/
theorem waitOn_good (s : State) (i : Nat) (R Y : List Bytes) (ho : ∀ j, j ≠ i → s.consumers j = .idle) (hd : s.done = none) (hw : s.waiter = none)
    (hall : R = Y ++ s.chunks) (it : Bool) (hm : s.mode = some (if it then .chunk else .whole)) (hc : it = true → s.chunks = [])
    (hy : it = false → Y = []) :
    Good (s.waitOn i (if it then .iterating else .whole)) {} i R Y := by
  refine ⟨?_, by simp, by simp⟩
  simp only [yieldOf, List.append_nil]
  unfold State.waitOn
  rw [hw]
  simp only
  cases it with
  | true =>
    simp only [if_true] at hm ⊢
    have hc := hc rfl
    rw [hc, List.append_nil] at hall
    constructor <;> simp_all [hold, set]
  | false =>
    simp only [Bool.false_eq_true, if_false] at hm ⊢
    have hy := hy rfl
    constructor <;> simp_all [hold, set]

theorem iterHead_good (s : State) (i : Nat) (R Y : List Bytes) (ho : ∀ j, j ≠ i → s.consumers j = .idle) (hw : s.waiter = none)
    (hp : Y <+: R) (hall : s.raises = none → R = Y ++ s.chunks) (hm : s.mode = some .chunk) :
    Good (s.iterHead i).1 (s.iterHead i).2 i R Y := by
  unfold State.iterHead
  split
  · exact leave_good s i R Y ho hp hw _ (by simp) (by simp) (by simp)
  · rename_i hr
    have hall := hall hr
    split
    · rename_i c chunks hc
      refine ⟨?_, by simp, by simp⟩
      simp only [yieldOf, if_true]
      rw [hc] at hall
      constructor <;> simp_all [hold, set]
    · rename_i hc
      split
      · rename_i hd
        exact leave_good s i R Y ho hp hw _ (by simp) (by simp) (fun _ => ⟨hd, by rw [hc] at hall; simpa using hall.symm⟩)
      · rename_i hd
        have hd : s.done = none := by
          cases h : s.done with
          | none => rfl
          | some d => simp only [State.raises, h] at hr; cases d <;> simp_all
        exact waitOn_good s i R Y ho hd hw hall true hm (fun _ => hc) (by simp)

theorem checkWait_eq {s s' : State} {m : Mode} (h : s.checkWait m = some s') : s' = { s with mode := some m } := by
  unfold State.checkWait at h
  split at h
  · cases h; rfl
  · split at h
    · rename_i e1 e2; cases h; rw [← e2, ← e1]
    · simp at h

theorem step_good (s : State) (i : Nat) (R Y : List Bytes) (h : Inv s i R Y) (op : Op) (ho : Only i [op]) :
    Good (s.step op).1 (s.step op).2 i (R ++ recvOf op (s.step op).2) Y := by
  have idle : ∀ s', Inv s' i R Y → Good s' {} i R Y := fun s' h' => ⟨by simpa [yieldOf] using h', by simp, by simp⟩
  have hpre : Y <+: R := (List.prefix_append _ _).trans h.pre
  cases op with
  | chunk c =>
    simp only [State.step]
    split
    · simpa [recvOf] using idle s h
    rename_i hd
    have hd : s.done = none := by simpa using hd
    have hall := h.all (by simp [State.raises, hd])
    have app : (∀ f, s.consumers i = .iterating f → s.futs f ≠ .pending) ∨ s.mode ≠ some .chunk →
        ∀ w, (w = s.waiter ∨ w = none ∧ ∀ f, (s.consumers i = .iterating f ∨ s.consumers i = .whole f) → s.futs f ≠ .pending) →
        Good { s with waiter := w, chunks := s.chunks ++ [c] } { ok := true } i (R ++ [c]) Y := by
      intro hnp w hwx
      refine ⟨?_, by simp, by simp⟩
      simp only [yieldOf, List.append_nil]
      have hh : hold { s with waiter := w, chunks := s.chunks ++ [c] } i = hold s i := rfl
      refine ⟨h.others, by rw [hh]; exact h.pre.trans (List.prefix_append _ _), fun _ hc => ?_, ?_, ?_, ?_, ?_, ?_, h.modeI, h.modeH, h.modeW, ?_, h.start⟩
      · rw [hh]; simp only; rw [← List.append_assoc]; congr 1; exact hall hc
      · intro f hc hf
        rcases hwx with e | ⟨-, e⟩
        · simp only; rw [e]; exact h.pend f hc hf
        · exact absurd hf (e f hc)
      · intro f hc hf
        rcases hnp with e | e
        · exact absurd hf (e f hc)
        · exact absurd (h.modeI ⟨f, hc⟩) e
      · intro f hf
        rcases hwx with e | ⟨e, -⟩
        · simp only at hf; rw [e] at hf; exact h.wait f hf
        · simp only at hf; rw [e] at hf; simp at hf
      · intro f hc hf
        have := (h.resN f hc hf).1; rw [hd] at this; simp at this
      · intro f x hc hf; exact h.resW f x hc hf
      · intro hds; simp only at hds; rw [hd] at hds; simp at hds
    split
    · rename_i hm
      split
      · rename_i f hw
        obtain ⟨hcf, hff⟩ := h.wait f hw
        have hcf : s.consumers i = .iterating f := by
          rcases hcf with e | e
          · exact e
          · have := h.modeW ⟨f, e⟩; rw [hm] at this; simp at this
        rcases hff with e | e
        · simp only [State.resolve, e, if_true, recvOf]
          have hch := h.pendc f hcf e
          have hR : R = Y := by
            have := hall (by rw [hcf]; simp)
            rw [hch] at this
            simpa [hold, hcf, e] using this
          refine ⟨?_, by simp, by simp⟩
          simp only [yieldOf, List.append_nil]
          have hm' := h.modeI ⟨f, hcf⟩
          have hoth := h.others
          refine ⟨hoth, ?_, fun _ _ => ?_, ?_, ?_, by simp, ?_, ?_, h.modeI, h.modeH, h.modeW, fun _ => rfl, h.start⟩
          · simp [hold, hcf, set, hR]
          · simp [hold, hcf, set, hR, hch]
          · intro g hc hf
            have : g = f := by rcases hc with hc | hc <;> simp only at hc <;> rw [hcf] at hc <;> simp at hc; exact hc.symm
            subst this; simp [set] at hf
          · intro g hc hf; exact hch
          · intro g hc hf
            have : g = f := by simp only at hc; rw [hcf] at hc; simp at hc; exact hc.symm
            subst this; simp [set] at hf
          · intro g x hc hf; simp only at hc; rw [hcf] at hc; simp at hc
        · simp only [State.resolve, e, recvOf]
          have := app (Or.inl (fun g hg => by rw [hcf] at hg; cases hg; rw [e]; simp)) none
            (Or.inr ⟨rfl, fun g hg => by rcases hg with hg | hg <;> rw [hcf] at hg <;> cases hg; rw [e]; simp⟩)
          simpa using this
      · rename_i hw
        have := app (Or.inl (fun f hf hp => by have := (h.pend f (Or.inl hf) hp).1; rw [hw] at this; simp at this)) s.waiter (Or.inl rfl)
        simpa [recvOf] using this
    · rename_i hm
      have := app (Or.inr hm) s.waiter (Or.inl rfl)
      simpa [recvOf] using this
  | finish d =>
    simp only [State.step, recvOf, List.append_nil]
    have hn : (s.finish d).2.seen = none := by unfold State.finish; split <;> rfl
    refine ⟨?_, by simp [hn], by simp [hn]⟩
    simpa [yieldOf, hn] using finish_inv s i R Y h d
  | addCallback c =>
    simp only [State.step, recvOf, List.append_nil]
    split
    · refine ⟨?_, by simp, by simp⟩
      simpa [yieldOf] using h
    · exact idle _ ⟨h.others, h.pre, h.all, h.pend, h.pendc, h.wait, h.resN, h.resW, h.modeI, h.modeH, h.modeW, h.doneW, h.start⟩
  | await j =>
    have hj : j = i := ho j (by simp)
    subst hj
    simp only [State.step, recvOf, List.append_nil]
    split
    · exact idle s h
    rename_i hidle
    have hidle : s.consumers j = .idle := by simpa using hidle
    have hw : s.waiter = none := by
      cases hw : s.waiter with
      | none => rfl
      | some f => have := (h.wait f hw).1; rw [hidle] at this; simp at this
    have hY := h.start (Or.inl hidle)
    split
    · exact leave_good s j R Y h.others hpre hw _ (by simp) (by simp) (by simp)
    · rename_i s' hc
      have hs' := checkWait_eq hc
      have hr' : s'.raises = s.raises := by rw [hs']; rfl
      split
      · exact leave_good s' j R Y (by rw [hs']; exact h.others) hpre (by rw [hs']; exact hw) _ (by simp) (by simp) (by simp)
      · rename_i hr
        have hall := h.all (by rw [← hr']; exact hr) (by rw [hidle]; simp)
        have hall : R = Y ++ s.chunks := by simpa [hold, hidle] using hall
        split
        · rename_i hd
          refine leave_good { s' with chunks := [] } j R Y (by rw [hs']; exact h.others) hpre (by rw [hs']; exact hw) _ (by simp) ?_ (by simp)
          intro d e
          refine ⟨hd, ?_⟩
          cases e
          rw [hall, hY, hs']; rfl
        · rename_i hd
          have hd : s'.done = none := by
            cases h' : s'.done with
            | none => rfl
            | some d => simp only [State.raises, h'] at hr; cases d <;> simp_all
          exact waitOn_good s' j R Y (by rw [hs']; exact h.others) hd (by rw [hs']; exact hw) (by rw [hs']; exact hall) false (by rw [hs']; rfl) (by simp) (fun _ => hY)
  | iterate j =>
    have hj : j = i := ho j (by simp)
    subst hj
    simp only [State.step, recvOf, List.append_nil]
    split
    · exact idle s h
    rename_i hidle
    have hidle : s.consumers j = .idle := by simpa using hidle
    have hw : s.waiter = none := by
      cases hw : s.waiter with
      | none => rfl
      | some f => have := (h.wait f hw).1; rw [hidle] at this; simp at this
    split
    · exact leave_good s j R Y h.others hpre hw _ (by simp) (by simp) (by simp)
    · rename_i s' hc
      have hs' := checkWait_eq hc
      refine iterHead_good s' j R Y (by rw [hs']; exact h.others) (by rw [hs']; exact hw) hpre ?_ (by rw [hs'])
      intro hr
      have hr' : s'.raises = s.raises := by rw [hs']; rfl
      have hall := h.all (by rw [← hr']; exact hr) (by rw [hidle]; simp)
      rw [hs']
      simpa [hold, hidle] using hall
  | resume j =>
    simp only [recvOf, List.append_nil]
    by_cases hj : j = i
    · subst hj
      simp only [State.step]
      have int : ∀ seen, (∀ c, seen ≠ .yielded c) → (∀ d, seen ≠ .returned d) → seen ≠ .stopped →
          Good (s.interrupted j seen).1 (s.interrupted j seen).2 j R Y := interrupted_good s j R Y h
      split
      · exact idle s h
      · exact idle s h
      · rename_i hc
        split
        · exact int _ (by simp) (by simp) (by simp)
        · have hw : s.waiter = none := by
            cases hw : s.waiter with
            | none => rfl
            | some f => have := (h.wait f hw).1; rw [hc] at this; simp at this
          refine iterHead_good s j R Y h.others hw hpre ?_ (h.modeH hc)
          intro hr
          have := h.all hr (by rw [hc]; simp)
          simpa [hold, hc] using this
      · rename_i f hc
        split
        · exact idle s h
        · rename_i hnp
          split
          · exact int _ (by simp) (by simp) (by simp)
          · split
            · exact idle s h
            · rename_i x hf
              have hd := h.resW f x hc hf
              have hY := h.start (Or.inr ⟨f, hc⟩)
              have hall := h.all (by simp [State.raises, hd]) (by rw [hc]; simp)
              have hall : R = s.chunks := by simpa [hold, hc, hY] using hall
              refine leave_good { s with chunks := [] } j R Y h.others hpre (h.doneW (by simp [hd])) _ (by simp) ?_ (by simp)
              intro d e
              cases e
              exact ⟨hd, by rw [hall]⟩
            · exact int _ (by simp) (by simp) (by simp)
            · exact int _ (by simp) (by simp) (by simp)
      · rename_i f hc
        split
        · exact idle s h
        · rename_i hnp
          have hwn : s.futs f ≠ .cancelled → s.waiter = none := by
            intro hx
            cases hw : s.waiter with
            | none => rfl
            | some g =>
              obtain ⟨h1, h2⟩ := h.wait g hw
              rw [hc] at h1
              have : g = f := by rcases h1 with h1 | h1 <;> cases h1; rfl
              subst this
              rcases h2 with h2 | h2
              · exact absurd h2 hnp
              · exact absurd h2 hx
          split
          · exact int _ (by simp) (by simp) (by simp)
          · split
            · exact idle s h
            · rename_i hf
              obtain ⟨hd, hch⟩ := h.resN f hc hf
              have hall := h.all (by simp [State.raises, hd]) (by rw [hc]; simp)
              refine leave_good s j R Y h.others hpre (h.doneW (by simp [hd])) _ (by simp) (by simp) (fun _ => ⟨hd, ?_⟩)
              simpa [hold, hc, hf, hch] using hall.symm
            · rename_i c hf
              have hw := hwn (by rw [hf]; simp)
              have hp := h.pre
              have hhold : hold s j = [c] := by simp [hold, hc, hf]
              rw [hhold] at hp
              have hall := h.all
              rw [hhold] at hall
              refine ⟨?_, by simp, by simp⟩
              simp only [yieldOf, if_true]
              have hoth := h.others
              have hall' : ∀ cs, State.raises { s with consumers := cs } = none → R = Y ++ [c] ++ s.chunks :=
                fun _ hr => hall hr (by rw [hc]; simp)
              have hm := h.modeI ⟨f, hc⟩
              refine ⟨set_others _ hoth, by simpa [hold, set] using hp, fun hr _ => by simpa [hold, set] using hall' _ hr, ?_, ?_, ?_, ?_, ?_, ?_, ?_, ?_, ?_, ?_⟩ <;>
                simp_all [set]
            · exact int _ (by simp) (by simp) (by simp)
            · exact int _ (by simp) (by simp) (by simp)
    · have : s.step (.resume j) = (s, {}) := by simp only [State.step, h.others j hj]
      rw [this]
      exact idle s h
  | cancel j =>
    simp only [recvOf, List.append_nil]
    by_cases hj : j = i
    · subst hj
      simp only [State.step]
      have tc : Inv { s with toCancel := set s.toCancel j true } j R Y :=
        ⟨h.others, h.pre, h.all, h.pend, h.pendc, h.wait, h.resN, h.resW, h.modeI, h.modeH, h.modeW, h.doneW, h.start⟩
      have canc : ∀ f, (s.consumers j = .iterating f ∨ s.consumers j = .whole f) → s.futs f = .pending →
          Inv { s with futs := set s.futs f .cancelled } j R Y := by
        intro f hc hf
        have uniq : ∀ g, (s.consumers j = .iterating g ∨ s.consumers j = .whole g) → g = f := by
          intro g hg
          rcases hc with hc | hc <;> rcases hg with hg | hg <;> rw [hc] at hg <;> simp at hg <;> exact hg.symm
        have hh : hold { s with futs := set s.futs f .cancelled } j = hold s j := by
          unfold hold
          rcases hc with hc | hc <;> simp [hc, set, hf]
        refine ⟨h.others, by rw [hh]; exact h.pre, fun hr hx => by rw [hh]; exact h.all hr hx, ?_, ?_, ?_, ?_, ?_, h.modeI, h.modeH, h.modeW, h.doneW, h.start⟩
        · intro g hg hp; have := uniq g hg; subst this; simp [set] at hp
        · intro g hg hp; have := uniq g (Or.inl hg); subst this; simp [set] at hp
        · intro g hg
          obtain ⟨h1, -⟩ := h.wait g hg
          have := uniq g h1; subst this
          exact ⟨h1, Or.inr (by simp [set])⟩
        · intro g hg hp; have := uniq g (Or.inl hg); subst this; simp [set] at hp
        · intro g x hg hp; have := uniq g (Or.inr hg); subst this; simp [set] at hp
      split
      · exact idle s h
      · exact idle s h
      · exact idle _ tc
      · rename_i f hc
        split
        · rename_i hf; exact idle _ (canc f (Or.inr hc) hf)
        · exact idle _ tc
      · rename_i f hc
        split
        · rename_i hf; exact idle _ (canc f (Or.inl hc) hf)
        · exact idle _ tc
    · have : s.step (.cancel j) = (s, {}) := by simp only [State.step, h.others j hj]
      rw [this]
      exact idle s h

theorem inv_init (i : Nat) : Inv {} i [] [] := by
  constructor <;> simp [hold]

theorem runAll_inv (i : Nat) (ops : List Op) : ∀ (s : State) (R Y : List Bytes), Inv s i R Y → Only i ops →
    Inv (s.runAll ops) i (R ++ received (trace s ops)) (Y ++ yields i (trace s ops)) := by
  induction ops with
  | nil => intro s R Y h _; simpa [received, yields, trace, State.runAll] using h
  | cons op ops ih =>
    intro s R Y h ho
    have g := step_good s i R Y h op (fun j hj => ho j (by simp at hj ⊢; rcases hj with e | e <;> simp [e]))
    have := ih _ _ _ g.inv (fun j hj => ho j (by rcases hj with e | e <;> simp [e]))
    have e1 : received (trace s (op :: ops)) = recvOf op (s.step op).2 ++ received (trace (s.step op).1 ops) := by
      cases op <;> simp [received, trace, recvOf]
    have e2 : yields i (trace s (op :: ops)) = yieldOf i (s.step op).2 ++ yields i (trace (s.step op).1 ops) := by
      simp [yields, trace, yieldOf]
    rw [e1, e2, ← List.append_assoc, ← List.append_assoc]
    exact this

theorem runAll_append (s : State) (a b : List Op) : s.runAll (a ++ b) = (s.runAll a).runAll b := by simp [State.runAll]

theorem trace_append (s : State) (a b : List Op) : trace s (a ++ b) = trace s a ++ trace (s.runAll a) b := by
  induction a generalizing s with
  | nil => rfl
  | cons op a ih => simp [trace, State.runAll, ih]

/-- The last step of a history with one consumer. -/
theorem last_good (i : Nat) (ops : List Op) (op : Op) (ho : Only i (ops ++ [op])) :
    Good (({} : State).runAll (ops ++ [op])) ((({} : State).runAll ops).step op).2 i (received (trace {} (ops ++ [op]))) (yields i (trace {} ops)) := by
  have hi := runAll_inv i ops {} [] [] (inv_init i) (fun j hj => ho j (by rcases hj with e | e <;> simp [e]))
  have g := step_good _ i _ _ hi op (fun j hj => ho j (by simp at hj ⊢; rcases hj with e | e <;> simp [e]))
  have er : received (trace {} (ops ++ [op])) = received (trace {} ops) ++ recvOf op ((({} : State).runAll ops).step op).2 := by
    rw [trace_append]
    cases op <;> simp [received, trace, recvOf]
  have es : (({} : State).runAll ops).runAll [op] = ((({} : State).runAll ops).step op).1 := rfl
  rw [runAll_append, er, es]
  simpa using g

/-- C33, for one consumer: awaiting returns the concatenation of all chunks received, after the stream is done with success. -/
theorem C33_whole_partial (i : Nat) (ops : List Op) (op : Op) (ho : Only i (ops ++ [op])) (d : Bytes)
    (h : ((({} : State).runAll ops).step op).2.seen = some (i, .returned d)) :
    (({} : State).runAll (ops ++ [op])).done = some .success ∧ d = (received (trace {} (ops ++ [op]))).flatten :=
  (last_good i ops op ho).returned d h

/-- C33, for one consumer: what iterating yields is at any time a prefix of the chunks received - in order, none lost, none repeated. -/
theorem C33_iterate_prefix_partial (i : Nat) (ops : List Op) (ho : Only i ops) : yields i (trace {} ops) <+: received (trace {} ops) := by
  have h := (runAll_inv i ops {} [] [] (inv_init i) ho).pre
  simp only [List.nil_append] at h
  exact (List.prefix_append _ _).trans h

/-- C33, for one consumer: when the iteration ends, all chunks were yielded, and the stream is done with success. -/
theorem C33_iterate_all_partial (i : Nat) (ops : List Op) (op : Op) (ho : Only i (ops ++ [op]))
    (h : ((({} : State).runAll ops).step op).2.seen = some (i, .stopped)) :
    (({} : State).runAll (ops ++ [op])).done = some .success ∧ yields i (trace {} ops) = received (trace {} (ops ++ [op])) :=
  (last_good i ops op ho).stopped h

/-- C33, for one consumer: it does not wait while a chunk is buffered or the stream is done - a consumer that is blocked has had everything. -/
theorem C33_not_blocked_partial (i f : Nat) (ops : List Op) (ho : Only i ops) (hc : (({} : State).runAll ops).consumers i = .iterating f)
    (hf : (({} : State).runAll ops).futs f = .pending) :
    (({} : State).runAll ops).done = none ∧ yields i (trace {} ops) = received (trace {} ops) := by
  have h := runAll_inv i ops {} [] [] (inv_init i) ho
  have hd := (h.pend f (Or.inl hc) hf).2
  have hch := h.pendc f hc hf
  have := h.all (by simp [State.raises, hd]) (by rw [hc]; simp)
  refine ⟨hd, ?_⟩
  simpa [hold, hc, hf, hch] using this.symm

/-- Instances. -/
example :
    let ops : List Op := [.chunk [1], .chunk [2, 3], .await 0, .chunk [4], .finish .success]
    ((({} : State).runAll ops).step (.resume 0)).2.seen = some (0, .returned [1, 2, 3, 4]) := by decide +kernel

example :
    let ops : List Op := [.chunk [1], .iterate 0, .resume 0, .chunk [2], .chunk [3], .resume 0, .finish .success, .resume 0]
    yields 0 (trace {} ops) = [[1], [2], [3]] ∧ ((({} : State).runAll ops).step (.resume 0)).2.seen = some (0, .stopped) := by decide +kernel

/-! ### violations -/

/-- C33 does not hold: a second task awaiting the stream gets nothing. -/
theorem C33_second_await_violated :
    let ops : List Op := [.await 0, .await 1, .chunk [1], .finish .success, .resume 0]
    ((({} : State).runAll ops).step (.resume 1)).2.seen = some (1, .returned []) := by decide +kernel

/-- C33 does not hold: two tasks iterating at once both get the chunk they waited for - but later ones are split between them. -/
theorem C33_two_iterators_violated :
    let ops : List Op := [.iterate 0, .iterate 1, .chunk [1], .chunk [2], .finish .success, .resume 0, .resume 1, .resume 0, .resume 1]
    yields 0 (trace {} ops) = [[1], [2]] ∧ yields 1 (trace {} ops) = [[1]] := by decide +kernel

end Verif.PayloadStream
