import Verif.Life.Pause

/-! C249: while a thread is in the block of a pausing context nothing else is run. -/
namespace Verif.Life.Pause

theorem run_append (s : State) (a b : List Op) : run s (a ++ b) = run (run s a) b := List.foldl_append

/-- The context an operation enters. -/
inductive Uses : Op → Nat → Prop
  | enter (t c : Nat) : Uses (.enter t c) c
  | own (c : Nat) : Uses (.own c) c

/-- No context is entered twice, as with one context for each block: `with LOOP.enter():`. -/
def Once (ops : List Op) : Prop := ops.Pairwise (fun a b => ∀ c, Uses a c → ¬ Uses b c)

/-- The thread is in `__enter__`, or in the block, of the context. -/
inductive In : Pc → Nat → Prop
  | tested (c : Nat) : In (.tested c) c
  | waiting (c : Nat) : In (.waiting c) c
  | inside (c : Nat) (w : Bool) : In (.inside c w) c

theorem in_iff (p : Pc) (c : Nat) : In p c ↔ p = .tested c ∨ p = .waiting c ∨ p = .inside c true ∨ p = .inside c false := by
  constructor
  · intro h
    cases h with
    | tested => exact .inl rfl
    | waiting => exact .inr (.inl rfl)
    | inside _ w => cases w; exact .inr (.inr (.inr rfl)); exact .inr (.inr (.inl rfl))
  · rintro (rfl | rfl | rfl | rfl) <;> constructor

/-- `used` are the contexts entered so far. -/
structure Inv (used : Nat → Prop) (s : State) : Prop where
  gave : ∀ c, s.entered c = true → s.exited c = false → s.phase = .gave c
  got : ∀ t c, s.pcs t = .inside c true → s.entered c = true
  open_ : ∀ t c, In (s.pcs t) c → s.exited c = false
  owner : ∀ t u c, In (s.pcs t) c → In (s.pcs u) c → t = u
  mine : ∀ t c, In (s.pcs t) c → used c
  exited : ∀ c, s.exited c = true → used c

theorem Inv.weaken {used used' : Nat → Prop} {s : State} (h : Inv used s) (hu : ∀ c, used c → used' c) : Inv used' s :=
  ⟨h.gave, h.got, h.open_, h.owner, fun t c hi => hu c (h.mine t c hi), fun c hx => hu c (h.exited c hx)⟩

theorem Inv.enter {used : Nat → Prop} {s : State} (h : Inv used s) (t c : Nat) (hc : ¬ used c) :
    Inv (fun d => used d ∨ d = c) (step s (.enter t c)) := by
  have hw := h.weaken (used' := fun d => used d ∨ d = c) (fun d hd => .inl hd)
  unfold step; dsimp only
  by_cases hi : s.pcs t = .idle
  · rw [if_pos hi]
    have hx : s.exited c = false := by
      cases hx : s.exited c
      · rfl
      · exact absurd (h.exited c hx) hc
    have old : ∀ u d, In (put s.pcs t (if s.running then .tested c else .inside c false) u) d →
        (u = t ∧ d = c) ∨ (u ≠ t ∧ In (s.pcs u) d) := by
      intro u d hu
      unfold put at hu
      by_cases hut : u = t
      · rw [if_pos hut] at hu
        left
        refine ⟨hut, ?_⟩
        cases hr : s.running <;> rw [hr] at hu <;> cases hu <;> rfl
      · rw [if_neg hut] at hu; exact .inr ⟨hut, hu⟩
    refine ⟨h.gave, ?_, ?_, ?_, ?_, ?_⟩
    · intro u d hu
      change put s.pcs t _ u = _ at hu
      unfold put at hu
      by_cases hut : u = t
      · rw [if_pos hut] at hu
        cases hr : s.running <;> rw [hr] at hu <;> cases hu
      · rw [if_neg hut] at hu; exact h.got u d hu
    · intro u d hu
      rcases old u d hu with ⟨rfl, rfl⟩ | ⟨hne, hu⟩
      · exact hx
      · exact h.open_ u d hu
    · intro u v d hu hv
      rcases old u d hu with ⟨eu, ed⟩ | ⟨hne, hu'⟩
      · rcases old v d hv with ⟨ev, _⟩ | ⟨_, hv'⟩
        · rw [eu, ev]
        · exact absurd (ed ▸ h.mine v d hv') hc
      · rcases old v d hv with ⟨_, ed⟩ | ⟨_, hv'⟩
        · exact absurd (ed ▸ h.mine u d hu') hc
        · exact h.owner u v d hu' hv'
    · intro u d hu
      rcases old u d hu with ⟨rfl, rfl⟩ | ⟨hne, hu⟩
      · exact .inr rfl
      · exact .inl (h.mine u d hu)
    · intro d hd; exact .inl (h.exited d hd)
  · rw [if_neg hi]; exact hw

theorem Inv.step {used : Nat → Prop} {s : State} (h : Inv used s) (op : Op) (ho : ∀ c, Uses op c → ¬ used c) :
    Inv (fun d => used d ∨ Uses op d) (step s op) := by
  cases op with
  | enter t c =>
    exact (h.enter t c (ho c (.enter t c))).weaken (fun d hd => hd.imp id (fun e => by rw [e]; exact .enter t c))
  | _ =>
    refine Inv.weaken (used := used) ?_ (fun d hd => .inl hd)
    obtain ⟨h1, h2, h3, h4, h5, h6⟩ := h
    simp only [in_iff] at *
    unfold Pause.step runItem; dsimp only
    (repeat' split) <;> constructor <;> (try dsimp only) <;> (try simp only [in_iff, put]) <;>
      first | assumption | grind | (rename Bool => w; cases w <;> grind)

theorem Inv.run {used : Nat → Prop} {s : State} (h : Inv used s) (ops : List Op) (ho : Once ops)
    (hu : ∀ op ∈ ops, ∀ c, Uses op c → ¬ used c) : Inv (fun d => used d ∨ ∃ op ∈ ops, Uses op d) (run s ops) := by
  induction ops generalizing s used with
  | nil => exact h.weaken (fun d hd => .inl hd)
  | cons op ops ih =>
    have ho' := List.pairwise_cons.1 ho
    refine (ih (h.step op (hu op List.mem_cons_self)) ho'.2 ?_).weaken ?_
    · rintro o hm c hc (hx | hx)
      · exact hu o (List.mem_cons_of_mem _ hm) c hc hx
      · exact ho'.1 o hm c hx hc
    · rintro d ((hd | hd) | ⟨o, hm, hd⟩)
      · exact .inl hd
      · exact .inr ⟨op, List.mem_cons_self, hd⟩
      · exact .inr ⟨o, List.mem_cons_of_mem _ hm, hd⟩

theorem Inv.init : Inv (fun _ => False) {} := by
  constructor <;> simp [in_iff]

theorem inv_run (ops : List Op) (ho : Once ops) : Inv (fun d => ∃ op ∈ ops, Uses op d) (run {} ops) :=
  (Inv.init.run ops ho (fun _ _ _ _ hx => hx)).weaken (fun d hd => hd.elim (fun hx => hx.elim) id)

theorem phase_of_inside {ops : List Op} (ho : Once ops) {t c : Nat} (h : (run {} ops).pcs t = .inside c true) :
    (run {} ops).phase = .gave c ∧ (run {} ops).exited c = false := by
  have hi := inv_run ops ho
  have hx := hi.open_ t c (by rw [h]; exact .inside c true)
  exact ⟨hi.gave c (hi.got t c h) hx, hx⟩

/-- C249: two threads which waited for the loop are not in their blocks at a time. -/
theorem C249_alone (ops : List Op) (ho : Once ops) (t u c d : Nat) (ht : (run {} ops).pcs t = .inside c true)
    (hu : (run {} ops).pcs u = .inside d true) : t = u := by
  have h1 := (phase_of_inside ho ht).1
  have h2 := (phase_of_inside ho hu).1
  rw [h1] at h2
  cases h2
  exact (inv_run ops ho).owner t u c (by rw [ht]; exact .inside c true) (by rw [hu]; exact .inside c true)

/-- Steps in the phase `gave`. -/
theorem step_gave {s : State} {t c : Nat} (op : Op) (hp : s.phase = .gave c) (hx : s.exited c = false) (ht : s.pcs t = .inside c true)
    (hl : op ≠ .leave t) : (step s op).ran = s.ran ∧ (step s op).pcs t = .inside c true := by
  cases op <;> unfold step runItem <;> dsimp only <;> (repeat' split) <;> simp only [put] <;> grind

theorem Once.prefix {a b : List Op} (h : Once (a ++ b)) : Once a := (List.pairwise_append.1 h).1

/-- C249: while a thread which waited for the loop is in the block, until it leaves it, no callback is run, whatever others do. -/
theorem C249_paused_partial (ops more : List Op) (ho : Once (ops ++ more)) (t c : Nat) (ht : (run {} ops).pcs t = .inside c true)
    (hl : .leave t ∉ more) :
    (run {} (ops ++ more)).ran = (run {} ops).ran ∧ (run {} (ops ++ more)).pcs t = .inside c true := by
  induction more generalizing ops with
  | nil => rw [List.append_nil]; exact ⟨rfl, ht⟩
  | cons op more ih =>
    have e : ops ++ op :: more = (ops ++ [op]) ++ more := by simp
    have e2 : run {} (ops ++ [op]) = step (run {} ops) op := by rw [run_append]; rfl
    obtain ⟨hp, hx⟩ := phase_of_inside ho.prefix ht
    have hs := step_gave op hp hx ht (by intro h; exact hl (by rw [h]; exact List.mem_cons_self))
    rw [e]
    obtain ⟨h1, h2⟩ := ih (ops ++ [op]) (by rw [← e]; exact ho) (by rw [e2]; exact hs.2) (fun h => hl (List.mem_cons_of_mem _ h))
    exact ⟨h1.trans (by rw [e2]; exact hs.1), h2⟩

example : let s := run {} ([.begin, .call 1 7, .called 1, .turn, .enter 0 0, .append 0, .call 1 8, .called 1, .one, .one, .inside 0] ++ [.one, .resume, .one])
    s.ran = [7] ∧ s.pcs 0 = .inside 0 true ∧ s.ready = [.work 8] := by decide

/-- C249 does not hold as stated: a context which is entered again does not wait for the loop, as its events stay set; callbacks run while the
thread is in the block. -/
theorem C249_again_violated (t u c n : Nat) (h : t ≠ u) :
    let s := run {} [.begin, .enter t c, .append t, .turn, .one, .inside t, .leave t, .resume, .enter t c, .append t, .inside t,
      .call u n, .called u, .one, .resume, .one]
    s.pcs t = .inside c true ∧ s.ran = [n] := by
  have h' : u ≠ t := Ne.symm h
  simp [run, step, runItem, put, h, h']

/-- C249: nor does a block entered before the loop is started keep it from running. -/
theorem C249_early_violated (t u c n : Nat) (h : t ≠ u) :
    let s := run {} [.enter t c, .begin, .call u n, .called u, .turn, .one]
    s.pcs t = .inside c false ∧ s.ran = [n] := by
  have h' : u ≠ t := Ne.symm h
  simp [run, step, runItem, put, h, h']

end Verif.Life.Pause
