import Verif.Life.PropsPause

/-! C250: whoever waits for the loop to pause gets in. C251: callbacks which were accepted are run. -/
namespace Verif.Life.Pause

def works (l : List Item) : List Nat := l.filterMap (fun | .work n => some n | _ => none)
def pauses (l : List Item) : List Nat := l.filterMap (fun | .pause c => some c | _ => none)

theorem works_append (a b : List Item) : works (a ++ b) = works a ++ works b := List.filterMap_append
theorem pauses_append (a b : List Item) : pauses (a ++ b) = pauses a ++ pauses b := List.filterMap_append

/-- What was appended, and what became of it. -/
structure Order (s : State) : Prop where
  pauses : s.phase ≠ .off → s.asked = s.gaveTo ++ pauses s.ready
  works : s.phase ≠ .off → s.accepted = s.ran ++ works s.ready
  asked : s.gaveTo <+: s.asked
  accepted : s.ran <+: s.accepted

theorem Order.init : Order {} := by constructor <;> simp [Pause.pauses, Pause.works]

theorem prefix_snoc {l m : List Nat} (h : l <+: m) (x : Nat) : l <+: m ++ [x] := h.trans (List.prefix_append _ _)

theorem Order.step {s : State} (h : Order s) (op : Op) : Order (step s op) := by
  obtain ⟨h1, h2, h3, h4⟩ := h
  cases op with
  | one =>
    unfold Pause.step; dsimp only
    split
    · rename_i hp
      have hn : s.phase ≠ .off := by rw [hp]; intro h; cases h
      have e1 := h1 hn
      have e2 := h2 hn
      cases hr : s.ready with
      | nil => rw [hr] at e1 e2; exact ⟨fun _ => e1, fun _ => e2, h3, h4⟩
      | cons i l =>
        rw [hr] at e1 e2
        cases i with
        | work n =>
          have e3 : s.accepted = (s.ran ++ [n]) ++ Pause.works l := by rw [e2]; simp [Pause.works]
          exact ⟨fun _ => e1, fun _ => e3, h3, by show s.ran ++ [n] <+: _; rw [e3]; exact List.prefix_append _ _⟩
        | pause c =>
          have e3 : s.asked = (s.gaveTo ++ [c]) ++ Pause.pauses l := by rw [e1]; simp [Pause.pauses]
          exact ⟨fun _ => e3, fun _ => e2, by show s.gaveTo ++ [c] <+: _; rw [e3]; exact List.prefix_append _ _, h4⟩
        | stop => exact ⟨fun _ => e1, fun _ => e2, h3, h4⟩
    · exact ⟨h1, h2, h3, h4⟩
  | append t =>
    unfold Pause.step; dsimp only
    split
    · refine ⟨fun hp => ?_, fun hp => ?_, prefix_snoc h3 _, h4⟩
      · show s.asked ++ _ = _; rw [h1 hp, pauses_append]; simp [Pause.pauses]
      · show s.accepted = _; rw [h2 hp, works_append]; simp [Pause.works]
    · exact ⟨h1, h2, h3, h4⟩
  | called t =>
    unfold Pause.step; dsimp only
    split
    · refine ⟨fun hp => ?_, fun hp => ?_, h3, prefix_snoc h4 _⟩
      · show s.asked = _; rw [h1 hp, pauses_append]; simp [Pause.pauses]
      · show s.accepted ++ _ = _; rw [h2 hp, works_append]; simp [Pause.works]
    · exact ⟨h1, h2, h3, h4⟩
  | own c =>
    unfold Pause.step; dsimp only
    split
    · rename_i hp
      have hn : s.phase ≠ .off := by rw [hp]; intro h; cases h
      refine ⟨fun _ => ?_, fun _ => ?_, prefix_snoc h3 _, h4⟩
      · show s.asked ++ _ = _; rw [h1 hn, pauses_append]; simp [Pause.pauses]
      · show s.accepted = _; rw [h2 hn, works_append]; simp [Pause.works]
    · exact ⟨h1, h2, h3, h4⟩
  | stop =>
    unfold Pause.step; dsimp only
    split
    · refine ⟨fun hp => ?_, fun hp => ?_, h3, h4⟩
      · show s.asked = _; rw [h1 hp, pauses_append]; simp [Pause.pauses]
      · show s.accepted = _; rw [h2 hp, works_append]; simp [Pause.works]
    · exact ⟨h1, h2, h3, h4⟩
  | begin =>
    unfold Pause.step; dsimp only
    split
    · rename_i hp
      have hn : s.phase ≠ .off := by rw [hp]; intro h; cases h
      exact ⟨fun _ => h1 hn, fun _ => h2 hn, h3, h4⟩
    · exact ⟨h1, h2, h3, h4⟩
  | clear =>
    unfold Pause.step; dsimp only
    split
    · exact ⟨fun hx => absurd rfl hx, fun hx => absurd rfl hx, h3, h4⟩
    · exact ⟨h1, h2, h3, h4⟩
  | turn =>
    unfold Pause.step; dsimp only
    split
    · rename_i hp
      have hn : s.phase ≠ .off := by rw [hp]; intro h; cases h
      split <;> exact ⟨fun _ => h1 hn, fun _ => h2 hn, h3, h4⟩
    · exact ⟨h1, h2, h3, h4⟩
  | resume =>
    unfold Pause.step; dsimp only
    split
    · rename_i c hp
      have hn : s.phase ≠ .off := by rw [hp]; intro h; cases h
      split
      · exact ⟨fun _ => h1 hn, fun _ => h2 hn, h3, h4⟩
      · exact ⟨h1, h2, h3, h4⟩
    · rename_i c hp
      have hn : s.phase ≠ .off := by rw [hp]; intro h; cases h
      split
      · exact ⟨fun _ => h1 hn, fun _ => h2 hn, h3, h4⟩
      · exact ⟨h1, h2, h3, h4⟩
    · exact ⟨h1, h2, h3, h4⟩
  | enter t c => unfold Pause.step; dsimp only; (repeat' split) <;> exact ⟨h1, h2, h3, h4⟩
  | inside t => unfold Pause.step; dsimp only; (repeat' split) <;> exact ⟨h1, h2, h3, h4⟩
  | leave t => unfold Pause.step; dsimp only; (repeat' split) <;> exact ⟨h1, h2, h3, h4⟩
  | call t n => unfold Pause.step; dsimp only; (repeat' split) <;> exact ⟨h1, h2, h3, h4⟩

theorem Order.run {s : State} (h : Order s) (ops : List Op) : Order (run s ops) := by
  induction ops generalizing s with
  | nil => exact h
  | cons op ops ih => exact ih (h.step op)

/-- C250: the loop gives way in the order in which it was asked. -/
theorem C250_order (ops : List Op) : (run {} ops).gaveTo <+: (run {} ops).asked := (Order.init.run ops).asked

example : let s := run {} [.begin, .enter 0 0, .enter 1 1, .append 1, .append 0, .turn, .one, .inside 1, .leave 1, .resume, .one]
    s.asked = [1, 0] ∧ s.gaveTo = [1, 0] ∧ s.phase = .gave 0 := by decide

/-- C251: callbacks are run in the order in which they were accepted, each once. -/
theorem C251_order (ops : List Op) : (run {} ops).ran <+: (run {} ops).accepted := (Order.init.run ops).accepted

/-! As long as nobody stops it, and no callback enters a context of its own loop. -/

structure Live (s : State) : Prop where
  should : s.shouldRun = true
  stop : .stop ∉ s.ready
  left : s.phase ≠ .leaving
  off : s.phase ≠ .off
  fresh : s.phase = .fresh ↔ s.running = false
  none : s.running = false → ∀ t, s.pcs t = .idle ∨ ∃ c, s.pcs t = .inside c false
  empty : s.running = false → s.accepted = []

theorem Live.init : Live {} := by constructor <;> simp

theorem Live.step {s : State} (h : Live s) (op : Op) (hs : op ≠ .stop) : Live (step s op) := by
  obtain ⟨h1, h2, h3, h4, h5, h6, h7⟩ := h
  cases op <;> unfold Pause.step <;> (try unfold runItem) <;> dsimp only <;> (repeat' split) <;> constructor <;> (try dsimp only) <;>
    (try simp only [put]) <;> first | assumption | grind

theorem Live.run {s : State} (h : Live s) (ops : List Op) (hs : .stop ∉ ops) : Live (run s ops) := by
  induction ops generalizing s with
  | nil => exact h
  | cons op ops ih =>
    exact ih (h.step op (fun e => hs (by rw [e]; exact List.mem_cons_self))) (fun hm => hs (List.mem_cons_of_mem _ hm))

/-- Who waits was put in line, and who was put in line waits. -/
structure Held (s : State) : Prop where
  waits : ∀ t c, s.pcs t = .waiting c → .pause c ∈ s.ready ∨ s.entered c = true
  line : ∀ c, .pause c ∈ s.ready → s.exited c = true ∨ ∃ t, s.pcs t = .waiting c ∨ s.pcs t = .inside c true
  gave : ∀ c, s.phase = .gave c → s.entered c = true
  owner : ∀ c, s.phase = .gave c → s.exited c = true ∨ ∃ t, s.pcs t = .waiting c ∨ s.pcs t = .inside c true
  stuck : ∀ c, s.phase ≠ .stuck c
  leaving : s.phase ≠ .leaving

theorem Held.init : Held {} := by constructor <;> simp

theorem Held.step {s : State} (h : Held s) (hl : Live s) (op : Op) (hs : op ≠ .stop) (ho : ∀ c, op ≠ .own c) : Held (step s op) := by
  have hl' := (hl.step op hs).left
  obtain ⟨h1, h2, h3, h4, h5, h6⟩ := h
  cases op <;> unfold Pause.step at * <;> (try unfold runItem at *) <;> dsimp only at * <;> (repeat' split) <;> constructor <;> (try dsimp only) <;>
    (try simp only [put]) <;> first | assumption | grind

/-- Steps of the loop, and of threads which go on in or leave their blocks. -/
inductive Goes : Op → Prop
  | turn : Goes .turn
  | one : Goes .one
  | resume : Goes .resume
  | inside (t : Nat) : Goes (.inside t)
  | leave (t : Nat) : Goes (.leave t)

structure Good (s : State) : Prop where
  live : Live s
  held : Held s

theorem Good.step {s : State} (h : Good s) (op : Op) (hs : op ≠ .stop) (ho : ∀ c, op ≠ .own c) : Good (step s op) :=
  ⟨h.live.step op hs, h.held.step h.live op hs ho⟩

theorem Good.run {s : State} (h : Good s) (ops : List Op) (hs : .stop ∉ ops) (ho : ∀ c, .own c ∉ ops) : Good (run s ops) := by
  induction ops generalizing s with
  | nil => exact h
  | cons op ops ih =>
    exact ih (h.step op (fun e => hs (by rw [e]; exact List.mem_cons_self)) (fun c e => ho c (by rw [e]; exact List.mem_cons_self)))
      (fun hm => hs (List.mem_cons_of_mem _ hm)) (fun c hm => ho c (List.mem_cons_of_mem _ hm))

theorem Good.goes {s : State} (h : Good s) (ops : List Op) (hg : ∀ op ∈ ops, Goes op) : Good (Pause.run s ops) :=
  h.run ops (fun hm => by cases hg _ hm) (fun c hm => by cases hg _ hm)

/-- The loop, which gave way, goes on. -/
theorem resumes {s : State} (h : Good s) {c : Nat} (hp : s.phase = .gave c) :
    ∃ more, (∀ op ∈ more, Goes op) ∧ (run s more).phase = .drain ∧ (run s more).ready = s.ready ∧ (run s more).ran = s.ran ∧
      ∀ t d, s.pcs t = .waiting d → d ≠ c → (run s more).pcs t = .waiting d := by
  have he := h.held.gave c hp
  rcases h.held.owner c hp with hx | ⟨t, ht | ht⟩
  · refine ⟨[.resume], ?_, ?_⟩
    · intro op hm; rw [List.mem_singleton.1 hm]; exact .resume
    · simp [run, step, hp, hx]
      intro t d hw _; exact hw
  · refine ⟨[.inside t, .leave t, .resume], ?_, ?_⟩
    · intro op hm; simp at hm; rcases hm with rfl | rfl | rfl <;> constructor
    · simp [run, step, hp, ht, he, put]
      intro u d hw hd
      grind
  · refine ⟨[.leave t, .resume], ?_, ?_⟩
    · intro op hm; simp at hm; rcases hm with rfl | rfl <;> constructor
    · simp [run, step, hp, ht, he, put]
      intro u d hw hd
      grind

/-- The loop runs what is in line. -/
theorem drained (l r : List Item) : ∀ s : State, Good s → s.phase = .drain → s.ready = l ++ r →
    ∃ more, (∀ op ∈ more, Goes op) ∧ (run s more).phase = .drain ∧ (run s more).ready = r ∧ (run s more).ran = s.ran ++ works l ∧
      ∀ t c, s.pcs t = .waiting c → .pause c ∉ l → (run s more).pcs t = .waiting c := by
  induction l with
  | nil => intro s h hp hr; exact ⟨[], by simp, hp, hr, by simp [run, works], fun _ _ h _ => h⟩
  | cons i l ih =>
    intro s h hp hr
    have h1 := h.step .one (by intro e; cases e) (by intro c e; cases e)
    cases i with
    | stop => exact absurd (by rw [hr]; simp) h.live.stop
    | work n =>
      have e : step s .one = { s with ready := l ++ r, ran := s.ran ++ [n] } := by simp [step, runItem, hp, hr]
      obtain ⟨more, g, a, b, c, d⟩ := ih _ h1 (by rw [e]; exact hp) (by rw [e])
      refine ⟨.one :: more, ?_, a, b, ?_, ?_⟩
      · intro op hm; rcases List.mem_cons.1 hm with rfl | hm
        · exact .one
        · exact g op hm
      · refine c.trans ?_; rw [e]; simp [works]
      · intro t c' ht hn
        exact d t c' (by rw [e]; exact ht) (fun hm => hn (List.mem_cons_of_mem _ hm))
    | pause c =>
      have e : step s .one = { s with ready := l ++ r, phase := .gave c, entered := put s.entered c true, gaveTo := s.gaveTo ++ [c] } := by
        simp [step, runItem, hp, hr]
      obtain ⟨m1, g1, a1, b1, c1, d1⟩ := resumes h1 (c := c) (by rw [e])
      obtain ⟨m2, g2, a2, b2, c2, d2⟩ := ih _ (h1.goes m1 g1) a1 (by rw [b1, e])
      have er : run s (.one :: (m1 ++ m2)) = run (run (step s .one) m1) m2 := run_append (step s .one) m1 m2
      refine ⟨.one :: (m1 ++ m2), ?_, ?_, ?_, ?_, ?_⟩
      · intro op hm; rcases List.mem_cons.1 hm with rfl | hm
        · exact .one
        · rcases List.mem_append.1 hm with hm | hm
          · exact g1 op hm
          · exact g2 op hm
      · rw [er]; exact a2
      · rw [er]; exact b2
      · rw [er, c2, c1, e]; simp [works]
      · intro t d ht hn
        rw [er]
        refine d2 t d (d1 t d (by rw [e]; exact ht) ?_) (fun hm => hn (List.mem_cons_of_mem _ hm))
        intro hd; exact hn (by rw [hd]; exact List.mem_cons_self)

/-- The loop comes to run what is in line. -/
theorem drains {s : State} (h : Good s) (hf : s.phase ≠ .fresh) :
    ∃ more, (∀ op ∈ more, Goes op) ∧ (run s more).phase = .drain ∧ (run s more).ready = s.ready ∧ (run s more).ran = s.ran ∧
      ∀ t d, s.pcs t = .waiting d → s.phase ≠ .gave d → (run s more).pcs t = .waiting d := by
  cases hp : s.phase with
  | fresh => exact absurd hp hf
  | outer =>
    refine ⟨[.turn], ?_, ?_⟩
    · intro op hm; rw [List.mem_singleton.1 hm]; exact .turn
    · simp [run, step, hp, h.live.should]
  | drain => exact ⟨[], by simp, hp, rfl, rfl, fun _ _ h _ => h⟩
  | gave c =>
    obtain ⟨m, a, b, c', d, e⟩ := resumes h hp
    exact ⟨m, a, b, c', d, fun t d' ht hn => e t d' ht (fun hx => hn (by rw [hx]))⟩
  | stuck c => exact absurd hp (h.held.stuck c)
  | leaving => exact absurd hp h.live.left
  | off => exact absurd hp h.live.off

theorem good_init : Good {} := ⟨Live.init, Held.init⟩

theorem not_fresh {s : State} (h : Good s) {t c : Nat} (ht : s.pcs t = .waiting c) : s.phase ≠ .fresh := by
  intro hp
  rcases h.live.none (h.live.fresh.1 hp) t with hx | ⟨_, hx⟩ <;> (rw [ht] at hx; cases hx)

/-- C250: as long as nobody stops the loop and no callback of it waits for it, whoever waits for the loop can get in, by steps of the loop and
of those who are in their blocks. -/
theorem C250_in_partial (ops : List Op) (hs : .stop ∉ ops) (ho : ∀ c, .own c ∉ ops) (t c : Nat) (ht : (run {} ops).pcs t = .waiting c) :
    ∃ more, (∀ op ∈ more, Goes op) ∧ (run {} (ops ++ more)).pcs t = .inside c true := by
  simp only [run_append]
  have h := good_init.run ops hs ho
  generalize run {} ops = s at *
  have goIn : ∀ s : State, s.pcs t = .waiting c → s.entered c = true → (step s (.inside t)).pcs t = .inside c true := by
    intro s ht he; simp [step, ht, he, put]
  by_cases he : s.entered c = true
  · refine ⟨[.inside t], ?_, goIn s ht he⟩
    intro op hm; rw [List.mem_singleton.1 hm]; exact .inside t
  · rcases h.held.waits t c ht with hm | hx
    · have hg : s.phase ≠ .gave c := fun hp => he (h.held.gave c hp)
      obtain ⟨m1, g1, a1, b1, _, d1⟩ := drains h (not_fresh h ht)
      obtain ⟨l, r, hl, hn⟩ := List.eq_append_cons_of_mem hm
      obtain ⟨m2, g2, a2, b2, _, d2⟩ := drained l (.pause c :: r) _ (h.goes m1 g1) a1 (b1.trans hl)
      have h3 := d2 t c (d1 t c ht hg) hn
      refine ⟨m1 ++ m2 ++ [.one, .inside t], ?_, ?_⟩
      · intro op hm
        simp only [List.mem_append, List.mem_cons, List.not_mem_nil, or_false] at hm
        rcases hm with (hm | hm) | rfl | rfl
        · exact g1 op hm
        · exact g2 op hm
        · exact .one
        · exact .inside t
      · rw [run_append, run_append]
        generalize run (run s m1) m2 = u at *
        refine goIn (step u .one) ?_ ?_ <;> simp [step, runItem, a2, b2, put]
        exact h3
    · exact absurd hx he

/-- C251: as long as nobody stops the loop and no callback of it waits for it, every callback accepted can be run. -/
theorem C251_runs_partial (ops : List Op) (hs : .stop ∉ ops) (ho : ∀ c, .own c ∉ ops) :
    ∃ more, (∀ op ∈ more, Goes op) ∧ (run {} (ops ++ more)).ran = (run {} ops).accepted := by
  simp only [run_append]
  have h := good_init.run ops hs ho
  have hq := Order.init.run ops
  generalize run {} ops = s at *
  by_cases hf : s.phase = .fresh
  · refine ⟨[], by simp, ?_⟩
    have he := h.live.empty (h.live.fresh.1 hf)
    have := hq.accepted
    rw [he] at this ⊢
    exact List.prefix_nil.1 this
  · obtain ⟨m1, g1, a1, b1, c1, _⟩ := drains h hf
    obtain ⟨m2, g2, a2, b2, c2, _⟩ := drained s.ready [] _ (h.goes m1 g1) a1 (by rw [b1, List.append_nil])
    refine ⟨m1 ++ m2, ?_, ?_⟩
    · intro op hm
      rcases List.mem_append.1 hm with hm | hm
      · exact g1 op hm
      · exact g2 op hm
    · rw [run_append, c2, c1, hq.works h.live.off]

/-- What was accepted before it was stopped is run, or in line before that. -/
inductive Kept (a : List Nat) (s : State) : Prop
  | line (l r : List Item) (hr : s.ready = l ++ .stop :: r) (hn : .stop ∉ l) (ha : a = s.ran ++ works l) (hs : s.shouldRun = true) (hl : s.phase ≠ .leaving)
      (ho : s.phase ≠ .off)
  | done (h : a <+: s.ran)

theorem step_ran (s : State) (op : Op) : s.ran <+: (step s op).ran := by
  cases op <;> unfold step runItem <;> dsimp only <;> (repeat' split) <;> first | exact List.prefix_refl _ | exact List.prefix_append _ _

theorem step_ready {s : State} (op : Op) (h : op ≠ .one) (hc : s.phase ≠ .leaving) :
    (∃ r, (step s op).ready = s.ready ++ r) ∧ (step s op).ran = s.ran ∧ (step s op).shouldRun = s.shouldRun := by
  cases op <;> unfold step <;> dsimp only <;> (repeat' split) <;>
    first
      | exact ⟨⟨[], (List.append_nil _).symm⟩, rfl, rfl⟩
      | exact ⟨⟨_, rfl⟩, rfl, rfl⟩
      | exact absurd rfl h
      | exact absurd ‹_› hc

theorem step_phase {s : State} (op : Op) (h : op ≠ .one) (hs : s.shouldRun = true) (hl : s.phase ≠ .leaving) (ho : s.phase ≠ .off) :
    (step s op).phase ≠ .leaving ∧ (step s op).phase ≠ .off := by
  cases op <;> unfold step <;> dsimp only <;> (repeat' split) <;> grind

theorem Kept.step {a : List Nat} {s : State} (h : Kept a s) (op : Op) : Kept a (step s op) := by
  cases h with
  | done h => exact .done (h.trans (step_ran s op))
  | line l r hr hn ha hs hl ho =>
    by_cases h1 : op = .one
    · subst h1
      unfold Pause.step; dsimp only
      split
      · rename_i hp
        rw [hr]
        cases l with
        | nil =>
          refine .done ?_
          show a <+: s.ran
          rw [ha]; simp [works]
        | cons i l =>
          cases i with
          | work n =>
            exact .line l r rfl (fun hm => hn (List.mem_cons_of_mem _ hm)) (by rw [ha]; simp [works, runItem]) hs (by show s.phase ≠ _; exact hl) (by show s.phase ≠ _; exact ho)
          | pause c => exact .line l r rfl (fun hm => hn (List.mem_cons_of_mem _ hm)) (by rw [ha]; simp [works, runItem]) hs (by intro hx; cases hx) (by intro hx; cases hx)
          | stop => exact absurd List.mem_cons_self hn
      · exact .line l r hr hn ha hs hl ho
    · obtain ⟨⟨r', e1⟩, e2, e3⟩ := step_ready op h1 hl
      refine .line l (r ++ r') (by rw [e1, hr]; simp) hn (by rw [e2]; exact ha) (e3.trans hs) ?_ ?_
      · exact (step_phase op h1 hs hl ho).1
      · exact (step_phase op h1 hs hl ho).2

theorem Kept.run {a : List Nat} {s : State} (h : Kept a s) (ops : List Op) : Kept a (run s ops) := by
  induction ops generalizing s with
  | nil => exact h
  | cons op ops ih => exact ih (h.step op)

/-- C251: when the loop ended, all callbacks are run which were accepted before it was first told to stop. -/
theorem C251_stop_partial (pre post : List Op) (hs : .stop ∉ pre) (h : (run {} (pre ++ .stop :: post)).phase = .off) :
    (run {} pre).accepted <+: (run {} (pre ++ .stop :: post)).ran := by
  have hl := Live.init.run pre hs
  have hq := Order.init.run pre
  have e : run {} (pre ++ .stop :: post) = run (step (run {} pre) .stop) post := run_append {} pre (.stop :: post)
  rw [e] at h ⊢
  generalize run {} pre = s at *
  have hk : Kept s.accepted (step s .stop) := by
    cases hr : s.running
    · rw [hl.empty hr]; exact .done (List.nil_prefix)
    · have es : step s .stop = { s with ready := s.ready ++ [.stop] } := by simp [step, hr, hl.should]
      rw [es]
      exact .line s.ready [] rfl hl.stop (hq.works hl.off) hl.should hl.left hl.off
  have := hk.run post
  cases this with
  | line l r _ _ _ _ _ ho => exact absurd h ho
  | done hd => exact hd

example : let s := run {} ([.begin, .call 0 1, .called 0, .call 0 2, .called 0] ++ .stop :: [.turn, .one, .one, .one, .one, .turn, .clear])
    s.phase = .off ∧ s.ran = [1, 2] := by decide

/-- The loop has ended. -/
theorem off_run {s : State} (h : s.phase = .off) (ops : List Op) :
    (run s ops).phase = .off ∧ (run s ops).ran = s.ran ∧ (run s ops).entered = s.entered ∧
      ∀ t c, s.pcs t = .waiting c → s.entered c = false → (run s ops).pcs t = .waiting c := by
  induction ops generalizing s with
  | nil => exact ⟨h, rfl, rfl, fun _ _ h _ => h⟩
  | cons op ops ih =>
    have hs : (step s op).phase = .off ∧ (step s op).ran = s.ran ∧ (step s op).entered = s.entered ∧
        ∀ t c, s.pcs t = .waiting c → s.entered c = false → (step s op).pcs t = .waiting c := by
      cases op <;> unfold step <;> dsimp only <;> (repeat' split) <;> (try simp only [put]) <;> grind
    obtain ⟨a, b, c, d⟩ := ih hs.1
    exact ⟨a, b.trans hs.2.1, c.trans hs.2.2.1, fun t x ht he => d t x (hs.2.2.2 t x ht he) (by rw [hs.2.2.1]; exact he)⟩

/-- C250 does not hold as stated: a thread that enters when the loop is just about to end waits forever. -/
theorem C250_stopped_violated (t c : Nat) (more : List Op) :
    (run {} ([.begin, .stop, .turn, .one, .one, .enter t c, .turn, .append t, .clear] ++ more)).pcs t = .waiting c := by
  rw [run_append]
  refine (off_run ?_ more).2.2.2 t c ?_ ?_ <;> simp [run, step, runItem, put]

/-- C251 does not hold as stated: a callback accepted when the loop is about to end is never run. -/
theorem C251_lost_violated (t n : Nat) (more : List Op) :
    let s := run {} ([.begin, .stop, .turn, .one, .one, .call t n, .called t, .turn, .clear] ++ more)
    n ∈ (run {} [.begin, .stop, .turn, .one, .one, .call t n, .called t]).accepted ∧ s.ran = [] := by
  rw [run_append]
  refine ⟨?_, (off_run ?_ more).2.1.trans ?_⟩ <;> simp [run, step, runItem, put]

/-- C251: nor one which was accepted after it ended, by a thread which asked before whether it runs. -/
theorem C251_late_violated (t n : Nat) (more : List Op) :
    let s := run {} ([.begin, .stop, .turn, .one, .one, .call t n, .turn, .clear, .called t] ++ more)
    n ∈ (run {} [.begin, .stop, .turn, .one, .one, .call t n, .turn, .clear, .called t]).accepted ∧ s.ran = [] := by
  rw [run_append]
  refine ⟨?_, (off_run ?_ more).2.1.trans ?_⟩ <;> simp [run, step, runItem, put]

theorem stuck_run {s : State} {c : Nat} (h : s.phase = .stuck c) (he : s.entered c = false) (ops : List Op) :
    (run s ops).phase = .stuck c ∧ (run s ops).ran = s.ran ∧ (run s ops).gaveTo = s.gaveTo := by
  induction ops generalizing s with
  | nil => exact ⟨h, rfl, rfl⟩
  | cons op ops ih =>
    have hs : (step s op).phase = .stuck c ∧ (step s op).entered c = false ∧ (step s op).ran = s.ran ∧ (step s op).gaveTo = s.gaveTo := by
      cases op <;> unfold step <;> dsimp only <;> (repeat' split) <;> grind
    obtain ⟨a, b, d⟩ := ih hs.1 hs.2.1
    exact ⟨a, b.trans hs.2.2.1, d.trans hs.2.2.2⟩

/-- C250: nor does anybody get in, and nothing is run, after a callback entered a context of its own loop. -/
theorem C250_own_violated (t c n : Nat) (more : List Op) :
    let s := run {} ([.begin, .call t n, .called t, .turn, .own c] ++ more)
    s.gaveTo = [] ∧ s.ran = [] ∧ n ∈ (run {} [.begin, .call t n, .called t]).accepted := by
  rw [run_append]
  have h := stuck_run (s := run {} [.begin, .call t n, .called t, .turn, .own c]) (c := c) (by simp [run, step, put])
    (by simp [run, step, put]) more
  exact ⟨h.2.2.trans (by simp [run, step, put]), h.2.1.trans (by simp [run, step, put]), by simp [run, step, put]⟩

end Verif.Life.Pause
