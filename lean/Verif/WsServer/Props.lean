import Verif.WsServer.Model

/-!
# C263–C267: registered connections, connections whose handler ended, closing of the server
-/

namespace Verif.WsServer

/-- The lifetime task runs. -/
inductive Running : Life → Prop
  | reading : Running .reading
  | processing : Running .processing
  | handling : Running .handling

theorem running_iff (l : Life) : Running l ↔ l = .reading ∨ l = .processing ∨ l = .handling := by
  constructor
  · intro h; cases h <;> simp
  · rintro (rfl | rfl | rfl)
    · exact .reading
    · exact .processing
    · exact .handling

/-- The facts kept by every step. -/
structure Inv (s : S) : Prop where
  reg : ∀ i, (s.conns i).registered = true ↔
    ((s.conns i).life = .reading ∨ (s.conns i).life = .processing ∨ (s.conns i).life = .handling)
  ids : ∀ i, i ∈ s.ids ↔ (s.conns i).life ≠ .absent
  late : (s.stage = .waiting ∨ s.stage = .done) → ∀ i, i ∉ s.waits →
    ((s.conns i).life = .absent ∨ (s.conns i).life = .reading ∨ (s.conns i).life = .ended)
  over : s.stage = .done → ∀ i, i ∈ s.waits → (s.conns i).life = .ended
  empty : (s.stage = .serving ∨ s.stage = .stopping ∨ s.stage = .closing) → s.waits = []
  hand : ∀ i, (s.conns i).life = .handling →
    (s.conns i).ws = .opened ∨ ((s.conns i).ws = .closed ∧ (s.conns i).transport = false)
  none : ∀ i, (s.conns i).life = .absent → (s.conns i).transport = false
  known : ∀ i, i ∈ s.waits → (s.conns i).life ≠ .absent

theorem closeConn_life (c : Conn) : (closeConn c).life = c.life := by
  unfold closeConn; split <;> rfl

theorem closeConn_registered (c : Conn) : (closeConn c).registered = c.registered := by
  unfold closeConn; split <;> rfl

theorem inv_closeSockets (s : S) (hs : s.stage = .stopping) (h : Inv s) :
    Inv { s with
      stage := .closing
      conns := fun i => if (s.conns i).registered then closeConn (s.conns i) else s.conns i } := by
  obtain ⟨h1, h2, h3, h4, h5, h6, h7, h8⟩ := h
  have hl : ∀ i, (if (s.conns i).registered then closeConn (s.conns i) else s.conns i).life =
      (s.conns i).life := by
    intro i; split
    · exact closeConn_life _
    · rfl
  have hr : ∀ i, (if (s.conns i).registered then closeConn (s.conns i) else s.conns i).registered =
      (s.conns i).registered := by
    intro i; split
    · exact closeConn_registered _
    · rfl
  constructor
  · intro i; dsimp only; rw [hl, hr]; exact h1 i
  · intro i; dsimp only; rw [hl]; exact h2 i
  · intro hd; rcases hd with hd | hd <;> cases hd
  · intro hd; cases hd
  · intro _; exact h5 (Or.inr (Or.inl hs))
  · intro i hi
    dsimp only at hi ⊢
    rw [hl] at hi
    have hreg : (s.conns i).registered = true := (h1 i).2 (Or.inr (Or.inr hi))
    rw [if_pos hreg]
    unfold closeConn
    rcases h6 i hi with ho | ⟨ho, ht⟩
    · rw [ho]; exact Or.inr ⟨rfl, rfl⟩
    · rw [ho]; exact Or.inr ⟨ho, ht⟩
  · intro i hi
    dsimp only at hi ⊢
    rw [hl] at hi
    have hreg : ¬ (s.conns i).registered = true := by
      intro hx; have := (h1 i).1 hx; rw [hi] at this; simp at this
    rw [if_neg hreg]; exact h7 i hi
  · intro i hi
    dsimp only at hi ⊢
    rw [hl]
    exact h8 i hi

theorem inv_snapshot (s : S) (h : Inv s) :
    Inv { s with stage := .waiting, waits := s.ids.filter (fun i => (s.conns i).registered) } := by
  obtain ⟨h1, h2, h3, h4, h5, h6, h7, h8⟩ := h
  constructor
  · exact h1
  · exact h2
  · intro _ i hi
    dsimp only at hi ⊢
    rw [List.mem_filter] at hi
    have := h1 i; have := h2 i
    cases hx : (s.conns i).life <;> grind
  · intro hd; cases hd
  · intro hd; rcases hd with hd | hd | hd <;> cases hd
  · exact h6
  · exact h7
  · intro i hi
    dsimp only at hi ⊢
    rw [List.mem_filter] at hi
    exact (h2 i).1 hi.1

set_option maxHeartbeats 2000000 in
theorem inv_step (s : S) (op : Op) (h : Inv s) : Inv (step s op) := by
  cases op with
  | closeSockets =>
    unfold step; dsimp only
    split
    · rename_i hs; exact inv_closeSockets s hs h
    · exact h
  | snapshot =>
    unfold step; dsimp only
    split
    · exact inv_snapshot s h
    · exact h
  | closeDone =>
    unfold step; dsimp only
    split
    · split
      · rename_i hs ha
        obtain ⟨h1, h2, h3, h4, h5, h6, h7, h8⟩ := h
        refine ⟨h1, h2, fun _ => h3 (Or.inl hs), ?_, ?_, h6, h7, h8⟩
        · intro _ i hi
          have := List.all_eq_true.1 ha i hi
          simpa using this
        · intro hd; rcases hd with hd | hd | hd <;> cases hd
      · exact h
    · exact h
  | close =>
    unfold step; dsimp only
    split
    · rename_i hs
      obtain ⟨h1, h2, h3, h4, h5, h6, h7, h8⟩ := h
      refine ⟨h1, h2, ?_, ?_, fun _ => h5 (Or.inl hs), h6, h7, h8⟩
      · intro hd; rcases hd with hd | hd <;> cases hd
      · intro hd; cases hd
    · exact h
  | connect i =>
    have h0 := h
    obtain ⟨h1, h2, h3, h4, h5, h6, h7, h8⟩ := h
    unfold step
    dsimp only
    split
    · constructor <;> dsimp only [put] <;> grind
    · exact h0
  | request i good async =>
    have h0 := h
    obtain ⟨h1, h2, h3, h4, h5, h6, h7, h8⟩ := h
    unfold step accept refuse isServing
    dsimp only
    (repeat' split) <;> first | exact h0 | (constructor <;> dsimp only [put] <;> grind)
  | eof i =>
    have h0 := h
    obtain ⟨h1, h2, h3, h4, h5, h6, h7, h8⟩ := h
    unfold step refuse
    dsimp only
    split
    · constructor <;> dsimp only [put] <;> grind
    · exact h0
  | processed i good =>
    have h0 := h
    obtain ⟨h1, h2, h3, h4, h5, h6, h7, h8⟩ := h
    unfold step accept refuse
    dsimp only
    (repeat' split) <;> first | exact h0 | (constructor <;> dsimp only [put] <;> grind)
  | handlerReturns i =>
    have h0 := h
    obtain ⟨h1, h2, h3, h4, h5, h6, h7, h8⟩ := h
    unfold step closeConn
    dsimp only
    (repeat' split) <;> first | exact h0 | (constructor <;> dsimp only [put] <;> grind)
  | handlerRaises i =>
    have h0 := h
    obtain ⟨h1, h2, h3, h4, h5, h6, h7, h8⟩ := h
    unfold step
    dsimp only
    (repeat' split) <;> first | exact h0 | (constructor <;> dsimp only [put] <;> grind)
  | cancelled i =>
    have h0 := h
    obtain ⟨h1, h2, h3, h4, h5, h6, h7, h8⟩ := h
    unfold step refuse
    dsimp only
    (repeat' split) <;> first | exact h0 | (constructor <;> dsimp only [put] <;> grind)
  | lost i =>
    have h0 := h
    obtain ⟨h1, h2, h3, h4, h5, h6, h7, h8⟩ := h
    unfold step
    dsimp only
    (repeat' split) <;> first | exact h0 | (constructor <;> dsimp only [put] <;> grind)

theorem inv_start : Inv start := by
  constructor <;> simp [start]

theorem inv_run (ops : List Op) : ∀ s : S, Inv s → Inv (run s ops) := by
  induction ops with
  | nil => intro s h; exact h
  | cons op ops ih => intro s h; exact ih _ (inv_step s op h)

/-- **C263.** A connection is registered at its server exactly while its lifetime task runs. -/
theorem C263_registered_while_running (ops : List Op) (i : Nat) :
    ((run start ops).conns i).registered = true ↔ Running ((run start ops).conns i).life := by
  rw [running_iff]
  exact (inv_run ops start inv_start).reg i

example :
    let s := run start [.connect 1, .connect 2, .request 1 true false, .request 2 false false, .connect 3]
    (s.conns 1).registered = true ∧ (s.conns 2).registered = false ∧ (s.conns 3).registered = true ∧
      (s.conns 2).transport = false := by decide

/-! ## C264 -/

/-- A connection whose task ended with an open transport stays so until its peer goes. -/
theorem leaked_step (s : S) (i : Nat) (op : Op) (hop : op ≠ .lost i)
    (h : (s.conns i).life = .ended ∧ (s.conns i).transport = true ∧ (s.conns i).registered = false ∧
      (s.conns i).ws = .opened) :
    ((step s op).conns i).life = .ended ∧ ((step s op).conns i).transport = true ∧
      ((step s op).conns i).registered = false ∧ ((step s op).conns i).ws = .opened := by
  obtain ⟨h1, h2, h3, h4⟩ := h
  cases op with
  | closeSockets =>
    unfold step; dsimp only
    split
    · dsimp only; rw [if_neg (by rw [h3]; decide)]; exact ⟨h1, h2, h3, h4⟩
    · exact ⟨h1, h2, h3, h4⟩
  | snapshot => unfold step; dsimp only; (repeat' split) <;> exact ⟨h1, h2, h3, h4⟩
  | closeDone => unfold step; dsimp only; (repeat' split) <;> exact ⟨h1, h2, h3, h4⟩
  | close => unfold step; dsimp only; (repeat' split) <;> exact ⟨h1, h2, h3, h4⟩
  | connect j => unfold step; dsimp only; (repeat' split) <;> (try dsimp only [put]) <;> grind
  | request j g a =>
    unfold step accept; dsimp only; (repeat' split) <;> (try dsimp only [put]) <;> grind
  | eof j => unfold step; dsimp only; (repeat' split) <;> (try dsimp only [put]) <;> grind
  | processed j g =>
    unfold step accept; dsimp only; (repeat' split) <;> (try dsimp only [put]) <;> grind
  | handlerReturns j => unfold step; dsimp only; (repeat' split) <;> (try dsimp only [put]) <;> grind
  | handlerRaises j => unfold step; dsimp only; (repeat' split) <;> (try dsimp only [put]) <;> grind
  | cancelled j => unfold step; dsimp only; (repeat' split) <;> (try dsimp only [put]) <;> grind
  | lost j => unfold step; dsimp only; (repeat' split) <;> (try dsimp only [put]) <;> grind

theorem leaked_run (i : Nat) (ops : List Op) : ∀ s : S, (∀ op ∈ ops, op ≠ .lost i) →
    ((s.conns i).life = .ended ∧ (s.conns i).transport = true ∧ (s.conns i).registered = false ∧
      (s.conns i).ws = .opened) →
    (((run s ops).conns i).life = .ended ∧ ((run s ops).conns i).transport = true ∧
      ((run s ops).conns i).registered = false ∧ ((run s ops).conns i).ws = .opened) := by
  induction ops with
  | nil => intro s _ h; exact h
  | cons op ops ih =>
    intro s hc h
    exact ih _ (fun x hx => hc x (List.mem_cons_of_mem _ hx))
      (leaked_step s i op (hc op List.mem_cons_self) h)

/-- **C264, violated.** A handler raises on an open web socket: the connection stays open, with nobody
handling it, until the peer closes it or is lost; nothing the server does, not even closing it,
changes that. -/
theorem C264_failed_handler_leaves_connection_open_violated (s : S) (i : Nat) (ops : List Op)
    (hl : (s.conns i).life = .handling) (ht : (s.conns i).transport = true)
    (hw : (s.conns i).ws = .opened) (hops : ∀ op ∈ ops, op ≠ .lost i) :
    ((run s (.handlerRaises i :: ops)).conns i).life = .ended ∧
      ((run s (.handlerRaises i :: ops)).conns i).transport = true ∧
      ((run s (.handlerRaises i :: ops)).conns i).ws = .opened := by
  have h0 : ((step s (.handlerRaises i)).conns i).life = .ended ∧
      ((step s (.handlerRaises i)).conns i).transport = true ∧
      ((step s (.handlerRaises i)).conns i).registered = false ∧
      ((step s (.handlerRaises i)).conns i).ws = .opened := by
    unfold step
    dsimp only
    rw [hl]
    dsimp only [put]
    rw [if_pos rfl]
    exact ⟨rfl, ht, rfl, hw⟩
  have := leaked_run i ops _ hops h0
  exact ⟨this.1, this.2.1, this.2.2.2⟩

example :
    let s := run start [.connect 1, .request 1 true false]
    (s.conns 1).life = .handling ∧ (s.conns 1).transport = true ∧ (s.conns 1).ws = .opened := by decide

theorem closed_step (s : S) (op : Op) (i : Nat) (hop : op ≠ .handlerRaises i) (hi : Inv s)
    (h : (s.conns i).life = .ended → (s.conns i).transport = false) :
    ((step s op).conns i).life = .ended → ((step s op).conns i).transport = false := by
  have hh := hi.hand i
  have hr := hi.reg i
  cases op with
  | closeSockets =>
    unfold step; dsimp only
    split
    · intro hl
      dsimp only at hl ⊢
      split at hl
      · rename_i hreg
        rw [closeConn_life] at hl
        rw [hr] at hreg; rw [hl] at hreg; simp at hreg
      · rename_i hreg
        rw [if_neg hreg]; exact h hl
    · exact h
  | snapshot => unfold step; dsimp only; (repeat' split) <;> exact h
  | closeDone => unfold step; dsimp only; (repeat' split) <;> exact h
  | close => unfold step; dsimp only; (repeat' split) <;> exact h
  | connect j => unfold step; dsimp only; (repeat' split) <;> (try dsimp only [put]) <;> grind
  | request j g a =>
    unfold step accept refuse; dsimp only; (repeat' split) <;> (try dsimp only [put]) <;> grind
  | eof j => unfold step refuse; dsimp only; (repeat' split) <;> (try dsimp only [put]) <;> grind
  | processed j g =>
    unfold step accept refuse; dsimp only; (repeat' split) <;> (try dsimp only [put]) <;> grind
  | handlerReturns j =>
    unfold step closeConn; dsimp only; (repeat' split) <;> (try dsimp only [put]) <;> grind
  | handlerRaises j => unfold step; dsimp only; (repeat' split) <;> (try dsimp only [put]) <;> grind
  | cancelled j =>
    unfold step refuse; dsimp only; (repeat' split) <;> (try dsimp only [put]) <;> grind
  | lost j => unfold step; dsimp only; (repeat' split) <;> (try dsimp only [put]) <;> grind

/-- **C264, part.** A connection whose handler does not raise is closed when its task has ended:
whether its request was refused, its handler returned, its task was cancelled, or its peer went. -/
theorem C264_closed_when_ended_partial (ops : List Op) (i : Nat)
    (hops : ∀ op ∈ ops, op ≠ .handlerRaises i)
    (h : ((run start ops).conns i).life = .ended) : ((run start ops).conns i).transport = false := by
  have key : ∀ (ops : List Op) (s : S), Inv s → (∀ op ∈ ops, op ≠ .handlerRaises i) →
      ((s.conns i).life = .ended → (s.conns i).transport = false) →
      (((run s ops).conns i).life = .ended → ((run s ops).conns i).transport = false) := by
    intro ops
    induction ops with
    | nil => intro s _ _ h; exact h
    | cons op ops ih =>
      intro s hi hc h
      exact ih _ (inv_step s op hi) (fun x hx => hc x (List.mem_cons_of_mem _ hx))
        (closed_step s op i (hc op List.mem_cons_self) hi h)
  exact key ops start inv_start hops (by intro h; cases h) h

/-! ## C265 -/

/-- **C265, violated.** When closing a server is done, a connection whose handler raised before is
still open, and stays so. -/
theorem C265_closed_server_has_open_connection_violated (ops : List Op)
    (hops : ∀ op ∈ ops, op ≠ .lost 1) :
    let s := run start ([.connect 1, .request 1 true false, .handlerRaises 1, .close, .closeSockets, .snapshot,
      .closeDone] ++ ops)
    (s.conns 1).transport = true ∧ (s.conns 1).ws = .opened := by
  rw [run_append]
  have := leaked_run 1 ops (run start [.connect 1, .request 1 true false, .handlerRaises 1, .close,
    .closeSockets, .snapshot, .closeDone]) hops (by decide)
  exact ⟨this.2.1, this.2.2.2⟩

/-- **C265.** When closing a server is done no handler runs, and none will be started: what is there
still waits for its request, which is going to be refused, and it came after the web sockets were
closed. -/
theorem C265_no_handler_behind_closing_partial (ops : List Op)
    (hd : (run start ops).stage = .done) (i : Nat) :
    ((run start ops).conns i).life = .absent ∨ ((run start ops).conns i).life = .ended ∨
      (((run start ops).conns i).life = .reading ∧ i ∉ (run start ops).waits) := by
  have hi := inv_run ops start inv_start
  by_cases hw : i ∈ (run start ops).waits
  · exact Or.inr (Or.inl (hi.over hd i hw))
  · rcases hi.late (Or.inr hd) i hw with h | h | h
    · exact Or.inl h
    · exact Or.inr (Or.inr ⟨h, hw⟩)
    · exact Or.inr (Or.inl h)

/-- **C265, part.** If no handler raises then, when closing is done, every connection made is closed,
but the late ones that still wait for their request. -/
theorem C265_all_closed_partial (ops : List Op) (hd : (run start ops).stage = .done) (i : Nat)
    (hops : ∀ op ∈ ops, op ≠ .handlerRaises i) :
    ((run start ops).conns i).transport = false ∨
      (((run start ops).conns i).life = .reading ∧ i ∉ (run start ops).waits) := by
  rcases C265_no_handler_behind_closing_partial ops hd i with h | h | h
  · exact Or.inl ((inv_run ops start inv_start).none i h)
  · exact Or.inl (C264_closed_when_ended_partial ops i hops h)
  · exact Or.inr h

/-- **C265, part.** A request that comes when the server is closed is refused, with its connection
closed. -/
theorem C265_late_request_refused_partial (s : S) (i : Nat) (good async : Bool)
    (hs : s.stage ≠ .serving) (hl : (s.conns i).life = .reading) (hw : (s.conns i).ws = .connecting) :
    ((step s (.request i good async)).conns i).life = .ended ∧
      ((step s (.request i good async)).conns i).transport = false := by
  have hserv : isServing s = false := by
    unfold isServing
    cases hx : s.stage with
    | serving => exact absurd hx hs
    | _ => rfl
  unfold step
  dsimp only
  rw [hl, hw]
  dsimp only
  rw [if_pos hserv]
  dsimp only [put, refuse]
  rw [if_pos rfl]
  exact ⟨rfl, rfl⟩

theorem stage_ne_serving (ops : List Op) : ∀ s : S, s.stage ≠ .serving →
    (run s ops).stage ≠ .serving := by
  induction ops with
  | nil => intro s h; exact h
  | cons op ops ih =>
    intro s h
    apply ih
    cases op <;> unfold step <;> dsimp only <;> (repeat' split) <;>
      first | exact h | (unfold accept; exact h) | simp

/-- **C265.** A closed server does not serve again. -/
theorem C265_closed_for_good_partial (before after : List Op) :
    (run start (before ++ .close :: after)).stage ≠ .serving := by
  rw [run_append]
  show (run (step (run start before) .close) after).stage ≠ .serving
  apply stage_ne_serving
  unfold step
  dsimp only
  split
  · simp
  · rename_i h; exact h

example :
    let s := run start [.connect 1, .connect 2, .request 1 true false, .close, .connect 3, .closeSockets,
      .eof 2, .handlerReturns 1, .snapshot, .eof 3, .closeDone, .connect 4]
    s.stage = .done ∧ (s.conns 1).transport = false ∧ (s.conns 2).transport = false ∧
      (s.conns 3).transport = false ∧ (s.conns 4).life = .reading := by decide

/-! ## C266 -/

/-- **C266, violated.** A request whose asynchronous processing began before the server was closed,
and ends behind: the web socket, which was closed by the server, becomes open again and its handler
is started. -/
theorem C266_handler_started_on_closed_server_violated (i : Nat) :
    let s := run start [.connect i, .request i true true, .close, .closeSockets, .processed i true]
    s.starts = [(i, true, .closed)] ∧ (s.conns i).ws = .opened ∧ s.stage = .closing := by
  simp [run, step, start, put, isServing, closeConn, accept]

/-- A request whose processing is asynchronous. -/
inductive Async : Op → Prop
  | mk i g : Async (.request i g true)

theorem sync_step (s : S) (op : Op) (hop : ¬ Async op) (h : ∀ i, (s.conns i).life ≠ .processing)
    (hs : ∀ x ∈ s.starts, x.2.1 = false ∧ x.2.2 = .connecting) :
    (∀ i, ((step s op).conns i).life ≠ .processing) ∧
      ∀ x ∈ (step s op).starts, x.2.1 = false ∧ x.2.2 = .connecting := by
  cases op with
  | closeSockets =>
    unfold step; dsimp only
    split
    · refine ⟨?_, hs⟩
      intro i
      dsimp only
      split
      · rw [closeConn_life]; exact h i
      · exact h i
    · exact ⟨h, hs⟩
  | snapshot => unfold step; dsimp only; (repeat' split) <;> exact ⟨h, hs⟩
  | closeDone => unfold step; dsimp only; (repeat' split) <;> exact ⟨h, hs⟩
  | close => unfold step; dsimp only; (repeat' split) <;> exact ⟨h, hs⟩
  | connect j => unfold step; dsimp only; (repeat' split) <;> (try dsimp only [put]) <;> grind
  | request j g a =>
    cases a with
    | true => exact absurd (Async.mk j g) hop
    | false =>
      unfold step accept refuse; dsimp only
      (repeat' split) <;> (try dsimp only [put]) <;> grind
  | eof j => unfold step refuse; dsimp only; (repeat' split) <;> (try dsimp only [put]) <;> grind
  | processed j g =>
    unfold step accept refuse; dsimp only; (repeat' split) <;> (try dsimp only [put]) <;> grind
  | handlerReturns j =>
    unfold step closeConn; dsimp only; (repeat' split) <;> (try dsimp only [put]) <;> grind
  | handlerRaises j => unfold step; dsimp only; (repeat' split) <;> (try dsimp only [put]) <;> grind
  | cancelled j =>
    unfold step refuse; dsimp only; (repeat' split) <;> (try dsimp only [put]) <;> grind
  | lost j => unfold step; dsimp only; (repeat' split) <;> (try dsimp only [put]) <;> grind

/-- **C266, part.** Without asynchronous request processors every handler is started while the server
is serving, on a web socket that was not closed before. -/
theorem C266_handlers_start_while_serving_partial (ops : List Op) (hops : ∀ op ∈ ops, ¬ Async op) :
    ∀ x ∈ (run start ops).starts, x.2.1 = false ∧ x.2.2 = .connecting := by
  have key : ∀ (ops : List Op) (s : S), (∀ op ∈ ops, ¬ Async op) →
      (∀ i, (s.conns i).life ≠ .processing) →
      (∀ x ∈ s.starts, x.2.1 = false ∧ x.2.2 = .connecting) →
      ∀ x ∈ (run s ops).starts, x.2.1 = false ∧ x.2.2 = .connecting := by
    intro ops
    induction ops with
    | nil => intro s _ _ h; exact h
    | cons op ops ih =>
      intro s hc h1 h2
      have := sync_step s op (hc op List.mem_cons_self) h1 h2
      exact ih _ (fun x hx => hc x (List.mem_cons_of_mem _ hx)) this.1 this.2
  exact key ops start hops (by intro i h; cases h) (by intro x hx; cases hx)

/-- **C266, part.** With them, a handler started behind the closing belongs to a connection that is
waited for by it. -/
theorem C266_late_handlers_are_waited_for_partial (ops : List Op) (i : Nat)
    (hs : (run start ops).stage = .waiting) (h : ((run start ops).conns i).life = .handling) :
    i ∈ (run start ops).waits := by
  apply Classical.byContradiction
  intro hw
  have := (inv_run ops start inv_start).late (Or.inl hs) i hw
  rw [h] at this
  simp at this

example : (run start [.connect 1, .request 1 true false, .close, .connect 2, .request 2 true false]).starts =
    [(1, false, .connecting)] := by decide

/-! ## C267 -/

/-- **C267, violated.** Without the deprecated parameter a server says that it is secure, whether it
has a context or not. -/
theorem C267_plain_server_says_secure_violated (context : Bool) :
    (isSsl .default context).1 = true ∧ (isSsl .default false).2 = false := ⟨rfl, rfl⟩

/-- **C267, part.** A server which is secure says so. -/
theorem C267_secure_server_says_so_partial (arg : SslArg) (context : Bool)
    (h : (isSsl arg context).2 = true) : (isSsl arg context).1 = true := by
  cases arg <;> cases context <;> first | rfl | (cases h)

example : isSsl .off true = (true, false) ∧ isSsl .none false = (false, false) := by decide

end Verif.WsServer
