import Verif.Datagram.Model

/-!
# C252, C253: every datagram has one fate, in order, and goes where it should
-/

namespace Verif.Datagram

/-- The datagrams settled by an event: given to the socket, failed at it, or dropped. -/
def fate : Ev → List (List Nat × Option Nat)
  | .sent d a => [(d, a)]
  | .failed d a => [(d, a)]
  | .dropped ds => ds
  | _ => []

/-- The datagrams given to the socket, of a log. -/
def sentOf : List Ev → List (List Nat × Option Nat)
  | [] => []
  | .sent d a :: r => (d, a) :: sentOf r
  | _ :: r => sentOf r

/-- Nothing went wrong in a log: no failure, and nothing dropped. -/
inductive Clean : Ev → Prop
  | sent d a : Clean (.sent d a)
  | dropped : Clean (.dropped [])
  | received d a : Clean (.received d a)
  | error : Clean .errorReceived
  | lost e : Clean (.connectionLost e)
  | pause : Clean .pauseWriting
  | resume : Clean .resumeWriting

/-- The datagrams a caller was allowed to send, with their target: not empty, on a transport not yet
lost, and naming no address other than the one the transport is bound to. -/
def taken (s : T) : List Op → List (List Nat × Option Nat)
  | [] => []
  | .sendTo d a o :: os =>
    (if d ≠ [] ∧ s.lost = false ∧ (s.address = none ∨ a = none ∨ a = s.address) then
      [(d, if s.address = none then a else s.address)]
    else []) ++ taken (step s (.sendTo d a o)) os
  | o :: os => taken (step s o) os

theorem fates_callLost (s : T) (e : Option Nat) :
    (callLost s e).log.flatMap fate ++ (callLost s e).buffer = s.log.flatMap fate ++ s.buffer := by
  unfold callLost
  cases s.alive <;> simp [fate]

theorem fates_maybePause (s : T) :
    (maybePause s).log.flatMap fate ++ (maybePause s).buffer = s.log.flatMap fate ++ s.buffer := by
  unfold maybePause
  split
  · rfl
  · split
    · rfl
    · cases s.alive <;> simp [fate]

theorem fates_maybeResume (s : T) :
    (maybeResume s).log.flatMap fate ++ (maybeResume s).buffer = s.log.flatMap fate ++ s.buffer := by
  unfold maybeResume
  split
  · rfl
  · cases s.alive <;> simp [fate]

theorem fates_errorReceived (s : T) :
    (errorReceived s).log.flatMap fate ++ (errorReceived s).buffer = s.log.flatMap fate ++ s.buffer := by
  unfold errorReceived
  cases s.alive <;> simp [fate]

theorem fates_forceClose (s : T) (e : Option Nat) :
    (forceClose s e).log.flatMap fate ++ (forceClose s e).buffer = s.log.flatMap fate ++ s.buffer := by
  unfold forceClose
  split
  · rfl
  · simp [fate]

theorem fates_readyEnd (s : T) :
    (readyEnd s).log.flatMap fate ++ (readyEnd s).buffer = s.log.flatMap fate ++ s.buffer := by
  unfold readyEnd
  rw [← fates_maybeResume s]
  generalize maybeResume s = s1
  dsimp only
  split
  · split
    · exact fates_callLost _ _
    · rfl
  · rfl

theorem fates_sendReady (buf : List (List Nat × Option Nat)) : ∀ (s : T) (outs : List Out),
    (sendReady s buf outs).log.flatMap fate ++ (sendReady s buf outs).buffer =
      s.log.flatMap fate ++ buf := by
  induction buf with
  | nil =>
    intro s outs
    unfold sendReady
    rw [fates_readyEnd]
  | cons x r ih =>
    intro s outs
    obtain ⟨d, a⟩ := x
    unfold sendReady
    split
    · rw [ih]; simp [fate]
    · rw [fates_readyEnd]
    · rw [fates_errorReceived]; simp [fate]
    · unfold fatal; rw [fates_forceClose]; simp [fate]

theorem fates_sendTaken (s : T) (d : List Nat) (a : Option Nat) (o : Out) :
    (sendTaken s d a o).log.flatMap fate ++ (sendTaken s d a o).buffer =
      s.log.flatMap fate ++ s.buffer ++ [(d, a)] := by
  unfold sendTaken
  split
  · rename_i hb
    rw [hb]
    split
    · simp [fate]
    · rw [fates_maybePause]; simp
    · rw [fates_errorReceived]; simp [fate]
    · unfold fatal; rw [fates_forceClose]; simp [fate]
  · rw [fates_maybePause]; simp

theorem fates_sendTo (s : T) (d : List Nat) (a : Option Nat) (o : Out) :
    (sendTo s d a o).1.log.flatMap fate ++ (sendTo s d a o).1.buffer =
      s.log.flatMap fate ++ s.buffer ++
        (if d ≠ [] ∧ s.lost = false ∧ (s.address = none ∨ a = none ∨ a = s.address) then
          [(d, if s.address = none then a else s.address)] else []) := by
  unfold sendTo
  by_cases hd : d = []
  · rw [if_pos hd, if_neg (by intro h; exact h.1 hd)]; simp
  rw [if_neg hd]
  cases hl : s.lost with
  | true =>
    rw [if_neg (by intro h; cases h.2.1)]
    cases target s a <;> simp
  | false =>
    cases ha : s.address with
    | none =>
      have ht : target s a = some a := by unfold target; rw [ha]
      rw [ht, if_pos ⟨hd, rfl, Or.inl rfl⟩]
      simp only [Bool.false_eq_true, if_false, if_true]
      exact fates_sendTaken s d a o
    | some f =>
      cases a with
      | none =>
        have ht : target s none = some (some f) := by unfold target; rw [ha]
        rw [ht, if_pos ⟨hd, rfl, Or.inr (Or.inl rfl)⟩]
        simp only [Bool.false_eq_true, if_false, reduceCtorEq]
        exact fates_sendTaken s d (some f) o
      | some g =>
        by_cases hg : g = f
        · have ht : target s (some g) = some (some f) := by unfold target; rw [ha]; simp [hg]
          rw [ht, if_pos ⟨hd, rfl, Or.inr (Or.inr (by rw [hg]))⟩]
          simp only [Bool.false_eq_true, if_false, reduceCtorEq]
          exact fates_sendTaken s d (some f) o
        · have ht : target s (some g) = none := by unfold target; rw [ha]; simp [hg]
          rw [ht, if_neg (by simp [hg])]
          simp

theorem fates_step (s : T) (op : Op) :
    (step s op).log.flatMap fate ++ (step s op).buffer =
      s.log.flatMap fate ++ s.buffer ++ taken s [op] := by
  cases op with
  | addReader => unfold step; dsimp only; split <;> simp [taken]
  | sendTo d a o =>
    show (sendTo s d a o).1.log.flatMap fate ++ (sendTo s d a o).1.buffer = _
    rw [fates_sendTo]; simp only [taken, List.append_nil]
  | writable outs =>
    unfold step; dsimp only
    split
    · rw [fates_sendReady]; simp [taken]
    · simp [taken]
  | readable d a o =>
    unfold step; dsimp only
    split
    · unfold readReady
      split
      · simp [taken]
      · simp only [taken, List.append_nil]
        generalize (if s.alive then o else Out.other) = out
        cases out
        · simp [fate]
        · rfl
        · exact fates_errorReceived s
        · exact fates_forceClose s _
    · simp [taken]
  | close =>
    unfold step close; dsimp only
    split
    · simp [taken]
    · split <;> simp [taken]
  | abort e =>
    unfold step; dsimp only
    rw [fates_forceClose]; simp [taken]
  | runSoon =>
    unfold step; dsimp only
    split
    · simp [taken]
    · rw [fates_callLost]; simp [taken]

theorem taken_cons (s : T) (op : Op) (ops : List Op) :
    taken s (op :: ops) = taken s [op] ++ taken (step s op) ops := by
  cases op <;> simp [taken]

theorem fates_run (ops : List Op) : ∀ s : T,
    (run s ops).log.flatMap fate ++ (run s ops).buffer =
      s.log.flatMap fate ++ s.buffer ++ taken s ops := by
  induction ops with
  | nil => intro s; simp [run, taken]
  | cons op ops ih =>
    intro s
    rw [taken_cons, ← List.append_assoc, ← fates_step]
    exact ih (step s op)

/-- **C252.** The datagrams settled by the socket (given, failed or dropped), in their order,
followed by the ones still waiting are exactly the datagrams a caller was allowed to send, in the
order of the calls: none is lost silently, doubled, reordered, changed or redirected. -/
theorem C252_every_datagram_has_one_fate (address : Option Nat) (ops : List Op) :
    (run (init address) ops).log.flatMap fate ++ (run (init address) ops).buffer =
      taken (init address) ops := by
  rw [fates_run]; simp [init]

theorem sentOf_sublist (log : List Ev) : (sentOf log).Sublist (log.flatMap fate) := by
  induction log with
  | nil => exact List.Sublist.slnil
  | cons e r ih =>
    cases e with
    | sent d a => simpa [sentOf, fate] using ih
    | failed d a => simpa [sentOf, fate] using ih.cons _
    | dropped ds => simpa [sentOf, fate] using ih.trans (List.sublist_append_right ds _)
    | received d a => simpa [sentOf, fate] using ih
    | errorReceived => simpa [sentOf, fate] using ih
    | connectionLost e => simpa [sentOf, fate] using ih
    | pauseWriting => simpa [sentOf, fate] using ih
    | resumeWriting => simpa [sentOf, fate] using ih

theorem sentOf_clean (log : List Ev) (h : ∀ e ∈ log, Clean e) : sentOf log = log.flatMap fate := by
  induction log with
  | nil => rfl
  | cons e r ih =>
    have hr := ih (fun x hx => h x (List.mem_cons_of_mem _ hx))
    have he := h e List.mem_cons_self
    cases he <;> simp [sentOf, fate, hr]

/-- **C252.** What the socket got is in the order of the calls. -/
theorem C252_sent_in_order (address : Option Nat) (ops : List Op) :
    (sentOf (run (init address) ops).log).Sublist (taken (init address) ops) := by
  rw [← C252_every_datagram_has_one_fate]
  exact (sentOf_sublist _).trans (List.sublist_append_left _ _)

/-- **C252.** If the socket never failed and nothing was dropped, the socket got everything but what
still waits. -/
theorem C252_sent_whole (address : Option Nat) (ops : List Op)
    (h : ∀ e ∈ (run (init address) ops).log, Clean e) :
    sentOf (run (init address) ops).log ++ (run (init address) ops).buffer =
      taken (init address) ops := by
  rw [sentOf_clean _ h]; exact C252_every_datagram_has_one_fate address ops

example :
    let ops := [Op.addReader, .sendTo [1] none .blocked, .sendTo [2] (some 9) .ok, .sendTo [3] (some 8) .ok,
      .writable [.ok, .ok]]
    sentOf (run (init (some 9)) ops).log = [([1], some 9), ([2], some 9)] ∧
      (run (init (some 9)) ops).buffer = [] ∧
      taken (init (some 9)) ops = [([1], some 9), ([2], some 9)] := by decide

/-! ## C253 -/

theorem address_step (s : T) (op : Op) : (step s op).address = s.address := by
  have hcl : ∀ (s : T) e, (callLost s e).address = s.address := fun s e => rfl
  have hmp : ∀ s : T, (maybePause s).address = s.address := by
    intro s; unfold maybePause; split; rfl; split <;> rfl
  have hmr : ∀ s : T, (maybeResume s).address = s.address := by
    intro s; unfold maybeResume; split <;> rfl
  have hfc : ∀ (s : T) e, (forceClose s e).address = s.address := by
    intro s e; unfold forceClose; split <;> rfl
  have her : ∀ s : T, (errorReceived s).address = s.address := fun s => rfl
  have hre : ∀ s : T, (readyEnd s).address = s.address := by
    intro s; unfold readyEnd; dsimp only
    split
    · split
      · exact hmr s
      · exact hmr s
    · exact hmr s
  have hsr : ∀ (buf : List (List Nat × Option Nat)) (s : T) outs, (sendReady s buf outs).address = s.address := by
    intro buf
    induction buf with
    | nil => intro s outs; unfold sendReady; exact hre _
    | cons x r ih =>
      intro s outs
      obtain ⟨d, a⟩ := x
      unfold sendReady
      split
      · exact ih _ _
      · exact hre _
      · exact her _
      · exact hfc _ _
  cases op with
  | addReader => unfold step; dsimp only; split <;> rfl
  | sendTo d a o =>
    show (sendTo s d a o).1.address = _
    unfold sendTo
    split; rfl
    split; rfl
    split; rfl
    unfold sendTaken
    split
    · split
      · rfl
      · exact hmp _
      · exact her _
      · exact hfc _ _
    · exact hmp _
  | writable outs => unfold step; dsimp only; split; exact hsr _ _ _; rfl
  | readable d a o =>
    unfold step; dsimp only
    split
    · unfold readReady
      split; rfl
      generalize (if s.alive then o else Out.other) = out
      cases out
      · rfl
      · rfl
      · rfl
      · exact hfc _ _
    · rfl
  | close => unfold step close; dsimp only; split; rfl; split <;> rfl
  | abort e => exact hfc _ _
  | runSoon => unfold step; dsimp only; split <;> rfl

theorem taken_bound (f : Nat) (ops : List Op) : ∀ s : T, s.address = some f →
    ∀ x ∈ taken s ops, x.2 = some f := by
  induction ops with
  | nil => intro s _ x hx; cases hx
  | cons op ops ih =>
    intro s hs x hx
    rw [taken_cons, List.mem_append] at hx
    rcases hx with hx | hx
    · cases op with
      | sendTo d a o =>
        simp only [taken, List.append_nil, hs] at hx
        split at hx
        · rw [List.mem_singleton] at hx; rw [hx]; rfl
        · cases hx
      | _ => simp [taken] at hx
    · exact ih (step s op) ((address_step s op).trans hs) x hx

/-- **C253.** Everything a transport bound to an address gives to its socket goes to that
address. -/
theorem C253_bound_transport_sends_to_its_address (f : Nat) (ops : List Op) :
    ∀ x ∈ sentOf (run (init (some f)) ops).log, x.2 = some f := by
  intro x hx
  exact taken_bound f ops (init (some f)) rfl x ((C252_sent_in_order (some f) ops).subset hx)

/-- **C253.** After any history naming another address is refused with a `ValueError` and changes
nothing. -/
theorem C253_other_address_refused (f g : Nat) (d : List Nat) (o : Out) (ops : List Op)
    (hd : d ≠ []) (hg : g ≠ f) :
    sendTo (run (init (some f)) ops) d (some g) o = (run (init (some f)) ops, .valueError) := by
  have ha : (run (init (some f)) ops).address = some f := by
    have : ∀ (ops : List Op) (s : T), (run s ops).address = s.address := by
      intro ops
      induction ops with
      | nil => intro s; rfl
      | cons op ops ih => intro s; exact (ih _).trans (address_step s op)
    exact this ops _
  have ht : target (run (init (some f)) ops) (some g) = none := by
    unfold target; rw [ha]; simp [hg]
  unfold sendTo
  rw [if_neg hd, ht]

/-- **C253.** A transport bound to no address sends where it is told to, at once when nothing waits
and the socket takes it. -/
theorem C253_unbound_transport_sends_where_told (s : T) (d : List Nat) (g : Nat)
    (hs : s.address = none) (hl : s.lost = false) (hal : s.alive = true) (hb : s.buffer = [])
    (hd : d ≠ []) :
    (sendTo s d (some g) .ok).1.log = s.log ++ [.sent d (some g)] := by
  have ht : target s (some g) = some (some g) := by unfold target; rw [hs]
  unfold sendTo
  rw [if_neg hd, ht]
  simp only [hl, Bool.false_eq_true, if_false]
  unfold sendTaken sendto
  simp [hb, hal]

example : (sendTo (run (init (some 9)) [.sendTo [1] none .ok]) [2] (some 8) .ok).2 = .valueError ∧
    (sendTo (init none) [2] (some 8) .ok).1.log = [.sent [2] (some 8)] := by decide

end Verif.Datagram
