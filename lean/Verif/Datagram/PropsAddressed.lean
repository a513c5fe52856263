import Verif.Datagram.Addressed

/-!
# C260–C262: readers by address, waiting for an address, waiting and the lost connection
-/

namespace Verif.Datagram.Addressed

/-- The state of a new protocol. -/
def start : S := {}

/-- A datagram came from the address. -/
inductive Heard (a : Nat) : List Op → Prop
  | here d ops : Heard a (.received d a :: ops)
  | there o ops : Heard a ops → Heard a (o :: ops)

/-- The datagrams with content that came from the address, in order. -/
def heardFrom (a : Nat) : List Op → List (List Nat)
  | [] => []
  | .received d b :: ops => (if b = a ∧ d ≠ [] then [d] else []) ++ heardFrom a ops
  | _ :: ops => heardFrom a ops

theorem heard_cons_iff (a : Nat) (o : Op) (ops : List Op) :
    Heard a (o :: ops) ↔ (∃ d, o = .received d a) ∨ Heard a ops := by
  constructor
  · intro h
    cases h with
    | here d => exact Or.inl ⟨d, rfl⟩
    | there o ops h => exact Or.inr h
  · rintro (⟨d, rfl⟩ | h)
    · exact Heard.here d ops
    · exact Heard.there o ops h

theorem heard_nil (a : Nat) : ¬ Heard a [] := by intro h; cases h

theorem readers_lost (s : S) (e : Option Nat) (a : Nat) :
    ((lost s e).readers a).map Reader.chunks = (s.readers a).map Reader.chunks := by
  unfold lost
  dsimp only
  cases s.readers a <;> rfl

theorem readers_wait (s : S) (n : Nat) (w : Option Nat) : (wait s n w).readers = s.readers := by
  unfold wait
  split
  · split <;> rfl
  · split <;> rfl

theorem readers_timeout (s : S) (n : Nat) : (timeout s n).readers = s.readers := by
  unfold timeout
  split <;> rfl

theorem readers_received (s : S) (d : List Nat) (b a : Nat) :
    ((received s d b).readers a).map Reader.chunks =
      if b = a then some (((s.readers a).map Reader.chunks).getD [] ++ (if d ≠ [] then [d] else []))
      else (s.readers a).map Reader.chunks := by
  unfold received put feed
  dsimp only
  by_cases h : b = a
  · subst h
    rw [if_pos rfl, if_pos rfl]
    cases s.readers b <;> by_cases hd : d = [] <;> simp [hd]
  · rw [if_neg (fun hx => h hx.symm), if_neg h]

theorem readers_run (a : Nat) (ops : List Op) : ∀ s : S,
    (Heard a ops → ((run s ops).readers a).map Reader.chunks =
      some (((s.readers a).map Reader.chunks).getD [] ++ heardFrom a ops)) ∧
    (¬ Heard a ops → ((run s ops).readers a).map Reader.chunks = (s.readers a).map Reader.chunks ∧
      heardFrom a ops = []) := by
  induction ops with
  | nil => intro s; exact ⟨fun h => absurd h (heard_nil a), fun _ => ⟨rfl, rfl⟩⟩
  | cons o ops ih =>
    intro s
    have hi := ih (step s o)
    rw [heard_cons_iff]
    show (_ → ((run (step s o) ops).readers a).map Reader.chunks = _) ∧
      (_ → ((run (step s o) ops).readers a).map Reader.chunks = _ ∧ _)
    have other : ∀ (hno : ∀ d, o ≠ .received d a)
        (hk : ((step s o).readers a).map Reader.chunks = (s.readers a).map Reader.chunks)
        (hf : heardFrom a (o :: ops) = heardFrom a ops),
        (((∃ d, o = .received d a) ∨ Heard a ops) →
          ((run (step s o) ops).readers a).map Reader.chunks =
            some (((s.readers a).map Reader.chunks).getD [] ++ heardFrom a (o :: ops))) ∧
        (¬ ((∃ d, o = .received d a) ∨ Heard a ops) →
          ((run (step s o) ops).readers a).map Reader.chunks = (s.readers a).map Reader.chunks ∧
            heardFrom a (o :: ops) = []) := by
      intro hno hk hf
      rw [hf, ← hk]
      constructor
      · rintro (⟨d, hd⟩ | h)
        · exact absurd hd (hno d)
        · exact hi.1 h
      · intro h
        exact hi.2 (fun hh => h (Or.inr hh))
    cases o with
    | received d b =>
      by_cases hb : b = a
      · subst hb
        have hstep : ((step s (.received d b)).readers b).map Reader.chunks =
            some (((s.readers b).map Reader.chunks).getD [] ++ (if d ≠ [] then [d] else [])) := by
          show ((received s d b).readers b).map Reader.chunks = _
          rw [readers_received, if_pos rfl]
        have hf : heardFrom b (.received d b :: ops) = (if d ≠ [] then [d] else []) ++ heardFrom b ops := by
          show (if b = b ∧ d ≠ [] then [d] else []) ++ heardFrom b ops = _
          simp
        refine ⟨fun _ => ?_, fun h => absurd (Or.inl ⟨d, rfl⟩) h⟩
        rw [hf]
        by_cases hh : Heard b ops
        · rw [hi.1 hh, hstep]; simp
        · rw [(hi.2 hh).1, (hi.2 hh).2, hstep]; simp
      · apply other
        · intro d' hd'; injection hd' with _ h2; exact hb h2
        · show ((received s d b).readers a).map Reader.chunks = _
          rw [readers_received, if_neg hb]
        · show (if b = a ∧ d ≠ [] then [d] else []) ++ heardFrom a ops = _
          simp [hb]
    | wait n w =>
      apply other (by intro d hd; cases hd) _ rfl
      show ((wait s n w).readers a).map Reader.chunks = _
      rw [readers_wait]
    | timeout n =>
      apply other (by intro d hd; cases hd) _ rfl
      show ((timeout s n).readers a).map Reader.chunks = _
      rw [readers_timeout]
    | lost e => exact other (by intro d hd; cases hd) (readers_lost s e a) rfl
    | error => exact other (by intro d hd; cases hd) rfl rfl

/-- **C260.** The reader of an address holds exactly the non-empty datagrams of that address, each as
one chunk, in the order in which they came, whatever came from other addresses between. -/
theorem C260_reader_holds_datagrams_of_its_address (a : Nat) (ops : List Op) (h : Heard a ops) :
    ((run start ops).readers a).map Reader.chunks = some (heardFrom a ops) := by
  rw [(readers_run a ops start).1 h]; rfl

/-- **C260.** There is a reader for the addresses heard from only. -/
theorem C260_reader_iff_heard (a : Nat) (ops : List Op) :
    (run start ops).readers a ≠ none ↔ Heard a ops := by
  constructor
  · intro h
    apply Classical.byContradiction
    intro hn
    have := ((readers_run a ops start).2 hn).1
    cases hr : (run start ops).readers a with
    | none => exact h hr
    | some r => rw [hr] at this; cases this
  · intro h hn
    have := C260_reader_holds_datagrams_of_its_address a ops h
    rw [hn] at this; cases this

example :
    let s := run start [.received [1] 5, .received [2] 6, .received [] 5, .received [3] 5]
    (s.readers 5).map Reader.chunks = some [[1], [3]] ∧ (s.readers 6).map Reader.chunks = some [[2]] ∧
      s.readers 7 = none := by decide

/-! ## C261 -/

/-- **C261, violated.** A wait for an address ends with the reader of any other address that is heard
from. -/
theorem C261_wait_ends_with_other_address_violated (s : S) (n a b : Nat) (d : List Nat)
    (h : (n, some a) ∈ s.waiters) :
    (n, Res.reader b) ∈ (step s (.received d b)).done := by
  show (n, Res.reader b) ∈ s.done ++ s.waiters.map (fun w => (w.1, answer w.2 b))
  rw [List.mem_append]
  refine Or.inr (List.mem_map.2 ⟨(n, some a), h, ?_⟩)
  simp [answer]

/-- **C261, violated.** For every two addresses: waiting for one, hearing from the other. -/
theorem C261_wrong_reader_violated (n a b : Nat) (d : List Nat) (hab : a ≠ b) :
    (run start [.wait n (some a), .received d b]).done = [(n, .reader b)] ∧
      ¬ Heard a [.wait n (some a), .received d b] := by
  constructor
  · simp [run, step, wait, received, start, answer]
  · intro h
    rw [heard_cons_iff] at h
    rcases h with ⟨_, h⟩ | h
    · cases h
    · rw [heard_cons_iff] at h
      rcases h with ⟨_, h⟩ | h
      · injection h with _ h2; exact hab h2.symm
      · exact heard_nil a h

/-- **C261, part.** If the address was heard from before, waiting for it gives its reader at
once. -/
theorem C261_known_address_at_once_partial (ops : List Op) (n a : Nat) (h : Heard a ops) :
    (run start (ops ++ [.wait n (some a)])).done = (run start ops).done ++ [(n, .reader a)] := by
  rw [run_append]
  have hr := (C260_reader_iff_heard a ops).2 h
  show (wait (run start ops) n (some a)).done = _
  unfold wait
  dsimp only
  rw [if_pos]
  cases hx : (run start ops).readers a with
  | none => exact absurd hx hr
  | some r => rfl

/-- What may be said of the answers and of the addresses known. -/
structure Said (P : Nat → Prop) (s : S) : Prop where
  pair : ∀ n a b, (n, Res.pair a b) ∈ s.done → a = b ∧ P a
  reader : ∀ n b, (n, Res.reader b) ∈ s.done → P b
  order : ∀ a ∈ s.order, P a
  known : ∀ a, (s.readers a).isSome = true → P a

theorem said_step (P : Nat → Prop) (s : S) (o : Op) (hp : ∀ d a, o = .received d a → P a)
    (h : Said P s) : Said P (step s o) := by
  have h0 := h
  obtain ⟨h1, h2, h3, h4⟩ := h
  cases o with
  | received d b =>
    have hb : P b := hp d b rfl
    show Said P (received s d b)
    unfold received
    constructor
    · intro n x y hm
      rw [List.mem_append, List.mem_map] at hm
      rcases hm with hm | ⟨⟨k, w⟩, _, he⟩
      · exact h1 n x y hm
      · cases w with
        | none =>
          simp only [answer, Prod.mk.injEq, Res.pair.injEq] at he
          obtain ⟨_, rfl, rfl⟩ := he
          exact ⟨rfl, hb⟩
        | some a => simp [answer] at he
    · intro n y hm
      rw [List.mem_append, List.mem_map] at hm
      rcases hm with hm | ⟨⟨k, w⟩, _, he⟩
      · exact h2 n y hm
      · cases w with
        | none => simp [answer] at he
        | some a =>
          simp only [answer, if_true, Prod.mk.injEq, Res.reader.injEq] at he
          rw [← he.2]; exact hb
    · intro a hm
      dsimp only at hm
      split at hm
      · exact h3 a hm
      · rw [List.mem_append, List.mem_singleton] at hm
        rcases hm with hm | hm
        · exact h3 a hm
        · rw [hm]; exact hb
    · intro a hm
      dsimp only at hm
      unfold put at hm
      by_cases hab : a = b
      · rw [hab]; exact hb
      · rw [if_neg hab] at hm; exact h4 a hm
  | wait n w =>
    show Said P (wait s n w)
    unfold wait
    split
    · split
      · rename_i a r ho
        have ha : P a := h3 a (by rw [ho]; exact List.mem_cons_self)
        refine ⟨?_, ?_, h3, h4⟩
        · intro k x y hm
          rw [List.mem_append, List.mem_singleton] at hm
          rcases hm with hm | hm
          · exact h1 k x y hm
          · injection hm with _ hm; injection hm with hx hy; rw [hx, hy]; exact ⟨rfl, ha⟩
        · intro k y hm
          rw [List.mem_append, List.mem_singleton] at hm
          rcases hm with hm | hm
          · exact h2 k y hm
          · injection hm with _ hm; cases hm
      · exact ⟨h1, h2, h3, h4⟩
    · rename_i a
      split
      · rename_i hs
        refine ⟨?_, ?_, h3, h4⟩
        · intro k x y hm
          rw [List.mem_append, List.mem_singleton] at hm
          rcases hm with hm | hm
          · exact h1 k x y hm
          · injection hm with _ hm; cases hm
        · intro k y hm
          rw [List.mem_append, List.mem_singleton] at hm
          rcases hm with hm | hm
          · exact h2 k y hm
          · injection hm with _ hm; injection hm with hy; rw [hy]; exact h4 a hs
      · exact ⟨h1, h2, h3, h4⟩
  | timeout n =>
    show Said P (timeout s n)
    unfold timeout
    split
    · exact h0
    · refine ⟨?_, ?_, h3, h4⟩
      · intro k x y hm
        rw [List.mem_append, List.mem_singleton] at hm
        rcases hm with hm | hm
        · exact h1 k x y hm
        · injection hm with _ hm; cases hm
      · intro k y hm
        rw [List.mem_append, List.mem_singleton] at hm
        rcases hm with hm | hm
        · exact h2 k y hm
        · injection hm with _ hm; cases hm
  | lost e =>
    refine ⟨h1, h2, h3, ?_⟩
    intro a hm
    apply h4
    show (s.readers a).isSome = true
    have : ((lost s e).readers a).isSome = true := hm
    unfold lost at this
    simpa using this
  | error => exact h0

theorem said_run (P : Nat → Prop) (ops : List Op) : ∀ s : S,
    (∀ d a, Op.received d a ∈ ops → P a) → Said P s → Said P (run s ops) := by
  induction ops with
  | nil => intro s _ h; exact h
  | cons o ops ih =>
    intro s hp h
    exact ih _ (fun d a hm => hp d a (List.mem_cons_of_mem _ hm))
      (said_step P s o (fun d a he => hp d a (by rw [he]; exact List.mem_cons_self)) h)

theorem heard_of_mem (d : List Nat) (a : Nat) (ops : List Op) (h : Op.received d a ∈ ops) :
    Heard a ops := by
  induction ops with
  | nil => cases h
  | cons o ops ih =>
    rcases List.mem_cons.1 h with h | h
    · rw [← h]; exact Heard.here d ops
    · exact Heard.there o ops (ih h)

theorem said_start (P : Nat → Prop) : Said P start :=
  ⟨(by intro n a b h; cases h), (by intro n b h; cases h), (by intro a h; cases h),
    (by intro a h; cases h)⟩

/-- **C261, part.** A wait only ends with an address really heard from and with the reader of that
address. -/
theorem C261_answers_were_heard_partial (ops : List Op) :
    (∀ n a b, (n, Res.pair a b) ∈ (run start ops).done → a = b ∧ Heard a ops) ∧
      ∀ n b, (n, Res.reader b) ∈ (run start ops).done → Heard b ops := by
  have h := said_run (fun a => Heard a ops) ops start (fun d a hm => heard_of_mem d a ops hm)
    (said_start _)
  exact ⟨h.pair, h.reader⟩

/-- **C261, part.** If datagrams come from one address only (a connected socket), every wait gives
the reader of that address. -/
theorem C261_one_peer_partial (a : Nat) (ops : List Op)
    (h : ∀ d b, Op.received d b ∈ ops → b = a) :
    ∀ n b, (n, Res.reader b) ∈ (run start ops).done → b = a :=
  (said_run (fun b => b = a) ops start (fun d b hm => h d b hm) (said_start _)).reader

example :
    (run start [.wait 1 (some 5), .wait 2 none, .received [7] 6, .wait 3 (some 6)]).done =
      [(1, .reader 6), (2, .pair 6 6), (3, .reader 6)] := by decide

/-! ## C262 -/

/-- Neither a datagram nor the timeout of the wait. -/
inductive Still (n : Nat) : Op → Prop
  | wait m w : Still n (.wait m w)
  | timeout m : m ≠ n → Still n (.timeout m)
  | lost e : Still n (.lost e)
  | error : Still n .error

theorem still_step (n : Nat) (w : Option Nat) (s : S) (o : Op) (ho : Still n o)
    (h : (n, w) ∈ s.waiters) : (n, w) ∈ (step s o).waiters := by
  cases ho with
  | wait m v =>
    show (n, w) ∈ (wait s m v).waiters
    unfold wait
    split
    · split
      · exact h
      · exact List.mem_append_left _ h
    · split
      · exact h
      · exact List.mem_append_left _ h
  | timeout m hm =>
    show (n, w) ∈ (timeout s m).waiters
    unfold timeout
    split
    · exact h
    · dsimp only
      rw [List.mem_filter]
      exact ⟨h, by simpa using fun hx => hm hx.symm⟩
  | lost e => exact h
  | error => exact h

theorem still_run (n : Nat) (w : Option Nat) (ops : List Op) : ∀ s : S, (∀ o ∈ ops, Still n o) →
    (n, w) ∈ s.waiters → (n, w) ∈ (run s ops).waiters := by
  induction ops with
  | nil => intro s _ h; exact h
  | cons o ops ih =>
    intro s hp h
    exact ih _ (fun x hx => hp x (List.mem_cons_of_mem _ hx))
      (still_step n w s o (hp o List.mem_cons_self) h)

/-- **C262, violated.** The connection is lost, for any reason: a wait without a timeout goes on for
ever, whatever else happens to the protocol but a datagram, which can not come any more. -/
theorem C262_wait_outlives_connection_violated (s : S) (n : Nat) (w e : Option Nat) (ops : List Op)
    (h : (n, w) ∈ s.waiters) (hops : ∀ o ∈ ops, Still n o) :
    (n, w) ∈ (run s (.lost e :: ops)).waiters :=
  still_run n w ops _ hops (still_step n w s (.lost e) (Still.lost e) h)

/-- **C262, violated.** A wait begun after the connection was lost begins to wait as well. -/
theorem C262_wait_begun_after_lost_violated (n a : Nat) (e : Option Nat) (ops : List Op)
    (hops : ∀ o ∈ ops, Still n o) :
    (n, some a) ∈ (run start (.lost e :: .wait n (some a) :: ops)).waiters :=
  still_run n (some a) ops _ hops (by exact List.mem_append_right [] List.mem_cons_self)

/-- **C262, part.** The next datagram ends every wait. -/
theorem C262_datagram_ends_every_wait_partial (s : S) (d : List Nat) (b : Nat) :
    (step s (.received d b)).waiters = [] ∧
      ∀ n w, (n, w) ∈ s.waiters → ∃ r, (n, r) ∈ (step s (.received d b)).done := by
  refine ⟨rfl, ?_⟩
  intro n w h
  exact ⟨answer w b, List.mem_append_right _ (List.mem_map.2 ⟨(n, w), h, rfl⟩)⟩

/-- **C262, part.** A timeout ends the wait with `None`. -/
theorem C262_timeout_ends_wait_partial (s : S) (n : Nat) (w : Option Nat) (h : (n, w) ∈ s.waiters) :
    (step s (.timeout n)).done = s.done ++ [(n, .timedOut)] ∧
      ∀ v, (n, v) ∉ (step s (.timeout n)).waiters := by
  show (timeout s n).done = _ ∧ ∀ v, (n, v) ∉ (timeout s n).waiters
  unfold timeout
  split
  · rename_i hf
    have := List.find?_eq_none.1 hf (n, w) h
    simp at this
  · refine ⟨rfl, ?_⟩
    intro v hv
    dsimp only at hv
    rw [List.mem_filter] at hv
    simp at hv

/-- **C262, part.** The readers made before are told the end. -/
theorem C262_readers_are_told_partial (s : S) (e : Option Nat) (a : Nat) (r : Reader)
    (h : s.readers a = some r) : ((step s (.lost e)).readers a).map Reader.ended = some (some e) := by
  show ((lost s e).readers a).map Reader.ended = some (some e)
  unfold lost
  simp [h]

example :
    let s := run start [.received [1] 4, .wait 1 (some 5), .wait 2 (some 6), .timeout 2, .lost (some 9)]
    s.waiters = [(1, some 5)] ∧ s.done = [(2, .timedOut)] ∧
      s.readers 4 = some ⟨[[1]], some (some 9)⟩ := by decide

end Verif.Datagram.Addressed
