import Verif.LoopIO.Calls

/-!
# Calls on sockets

C215: received bytes arrive once and in order. C216: a call which waits is completed when there are bytes. C217: sending
sends everything. C218: asynchronous generators are closed.
-/
namespace Verif.LoopIO

/-! ### C215 -/

/-- The bytes which arrived. -/
def arrived : List ROp → List Nat
  | [] => []
  | .arrive b :: l => b ++ arrived l
  | _ :: l => arrived l

/-- What the calls asked for. -/
def asked : List ROp → List Nat
  | [] => []
  | .receive n :: l => n :: asked l
  | _ :: l => asked l

structure Fair (s : R) : Prop where
  once : (s.got.map Prod.fst).Nodup
  got : ∀ i b, (i, b) ∈ s.got → ∃ n, s.calls[i]? = some ⟨n, .done⟩ ∧ b.length ≤ n ∧ (n ≠ 0 → b ≠ [])
  done : ∀ i n, s.calls[i]? = some ⟨n, .done⟩ → ∃ b, (i, b) ∈ s.got

theorem Fair.fresh {s : R} (h : Fair s) {i : Nat} (hi : ∀ n, s.calls[i]? ≠ some ⟨n, .done⟩) :
    i ∉ s.got.map Prod.fst := by
  intro hm
  obtain ⟨⟨j, b⟩, hb, rfl⟩ := List.mem_map.1 hm
  obtain ⟨n, hn, -⟩ := h.got j b hb
  exact hi n hn

theorem take_ne_nil {l : List Nat} {n : Nat} (hl : l ≠ []) (hn : n ≠ 0) : l.take n ≠ [] := by
  intro h
  rcases List.take_eq_nil_iff.1 h with h | h
  · exact hn h
  · exact hl h

theorem get_set {α : Type} (l : List α) (i j : Nat) (x : α) (hi : i < l.length) :
    (l.set i x)[j]? = if j = i then some x else l[j]? := by
  rw [List.getElem?_set]
  by_cases h : i = j
  · subst h; simp [hi]
  · rw [if_neg h, if_neg (fun e => h e.symm)]

theorem get_append {α : Type} (l : List α) (x : α) (j : Nat) :
    (l ++ [x])[j]? = if j = l.length then some x else l[j]? := by
  by_cases h : j < l.length
  · rw [List.getElem?_append_left h, if_neg (by omega)]
  · rw [List.getElem?_append_right (by omega)]
    by_cases h' : j = l.length
    · simp [h']
    · rw [if_neg h', List.getElem?_eq_none (by simp; omega), List.getElem?_eq_none (by omega)]

theorem lt_of_get {α : Type} {l : List α} {i : Nat} {x : α} (h : l[i]? = some x) : i < l.length :=
  (List.getElem?_eq_some_iff.1 h).1

/-- Appending a call which is done. -/
theorem Fair.append {s : R} (h : Fair s) {n : Nat} {b : List Nat} (hb : b.length ≤ n) (hb' : n ≠ 0 → b ≠ [])
    {s' : R} (h1 : s'.calls = s.calls ++ [⟨n, .done⟩]) (h2 : s'.got = s.got ++ [(s.calls.length, b)]) : Fair s' := by
  have hf : s.calls.length ∉ s.got.map Prod.fst :=
    h.fresh (fun n hn => absurd (lt_of_get hn) (Nat.lt_irrefl _))
  constructor
  · rw [h2, List.map_append, List.nodup_append]
    refine ⟨h.once, by simp, ?_⟩
    intro a ha x hx
    simp only [List.map_cons, List.map_nil, List.mem_singleton] at hx
    exact fun e => hf (hx ▸ e ▸ ha)
  · intro i c hc
    rw [h2] at hc
    rcases List.mem_append.1 hc with hc | hc
    · obtain ⟨m, hm, r⟩ := h.got i c hc
      have := lt_of_get hm
      exact ⟨m, by rw [h1, get_append, if_neg (by omega)]; exact hm, r⟩
    · simp only [List.mem_singleton, Prod.mk.injEq] at hc
      obtain ⟨rfl, rfl⟩ := hc
      exact ⟨n, by rw [h1, get_append, if_pos rfl], hb, hb'⟩
  · intro i m hm
    rw [h1, get_append] at hm
    rw [h2]
    by_cases hi : i = s.calls.length
    · exact ⟨b, by simp [hi]⟩
    · rw [if_neg hi] at hm
      obtain ⟨c, hc⟩ := h.done i m hm
      exact ⟨c, by simp [hc]⟩

/-- Completing a call which is pending. -/
theorem Fair.complete {s : R} (h : Fair s) {i n : Nat} {b : List Nat} (hi : s.calls[i]? = some ⟨n, .pending⟩)
    (hb : b.length ≤ n) (hb' : n ≠ 0 → b ≠ [])
    {s' : R} (h1 : s'.calls = s.calls.set i ⟨n, .done⟩) (h2 : s'.got = s.got ++ [(i, b)]) : Fair s' := by
  have hlt := lt_of_get hi
  have hf : i ∉ s.got.map Prod.fst := h.fresh (fun m hm => by rw [hi] at hm; cases hm)
  constructor
  · rw [h2, List.map_append, List.nodup_append]
    refine ⟨h.once, by simp, ?_⟩
    intro a ha x hx
    simp only [List.map_cons, List.map_nil, List.mem_singleton] at hx
    exact fun e => hf (hx ▸ e ▸ ha)
  · intro j c hc
    rw [h2] at hc
    rcases List.mem_append.1 hc with hc | hc
    · obtain ⟨m, hm, r⟩ := h.got j c hc
      have : j ≠ i := fun e => by subst e; rw [hi] at hm; cases hm
      exact ⟨m, by rw [h1, get_set _ _ _ _ hlt, if_neg this]; exact hm, r⟩
    · simp only [List.mem_singleton, Prod.mk.injEq] at hc
      obtain ⟨rfl, rfl⟩ := hc
      exact ⟨n, by rw [h1, get_set _ _ _ _ hlt, if_pos rfl], hb, hb'⟩
  · intro j m hm
    rw [h1, get_set _ _ _ _ hlt] at hm
    rw [h2]
    by_cases hj : j = i
    · exact ⟨b, by simp [hj]⟩
    · rw [if_neg hj] at hm
      obtain ⟨c, hc⟩ := h.done j m hm
      exact ⟨c, by simp [hc]⟩

/-- Changing or adding a call which is not done. -/
theorem Fair.other {s s' : R} (h : Fair s) (h1 : ∀ (i n : Nat), s'.calls[i]? = some (Recv.mk n .done) ↔ s.calls[i]? = some (Recv.mk n .done))
    (h2 : s'.got = s.got) : Fair s' := by
  constructor
  · rw [h2]; exact h.once
  · intro i b hb
    rw [h2] at hb
    obtain ⟨n, hn, r⟩ := h.got i b hb
    exact ⟨n, (h1 i n).2 hn, r⟩
  · intro i n hn
    rw [h2]; exact h.done i n ((h1 i n).1 hn)

/-- What running the registered callback does. -/
theorem readable_cases (s : R) : s.readable = s ∨ ∃ i n, s.slot = some i ∧ s.calls[i]? = some ⟨n, .pending⟩ ∧ s.buf ≠ [] ∧
    s.readable = { s with buf := s.buf.drop n, calls := s.calls.set i ⟨n, .done⟩, slot := none, todo := s.todo ++ [i],
                          got := s.got ++ [(i, s.buf.take n)] } := by
  rcases hs : s.slot with _ | i
  · exact .inl (by simp only [R.readable, hs])
  · rcases hc : s.calls[i]? with _ | ⟨n, st⟩
    · exact .inl (by simp only [R.readable, hs, hc])
    · have e : s.readable = s.callback i ⟨n, st⟩ := by simp only [R.readable, hs, hc]
      by_cases hst : st = .pending
      · by_cases hb : s.buf = []
        · exact .inl (by rw [e, R.callback, if_pos hst, if_pos hb])
        · refine .inr ⟨i, n, rfl, by rw [hc, hst], hb, ?_⟩
          rw [e, R.callback, if_pos hst, if_neg hb]
      · exact .inl (by rw [e, R.callback, if_neg hst])

theorem cancel_cases (s : R) (i : Nat) : s.cancel i = s ∨ ∃ n, s.calls[i]? = some ⟨n, .pending⟩ ∧
    s.cancel i = { s with calls := s.calls.set i ⟨n, .cancelled⟩, todo := s.todo ++ [i] } := by
  rcases hc : s.calls[i]? with _ | ⟨n, st⟩
  · exact .inl (by simp only [R.cancel, hc])
  · by_cases hst : st = .pending
    · exact .inr ⟨n, by rw [hst], by simp only [R.cancel, hc, hst, if_true]⟩
    · exact .inl (by simp only [R.cancel, hc, hst, if_false])

theorem doneCallback_fields (s : R) : s.doneCallback.buf = s.buf ∧ s.doneCallback.calls = s.calls ∧
    s.doneCallback.got = s.got := by
  simp only [R.doneCallback]
  split
  · exact ⟨rfl, rfl, rfl⟩
  · split <;> exact ⟨rfl, rfl, rfl⟩

theorem Fair.step {s : R} (h : Fair s) (o : ROp) : Fair (rstep s o) := by
  cases o with
  | arrive b => exact ⟨h.once, h.got, h.done⟩
  | receive n =>
    simp only [rstep, R.receive]
    by_cases hb : s.buf = []
    · rw [if_pos hb]
      refine h.other (fun i m => ?_) rfl
      show (s.calls ++ [_])[i]? = _ ↔ _
      rw [get_append]
      by_cases hi : i = s.calls.length
      · rw [if_pos hi, List.getElem?_eq_none (by omega)]; simp
      · rw [if_neg hi]
    · rw [if_neg hb]
      exact h.append (b := s.buf.take n) (List.length_take_le _ _) (fun hn => take_ne_nil hb hn) rfl rfl
  | readable =>
    show Fair s.readable
    rcases readable_cases s with e | ⟨i, n, -, hc, hb, e⟩
    · rw [e]; exact h
    · rw [e]
      exact h.complete hc (b := s.buf.take n) (List.length_take_le _ _) (fun hn => take_ne_nil hb hn) rfl rfl
  | cancel i =>
    show Fair (s.cancel i)
    rcases cancel_cases s i with e | ⟨n, hc, e⟩
    · rw [e]; exact h
    · rw [e]
      refine h.other (fun j m => ?_) rfl
      show (s.calls.set i _)[j]? = _ ↔ _
      rw [get_set _ _ _ _ (lt_of_get hc)]
      by_cases hj : j = i
      · rw [if_pos hj, hj, hc]; simp
      · rw [if_neg hj]
  | callback =>
    obtain ⟨-, h2, h3⟩ := doneCallback_fields s
    exact h.other (fun i m => by show s.doneCallback.calls[i]? = _ ↔ _; rw [h2]) h3

theorem Fair.run (l : List ROp) : ∀ s, Fair s → Fair (rrun s l) := by
  induction l with
  | nil => exact fun _ h => h
  | cons o l ih => exact fun _ h => ih _ (h.step o)

theorem Fair.new : Fair R.new := ⟨List.nodup_nil, fun _ _ h => (by cases h), fun _ _ h => (by cases h)⟩

/-- C215. However calls, cancellations and arriving bytes interleave: what the calls returned, in the order in which they
were completed, and then what still waits, is what arrived. Cancelled calls lose nothing. -/
theorem C215_bytes (l : List ROp) :
    ((rrun R.new l).got.map Prod.snd).flatten ++ (rrun R.new l).buf = arrived l := by
  suffices h : ∀ (l : List ROp) (s : R), ((rrun s l).got.map Prod.snd).flatten ++ (rrun s l).buf =
      (s.got.map Prod.snd).flatten ++ s.buf ++ arrived l by
    have := h l R.new
    simpa [R.new] using this
  intro l
  induction l with
  | nil => intro s; simp [rrun, arrived]
  | cons o l ih =>
    intro s
    show ((rrun (rstep s o) l).got.map Prod.snd).flatten ++ (rrun (rstep s o) l).buf = _
    rw [ih]
    cases o with
    | arrive b => simp [rstep, arrived, List.append_assoc]
    | receive n =>
      simp only [rstep, R.receive, arrived]
      by_cases hb : s.buf = []
      · rw [if_pos hb]
      · rw [if_neg hb]; simp [List.append_assoc]
    | readable =>
      show ((s.readable).got.map Prod.snd).flatten ++ (s.readable).buf ++ arrived l = _
      rcases readable_cases s with e | ⟨i, n, -, hc, hb, e⟩
      · rw [e]; rfl
      · rw [e]; simp [arrived, List.append_assoc]
    | cancel i =>
      show ((s.cancel i).got.map Prod.snd).flatten ++ (s.cancel i).buf ++ arrived l = _
      rcases cancel_cases s i with e | ⟨n, -, e⟩
      · rw [e]; rfl
      · rw [e]; rfl
    | callback =>
      obtain ⟨h1, -, h3⟩ := doneCallback_fields s
      show ((s.doneCallback).got.map Prod.snd).flatten ++ (s.doneCallback).buf ++ arrived l = _
      rw [h1, h3]; rfl

/-- C215. Every call returns at most once, at most as many bytes as it asked for, and at least one if it asked for any. -/
theorem C215_calls (l : List ROp) :
    ((rrun R.new l).got.map Prod.fst).Nodup ∧
      ∀ i b, (i, b) ∈ (rrun R.new l).got → ∃ n, (asked l)[i]? = some n ∧ b.length ≤ n ∧ (n ≠ 0 → b ≠ []) := by
  have hf := Fair.new.run l
  have hs : ∀ (l : List ROp) (s : R), (rrun s l).calls.map Recv.size = s.calls.map Recv.size ++ asked l := by
    intro l
    induction l with
    | nil => intro s; simp [rrun, asked]
    | cons o l ih =>
      intro s
      show (rrun (rstep s o) l).calls.map Recv.size = _
      rw [ih]
      have set_same : ∀ i n st st', s.calls[i]? = some ⟨n, st⟩ →
          (s.calls.set i ⟨n, st'⟩).map Recv.size = s.calls.map Recv.size := by
        intro i n st st' h
        apply List.ext_getElem?
        intro j
        rw [List.getElem?_map, List.getElem?_map, get_set _ _ _ _ (lt_of_get h)]
        by_cases hj : j = i
        · rw [if_pos hj, hj, h]; rfl
        · rw [if_neg hj]
      cases o with
      | arrive b => rfl
      | receive n =>
        simp only [rstep, R.receive, asked]
        by_cases hb : s.buf = []
        · rw [if_pos hb]; simp
        · rw [if_neg hb]; simp
      | readable =>
        show (s.readable).calls.map Recv.size ++ asked l = _
        rcases readable_cases s with e | ⟨i, n, -, hc, hb, e⟩
        · rw [e]; rfl
        · rw [e]
          show (s.calls.set i _).map Recv.size ++ asked l = _
          rw [set_same i n _ _ hc]; rfl
      | cancel i =>
        show (s.cancel i).calls.map Recv.size ++ asked l = _
        rcases cancel_cases s i with e | ⟨n, hc, e⟩
        · rw [e]; rfl
        · rw [e]
          show (s.calls.set i _).map Recv.size ++ asked l = _
          rw [set_same i n _ _ hc]; rfl
      | callback =>
        show (s.doneCallback).calls.map Recv.size ++ asked l = _
        rw [(doneCallback_fields s).2.1]; rfl
  refine ⟨hf.once, fun i b hb => ?_⟩
  obtain ⟨n, hn, r⟩ := hf.got i b hb
  refine ⟨n, ?_, r⟩
  have := hs l R.new
  simp only [R.new, List.map_nil, List.nil_append] at this
  rw [← this, List.getElem?_map, show rrun ⟨[], [], none, [], []⟩ l = rrun R.new l from rfl, hn]; rfl

/-- C215. A call whose future has a result returned bytes; a cancelled one did not. -/
theorem C215_done (l : List ROp) (i n : Nat) (st : Status) (hc : (rrun R.new l).calls[i]? = some ⟨n, st⟩) :
    st = .done ↔ ∃ b, (i, b) ∈ (rrun R.new l).got := by
  have hf := Fair.new.run l
  constructor
  · rintro rfl; exact hf.done i n hc
  · rintro ⟨b, hb⟩
    obtain ⟨m, hm, -⟩ := hf.got i b hb
    rw [hc] at hm
    cases hm; rfl

/-- The first call is cancelled while its bytes are reported; the second gets them. -/
example : (rrun R.new [.receive 4, .arrive [1, 2, 3], .cancel 0, .readable, .callback, .receive 2, .receive 9]).got =
    [(1, [1, 2]), (2, [3])] := by decide

/-! ### C216 -/

/-- C216 is violated: a call which is followed by another one on the same socket is never completed, whatever happens;
unless somebody cancels it, it waits for ever. -/
theorem C216_two_calls_violated (n m : Nat) (l : List ROp) :
    (∀ b, (0, b) ∉ (rrun R.new (.receive n :: .receive m :: l)).got) ∧
      ((∀ o ∈ l, o ≠ .cancel 0) →
        (rrun R.new (.receive n :: .receive m :: l)).calls[0]? = some ⟨n, .pending⟩) := by
  have e : rrun R.new (.receive n :: .receive m :: l) = rrun ⟨[], [⟨n, .pending⟩, ⟨m, .pending⟩], some 1, [], []⟩ l := rfl
  rw [e]
  have key : ∀ (l : List ROp) (s : R), Fair s → s.slot ≠ some 0 → (s.calls[0]? = some ⟨n, .pending⟩ ∨
      s.calls[0]? = some ⟨n, .cancelled⟩) →
      ((rrun s l).calls[0]? = some ⟨n, .pending⟩ ∨ (rrun s l).calls[0]? = some ⟨n, .cancelled⟩) ∧
      ((∀ o ∈ l, o ≠ .cancel 0) → s.calls[0]? = some ⟨n, .pending⟩ → (rrun s l).calls[0]? = some ⟨n, .pending⟩) := by
    intro l
    induction l with
    | nil => exact fun s _ _ h => ⟨h, fun _ h => h⟩
    | cons o l ih =>
      intro s hf hs hc
      have lt : 0 < s.calls.length := by rcases hc with hc | hc <;> exact lt_of_get hc
      have one : (rstep s o).slot ≠ some 0 ∧ ((rstep s o).calls[0]? = s.calls[0]? ∨ (o = .cancel 0 ∧
          (rstep s o).calls[0]? = some ⟨n, .cancelled⟩)) := by
        cases o with
        | arrive b => exact ⟨hs, .inl rfl⟩
        | receive k =>
          simp only [rstep, R.receive]
          by_cases hb : s.buf = []
          · rw [if_pos hb]
            refine ⟨fun h => ?_, .inl (by show (s.calls ++ _)[0]? = _; rw [get_append, if_neg (by omega)])⟩
            simp only [Option.some.injEq] at h; omega
          · rw [if_neg hb]
            exact ⟨hs, .inl (by show (s.calls ++ _)[0]? = _; rw [get_append, if_neg (by omega)])⟩
        | readable =>
          show s.readable.slot ≠ _ ∧ (s.readable.calls[0]? = _ ∨ _ ∧ s.readable.calls[0]? = _)
          rcases readable_cases s with e | ⟨i, k, h1, hi, hb, e⟩
          · rw [e]; exact ⟨hs, .inl rfl⟩
          · rw [e]
            refine ⟨by simp, .inl ?_⟩
            show (s.calls.set i _)[0]? = _
            rw [get_set _ _ _ _ (lt_of_get hi), if_neg]
            intro h0; exact hs (h0 ▸ h1)
        | cancel i =>
          show (s.cancel i).slot ≠ _ ∧ ((s.cancel i).calls[0]? = _ ∨ _ ∧ (s.cancel i).calls[0]? = _)
          rcases cancel_cases s i with e | ⟨k, hi, e⟩
          · rw [e]; exact ⟨hs, .inl rfl⟩
          · rw [e]
            refine ⟨hs, ?_⟩
            show (s.calls.set i _)[0]? = _ ∨ _ ∧ (s.calls.set i _)[0]? = _
            rw [get_set _ _ _ _ (lt_of_get hi)]
            by_cases h0 : 0 = i
            · subst h0
              rw [hi] at hc
              have : k = n := by
                rcases hc with hc | hc <;> cases hc; rfl
              exact .inr ⟨rfl, by rw [if_pos rfl, this]⟩
            · exact .inl (if_neg h0)
        | callback =>
          refine ⟨?_, .inl (by show s.doneCallback.calls[0]? = _; rw [(doneCallback_fields s).2.1])⟩
          show s.doneCallback.slot ≠ some 0
          simp only [R.doneCallback]
          split
          · exact hs
          · split
            · simp
            · exact hs
      have next := ih (rstep s o) (hf.step o) one.1 (by
        rcases one.2 with h | ⟨-, h⟩
        · rw [h]; exact hc
        · exact .inr h)
      refine ⟨next.1, fun hl h0 => next.2 (fun x hx => hl x (List.mem_cons_of_mem _ hx)) ?_⟩
      rcases one.2 with h | ⟨h, -⟩
      · rw [h]; exact h0
      · exact absurd h (hl o List.mem_cons_self)
  have hf : Fair ⟨[], [⟨n, .pending⟩, ⟨m, .pending⟩], some 1, [], []⟩ := Fair.new.run [.receive n, .receive m]
  have hk := key l _ hf (by simp) (.inl rfl)
  refine ⟨fun b hb => ?_, fun hl => hk.2 hl rfl⟩
  obtain ⟨k, h, -⟩ := (hf.run l).got 0 b hb
  rcases hk.1 with h' | h' <;> rw [h] at h' <;> cases h'

/-- There are bytes, and the second call got some. -/
example : (rrun R.new [.receive 1, .receive 1, .arrive [7, 8, 9], .readable, .callback, .readable]).got = [(1, [7])] ∧
    (rrun R.new [.receive 1, .receive 1, .arrive [7, 8, 9], .readable, .callback, .readable]).buf = [8, 9] := by decide

/-- No call begins while another one waits. -/
def alone (s : R) : List ROp → Prop
  | [] => True
  | .receive n :: l => (∀ c ∈ s.calls, c.status ≠ .pending) ∧ alone (s.receive n) l
  | o :: l => alone (rstep s o) l

structure Held (s : R) : Prop where
  slot : ∀ i n, s.calls[i]? = some ⟨n, .pending⟩ → s.slot = some i
  todo : ∀ i ∈ s.todo, ∃ c : Recv, s.calls[i]? = some c ∧ c.status ≠ .pending

theorem Held.step {s : R} (h : Held s) (o : ROp) (ho : ∀ n, o = .receive n → ∀ c ∈ s.calls, c.status ≠ .pending) :
    Held (rstep s o) := by
  have keep : ∀ {c : Recv} {i : Nat}, s.calls[i]? = some c → ∀ (x : Recv), (s.calls ++ [x])[i]? = some c := by
    intro c i hi x
    have := lt_of_get hi
    rw [get_append, if_neg (by omega)]; exact hi
  cases o with
  | arrive b => exact ⟨h.slot, h.todo⟩
  | receive k =>
    simp only [rstep, R.receive]
    by_cases hb : s.buf = []
    · rw [if_pos hb]
      constructor
      · intro i n hi
        rw [show (_ : R).calls = s.calls ++ [⟨k, .pending⟩] from rfl, get_append] at hi
        by_cases hl : i = s.calls.length
        · rw [hl]
        · rw [if_neg hl] at hi
          exact absurd rfl (ho k rfl _ (List.mem_of_getElem? hi))
      · intro i hi
        obtain ⟨c, hc, hp⟩ := h.todo i hi
        exact ⟨c, keep hc _, hp⟩
    · rw [if_neg hb]
      constructor
      · intro i n hi
        rw [show (_ : R).calls = s.calls ++ [⟨k, .done⟩] from rfl, get_append] at hi
        by_cases hl : i = s.calls.length
        · rw [if_pos hl] at hi; cases hi
        · rw [if_neg hl] at hi
          exact h.slot i n hi
      · intro i hi
        obtain ⟨c, hc, hp⟩ := h.todo i hi
        exact ⟨c, keep hc _, hp⟩
  | readable =>
    show Held s.readable
    rcases readable_cases s with e | ⟨i, k, h1, hi, hb, e⟩
    · rw [e]; exact h
    · rw [e]
      have hlt := lt_of_get hi
      constructor
      · intro j n hj
        rw [show (_ : R).calls = s.calls.set i ⟨k, .done⟩ from rfl, get_set _ _ _ _ hlt] at hj
        by_cases hji : j = i
        · rw [if_pos hji] at hj; cases hj
        · rw [if_neg hji] at hj
          have := h.slot j n hj
          rw [h1] at this
          exact absurd (Option.some.inj this).symm hji
      · intro j hj
        show ∃ c : Recv, (s.calls.set i ⟨k, .done⟩)[j]? = some c ∧ _
        rw [get_set _ _ _ _ hlt]
        by_cases hji : j = i
        · exact ⟨⟨k, .done⟩, if_pos hji, by simp⟩
        · rw [if_neg hji]
          rcases List.mem_append.1 hj with hj | hj
          · exact h.todo j hj
          · exact absurd (List.mem_singleton.1 hj) hji
  | cancel i =>
    show Held (s.cancel i)
    rcases cancel_cases s i with e | ⟨k, hi, e⟩
    · rw [e]; exact h
    · rw [e]
      have hlt := lt_of_get hi
      constructor
      · intro j n hj
        rw [show (_ : R).calls = s.calls.set i ⟨k, .cancelled⟩ from rfl, get_set _ _ _ _ hlt] at hj
        by_cases hji : j = i
        · rw [if_pos hji] at hj; cases hj
        · rw [if_neg hji] at hj
          exact h.slot j n hj
      · intro j hj
        show ∃ c : Recv, (s.calls.set i ⟨k, .cancelled⟩)[j]? = some c ∧ _
        rw [get_set _ _ _ _ hlt]
        by_cases hji : j = i
        · exact ⟨⟨k, .cancelled⟩, if_pos hji, by simp⟩
        · rw [if_neg hji]
          rcases List.mem_append.1 hj with hj | hj
          · exact h.todo j hj
          · exact absurd (List.mem_singleton.1 hj) hji
  | callback =>
    show Held s.doneCallback
    simp only [R.doneCallback]
    split
    · exact h
    · rename_i i l htodo
      obtain ⟨c, hc, hp⟩ := h.todo i (by rw [htodo]; exact List.mem_cons_self)
      have ht : ∀ j ∈ l, ∃ c : Recv, s.calls[j]? = some c ∧ c.status ≠ .pending :=
        fun j hj => h.todo j (by rw [htodo]; exact List.mem_cons_of_mem _ hj)
      split
      · rename_i hs
        refine ⟨fun j n hj => ?_, ht⟩
        have h2 := h.slot j n hj
        rw [hs] at h2
        cases h2
        rw [show (_ : R).calls[i]? = s.calls[i]? from rfl, hc] at hj
        cases hj
        exact absurd rfl hp
      · exact ⟨h.slot, ht⟩

theorem Held.run (l : List ROp) : ∀ s, Held s → alone s l → Held (rrun s l) := by
  induction l with
  | nil => exact fun _ h _ => h
  | cons o l ih =>
    intro s h ha
    have : (∀ n, o = .receive n → ∀ c ∈ s.calls, c.status ≠ .pending) ∧ alone (rstep s o) l := by
      cases o with
      | receive n => exact ⟨fun _ _ => ha.1, ha.2⟩
      | arrive b => exact ⟨fun _ e => (by cases e), ha⟩
      | readable => exact ⟨fun _ e => (by cases e), ha⟩
      | cancel i => exact ⟨fun _ e => (by cases e), ha⟩
      | callback => exact ⟨fun _ e => (by cases e), ha⟩
    exact ih _ (h.step o this.1) this.2

/-- C216, for calls which follow one another: a call which waits is the one whose callback is registered, and if there are
bytes then running the callback completes it with them. -/
theorem C216_one_call_partial (l : List ROp) (ha : alone R.new l) (i n : Nat)
    (hc : (rrun R.new l).calls[i]? = some ⟨n, .pending⟩) :
    (rrun R.new l).slot = some i ∧ ((rrun R.new l).buf ≠ [] →
      (rrun R.new (l ++ [.readable])).calls[i]? = some ⟨n, .done⟩ ∧
        (i, (rrun R.new l).buf.take n) ∈ (rrun R.new (l ++ [.readable])).got) := by
  have h := Held.run l R.new ⟨fun i n h => (by cases h), fun i h => (by cases h)⟩ ha
  have hs := h.slot i n hc
  refine ⟨hs, fun hb => ?_⟩
  have e : rrun R.new (l ++ [.readable]) = (rrun R.new l).readable := by simp [rrun, List.foldl_append, rstep]
  rw [e]
  rcases readable_cases (rrun R.new l) with e2 | ⟨j, m, h1, h2, -, e2⟩
  · have : (rrun R.new l).readable = (rrun R.new l).callback i ⟨n, .pending⟩ := by simp only [R.readable, hs, hc]
    rw [R.callback, if_pos rfl, if_neg hb] at this
    rw [this]
    refine ⟨?_, by simp⟩
    show ((rrun R.new l).calls.set i _)[i]? = _
    rw [get_set _ _ _ _ (lt_of_get hc), if_pos rfl]
  · rw [hs] at h1
    cases h1
    rw [hc] at h2
    cases h2
    rw [e2]
    refine ⟨?_, by simp⟩
    show ((rrun R.new l).calls.set i _)[i]? = _
    rw [get_set _ _ _ _ (lt_of_get hc), if_pos rfl]

/-- A cancelled call, whose done callback comes after the next call. -/
example : alone R.new [.receive 4, .cancel 0, .receive 2, .callback, .arrive [5, 6, 7]] := by
  simp [alone, rstep, R.receive, R.new, R.cancel]

/-! ### C217 -/

/-- The items of the view are bytes; and no call begins while another one waits. -/
def tidy (s : W) : List WOp → Prop
  | [] => True
  | .send x r :: l => (∀ c ∈ s.calls, c.status ≠ .pending) ∧ (∀ b ∈ x, b.length = 1) ∧ tidy (s.send x r) l
  | o :: l => tidy (wstep s o) l

theorem writable_cases (s : W) (r : Option Nat) : s.writable r = s ∨ ∃ i x k, s.slot = some i ∧
    s.calls[i]? = some ⟨x, k, .pending⟩ ∧ s.writable r = s.callback i ⟨x, k, .pending⟩ r ∧ r ≠ none := by
  rcases hs : s.slot with _ | i
  · exact .inl (by simp only [W.writable, hs])
  · rcases hc : s.calls[i]? with _ | ⟨x, k, st⟩
    · exact .inl (by simp only [W.writable, hs, hc])
    · have e : s.writable r = s.callback i ⟨x, k, st⟩ r := by simp only [W.writable, hs, hc]
      by_cases hst : st = .pending
      · subst hst
        by_cases hr : r = none
        · exact .inl (by rw [e, W.callback, if_pos rfl, if_pos hr])
        · exact .inr ⟨i, x, k, rfl, hc, e, hr⟩
      · exact .inl (by rw [e, W.callback, if_neg hst])

theorem wcancel_cases (s : W) (i : Nat) : s.cancel i = s ∨ ∃ x k, s.calls[i]? = some ⟨x, k, .pending⟩ ∧
    s.cancel i = { s with calls := s.calls.set i ⟨x, k, .cancelled⟩, todo := s.todo ++ [i] } := by
  rcases hc : s.calls[i]? with _ | ⟨x, k, st⟩
  · exact .inl (by simp only [W.cancel, hc])
  · by_cases hst : st = .pending
    · exact .inr ⟨x, k, by rw [hst], by simp only [W.cancel, hc, hst, if_true]⟩
    · exact .inl (by simp only [W.cancel, hc, hst, if_false])

/-- What a call sent. -/
def Send.part (c : Send) : List Nat := c.items.flatten.take c.start

structure Whole (s : W) : Prop where
  sent : s.sent = (s.calls.map Send.part).flatten
  bytes : ∀ c ∈ s.calls, ∀ b ∈ c.items, b.length = 1
  le : ∀ c ∈ s.calls, c.start ≤ c.items.length
  done : ∀ c ∈ s.calls, c.status = .done → c.start = c.items.length
  slot : ∀ i c, s.calls[i]? = some c → c.status = .pending → s.slot = some i ∧ i + 1 = s.calls.length
  todo : ∀ i ∈ s.todo, ∃ c : Send, s.calls[i]? = some c ∧ c.status ≠ .pending

theorem flatten_bytes (x : List (List Nat)) (h : ∀ b ∈ x, b.length = 1) :
    x.flatten.length = x.length ∧ ∀ k, (x.drop k).flatten = x.flatten.drop k := by
  induction x with
  | nil => simp
  | cons b x ih =>
    have hb := h b List.mem_cons_self
    obtain ⟨ih1, ih2⟩ := ih (fun c hc => h c (List.mem_cons_of_mem _ hc))
    refine ⟨by simp [hb, ih1]; omega, fun k => ?_⟩
    cases k with
    | zero => simp
    | succ k =>
      rw [List.drop_succ_cons, ih2, List.flatten_cons, List.drop_append, hb]
      rw [List.drop_eq_nil_of_le (as := b) (by omega)]; simp

theorem taken_bytes (x : List (List Nat)) (h : ∀ b ∈ x, b.length = 1) (k : Nat) (hk : k ≤ x.length) (r : Option Nat) :
    x.flatten.take k ++ taken (x.drop k) r = x.flatten.take (k + (taken (x.drop k) r).length) ∧
      k + (taken (x.drop k) r).length ≤ x.length := by
  obtain ⟨h1, h2⟩ := flatten_bytes x h
  cases r with
  | none => simp [taken, hk]
  | some n =>
    simp only [taken, h2]
    rw [List.length_take, List.length_drop, h1]
    refine ⟨?_, by omega⟩
    by_cases hn : n ≤ x.length - k
    · rw [Nat.min_eq_left hn, List.take_add]
    · rw [Nat.min_eq_right (by omega), List.take_add]
      rw [List.take_of_length_le (l := x.flatten.drop k) (i := n) (by rw [List.length_drop]; omega),
        List.take_of_length_le (l := x.flatten.drop k) (by rw [List.length_drop]; omega)]

/-- Replacing the last call. -/
theorem set_last {α : Type} (l : List α) (i : Nat) (x y : α) (h : l[i]? = some x) (hl : i + 1 = l.length) :
    ∃ p, l = p ++ [x] ∧ l.set i y = p ++ [y] ∧ p.length = i := by
  refine ⟨l.take i, ?_, ?_, ?_⟩
  · have hlt : i < l.length := by omega
    have hx : l[i] = x := by
      rw [List.getElem?_eq_getElem hlt] at h; exact Option.some.inj h
    rw [← hx, List.take_append_getElem hlt, hl, List.take_length]
  · rw [List.set_eq_take_append_cons_drop, if_pos (by omega), hl, List.drop_length]
  · rw [List.length_take]; omega

theorem mem_set_get {α : Type} {l : List α} {i : Nat} {y c : α} (h : c ∈ l.set i y) : c = y ∨ c ∈ l :=
  (List.mem_or_eq_of_mem_set h).symm

theorem Whole.step {s : W} (h : Whole s) (o : WOp)
    (ho : ∀ x r, o = .send x r → (∀ c ∈ s.calls, c.status ≠ .pending) ∧ ∀ b ∈ x, b.length = 1) : Whole (wstep s o) := by
  cases o with
  | send x r =>
    obtain ⟨hp, hx⟩ := ho x r rfl
    have hnp : ∀ {i : Nat} {c : Send}, s.calls[i]? = some c → c.status ≠ .pending :=
      fun hi => hp _ (List.mem_of_getElem? hi)
    have htodo : ∀ (y : Send), ∀ i ∈ s.todo, ∃ c : Send, (s.calls ++ [y])[i]? = some c ∧ c.status ≠ .pending := by
      intro y i hi
      obtain ⟨c, hc, hcp⟩ := h.todo i hi
      have := lt_of_get hc
      exact ⟨c, by rw [get_append, if_neg (by omega)]; exact hc, hcp⟩
    have t0 := taken_bytes x hx 0 (Nat.zero_le _) r
    simp only [List.take_zero, List.nil_append, List.drop_zero, Nat.zero_add] at t0
    have build : ∀ (y : Send) (s' : W), s'.calls = s.calls ++ [y] → y.items = x → y.start ≤ x.length →
        (y.status = .done → y.start = x.length) → (y.status = .pending → s'.slot = some s.calls.length) →
        s'.sent = s.sent ++ y.part → s'.todo = s.todo → Whole s' := by
      intro y s' h1 h2 h3 h4 h5 h6 h7
      refine ⟨?_, ?_, ?_, ?_, ?_, ?_⟩
      · rw [h6, h1, h.sent]; simp
      · rw [h1]; intro c hc
        rcases List.mem_append.1 hc with hc | hc
        · exact h.bytes c hc
        · rw [List.mem_singleton.1 hc, h2]; exact hx
      · rw [h1]; intro c hc
        rcases List.mem_append.1 hc with hc | hc
        · exact h.le c hc
        · rw [List.mem_singleton.1 hc, h2]; exact h3
      · rw [h1]; intro c hc
        rcases List.mem_append.1 hc with hc | hc
        · exact h.done c hc
        · rw [List.mem_singleton.1 hc, h2]; exact h4
      · rw [h1]; intro i c hi hpc
        rw [get_append] at hi
        by_cases hl : i = s.calls.length
        · rw [if_pos hl] at hi
          cases hi
          exact ⟨by rw [h5 hpc, hl], by simp [hl]⟩
        · rw [if_neg hl] at hi
          exact absurd hpc (hnp hi)
      · rw [h7, h1]; exact htodo y
    simp only [wstep, W.send]
    by_cases h0 : x = []
    · rw [if_pos h0]
      exact build _ _ rfl rfl (Nat.zero_le _) (fun _ => by simp [h0]) (fun e => by cases e) (by simp [Send.part]) rfl
    · rw [if_neg h0]
      split
      · rename_i hc
        refine build _ _ rfl rfl (Nat.le_refl _) (fun _ => rfl) (fun e => by cases e) ?_ rfl
        show s.sent ++ _ = s.sent ++ x.flatten.take x.length
        rw [t0.1, hc.2]
      · refine build _ _ rfl rfl t0.2 (fun e => by cases e) (fun _ => rfl) ?_ rfl
        show s.sent ++ _ = s.sent ++ x.flatten.take _
        rw [← t0.1]
  | writable r =>
    show Whole (s.writable r)
    rcases writable_cases s r with e | ⟨i, x, k, hs, hc, e, hr⟩
    · rw [e]; exact h
    · rw [e]
      have hm := List.mem_of_getElem? hc
      have hx := h.bytes _ hm
      have hk := h.le _ hm
      obtain ⟨-, hlast⟩ := h.slot i _ hc rfl
      have t := taken_bytes x hx k hk r
      have hlt := lt_of_get hc
      have build : ∀ (y : Send) (s' : W), s'.calls = s.calls.set i y → y.items = x →
          y.start = k + (taken (x.drop k) r).length →
          (y.status = .done → y.start = x.length) → (y.status = .pending → s'.slot = some i) → 
          s'.sent = s.sent ++ taken (x.drop k) r → (s'.todo = s.todo ∨ s'.todo = s.todo ++ [i] ∧ y.status ≠ .pending) →
          Whole s' := by
        intro y s' h1 h2 h3 h4 h5 h6 h7
        refine ⟨?_, ?_, ?_, ?_, ?_, ?_⟩
        · obtain ⟨p, e1, e2, -⟩ := set_last s.calls i _ y hc hlast
          rw [h6, h1, e2, h.sent, e1]
          simp only [List.map_append, List.map_cons, List.map_nil, List.flatten_append, List.flatten_cons, List.flatten_nil,
            List.append_nil, List.append_assoc]
          congr 1
          show x.flatten.take k ++ _ = y.items.flatten.take y.start
          rw [h2, h3, ← t.1]
        · rw [h1]; intro c hm
          rcases mem_set_get hm with hm | hm
          · rw [hm, h2]; exact hx
          · exact h.bytes c hm
        · rw [h1]; intro c hm
          rcases mem_set_get hm with hm | hm
          · rw [hm, h2, h3]; exact t.2
          · exact h.le c hm
        · rw [h1]; intro c hm
          rcases mem_set_get hm with hm | hm
          · rw [hm, h2]; exact h4
          · exact h.done c hm
        · rw [h1]; intro j c hj hp
          rw [get_set _ _ _ _ hlt] at hj
          by_cases hji : j = i
          · rw [if_pos hji] at hj
            cases hj
            rw [hji, List.length_set]
            exact ⟨h5 hp, hlast⟩
          · rw [if_neg hji] at hj
            obtain ⟨-, h2⟩ := h.slot j c hj hp
            omega
        · rw [h1]; intro j hj
          rw [get_set _ _ _ _ hlt]
          have old : j ∈ s.todo → ∃ c : Send, (if j = i then some y else s.calls[j]?) = some c ∧ c.status ≠ .pending := by
            intro hj
            obtain ⟨c, hcj, hp⟩ := h.todo j hj
            have : j ≠ i := fun e => by subst e; rw [hc] at hcj; cases hcj; exact hp rfl
            exact ⟨c, by rw [if_neg this]; exact hcj, hp⟩
          rcases h7 with h7 | ⟨h7, hp⟩
          · rw [h7] at hj; exact old hj
          · rw [h7] at hj
            rcases List.mem_append.1 hj with hj | hj
            · exact old hj
            · exact ⟨y, if_pos (List.mem_singleton.1 hj), hp⟩
      rw [W.callback, if_pos rfl, if_neg hr]
      split
      · rename_i hd
        exact build _ _ rfl rfl rfl (fun _ => hd) (fun e => by cases e) rfl (.inr ⟨rfl, by simp⟩)
      · exact build _ _ rfl rfl rfl (fun e => by cases e) (fun _ => hs) rfl (.inl rfl)
  | cancel i =>
    show Whole (s.cancel i)
    rcases wcancel_cases s i with e | ⟨x, k, hc, e⟩
    · rw [e]; exact h
    · rw [e]
      have hm := List.mem_of_getElem? hc
      obtain ⟨hs, hlast⟩ := h.slot i _ hc rfl
      have hlt := lt_of_get hc
      refine ⟨?_, ?_, ?_, ?_, ?_, ?_⟩
      · obtain ⟨p, e1, e2, -⟩ := set_last s.calls i _ ⟨x, k, .cancelled⟩ hc hlast
        show s.sent = ((s.calls.set i _).map Send.part).flatten
        rw [e2, h.sent, e1]
        simp [Send.part]
      · intro c hm'
        rcases mem_set_get hm' with hm' | hm'
        · rw [hm']; exact (h.bytes _ hm :)
        · exact h.bytes c hm'
      · intro c hm'
        rcases mem_set_get hm' with hm' | hm'
        · rw [hm']; exact (h.le _ hm :)
        · exact h.le c hm'
      · intro c hm' hd
        rcases mem_set_get hm' with hm' | hm'
        · rw [hm'] at hd; cases hd
        · exact h.done c hm' hd
      · intro j c hj hp
        rw [show (_ : W).calls = s.calls.set i ⟨x, k, .cancelled⟩ from rfl, get_set _ _ _ _ hlt] at hj
        by_cases hji : j = i
        · rw [if_pos hji] at hj; cases hj; cases hp
        · rw [if_neg hji] at hj
          obtain ⟨-, h2⟩ := h.slot j c hj hp
          omega
      · intro j hj
        show ∃ c : Send, (s.calls.set i ⟨x, k, .cancelled⟩)[j]? = some c ∧ _
        rw [get_set _ _ _ _ hlt]
        by_cases hji : j = i
        · exact ⟨⟨x, k, .cancelled⟩, if_pos hji, by simp⟩
        · rw [if_neg hji]
          rcases List.mem_append.1 hj with hj | hj
          · exact h.todo j hj
          · exact absurd (List.mem_singleton.1 hj) hji
  | callback =>
    show Whole s.doneCallback
    simp only [W.doneCallback]
    split
    · exact h
    · rename_i i l htodo
      obtain ⟨c, hc, hp⟩ := h.todo i (by rw [htodo]; exact List.mem_cons_self)
      have ht : ∀ j ∈ l, ∃ c : Send, s.calls[j]? = some c ∧ c.status ≠ .pending :=
        fun j hj => h.todo j (by rw [htodo]; exact List.mem_cons_of_mem _ hj)
      split
      · rename_i hs
        refine ⟨h.sent, h.bytes, h.le, h.done, fun j c' hj hp' => ?_, ht⟩
        have h2 := (h.slot j c' hj hp').1
        rw [hs] at h2
        cases h2
        rw [show (_ : W).calls[i]? = s.calls[i]? from rfl, hc] at hj
        cases hj
        exact absurd hp' hp
      · exact ⟨h.sent, h.bytes, h.le, h.done, h.slot, ht⟩

theorem Whole.run (l : List WOp) : ∀ s, Whole s → tidy s l → Whole (wrun s l) := by
  induction l with
  | nil => exact fun _ h _ => h
  | cons o l ih =>
    intro s h ha
    have : (∀ x r, o = .send x r → (∀ c ∈ s.calls, c.status ≠ .pending) ∧ ∀ b ∈ x, b.length = 1) ∧
        tidy (wstep s o) l := by
      cases o with
      | send x r => exact ⟨fun _ _ e => (by cases e; exact ⟨ha.1, ha.2.1⟩), ha.2.2⟩
      | writable r => exact ⟨fun _ _ e => (by cases e), ha⟩
      | cancel i => exact ⟨fun _ _ e => (by cases e), ha⟩
      | callback => exact ⟨fun _ _ e => (by cases e), ha⟩
    exact ih _ (h.step o this.1) this.2

theorem Whole.new : Whole W.new :=
  ⟨rfl, fun _ h => (by cases h), fun _ h => (by cases h), fun _ h => (by cases h), fun _ _ h => (by cases h),
    fun _ h => (by cases h)⟩

/-- C217, for views of bytes and calls which follow one another: what the system took is, for every call in turn, a prefix
of its data, and for a call which returned it is all of it. -/
theorem C217_sent_partial (l : List WOp) (ht : tidy W.new l) :
    (wrun W.new l).sent = ((wrun W.new l).calls.map fun c => c.items.flatten.take c.start).flatten ∧
      ∀ c ∈ (wrun W.new l).calls, c.status = .done → c.items.flatten.take c.start = c.items.flatten := by
  have h := Whole.new.run l _ ht
  refine ⟨h.sent, fun c hc hd => ?_⟩
  rw [h.done c hc hd, ← (flatten_bytes c.items (h.bytes c hc)).1, List.take_length]

/-- C217, under the same assumptions: a call which waits gets further every time the system has room, and returns as soon
as everything is taken. -/
theorem C217_progress_partial (l : List WOp) (ht : tidy W.new l) (i : Nat) (x : List (List Nat)) (k n : Nat)
    (hc : (wrun W.new l).calls[i]? = some ⟨x, k, .pending⟩) :
    (wrun W.new (l ++ [.writable (some n)])).calls[i]? =
      some ⟨x, min (k + n) x.length, if x.length ≤ k + n then .done else .pending⟩ := by
  have h := Whole.new.run l _ ht
  have hs := (h.slot i _ hc rfl).1
  have hm := List.mem_of_getElem? hc
  have hk : k ≤ x.length := h.le _ hm
  obtain ⟨f1, f2⟩ := flatten_bytes x (h.bytes _ hm)
  have e : wrun W.new (l ++ [.writable (some n)]) = (wrun W.new l).writable (some n) := by
    simp [wrun, List.foldl_append, wstep]
  have e2 : (wrun W.new l).writable (some n) = (wrun W.new l).callback i ⟨x, k, .pending⟩ (some n) := by
    simp only [W.writable, hs, hc]
  have len : k + (taken (x.drop k) (some n)).length = min (k + n) x.length := by
    simp only [taken, f2, List.length_take, List.length_drop, f1]; omega
  rw [e, e2, W.callback, if_pos rfl, if_neg (by simp)]
  have hlt := lt_of_get hc
  by_cases hd : x.length ≤ k + n
  · rw [if_pos (by show k + (taken (x.drop k) (some n)).length = x.length; rw [len]; omega)]
    show ((wrun W.new l).calls.set i ⟨x, k + (taken (x.drop k) (some n)).length, .done⟩)[i]? = _
    rw [get_set _ _ _ _ hlt, if_pos rfl, len, if_pos hd]
  · rw [if_neg (by show ¬ k + (taken (x.drop k) (some n)).length = x.length; rw [len]; omega)]
    show ((wrun W.new l).calls.set i ⟨x, k + (taken (x.drop k) (some n)).length, .pending⟩)[i]? = _
    rw [get_set _ _ _ _ hlt, if_pos rfl, len, if_neg hd]

/-- Two calls, the first of them in three parts. -/
example : wrun W.new [.send [[1], [2], [3], [4]] none, .writable (some 1), .writable none, .writable (some 2), .writable (some 9),
      .callback, .send [[5]] (some 3)] =
    ⟨[1, 2, 3, 4, 5], [⟨[[1], [2], [3], [4]], 4, .done⟩, ⟨[[5]], 1, .done⟩], none, []⟩ := by decide

example : tidy W.new [.send [[1], [2], [3], [4]] none, .writable (some 1), .writable none, .writable (some 2),
    .writable (some 9), .callback, .send [[5]] (some 3)] := by
  simp [tidy, wstep, W.send, W.new, W.writable, W.callback, W.doneCallback, taken]

/-- C217 is violated for views whose items have several bytes, as `memoryview(array('H', …))`: the number of bytes which
were sent is used as a number of items. Bytes are left out, although the call returns. -/
theorem C217_lost_violated (a b c d : Nat) :
    wrun W.new [.send [[a, b], [c, d]] (some 1), .writable (some 1)] =
      ⟨[a, c], [⟨[[a, b], [c, d]], 2, .done⟩], none, [0]⟩ := by
  simp [wrun, wstep, W.send, W.writable, W.callback, taken, W.new]

/-- C217 is violated for such views in another way: all the bytes are sent at once, and the call never returns. -/
theorem C217_stuck_violated (a b c d : Nat) (l : List WOp) (hl : ∀ o ∈ l, o ≠ .cancel 0) :
    (wrun W.new [.send [[a, b], [c, d]] (some 4)]).sent = [a, b, c, d] ∧
      (wrun W.new (.send [[a, b], [c, d]] (some 4) :: l)).calls[0]? = some ⟨[[a, b], [c, d]], 4, .pending⟩ := by
  have e : wstep W.new (.send [[a, b], [c, d]] (some 4)) =
      ⟨[a, b, c, d], [⟨[[a, b], [c, d]], 4, .pending⟩], some 0, []⟩ := by
    simp [wstep, W.send, taken, W.new]
  refine ⟨congrArg W.sent e, ?_⟩
  show (wrun (wstep W.new _) l).calls[0]? = _
  rw [e]
  have key : ∀ (l : List WOp) (s : W), (∀ o ∈ l, o ≠ .cancel 0) →
      s.calls[0]? = some ⟨[[a, b], [c, d]], 4, .pending⟩ → (wrun s l).calls[0]? = some ⟨[[a, b], [c, d]], 4, .pending⟩ := by
    intro l
    induction l with
    | nil => exact fun _ _ h => h
    | cons o l ih =>
      intro s hl h
      refine ih (wstep s o) (fun x hx => hl x (List.mem_cons_of_mem _ hx)) ?_
      have hlt := lt_of_get h
      cases o with
      | send x r =>
        simp only [wstep, W.send]
        have : ∀ y, (s.calls ++ [y])[0]? = s.calls[0]? := fun y => by rw [get_append, if_neg (by omega)]
        split
        · exact (this _).trans h
        · split <;> exact (this _).trans h
      | writable r =>
        show (s.writable r).calls[0]? = _
        rcases writable_cases s r with e | ⟨i, x, k, hs, hc, e, hr⟩
        · rw [e]; exact h
        · rw [e, W.callback, if_pos rfl, if_neg hr]
          by_cases hi : 0 = i
          · subst hi
            rw [h] at hc
            cases hc
            have t : taken (List.drop 4 [[a, b], [c, d]]) r = [] := by cases r <;> simp [taken]
            rw [if_neg (by show ¬ 4 + (taken (List.drop 4 [[a, b], [c, d]]) r).length = 2; rw [t]; simp)]
            show (s.calls.set 0 ⟨[[a, b], [c, d]], 4 + (taken (List.drop 4 [[a, b], [c, d]]) r).length, .pending⟩)[0]? = _
            rw [get_set _ _ _ _ hlt, t]; rfl
          · split
            · show (s.calls.set i _)[0]? = _
              rw [get_set _ _ _ _ (lt_of_get hc), if_neg hi]; exact h
            · show (s.calls.set i _)[0]? = _
              rw [get_set _ _ _ _ (lt_of_get hc), if_neg hi]; exact h
      | cancel i =>
        show (s.cancel i).calls[0]? = _
        rcases wcancel_cases s i with e | ⟨x, k, hc, e⟩
        · rw [e]; exact h
        · rw [e]
          show (s.calls.set i _)[0]? = _
          have : 0 ≠ i := fun e => hl (.cancel i) List.mem_cons_self (by rw [e])
          rw [get_set _ _ _ _ (lt_of_get hc), if_neg this]; exact h
      | callback =>
        show s.doneCallback.calls[0]? = _
        simp only [W.doneCallback]
        split
        · exact h
        · split <;> exact h
  exact key l _ hl rfl

/-! ### C218 -/

/-- C218 is violated: a generator which is in the set of the loop is never closed by `shutdown_async_generators`: as long
as it is not finalized, no number of shutdowns closes it. -/
theorem C218_shutdown_violated (g : Nat) (l : List GOp) (hl : ∀ r, .finalize g r ∉ l) :
    g ∉ (grun G.new (.iterate g :: l)).closed := by
  have key : ∀ (l : List GOp) (s : G), (∀ r, .finalize g r ∉ l) → g ∈ s.gens → g ∉ s.closed →
      g ∉ (grun s l).closed := by
    intro l
    induction l with
    | nil => exact fun _ _ _ h => h
    | cons o l ih =>
      intro s hl hg hc
      have : g ∈ (gstep s o).gens ∧ g ∉ (gstep s o).closed := by
        cases o with
        | iterate x =>
          simp only [gstep]
          split
          · exact ⟨hg, hc⟩
          · exact ⟨List.mem_cons_of_mem _ hg, hc⟩
        | finalize x r =>
          have hx : g ≠ x := fun e => hl r (by rw [e]; exact List.mem_cons_self)
          simp only [gstep]
          split
          · exact ⟨List.mem_filter.2 ⟨hg, by simp [hx]⟩, by simp [hc, hx]⟩
          · exact ⟨List.mem_filter.2 ⟨hg, by simp [hx]⟩, hc⟩
        | shutdown =>
          have : s.gens ≠ [] := List.ne_nil_of_mem hg
          simp only [gstep]
          rw [if_pos this]
          exact ⟨hg, hc⟩
      exact ih (gstep s o) (fun r hr => hl r (List.mem_cons_of_mem _ hr)) this.1 this.2
  exact key l _ hl (by simp [G.new, gstep]) (by simp [G.new, gstep])

/-- C218, the rest: a generator is closed exactly as often as it is finalized while the loop runs. -/
theorem C218_finalized_partial (l : List GOp) (g : Nat) :
    (grun G.new l).closed.count g = (l.filter fun o => match o with | .finalize x true => x == g | _ => false).length := by
  have key : ∀ (l : List GOp) (s : G), (grun s l).closed.count g =
      s.closed.count g + (l.filter fun o => match o with | .finalize x true => x == g | _ => false).length := by
    intro l
    induction l with
    | nil => intro s; rfl
    | cons o l ih =>
      intro s
      show (grun (gstep s o) l).closed.count g = _
      rw [ih]
      cases o with
      | iterate x =>
        simp only [gstep]
        split <;> simp
      | finalize x r =>
        cases r with
        | false => simp [gstep]
        | true =>
          by_cases hx : x = g
          · subst hx; simp [gstep, List.count_append]; omega
          · simp [gstep, List.count_append, hx]
      | shutdown =>
        simp only [gstep]
        by_cases h : s.gens = []
        · rw [if_neg (by simpa using h)]; simp [h]
        · rw [if_pos h]; simp
  have := key l G.new
  simpa [G.new] using this

/-- Two generators, of which one is finalized. -/
example : grun G.new [.iterate 1, .iterate 2, .finalize 1 true, .shutdown, .shutdown] = ⟨[2], true, [1]⟩ := by decide

end Verif.LoopIO
