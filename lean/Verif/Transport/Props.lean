import Verif.Transport.Model

/-! C31: bytes written to a socket transport; C32: its flow control. -/
namespace Verif.Transport

/-! ### specification -/

/-- All data passed to `write` calls that did not raise. -/
def written (tr : List (Op × Out)) : Bytes :=
  tr.flatMap fun e => match e.1 with
    | .write data _ => if e.2.raised then [] else data
    | _ => []

/-- All bytes accepted by the socket. -/
def handed (tr : List (Op × Out)) : Bytes := tr.flatMap fun e => e.2.sent

/-- All notifications of the protocol. -/
def notes (tr : List (Op × Out)) : List Note := tr.flatMap fun e => e.2.notes

/-- Whether pausing and resuming alternate, given whether the protocol is paused at the beginning. -/
def Alternate : Bool → List Note → Prop
  | _, [] => True
  | p, .pause :: ns => p = false ∧ Alternate true ns
  | p, .resume :: ns => p = true ∧ Alternate false ns
  | p, .connectionLost :: ns => Alternate p ns

/-- Whether the protocol is paused after the notifications. -/
def pausedAfter : Bool → List Note → Bool
  | p, [] => p
  | _, .pause :: ns => pausedAfter true ns
  | _, .resume :: ns => pausedAfter false ns
  | p, .connectionLost :: ns => pausedAfter p ns

/-! ### bytes -/

theorem consume_flatten (b : List Bytes) : ∀ n : Nat, n ≤ b.flatten.length → (consume b n).flatten = b.flatten.drop n := by
  induction b with
  | nil => intro n _; simp [consume]
  | cons d b ih =>
    intro n hn
    unfold consume
    split
    · rename_i h
      simp only [List.flatten_cons]
      rw [List.drop_append_of_le_length (by omega)]
    · rename_i h
      simp only [List.flatten_cons, List.length_append] at hn
      split
      · rename_i e
        subst e
        simp only [List.flatten_nil, List.length_nil] at hn
        rw [List.drop_of_length_le (by simp; omega)]
        rfl
      · split
        · rename_i e
          simp only [List.flatten_cons]
          rw [← e, List.drop_left]
        · rw [ih _ (by omega), List.flatten_cons, List.drop_append, List.drop_of_length_le (l := d) (by omega)]
          rfl

theorem consume_nonempty (b : List Bytes) : ∀ n : Nat, (∀ d ∈ b, d ≠ []) → ∀ d ∈ consume b n, d ≠ [] := by
  induction b with
  | nil => intro n _ d hd; simp [consume] at hd
  | cons c b ih =>
    intro n hb d hd
    unfold consume at hd
    split at hd
    · rename_i h
      rcases List.mem_cons.mp hd with rfl | hd
      · intro e
        have := congrArg List.length e
        simp only [List.length_drop, List.length_nil] at this
        omega
      · exact hb d (List.mem_cons_of_mem _ hd)
    · split at hd
      · simp at hd
      · split at hd
        · exact hb d (List.mem_cons_of_mem _ hd)
        · exact ih _ (fun d hd => hb d (List.mem_cons_of_mem _ hd)) d hd

theorem offered_take (b : List Bytes) (max n : Nat) (hn : n ≤ (b.take max).flatten.length) :
    (b.take max).flatten.take n = b.flatten.take n := by
  conv => rhs; rw [← List.take_append_drop max b, List.flatten_append]
  rw [List.take_append_of_le_length hn]

theorem offered_le (b : List Bytes) (max : Nat) : (b.take max).flatten.length ≤ b.flatten.length := by
  conv => rhs; rw [← List.take_append_drop max b, List.flatten_append]
  simp

/-- The buffer's shape, and the registration of the writer. -/
structure Inv (s : State) : Prop where
  pieces : ∀ d ∈ s.buffer, d ≠ []
  writer : s.writer = true ↔ s.buffer ≠ []
  lost : s.lost = true → s.buffer = []
  above : s.size > s.high → s.paused = true
  stuck : s.paused = true → s.lost = false → s.buffer ≠ []

theorem maybePause_eq (s : State) : ∃ p, s.maybePause.1 = { s with paused := p } ∧ (s.size > s.high → p = true) ∧
    (p = true → s.paused = true ∨ s.size > s.high) := by
  unfold State.maybePause
  split
  · exact ⟨s.paused, rfl, by omega, fun h => Or.inl h⟩
  · split
    · exact ⟨s.paused, rfl, fun _ => by assumption, fun h => Or.inl h⟩
    · exact ⟨true, rfl, fun _ => rfl, fun _ => Or.inr (by omega)⟩

theorem maybeResume_eq (s : State) : ∃ p, s.maybeResume.1 = { s with paused := p } ∧ (s.size ≤ s.low → p = false) ∧
    (p = true → s.paused = true) ∧ (s.size > s.low → p = s.paused) := by
  unfold State.maybeResume
  split
  · rename_i h
    simp only [Bool.or_eq_true, Bool.not_eq_true', decide_eq_true_eq] at h
    refine ⟨s.paused, rfl, fun hl => ?_, fun h => h, fun _ => rfl⟩
    rcases h with h | h
    · exact h
    · omega
  · rename_i h
    simp only [Bool.or_eq_true, Bool.not_eq_true', decide_eq_true_eq] at h
    exact ⟨false, rfl, fun _ => rfl, by simp, fun hl => absurd (Or.inr hl) h⟩

theorem size_flatten (s : State) : s.size = s.buffer.flatten.length := by
  unfold State.size; rw [List.length_flatten]

structure LowHigh (s : State) : Prop where
  le : s.low ≤ s.high

theorem forceClose_inv (s : State) (h : s.writer = true → s.buffer ≠ [] ∨ s.lost = true ) (hl : s.lost = true → Inv s) : Inv s.forceClose := by
  unfold State.forceClose
  split
  · rename_i e; exact hl e
  · rename_i e
    refine ⟨by simp, ?_, by simp, ?_, ?_⟩
    · simp only
      split
      · rename_i hb
        constructor
        · intro hw; rcases h hw with h | h
          · exact absurd hb h
          · exact absurd h e
        · intro h; exact absurd rfl h
      · simp
    · simp [State.size]
    · simp

theorem afterSend_inv (s : State) (sent : Bytes) (hp : ∀ d ∈ s.buffer, d ≠ []) (hw : s.writer = true) (hl : s.lost = false)
    (ha : s.size > s.high → s.paused = true) (hlh : LowHigh s) : Inv (s.afterSend sent).1 := by
  obtain ⟨p, e, h1, h2, h3⟩ := maybeResume_eq s
  unfold State.afterSend
  simp only [e]
  split
  · rename_i hb
    have hs : s.size = 0 := by simp [State.size, hb]
    have hpf : p = false := h1 (by omega)
    split
    · simp only [State.callLost]
      exact ⟨by simp [hb], by simp [hb], by simp [hb], by simp [State.size, hb], by simp [hpf]⟩
    · exact ⟨by simp [hb], by simp [hb], by simp [hb], by simp [State.size, hb], by simp [hpf]⟩
  · rename_i hb
    refine ⟨hp, ⟨fun _ => hb, fun _ => hw⟩, fun h => ?_, fun h => ?_, fun _ _ => hb⟩
    · simp only at h; rw [hl] at h; simp at h
    · have hsz : s.size > s.high := h
      have := hlh.le
      simp only
      rw [h3 (by omega)]
      exact ha hsz

theorem afterSend_buffer (s : State) (sent : Bytes) : (s.afterSend sent).1.buffer = s.buffer ∧ (s.afterSend sent).2.sent = sent ∧
    (s.afterSend sent).2.raised = false ∧ (s.afterSend sent).1.high = s.high ∧ (s.afterSend sent).1.low = s.low := by
  obtain ⟨p, e, -⟩ := maybeResume_eq s
  unfold State.afterSend
  simp only [e]
  split
  · split <;> simp [State.callLost]
  · simp

/-- The number of bytes a step of `_write_ready` takes away from the buffer, and the ones handed to the socket, agree. -/
structure Moved (s : State) (r : State × Out) (data : Bytes) : Prop where
  bytes : r.1.lost = false → r.2.sent ++ r.1.buffer.flatten = s.buffer.flatten ++ data
  lost : r.1.lost = true → s.lost = false → r.2.sent <+: s.buffer.flatten ++ data
  mono : s.lost = true → r.1.lost = true ∧ r.2.sent = []

def dataOf (op : Op) (o : Out) : Bytes :=
  match op with
  | .write data _ => if o.raised then [] else data
  | _ => []

theorem forceClose_lost (s : State) : s.forceClose.lost = true := by
  unfold State.forceClose; split
  · assumption
  · rfl

theorem buffer_step (max : Nat) (s : State) (h : Inv s) (hlh : LowHigh s) (op : Op) :
    Inv (s.step max op).1 ∧ LowHigh (s.step max op).1 ∧ Moved s (s.step max op) (dataOf op (s.step max op).2) := by
  have fcLH : ∀ s : State, LowHigh s → LowHigh s.forceClose := by
    intro s hs; unfold State.forceClose; split
    · exact hs
    · exact ⟨hs.le⟩
  have idle : Moved s (s, {}) [] := ⟨by simp, by simp, by simp⟩
  have idleR : Moved s (s, { raised := true }) [] := ⟨by simp, by simp, by simp⟩
  have force : ∀ (s' : State) data, s'.lost = s.lost → Moved s (s'.forceClose, {}) data := by
    intro s' data _
    exact ⟨fun h => by simp [forceClose_lost] at h, fun _ _ => by simp, fun _ => ⟨forceClose_lost _, rfl⟩⟩
  cases op with
  | write data send =>
    simp only [State.step]
    split
    · exact ⟨h, hlh, by simpa [dataOf] using idleR⟩
    split
    · rename_i e; subst e; exact ⟨h, hlh, by simpa [dataOf] using idle⟩
    rename_i hd
    split
    · rename_i hl
      refine ⟨h, hlh, ?_⟩
      simp only [dataOf]
      exact ⟨fun h => by rw [hl] at h; simp at h, fun _ h => by rw [hl] at h; simp at h, fun _ => ⟨hl, rfl⟩⟩
    rename_i hl
    have hl : s.lost = false := by simpa using hl
    have hwb : s.writer = true → s.buffer ≠ [] ∨ s.lost = true := fun hw => Or.inl (h.writer.mp hw)
    have app : ∀ (w : Bool) (d : Bytes), d ≠ [] → w = true →
        let s' : State := { s with writer := w, buffer := s.buffer ++ [d] }
        Inv s'.maybePause.1 ∧ LowHigh s'.maybePause.1 ∧ s'.maybePause.1.lost = false ∧ s'.maybePause.1.buffer = s.buffer ++ [d] := by
      intro w d hd hw s'
      obtain ⟨p, e, h1, h2⟩ := maybePause_eq s'
      rw [e]
      refine ⟨⟨?_, ?_, ?_, ?_, ?_⟩, ⟨hlh.le⟩, hl, rfl⟩
      · intro d' hd'
        rcases List.mem_append.mp hd' with h' | h'
        · exact h.pieces d' h'
        · rw [List.mem_singleton.mp h']; exact hd
      · simp [s', hw]
      · simp [s', hl]
      · intro hs; exact h1 hs
      · simp [s']
    split
    · rename_i hb
      split
      · exact ⟨forceClose_inv s hwb (fun _ => h), fcLH s hlh, force s _ rfl⟩
      · split
        · exact ⟨forceClose_inv s hwb (fun _ => h), fcLH s hlh, force s _ rfl⟩
        · obtain ⟨a, b, c, d⟩ := app true data hd rfl
          refine ⟨a, b, ⟨fun _ => ?_, fun h' => ?_, fun h' => ?_⟩⟩
          · simp only [dataOf]; rw [d]; simp
          · simp only at h'; rw [c] at h'; simp at h'
          · rw [hl] at h'; simp at h'
        · rename_i n
          split
          · refine ⟨h, hlh, ⟨fun _ => ?_, fun _ _ => ?_, fun h' => ?_⟩⟩
            · simp [dataOf, hb]
            · simp [dataOf, hb]
            · rw [hl] at h'; simp at h'
          · rename_i hn
            have hdn : data.drop n ≠ [] := by
              intro e; have := congrArg List.length e; simp only [List.length_drop, List.length_nil] at this; omega
            obtain ⟨a, b, c, d⟩ := app true (data.drop n) hdn rfl
            refine ⟨a, b, ⟨fun _ => ?_, fun h' => ?_, fun h' => ?_⟩⟩
            · simp only [dataOf]; rw [d]; simp [hb, List.take_append_drop]
            · simp only at h'; rw [c] at h'; simp at h'
            · rw [hl] at h'; simp at h'
    · rename_i hb
      have hw := h.writer.mpr hb
      obtain ⟨a, b, c, d⟩ := app s.writer data hd hw
      refine ⟨a, b, ⟨fun _ => ?_, fun h' => ?_, fun h' => ?_⟩⟩
      · simp only [dataOf]
        show _ ++ (State.maybePause { s with writer := s.writer, buffer := s.buffer ++ [data] }).1.buffer.flatten = _
        rw [d]; simp
      · have h'' : (State.maybePause { s with writer := s.writer, buffer := s.buffer ++ [data] }).1.lost = true := h'
        rw [c] at h''; simp at h''
      · rw [hl] at h'; simp at h'
  | writeReady send =>
    simp only [State.step, dataOf]
    split
    · exact ⟨h, hlh, by simpa using idle⟩
    rename_i hwl
    simp only [Bool.or_eq_true, Bool.not_eq_true', not_or, Bool.not_eq_false, Bool.not_eq_true] at hwl
    obtain ⟨hw, hl⟩ := hwl
    have fail : Inv ({ s with writer := false, buffer := [] } : State).forceClose := by
      refine forceClose_inv _ (by simp) ?_
      intro e; simp only at e; rw [hl] at e; simp at e
    have fin : ∀ (b : List Bytes) (sent : Bytes), (∀ d ∈ b, d ≠ []) → (b.flatten.length ≤ s.buffer.flatten.length) →
        sent ++ b.flatten = s.buffer.flatten →
        let r := State.afterSend { s with buffer := b } sent
        Inv r.1 ∧ LowHigh r.1 ∧ Moved s r [] := by
      intro b sent h1 h2 h3 r
      obtain ⟨e1, e2, e3, e4, e5⟩ := afterSend_buffer { s with buffer := b } sent
      refine ⟨afterSend_inv _ sent h1 hw hl ?_ ⟨hlh.le⟩, ⟨?_⟩, ⟨fun _ => ?_, fun _ _ => ?_, fun h' => ?_⟩⟩
      · intro hs
        apply h.above
        rw [size_flatten] at hs ⊢
        simp only at hs
        omega
      · show (State.afterSend _ _).1.low ≤ (State.afterSend _ _).1.high
        rw [e4, e5]; exact hlh.le
      · show (State.afterSend _ _).2.sent ++ (State.afterSend _ _).1.buffer.flatten = _
        rw [e1, e2]; simpa using h3
      · show (State.afterSend _ _).2.sent <+: _
        rw [e2, ← h3]; simp
      · rw [hl] at h'; simp at h'
    split
    · split
      · rename_i hb; exact absurd hb (h.writer.mp hw)
      · rename_i d b hb
        have hpb : ∀ d ∈ b, d ≠ [] := fun d' hd' => h.pieces d' (by rw [hb]; exact List.mem_cons_of_mem _ hd')
        split
        · exact ⟨h, hlh, by simpa using idle⟩
        · exact ⟨fail, fcLH _ ⟨hlh.le⟩, force _ _ rfl⟩
        · rename_i n
          split
          · split
            · rename_i hn
              exact fin b d hpb (by rw [hb]; simp) (by rw [hb]; simp)
            · rename_i hn
              refine fin (d.drop n :: b) (d.take n) ?_ (by rw [hb]; simp) (by rw [hb]; simp [← List.append_assoc])
              intro d' hd'
              rcases List.mem_cons.mp hd' with rfl | hd'
              · intro e; have := congrArg List.length e; simp only [List.length_drop, List.length_nil] at this; omega
              · exact hpb d' hd'
          · exact fin s.buffer [] h.pieces (Nat.le_refl _) (by simp)
    · split
      · exact ⟨h, hlh, by simpa using idle⟩
      · exact ⟨fail, fcLH _ ⟨hlh.le⟩, force _ _ rfl⟩
      · rename_i n
        split
        · rename_i hn
          have hle : min n (s.buffer.take max).flatten.length ≤ (s.buffer.take max).flatten.length := Nat.min_le_right _ _
          have hle' := Nat.le_trans hle (offered_le s.buffer max)
          refine fin _ _ (consume_nonempty _ _ h.pieces) ?_ ?_
          · rw [consume_flatten _ _ hle']; simp
          · rw [consume_flatten _ _ hle', offered_take _ _ _ hle, List.take_append_drop]
        · exact fin s.buffer [] h.pieces (Nat.le_refl _) (by simp)
  | writeEof =>
    simp only [State.step, dataOf]
    split
    · exact ⟨h, hlh, by simpa using idle⟩
    split
    · split <;> exact ⟨⟨h.pieces, h.writer, h.lost, h.above, h.stuck⟩, ⟨hlh.le⟩, ⟨by simp, by simp, by simp⟩⟩
    · exact ⟨⟨h.pieces, h.writer, h.lost, h.above, h.stuck⟩, ⟨hlh.le⟩, ⟨by simp, by simp, by simp⟩⟩
  | close =>
    simp only [State.step, dataOf]
    split
    · exact ⟨h, hlh, by simpa using idle⟩
    split
    · rename_i hb
      exact ⟨⟨by simp [hb], by simp [hb], by simp [hb], by simp [State.size, hb], by simp⟩, ⟨hlh.le⟩, ⟨by simp, by simp, by simp⟩⟩
    · exact ⟨⟨h.pieces, h.writer, h.lost, h.above, h.stuck⟩, ⟨hlh.le⟩, ⟨by simp, by simp, by simp⟩⟩
  | abort =>
    simp only [State.step, dataOf]
    exact ⟨forceClose_inv s (fun hw => Or.inl (h.writer.mp hw)) (fun _ => h), fcLH s hlh, force s _ rfl⟩
  | runLost =>
    simp only [State.step, dataOf]
    split
    · exact ⟨h, hlh, by simpa using idle⟩
    · exact ⟨⟨h.pieces, h.writer, h.lost, h.above, h.stuck⟩, ⟨hlh.le⟩, ⟨by simp [State.callLost], by simp [State.callLost], by simp [State.callLost]⟩⟩
  | setLimits high low =>
    simp only [State.step, dataOf]
    generalize limits high low = lim
    split
    · exact ⟨h, hlh, by simpa using idleR⟩
    · rename_i hle
      obtain ⟨p, e, h1, h2⟩ := maybePause_eq { s with high := lim.1, low := lim.2 }
      rw [e]
      refine ⟨⟨h.pieces, h.writer, h.lost, fun hs => h1 hs, ?_⟩, ⟨by simp only; omega⟩, ⟨by simp, by simp, by simp⟩⟩
      intro hp hl
      rcases h2 hp with h' | h'
      · exact h.stuck h' hl
      · intro hb
        simp only at hb
        simp [State.size, hb] at h'

theorem inv_init : Inv {} := ⟨by simp, by simp, by simp, by simp [State.size], by simp⟩
theorem lowHigh_init : LowHigh {} := ⟨by simp⟩

theorem runAll_inv (max : Nat) (ops : List Op) : ∀ s : State, Inv s → LowHigh s → Inv (s.runAll max ops) ∧ LowHigh (s.runAll max ops) := by
  induction ops with
  | nil => intro s h1 h2; exact ⟨h1, h2⟩
  | cons op ops ih =>
    intro s h1 h2
    have := buffer_step max s h1 h2 op
    exact ih _ this.1 this.2.1

theorem bytes_gen (max : Nat) (ops : List Op) : ∀ s : State, Inv s → LowHigh s →
    (s.lost = true → handed (trace max s ops) = [] ∧ (s.runAll max ops).lost = true) ∧
    (s.lost = false → handed (trace max s ops) <+: s.buffer.flatten ++ written (trace max s ops)) ∧
    ((s.runAll max ops).lost = false →
      handed (trace max s ops) ++ (s.runAll max ops).buffer.flatten = s.buffer.flatten ++ written (trace max s ops)) := by
  induction ops with
  | nil => intro s _ _; simp [handed, written, trace, State.runAll]
  | cons op ops ih =>
    intro s hi hl
    obtain ⟨hi', hl', hm⟩ := buffer_step max s hi hl op
    obtain ⟨i1, i2, i3⟩ := ih _ hi' hl'
    have eh : handed (trace max s (op :: ops)) = (s.step max op).2.sent ++ handed (trace max (s.step max op).1 ops) := by
      simp [handed, trace]
    have ew : written (trace max s (op :: ops)) = dataOf op (s.step max op).2 ++ written (trace max (s.step max op).1 ops) := by
      cases op <;> simp [written, trace, dataOf]
    have er : s.runAll max (op :: ops) = (s.step max op).1.runAll max ops := rfl
    rw [eh, ew, er]
    refine ⟨fun hlost => ?_, fun hlost => ?_, fun hfin => ?_⟩
    · have := hm.mono hlost
      rw [this.2, (i1 this.1).1]
      exact ⟨rfl, (i1 this.1).2⟩
    · cases hx : (s.step max op).1.lost with
      | true =>
        rw [(i1 hx).1]
        have := hm.lost hx hlost
        rw [List.append_nil, ← List.append_assoc]
        exact this.trans (List.prefix_append _ _)
      | false =>
        have e := hm.bytes hx
        rw [← List.append_assoc, ← e, List.append_assoc]
        exact (List.prefix_append_right_inj _).mpr (i2 hx)
    · cases hx : (s.step max op).1.lost with
      | true => rw [(i1 hx).2] at hfin; simp at hfin
      | false =>
        have e := hm.bytes hx
        rw [List.append_assoc, i3 hfin, ← List.append_assoc, e, List.append_assoc]

/-- C31. The bytes accepted by the socket are a prefix of the data written. -/
theorem C31_prefix (max : Nat) (ops : List Op) : handed (trace max {} ops) <+: written (trace max {} ops) := by
  have := (bytes_gen max ops {} inv_init lowHigh_init).2.1 rfl
  simpa using this

/-- C31. While the connection is not lost, the rest is what is buffered. -/
theorem C31_rest (max : Nat) (ops : List Op) (h : (({} : State).runAll max ops).lost = false) :
    handed (trace max {} ops) ++ (({} : State).runAll max ops).buffer.flatten = written (trace max {} ops) := by
  have := (bytes_gen max ops {} inv_init lowHigh_init).2.2 h
  simpa using this

/-- C31. While bytes are buffered, the loop calls `_write_ready`; it does so only then, so `_write_ready` finds a buffer. -/
theorem C31_writer (max : Nat) (ops : List Op) :
    (({} : State).runAll max ops).writer = true ↔ (({} : State).runAll max ops).buffer ≠ [] :=
  (runAll_inv max ops {} inv_init lowHigh_init).1.writer

/-- C31. When the buffer drains, all of it was sent. -/
theorem C31_drained (max : Nat) (ops : List Op) (h : (({} : State).runAll max ops).lost = false)
    (hb : (({} : State).runAll max ops).buffer = []) : handed (trace max {} ops) = written (trace max {} ops) := by
  have := C31_rest max ops h
  rw [hb] at this
  simpa using this

/-- Instance: two writes, the socket accepting one, then three bytes. -/
example :
    let ops : List Op := [.write [1, 2, 3] (.accepts 1), .write [4, 5] .blocks, .writeReady (.accepts 3), .writeReady .blocks]
    handed (trace 16 {} ops) = [1, 2, 3, 4] ∧ (({} : State).runAll 16 ops).buffer = [[5]] := by decide +kernel

/-! ### flow control -/

theorem alternate_append (a b : List Note) : ∀ p, Alternate p (a ++ b) ↔ Alternate p a ∧ Alternate (pausedAfter p a) b := by
  induction a with
  | nil => intro p; simp [Alternate, pausedAfter]
  | cons n a ih =>
    intro p
    cases n <;> simp [Alternate, pausedAfter, ih, and_assoc]

theorem pausedAfter_append (a b : List Note) : ∀ p, pausedAfter p (a ++ b) = pausedAfter (pausedAfter p a) b := by
  induction a with
  | nil => intro p; rfl
  | cons n a ih => intro p; cases n <;> simp [pausedAfter, ih]

theorem maybePause_notes (s : State) : (s.protocol = true → Alternate s.paused s.maybePause.2 ∧ pausedAfter s.paused s.maybePause.2 = s.maybePause.1.paused) ∧
    (s.protocol = false → s.maybePause.2 = []) ∧ s.maybePause.1.protocol = s.protocol := by
  unfold State.maybePause
  split
  · simp [Alternate, pausedAfter]
  · split
    · simp [Alternate, pausedAfter]
    · rename_i h; cases hp : s.protocol <;> simp_all [Alternate, pausedAfter]

theorem maybeResume_notes (s : State) : (s.protocol = true → Alternate s.paused s.maybeResume.2 ∧ pausedAfter s.paused s.maybeResume.2 = s.maybeResume.1.paused) ∧
    (s.protocol = false → s.maybeResume.2 = []) ∧ s.maybeResume.1.protocol = s.protocol := by
  unfold State.maybeResume
  split
  · simp [Alternate, pausedAfter]
  · rename_i h
    cases hp : s.protocol <;> cases hq : s.paused <;> simp_all [Alternate, pausedAfter]

/-- What a step notifies. -/
structure Notified (s : State) (r : State × List Note) : Prop where
  alt : s.protocol = true → Alternate s.paused r.2 ∧ (r.1.protocol = true → pausedAfter s.paused r.2 = r.1.paused)
  gone : s.protocol = false → r.2 = [] ∧ r.1.protocol = false
  conn : s.protocol = true → (r.1.protocol = false ↔ .connectionLost ∈ r.2)

theorem notified_same (s s' : State) (h : s'.paused = s.paused) (h' : s'.protocol = s.protocol) : Notified s (s', []) := by
  constructor <;> simp [Alternate, pausedAfter, h, h']

theorem maybePause_notified (s s₀ : State) (h : s.paused = s₀.paused) (h' : s.protocol = s₀.protocol) : Notified s₀ s.maybePause := by
  obtain ⟨a, b, c⟩ := maybePause_notes s
  rw [h, h'] at a
  rw [h'] at b c
  refine ⟨fun hp => ⟨(a hp).1, fun _ => (a hp).2⟩, fun hp => ⟨b hp, by rw [c, hp]⟩, fun hp => ?_⟩
  rw [c, hp]
  unfold State.maybePause
  split
  · simp
  · split
    · simp
    · split <;> simp

theorem forceClose_same (s : State) : s.forceClose.paused = s.paused ∧ s.forceClose.protocol = s.protocol := by
  unfold State.forceClose; split <;> simp

theorem afterSend_notified (s s₀ : State) (h : s.paused = s₀.paused) (h' : s.protocol = s₀.protocol) (sent : Bytes) :
    Notified s₀ ((s.afterSend sent).1, (s.afterSend sent).2.notes) := by
  have key : Notified s ((s.afterSend sent).1, (s.afterSend sent).2.notes) := by
    obtain ⟨a, b, c⟩ := maybeResume_notes s
    have nl : .connectionLost ∉ s.maybeResume.2 := by
      unfold State.maybeResume
      split
      · simp
      · cases s.protocol <;> simp
    have base : ∀ s' : State, s'.paused = s.maybeResume.1.paused → s'.protocol = s.protocol → Notified s (s', s.maybeResume.2) := by
      intro s' e1 e2
      refine ⟨fun hp => ⟨(a hp).1, fun _ => by rw [e1]; exact (a hp).2⟩, fun hp => ⟨b hp, by rw [e2, hp]⟩, fun hp => ?_⟩
      simp only
      rw [e2, hp]
      simp [nl]
    unfold State.afterSend
    simp only
    split
    · split
      · simp only [State.callLost]
        refine ⟨fun hp => ⟨?_, by simp⟩, fun hp => ?_, fun hp => ?_⟩
        · rw [alternate_append]
          refine ⟨(a hp).1, ?_⟩
          split <;> simp [Alternate]
        · simp [b hp, c, hp]
        · simp [c, hp]
      · exact base _ rfl c
    · exact base _ rfl c
  exact ⟨by rw [← h, ← h']; exact key.alt, by rw [← h']; exact key.gone, by rw [← h']; exact key.conn⟩

theorem afterSend_notified' (s' s₀ : State) (sent : Bytes) (h : s' = { s₀ with buffer := s'.buffer }) :
    Notified s₀ ((s'.afterSend sent).1, (s'.afterSend sent).2.notes) :=
  afterSend_notified s' s₀ (by rw [h]) (by rw [h]) sent

theorem step_notified (max : Nat) (s : State) (op : Op) : Notified s ((s.step max op).1, (s.step max op).2.notes) := by
  cases op with
  | write data send =>
    simp only [State.step]
    split
    · exact notified_same s s rfl rfl
    split
    · exact notified_same s s rfl rfl
    split
    · exact notified_same s s rfl rfl
    split
    · split
      · exact notified_same s _ (forceClose_same s).1 (forceClose_same s).2
      · split
        · exact notified_same s _ (forceClose_same s).1 (forceClose_same s).2
        · exact maybePause_notified { s with writer := true, buffer := s.buffer ++ [data] } s rfl rfl
        · split
          · exact notified_same s s rfl rfl
          · rename_i n _; exact maybePause_notified { s with writer := true, buffer := s.buffer ++ [data.drop n] } s rfl rfl
    · exact maybePause_notified { s with buffer := s.buffer ++ [data] } s rfl rfl
  | writeReady send =>
    have fc : Notified s (({ s with writer := false, buffer := [] } : State).forceClose, []) :=
      notified_same s _ (forceClose_same _).1 (forceClose_same _).2
    simp only [State.step]
    split
    · exact notified_same s s rfl rfl
    split
    · split
      · exact notified_same s s rfl rfl
      · split
        · exact notified_same s s rfl rfl
        · exact fc
        · split
          · split <;> exact afterSend_notified' _ s _ rfl
          · exact afterSend_notified' _ s _ rfl
    · split
      · exact notified_same s s rfl rfl
      · exact fc
      · split <;> exact afterSend_notified' _ s _ rfl
  | writeEof =>
    simp only [State.step]
    split
    · exact notified_same s s rfl rfl
    split
    · split <;> exact notified_same s _ rfl rfl
    · exact notified_same s _ rfl rfl
  | close =>
    simp only [State.step]
    split
    · exact notified_same s s rfl rfl
    split <;> exact notified_same s _ rfl rfl
  | abort => exact notified_same s _ (forceClose_same s).1 (forceClose_same s).2
  | runLost =>
    simp only [State.step]
    split
    · exact notified_same s s rfl rfl
    · simp only [State.callLost]
      constructor <;> cases hp : s.protocol <;> simp [Alternate, pausedAfter]
  | setLimits high low =>
    simp only [State.step]
    split
    · exact notified_same s s rfl rfl
    · exact maybePause_notified _ s rfl rfl

theorem notes_gen (max : Nat) (ops : List Op) : ∀ s : State, Notified s (s.runAll max ops, notes (trace max s ops)) := by
  induction ops with
  | nil => intro s; exact notified_same s s rfl rfl
  | cons op ops ih =>
    intro s
    have h1 := step_notified max s op
    have h2 := ih (s.step max op).1
    have en : notes (trace max s (op :: ops)) = (s.step max op).2.notes ++ notes (trace max (s.step max op).1 ops) := by
      simp [notes, trace]
    have er : s.runAll max (op :: ops) = (s.step max op).1.runAll max ops := rfl
    rw [en, er]
    cases hp : (s.step max op).1.protocol with
    | true =>
      refine ⟨fun hs => ?_, fun hs => ?_, fun hs => ?_⟩
      · have a1 := h1.alt hs
        have a2 := h2.alt hp
        simp only at a1 a2
        rw [alternate_append, pausedAfter_append, a1.2 hp]
        exact ⟨⟨a1.1, a2.1⟩, a2.2⟩
      · have := (h1.gone hs).2; simp only at this; rw [hp] at this; simp at this
      · have c1 := h1.conn hs
        have c2 := h2.conn hp
        simp only [hp] at c1 c2
        have c1 : Note.connectionLost ∉ (s.step max op).2.notes := by simpa using c1
        simp [c2, c1]
    | false =>
      have g2 := h2.gone hp
      refine ⟨fun hs => ?_, fun hs => ?_, fun hs => ?_⟩
      · have a1 := h1.alt hs
        simp only at a1 g2
        rw [g2.1, List.append_nil]
        exact ⟨a1.1, fun h => by rw [g2.2] at h; simp at h⟩
      · simp only at g2
        have e := (h1.gone hs).1
        simp only at e
        exact ⟨by simp [g2.1, e], g2.2⟩
      · have c1 := h1.conn hs
        simp only [hp] at c1
        simp only at g2
        have c1 : Note.connectionLost ∈ (s.step max op).2.notes := by simpa using c1
        rw [g2.1, g2.2, List.append_nil]
        exact ⟨fun _ => c1, fun _ => rfl⟩

/-- C32. The notifications alternate, beginning with a pause. -/
theorem C32_alternate (max : Nat) (ops : List Op) : Alternate false (notes (trace max {} ops)) :=
  ((notes_gen max ops {}).alt rfl).1

/-- C32. Whenever more than the high mark is buffered - after a write, or after changing the marks - the protocol is paused, as long as it
was not told that the connection is lost. -/
theorem C32_paused_above (max : Nat) (ops : List Op) (hp : .connectionLost ∉ notes (trace max {} ops))
    (h : (({} : State).runAll max ops).size > (({} : State).runAll max ops).high) : pausedAfter false (notes (trace max {} ops)) = true := by
  have hn := notes_gen max ops {}
  have hpr : (({} : State).runAll max ops).protocol = true := by
    cases e : (({} : State).runAll max ops).protocol with
    | true => rfl
    | false => exact absurd ((hn.conn rfl).mp e) hp
  rw [(hn.alt rfl).2 hpr]
  exact (runAll_inv max ops {} inv_init lowHigh_init).1.above h

/-- C32. After a send that leaves at most the low mark buffered, the protocol is not paused. -/
theorem C32_resumed_below (max : Nat) (ops : List Op) (n : Nat)
    (hp : .connectionLost ∉ notes (trace max {} (ops ++ [.writeReady (.accepts n)])))
    (hw : (({} : State).runAll max ops).writer = true)
    (h : (({} : State).runAll max (ops ++ [.writeReady (.accepts n)])).size ≤ (({} : State).runAll max (ops ++ [.writeReady (.accepts n)])).low) :
    pausedAfter false (notes (trace max {} (ops ++ [.writeReady (.accepts n)]))) = false := by
  have hn := notes_gen max (ops ++ [.writeReady (.accepts n)]) {}
  have hpr : (({} : State).runAll max (ops ++ [.writeReady (.accepts n)])).protocol = true := by
    cases e : (({} : State).runAll max (ops ++ [.writeReady (.accepts n)])).protocol with
    | true => rfl
    | false => exact absurd ((hn.conn rfl).mp e) hp
  rw [(hn.alt rfl).2 hpr]
  simp only
  have er : ({} : State).runAll max (ops ++ [.writeReady (.accepts n)]) = ((({} : State).runAll max ops).step max (.writeReady (.accepts n))).1 := by
    simp [State.runAll]
  obtain ⟨hi, hlh⟩ := runAll_inv max ops {} inv_init lowHigh_init
  rw [er] at h ⊢
  generalize ({} : State).runAll max ops = s at *
  have hl : s.lost = false := by
    cases e : s.lost with
    | false => rfl
    | true => exact absurd (hi.lost e) (hi.writer.mp hw)
  have as : ∀ (s : State) (sent : Bytes), (s.afterSend sent).1.size ≤ (s.afterSend sent).1.low → (s.afterSend sent).1.paused = false := by
    intro s sent hs
    obtain ⟨e1, -, -, -, e5⟩ := afterSend_buffer s sent
    have : s.size ≤ s.low := by
      have e : (s.afterSend sent).1.size = s.size := by unfold State.size; rw [e1]
      rw [e, e5] at hs; exact hs
    obtain ⟨p, e, h1, -⟩ := maybeResume_eq s
    unfold State.afterSend
    simp only [e, h1 this]
    split
    · split <;> rfl
    · rfl
  simp only [State.step, hw, hl] at h ⊢
  simp only [Bool.not_true, Bool.or_self, Bool.false_eq_true, if_false] at h ⊢
  by_cases hm : max = 0
  · simp only [hm, if_true] at h ⊢
    cases hb : s.buffer with
    | nil => exact absurd hb (hi.writer.mp hw)
    | cons d b =>
      simp only [hb] at h ⊢
      by_cases hn0 : n > 0
      · simp only [hn0, if_true] at h ⊢
        by_cases hge : n ≥ d.length
        · simp only [hge, if_true] at h ⊢; exact as _ _ h
        · simp only [hge, if_false] at h ⊢; exact as _ _ h
      · simp only [hn0, if_false] at h ⊢; exact as _ _ h
  · simp only [hm, if_false] at h ⊢
    by_cases hn0 : min n (s.buffer.take max).flatten.length > 0
    · simp only [hn0, if_true] at h ⊢; exact as _ _ h
    · simp only [hn0, if_false] at h ⊢; exact as _ _ h

/-- C32. While the protocol is paused and the connection is not lost, there are bytes to send and the loop watches the socket: the protocol
is not left paused with nothing to come. -/
theorem C32_not_stuck (max : Nat) (ops : List Op) (hl : (({} : State).runAll max ops).lost = false)
    (hp : .connectionLost ∉ notes (trace max {} ops)) (h : pausedAfter false (notes (trace max {} ops)) = true) :
    (({} : State).runAll max ops).writer = true ∧ (({} : State).runAll max ops).buffer ≠ [] := by
  have hi := (runAll_inv max ops {} inv_init lowHigh_init).1
  have hn := notes_gen max ops {}
  have hpr : (({} : State).runAll max ops).protocol = true := by
    cases e : (({} : State).runAll max ops).protocol with
    | true => rfl
    | false => exact absurd ((hn.conn rfl).mp e) hp
  rw [(hn.alt rfl).2 hpr] at h
  have := hi.stuck h hl
  exact ⟨hi.writer.mpr this, this⟩

/-- Instance: paused above a high mark of four, resumed when one byte is left. -/
example :
    let ops : List Op := [.setLimits (some 4) none, .write [1, 2, 3] .blocks, .write [4, 5] .blocks, .writeReady (.accepts 3), .writeReady (.accepts 1)]
    notes (trace 0 {} ops) = [.pause, .resume] ∧ (({} : State).runAll 0 ops).buffer = [[5]] := by decide +kernel

end Verif.Transport
