import Verif.WebSocketSession.Lemmas

/-!
Properties C110 (messages are put together as they were sent) and C111 (the size of a message).
-/
namespace Verif.WebSocketSession
open Verif.WebSocket

/-! ### RFC 6455, 5.4 -/

/-- The frames of a message in pieces: all but the last are not final, all but the first are continuations. -/
def fragments (op : Byte) : List Bytes → List Frame
  | [] => []
  | [d] => [Frame.new true op d]
  | d :: d' :: ds => Frame.new false op d :: fragments 0 (d' :: ds)

/-- The frames of a message whose end is still to come. -/
def begun (op : Byte) : List Bytes → List Frame
  | [] => []
  | d :: ds => Frame.new false op d :: begun 0 ds

/-- `received` is `data` with control frames in between, which satisfy `P`. -/
inductive Mixed (P : Frame → Prop) : List Frame → List Frame → Prop
  | nil : Mixed P [] []
  | data (f : Frame) {data received : List Frame} : Mixed P data received → Mixed P (f :: data) (f :: received)
  | control {f : Frame} {data received : List Frame} : P f → Mixed P data received → Mixed P data (f :: received)

theorem Mixed.append {P : Frame → Prop} {a b x y : List Frame} (h : Mixed P a x) (k : Mixed P b y) : Mixed P (a ++ b) (x ++ y) := by
  induction h with
  | nil => exact k
  | data f _ ih => exact .data f ih
  | control hf _ ih => exact .control hf ih

theorem Mixed.all {P : Frame → Prop} (l : List Frame) : Mixed P l l := by
  induction l with
  | nil => exact .nil
  | cons f l ih => exact .data f ih

/-- The code of the first frame of a message, and the bytes of it. -/
def Message.code : Message → Byte
  | .text _ => 1
  | .binary _ => 2

/-- `data` are the bytes of the message. -/
def Message.Is (c : Codec) : Message → Bytes → Prop
  | .text t, data => c.decode data = some t
  | .binary b, data => data = b

/-! ### C110, what is sent is received -/

/-- Nothing is wrong, and a control frame can be received. -/
structure Calm (s : Session) : Prop where
  phase : s.phase = .opened
  ended : s.ended = none
  stuck : s.stuck = false
  room : 125 ≤ s.room

/-- A ping, or for a client a pong that was not asked for. -/
def Harmless (c : Config) (f : Frame) : Prop :=
  (∃ d, f = Frame.new true 9 d ∧ d.length ≤ 125) ∨ (c.client = true ∧ ∃ d, f = Frame.new true 10 d ∧ d.length ≤ 125)

/-- The pongs which answer the pings among the frames. -/
def pongsFor (fs : List Frame) : List (Byte × Bytes) := (fs.filter fun f => f.operationCode = 9).map fun f => (10, f.data)

theorem frame_ping {c : Config} {s : Session} (hs : Calm s) (d : Bytes) (hd : d.length ≤ 125) :
    s.frame c (Frame.new true 9 d) = { s with wire := s.wire ++ [(10, d)] } := by
  unfold Session.frame
  rw [C04_constructed_frame_valid true 9 d (Or.inr ⟨by simp, rfl, hd⟩), new_op true 9 (by decide) d, new_data]
  rw [if_neg (by have := hs.room; omega)]
  dsimp only
  rw [if_neg (by decide), if_neg (by decide), if_pos (by decide)]
  unfold Session.pingFrame
  rw [hs.phase]

theorem frame_pong {c : Config} {s : Session} (hs : Calm s) (hc : c.client = true) (hp : s.pings = []) (d : Bytes)
    (hd : d.length ≤ 125) : s.frame c (Frame.new true 10 d) = s := by
  unfold Session.frame
  rw [C04_constructed_frame_valid true 10 d (Or.inr ⟨by simp, rfl, hd⟩), new_op true 10 (by decide) d, new_data]
  rw [if_neg (by have := hs.room; omega)]
  dsimp only
  rw [if_neg (by decide), if_neg (by decide), if_neg (by decide)]
  unfold Session.pongFrame
  rw [if_pos hc, hp]
  rfl

/-- All the sessions on the way are calm. -/
def AllCalm (c : Config) : Session → List Frame → Prop
  | s, [] => Calm s
  | s, f :: fs => Calm s ∧ (f.operationCode = 0 ∨ f.operationCode = 1 ∨ f.operationCode = 2) ∧ AllCalm c (s.frame c f) fs

theorem AllCalm.head {c : Config} {s : Session} {fs : List Frame} (h : AllCalm c s fs) : Calm s := by
  cases fs with
  | nil => exact h
  | cons f fs => exact h.1

theorem frame_wire {c : Config} {s : Session} {f : Frame} (hop : f.operationCode = 0 ∨ f.operationCode = 1 ∨ f.operationCode = 2)
    (he : (s.frame c f).ended = none) (w : List (Byte × Bytes)) :
    ({ s with wire := w } : Session).frame c f = { s.frame c f with wire := w } ∧ (s.frame c f).wire = s.wire ∧
      (s.frame c f).pings = s.pings := by
  obtain ⟨h1, h2, h3⟩ := frame_cases he
  have e : ∀ s' : Session, s'.room = s.room → s'.frame c f = s'.dataFrame c f := by
    intro s' hr
    unfold Session.frame
    rw [hr, if_neg (by omega), h2]
    dsimp only
    rw [if_pos hop]
  rw [e s rfl] at he ⊢
  rw [e { s with wire := w } rfl]
  have hd := dataFrame_cases hop he
  unfold Session.dataFrame Session.deliver at hd ⊢
  rcases hd with ⟨hp, h0, hd⟩ | ⟨text, datas, hp, h0, hd⟩
  · simp only [hp] at hd ⊢
    rw [if_neg h0] at hd
    rw [if_neg h0, if_neg h0]
    rcases hd with ⟨hf, m, hm, hk⟩ | ⟨hf, hm⟩
    · rw [if_pos hf] at hm
      rw [if_pos hf, if_pos hf]
      rcases hk with ⟨ho, t, rfl, ht⟩ | ⟨ho, rfl⟩
      · simp [ho, ht]
      · simp [ho]
    · have hf' : ¬ f.final = true := by simp [hf]
      rw [if_neg hf', if_neg hf']
      exact ⟨rfl, rfl, rfl⟩
  · simp only [hp] at hd ⊢
    have h0' : ¬ (f.operationCode ≠ 0) := by simp [h0]
    rw [if_neg h0'] at hd
    rw [if_neg h0', if_neg h0']
    rcases hd with ⟨hf, m, hm, hk⟩ | ⟨hf, hm⟩
    · rw [if_pos hf, if_pos hf]
      rcases hk with ⟨ho, t, rfl, ht⟩ | ⟨ho, rfl⟩
      · simp only [ho, ht, if_true]; exact ⟨trivial, trivial, trivial⟩
      · simp [ho]
    · have hf' : ¬ f.final = true := by simp [hf]
      rw [if_neg hf', if_neg hf']
      exact ⟨rfl, rfl, rfl⟩

theorem AllCalm.wire {c : Config} {s : Session} {fs : List Frame} (h : AllCalm c s fs) (w : List (Byte × Bytes)) :
    AllCalm c { s with wire := w } fs := by
  induction fs generalizing s with
  | nil => exact ⟨h.1, h.2, h.3, h.4⟩
  | cons f fs ih =>
    obtain ⟨h1, h2, h3⟩ := h
    refine ⟨⟨h1.1, h1.2, h1.3, h1.4⟩, h2, ?_⟩
    rw [(frame_wire h2 h3.head.ended w).1]
    exact ih h3

/-- Control frames in between only add pongs. -/
theorem run_mixed {c : Config} {data received : List Frame} (h : Mixed (Harmless c) data received) (s : Session) (hp : s.pings = [])
    (hs : AllCalm c s data) :
    s.run c (received.map .frame) = { s.run c (data.map .frame) with wire := s.wire ++ pongsFor received } := by
  induction h generalizing s with
  | nil => simp [pongsFor, run_nil]
  | @data f ds rs _ ih =>
    obtain ⟨h1, h2, h3⟩ := hs
    have hw := frame_wire h2 h3.head.ended s.wire
    rw [List.map_cons, List.map_cons, run_cons, run_cons, step_frame h1.ended h1.stuck, ih _ (by rw [hw.2.2, hp]) h3, hw.2.1]
    have h9 : f.operationCode ≠ 9 := by rcases h2 with h | h | h <;> rw [h] <;> decide
    simp [pongsFor, h9]
  | @control f ds rs hf _ ih =>
    have h1 := hs.head
    rw [List.map_cons, run_cons, step_frame h1.ended h1.stuck]
    rcases hf with ⟨d, rfl, hd⟩ | ⟨hc, d, rfl, hd⟩
    · rw [frame_ping h1 d hd, ih { s with wire := s.wire ++ [(10, d)] } hp (hs.wire _)]
      have hrun : ∀ (fs : List Frame) (s : Session) (w : List (Byte × Bytes)), AllCalm c s fs →
          (({ s with wire := w } : Session).run c (fs.map .frame)) = { s.run c (fs.map .frame) with wire := w } := by
        intro fs
        induction fs with
        | nil => intro s w _; rfl
        | cons f fs ih =>
          intro s w hs
          obtain ⟨h1, h2, h3⟩ := hs
          rw [List.map_cons, run_cons, run_cons, step_frame h1.ended h1.stuck, step_frame (s := { s with wire := w }) h1.ended h1.stuck,
            (frame_wire h2 h3.head.ended w).1, ih _ _ h3]
      rw [hrun _ _ _ hs]
      simp [pongsFor, new_op true 9 (by decide) d, new_data]
    · rw [frame_pong h1 hc hp d hd, ih _ hp hs]
      simp [pongsFor, new_op true 10 (by decide) d]

/-- The frames of one message, of which some were received. -/
theorem run_continued {c : Config} (text : Bool) (ds : List Bytes) (hne : ds ≠ []) (s : Session) (hs : Calm s) (before : List Bytes)
    (hp : s.parts = some (text, before)) (hr : ds.flatten.length + 125 ≤ s.room) (m : Message)
    (hm : (text = true ∧ ∃ t, m = .text t ∧ c.codec.decode (before ++ ds).flatten = some t) ∨
      (text = false ∧ m = .binary (before ++ ds).flatten)) (hmax : 125 ≤ c.maxSize) :
    AllCalm c s (fragments 0 ds) ∧ s.run c ((fragments 0 ds).map .frame) =
      { s with messages := s.messages ++ [m], parts := none, room := c.maxSize } := by
  induction ds generalizing s before with
  | nil => exact absurd rfl hne
  | cons d ds ih =>
    have hfr : ∀ b, (s.frame c (Frame.new b 0 d)) = s.dataFrame c (Frame.new b 0 d) := by
      intro b
      unfold Session.frame
      rw [C04_constructed_frame_valid b 0 d (Or.inl (by simp)), new_op b 0 (by decide) d, new_data, if_neg (by simp at hr; omega)]
      rfl
    cases ds with
    | nil =>
      have e : s.frame c (Frame.new true 0 d) = { s with messages := s.messages ++ [m], parts := none, room := c.maxSize } := by
        rw [hfr]
        unfold Session.dataFrame Session.deliver
        rw [hp]
        dsimp only
        rw [new_op true 0 (by decide) d, new_final true 0 (by decide) d, new_data, if_neg (by decide), if_pos rfl]
        rcases hm with ⟨rfl, t, rfl, ht⟩ | ⟨rfl, rfl⟩
        · rw [ht]; rfl
        · rfl
      refine ⟨⟨hs, Or.inl (new_op true 0 (by decide) d), ?_⟩, ?_⟩
      · rw [e]; exact ⟨hs.1, hs.2, hs.3, hmax⟩
      · show (s.step c (.frame (Frame.new true 0 d))).1.run c [] = _
        rw [step_frame hs.ended hs.stuck, e]; rfl
    | cons d' ds =>
      have e : s.frame c (Frame.new false 0 d) = { s with parts := some (text, before ++ [d]), room := s.room - d.length } := by
        rw [hfr]
        unfold Session.dataFrame
        rw [hp]
        dsimp only
        rw [new_op false 0 (by decide) d, new_final false 0 (by decide) d, new_data, if_neg (by decide), if_neg (by decide)]
      have hr' : (d' :: ds).flatten.length + 125 ≤ s.room - d.length := by
        simp only [List.flatten_cons, List.length_append] at hr ⊢; omega
      obtain ⟨h1, h2⟩ := ih (by simp) { s with parts := some (text, before ++ [d]), room := s.room - d.length }
        ⟨hs.1, hs.2, hs.3, by dsimp only; omega⟩ (before ++ [d]) rfl hr' (by rw [List.append_assoc]; exact hm)
      refine ⟨⟨hs, Or.inl (new_op false 0 (by decide) d), ?_⟩, ?_⟩
      · rw [e]; exact h1
      · rw [fragments, List.map_cons, run_cons, step_frame hs.ended hs.stuck, e, h2]

theorem run_message {c : Config} (m : Message) (ds : List Bytes) (hne : ds ≠ []) (s : Session) (hs : Calm s) (hp : s.parts = none)
    (hr : ds.flatten.length + 125 ≤ c.maxSize) (hroom : s.room = c.maxSize) (hm : m.Is c.codec ds.flatten) :
    AllCalm c s (fragments m.code ds) ∧ s.run c ((fragments m.code ds).map .frame) = { s with messages := s.messages ++ [m] } := by
  have hcode : m.code = 1 ∨ m.code = 2 := by cases m <;> simp [Message.code]
  have hlt : m.code.toNat < 16 := by rcases hcode with h | h <;> rw [h] <;> decide
  have hmem : m.code ∈ [(0 : Byte), 1, 2] := by rcases hcode with h | h <;> rw [h] <;> simp
  have hself : ({ s with messages := s.messages ++ [m], parts := none, room := c.maxSize } : Session) =
      { s with messages := s.messages ++ [m] } := by rw [← hp, ← hroom]
  match ds, hne with
  | d :: ds, _ =>
    have hfr : ∀ b, (s.frame c (Frame.new b m.code d)) = s.dataFrame c (Frame.new b m.code d) := by
      intro b
      unfold Session.frame
      rw [C04_constructed_frame_valid b m.code d (Or.inl hmem), new_op b m.code hlt d, new_data, if_neg (by simp at hr; omega)]
      dsimp only
      rw [if_pos (by rcases hcode with h | h <;> simp [h])]
    have h0 : m.code ≠ 0 := by rcases hcode with h | h <;> rw [h] <;> decide
    cases ds with
    | nil =>
      have e : s.frame c (Frame.new true m.code d) = { s with messages := s.messages ++ [m], parts := none, room := c.maxSize } := by
        rw [hfr]
        unfold Session.dataFrame Session.deliver
        rw [hp]
        dsimp only
        rw [new_op true m.code hlt d, new_final true m.code hlt d, new_data, if_neg h0, if_pos rfl]
        cases m with
        | text t =>
          have : c.codec.decode d = some t := by simpa [Message.Is] using hm
          simp [Message.code, this]
        | binary b =>
          have : d = b := by simpa [Message.Is] using hm
          simp [Message.code, this]
      refine ⟨⟨hs, ?_, ?_⟩, ?_⟩
      · rw [new_op true m.code hlt d]; exact Or.inr hcode
      · rw [e]; exact ⟨hs.1, hs.2, hs.3, by rw [← hroom]; exact hs.4⟩
      · show (s.step c (.frame (Frame.new true m.code d))).1.run c [] = _
        rw [step_frame hs.ended hs.stuck, e, hself]; rfl
    | cons d' ds =>
      have e : s.frame c (Frame.new false m.code d) =
          { s with parts := some (decide (m.code = 1), [d]), room := c.maxSize - d.length } := by
        rw [hfr]
        unfold Session.dataFrame
        rw [hp]
        dsimp only
        rw [new_op false m.code hlt d, new_final false m.code hlt d, new_data, if_neg h0, if_neg (by decide)]
      have hr' : (d' :: ds).flatten.length + 125 ≤ c.maxSize - d.length := by
        simp only [List.flatten_cons, List.length_append] at hr ⊢; omega
      have hm' : (decide (m.code = 1) = true ∧ ∃ t, m = .text t ∧ c.codec.decode ([d] ++ d' :: ds).flatten = some t) ∨
          (decide (m.code = 1) = false ∧ m = .binary ([d] ++ d' :: ds).flatten) := by
        cases m with
        | text t => exact Or.inl ⟨rfl, t, rfl, hm⟩
        | binary b => exact Or.inr ⟨rfl, congrArg _ hm.symm⟩
      obtain ⟨h1, h2⟩ := run_continued (c := c) _ (d' :: ds) (by simp)
        { s with parts := some (decide (m.code = 1), [d]), room := c.maxSize - d.length } ⟨hs.1, hs.2, hs.3, by dsimp only; omega⟩
        [d] rfl hr' m hm' (by omega)
      refine ⟨⟨hs, ?_, ?_⟩, ?_⟩
      · rw [new_op false m.code hlt d]; exact Or.inr hcode
      · rw [e]; exact h1
      · rw [fragments, List.map_cons, run_cons, step_frame hs.ended hs.stuck, e, h2, ← hself]

theorem AllCalm.append {c : Config} {s : Session} {a b : List Frame} (ha : AllCalm c s a) (hb : AllCalm c (s.run c (a.map .frame)) b) :
    AllCalm c s (a ++ b) := by
  induction a generalizing s with
  | nil => exact hb
  | cons f a ih =>
    obtain ⟨h1, h2, h3⟩ := ha
    refine ⟨h1, h2, ih h3 ?_⟩
    rw [List.map_cons, run_cons, step_frame h1.ended h1.stuck] at hb
    exact hb

theorem run_messages {c : Config} (sent : List (Message × List Bytes)) (s : Session) (hs : Calm s) (hp : s.parts = none)
    (hroom : s.room = c.maxSize)
    (h : ∀ e ∈ sent, e.2 ≠ [] ∧ e.1.Is c.codec e.2.flatten ∧ e.2.flatten.length + 125 ≤ c.maxSize) :
    AllCalm c s (sent.flatMap fun e => fragments e.1.code e.2) ∧
      s.run c ((sent.flatMap fun e => fragments e.1.code e.2).map .frame) = { s with messages := s.messages ++ sent.map (·.1) } := by
  induction sent generalizing s with
  | nil => exact ⟨hs, by simp [run_nil]⟩
  | cons e sent ih =>
    obtain ⟨h1, h2, h3⟩ := h e List.mem_cons_self
    obtain ⟨k1, k2⟩ := run_message e.1 e.2 h1 s hs hp h3 hroom h2
    obtain ⟨k3, k4⟩ := ih { s with messages := s.messages ++ [e.1] } ⟨hs.1, hs.2, hs.3, hs.4⟩ hp hroom
      (fun x hx => h x (List.mem_cons_of_mem _ hx))
    rw [List.flatMap_cons]
    refine ⟨k1.append (by rw [k2]; exact k3), ?_⟩
    rw [List.map_append, run_append, k2, k4]
    simp

/-- C110. Whatever messages are sent, into whatever pieces they are cut, and whatever pings (and for a client: pongs it did not ask for)
come in between: they are received, in order, nothing else is, the pings are answered in order, and it goes on.  (The size of a message
and of a control frame must not exceed the maximal size, see C111.) -/
theorem C110_received (c : Config) (sent : List (Message × List Bytes)) (received : List Frame)
    (h : ∀ e ∈ sent, e.2 ≠ [] ∧ e.1.Is c.codec e.2.flatten ∧ e.2.flatten.length + 125 ≤ c.maxSize) (hmax : 125 ≤ c.maxSize)
    (hmix : Mixed (Harmless c) (sent.flatMap fun e => fragments e.1.code e.2) received) :
    ((Session.initial c).run c (received.map .frame)).messages = sent.map (·.1) ∧
      ((Session.initial c).run c (received.map .frame)).wire = pongsFor received ∧
      ((Session.initial c).run c (received.map .frame)).ended = none ∧
      ((Session.initial c).run c (received.map .frame)).parts = none := by
  have hs : Calm (Session.initial c) := ⟨rfl, rfl, rfl, hmax⟩
  obtain ⟨h1, h2⟩ := run_messages sent (Session.initial c) hs rfl rfl h
  have h3 := run_mixed hmix (Session.initial c) rfl h1
  rw [h3, h2]
  refine ⟨rfl, rfl, rfl, rfl⟩

/-! ### C110, what is received was sent -/

theorem fragments_snoc (op : Byte) (ds : List Bytes) (d : Bytes) :
    fragments op (ds ++ [d]) = begun op ds ++ [Frame.new true (if ds = [] then op else 0) d] := by
  induction ds generalizing op with
  | nil => rfl
  | cons x ds ih =>
    cases ds with
    | nil => rfl
    | cons y ds =>
      have := ih 0
      simp only [List.cons_append] at this ⊢
      rw [fragments, this]
      simp [begun]

theorem begun_snoc (op : Byte) (ds : List Bytes) (d : Bytes) :
    begun op (ds ++ [d]) = begun op ds ++ [Frame.new false (if ds = [] then op else 0) d] := by
  induction ds generalizing op with
  | nil => rfl
  | cons x ds ih =>
    rw [List.cons_append, begun, ih, begun]
    simp

/-- The frames among the operations. -/
def framesOf (ops : List Op) : List Frame := ops.filterMap fun op => match op with
  | .frame f => some f
  | _ => none

/-- A ping or a pong as RFC 6455 allows it. -/
def Control (f : Frame) : Prop := ∃ d, d.length ≤ 125 ∧ (f = Frame.new true 9 d ∨ f = Frame.new true 10 d)

/-- What was received: messages in pieces, and maybe the begin of another one. -/
structure Explained (c : Config) (s : Session) (received : List Frame) : Prop where
  ex : ∃ (sent : List (Message × List Bytes)) (text : Bool) (rest : List Bytes),
    Mixed Control ((sent.flatMap fun e => fragments e.1.code e.2) ++ begun (if text then 1 else 2) rest) received ∧
    (∀ e ∈ sent, e.2 ≠ [] ∧ e.1.Is c.codec e.2.flatten ∧ e.2.flatten.length ≤ c.maxSize) ∧ s.messages = sent.map (·.1) ∧
    s.parts = (if rest = [] then none else some (text, rest)) ∧ rest.flatten.length + s.room = c.maxSize

theorem explained_step {c : Config} {s : Session} {received : List Frame} (h : Explained c s received) (f : Frame)
    (he : (s.frame c f).ended = none) : Explained c (s.frame c f) (received ++ [f]) := by
  obtain ⟨sent, text, rest, hm, hs, hms, hp, hr⟩ := h.ex
  obtain ⟨hlen, hck, hcase⟩ := frame_cases he
  have hnew := check_new hck
  rcases hcase with ⟨hop, hfr⟩ | ⟨hop, h125, hfr⟩ | ⟨hop, h125, -, -, hfr⟩
  · rw [hfr] at he ⊢
    rcases dataFrame_cases hop he with ⟨hpn, h0, hd⟩ | ⟨text', datas, hps, h0, hd⟩
    · have hrest : rest = [] := by
        rw [hpn] at hp
        by_cases hx : rest = []
        · exact hx
        · rw [if_neg hx] at hp; cases hp
      subst hrest
      simp only [begun, List.append_nil] at hm
      rcases hd with ⟨hfin, m, hd, hk⟩ | ⟨hfin, hd⟩
      · rw [hd]
        have hcode : f.operationCode = m.code := by
          rcases hk with ⟨ho, t, rfl, -⟩ | ⟨ho, rfl⟩ <;> rw [ho] <;> rfl
        refine ⟨sent ++ [(m, [f.data])], text, [], ?_, ?_, ?_, rfl, by simp⟩
        · rw [List.flatMap_append, begun, List.append_nil]
          refine hm.append ?_
          simp only [List.flatMap_cons, List.flatMap_nil, List.append_nil, fragments]
          rw [hnew, hfin, hcode, new_data]
          exact Mixed.all _
        · intro e he'
          rcases List.mem_append.1 he' with h | h
          · exact hs e h
          · rw [List.mem_singleton.1 h]
            refine ⟨by simp, ?_, by simp at hr ⊢; omega⟩
            rcases hk with ⟨ho, t, rfl, ht⟩ | ⟨ho, rfl⟩
            · simpa [Message.Is] using ht
            · simp [Message.Is]
        · simp [hms]
      · rw [hd]
        refine ⟨sent, decide (f.operationCode = 1), [f.data], ?_, hs, hms, by simp, ?_⟩
        · refine hm.append ?_
          have hcode : (if decide (f.operationCode = 1) = true then (1 : Byte) else 2) = f.operationCode := by
            rcases hop with h | h | h
            · exact absurd h h0
            · simp [h]
            · simp [h]
          rw [hcode, begun, begun, hnew, hfin, new_data, new_op false f.operationCode ?_]
          · exact Mixed.all _
          · rcases hop with h | h | h <;> rw [h] <;> decide
        · simp at hr ⊢; omega
    · have hrest : rest ≠ [] ∧ text = text' ∧ rest = datas := by
        rw [hps] at hp
        by_cases hx : rest = []
        · rw [if_pos hx] at hp; cases hp
        · rw [if_neg hx] at hp; cases hp; exact ⟨hx, rfl, rfl⟩
      obtain ⟨hx, rfl, rfl⟩ := hrest
      rcases hd with ⟨hfin, m, hd, hk⟩ | ⟨hfin, hd⟩
      · rw [hd]
        have hcode : (if text then 1 else 2 : Byte) = m.code := by
          rcases hk with ⟨rfl, t, rfl, -⟩ | ⟨rfl, rfl⟩ <;> rfl
        refine ⟨sent ++ [(m, rest ++ [f.data])], text, [], ?_, ?_, ?_, rfl, by simp⟩
        · have : Mixed Control (((sent.flatMap fun e => fragments e.1.code e.2) ++ begun (if text then 1 else 2) rest) ++ [f])
              (received ++ [f]) := hm.append (Mixed.all _)
          rw [List.flatMap_append, begun, List.append_nil, List.flatMap_cons, List.flatMap_nil, List.append_nil, fragments_snoc, if_neg hx,
            ← hcode, ← List.append_assoc]
          rw [show Frame.new true 0 f.data = f by rw [hnew, hfin, h0]; rfl]
          exact this
        · intro e he'
          rcases List.mem_append.1 he' with h | h
          · exact hs e h
          · rw [List.mem_singleton.1 h]
            refine ⟨by simp, ?_, ?_⟩
            · rcases hk with ⟨-, t, rfl, ht⟩ | ⟨-, rfl⟩
              · exact ht
              · rfl
            · simp only [List.flatten_append, List.flatten_cons, List.flatten_nil, List.append_nil, List.length_append]; omega
        · simp [hms]
      · rw [hd]
        refine ⟨sent, text, rest ++ [f.data], ?_, hs, hms, by simp, ?_⟩
        · have : Mixed Control (((sent.flatMap fun e => fragments e.1.code e.2) ++ begun (if text then 1 else 2) rest) ++ [f])
              (received ++ [f]) := hm.append (Mixed.all _)
          rw [begun_snoc, if_neg hx, ← List.append_assoc]
          rw [show Frame.new false 0 f.data = f by rw [hnew, hfin, h0]; rfl]
          exact this
        · simp only [List.flatten_append, List.flatten_cons, List.flatten_nil, List.append_nil, List.length_append]; omega
  · have hfin := (check_control hck (by rw [hop]; decide)).2.2
    have hmx : Mixed Control ((sent.flatMap fun e => fragments e.1.code e.2) ++ begun (if text then 1 else 2) rest) (received ++ [f]) := by
      have := hm.append (b := []) (y := [f]) (.control ⟨f.data, h125, Or.inl (by rw [← hfin, ← hop]; exact hnew)⟩ .nil)
      rwa [List.append_nil] at this
    rw [hfr] at he ⊢
    unfold Session.pingFrame at he ⊢
    split at he
    · exact ⟨sent, text, rest, hmx, hs, hms, hp, hr⟩
    · split at he
      · rename_i h0; rw [if_pos h0]; exact ⟨sent, text, rest, hmx, hs, hms, hp, hr⟩
      · simp [abort_ended] at he
    · simp [abort_ended] at he
  · have hfin := (check_control hck (by rw [hop]; decide)).2.2
    rw [hfr]
    refine ⟨sent, text, rest, ?_, hs, hms, hp, hr⟩
    have := hm.append (b := []) (y := [f]) (.control ⟨f.data, h125, Or.inr (by rw [← hfin, ← hop]; exact hnew)⟩ .nil)
    rwa [List.append_nil] at this

/-- C110, the other direction: as long as it goes on, whatever the user does in between, the frames which were received are messages in
pieces (and maybe the begin of one) with pings and pongs in between, and the messages which are delivered are exactly these.  So any
other frames, as a continuation without a begin or a new message within another one, are refused. -/
theorem C110_exact (c : Config) (ops : List Op) (he : ((Session.initial c).run c ops).ended = none)
    (hst : ((Session.initial c).run c ops).stuck = false) :
    ∃ (sent : List (Message × List Bytes)) (text : Bool) (rest : List Bytes),
      Mixed Control ((sent.flatMap fun e => fragments e.1.code e.2) ++ begun (if text then 1 else 2) rest) (framesOf ops) ∧
      (∀ e ∈ sent, e.2 ≠ [] ∧ e.1.Is c.codec e.2.flatten ∧ e.2.flatten.length ≤ c.maxSize) ∧
      ((Session.initial c).run c ops).messages = sent.map (·.1) := by
  have key : ∀ ops, ((Session.initial c).run c ops).ended = none → ((Session.initial c).run c ops).stuck = false →
      Explained c ((Session.initial c).run c ops) (framesOf ops) := by
    intro ops
    induction ops using snocInduction with
    | nil => intro _ _; exact ⟨[], true, [], Mixed.nil, by simp, rfl, rfl, by simp [Session.run, Session.initial]⟩
    | snoc ops op ih =>
      intro he hst
      rw [run_append, run_cons, run_nil] at he hst ⊢
      have he0 : ((Session.initial c).run c ops).ended = none := by
        cases h : ((Session.initial c).run c ops).ended with
        | none => rfl
        | some code => rw [step_ended op h] at he; cases he
      have hst0 : ((Session.initial c).run c ops).stuck = false := by
        cases h : ((Session.initial c).run c ops).stuck with
        | false => rfl
        | true => rw [step_stuck op h] at hst; cases hst
      have hx := ih he0 hst0
      by_cases hf : ∃ f, op = .frame f
      · obtain ⟨f, rfl⟩ := hf
        rw [step_frame he0 hst0] at he ⊢
        rw [show framesOf (ops ++ [.frame f]) = framesOf ops ++ [f] by simp [framesOf]]
        exact explained_step hx f he
      · have hne : op ≠ .eof := by
          rintro rfl
          simp [Session.step, he0, hst0, abort_ended] at he
        have hfo : framesOf (ops ++ [op]) = framesOf ops := by
          cases op <;> simp_all [framesOf]
        obtain ⟨a, b, d, e1, e2, e3, e4, e5⟩ := hx.ex
        rw [hfo]
        by_cases hti : op = .timeout
        · subst hti
          simp only [Session.step] at he ⊢
          split at he
          · simp [abort_ended] at he
          · rename_i hn; rw [if_neg hn]; exact ⟨a, b, d, e1, e2, e3, e4, e5⟩
        obtain ⟨h1, h2, h3, -⟩ := step_user (c := c) (s := (Session.initial c).run c ops) op (fun f e => hf ⟨f, e⟩) hne hti
        exact ⟨a, b, d, e1, e2, by rw [h1, e3], by rw [h2, e4], by rw [h3, e5]⟩
  obtain ⟨a, b, d, e1, e2, e3, -⟩ := (key ops he hst).ex
  exact ⟨a, b, d, e1, e2, e3⟩

/-- A codec for the examples: bytes are ASCII. -/
def ascii : Codec := ⟨fun t => t.map fun ch => UInt8.ofNat ch.toNat, fun d => if d.all (· < 128) then some (d.map fun b => Char.ofNat b.toNat) else none⟩

def client : Config := ⟨true, 200, ascii⟩
def server : Config := ⟨false, 200, ascii⟩

example : ((Session.initial server).run server [.frame (Frame.new false 1 [104]), .frame (Frame.new true 9 [7]), .frame (Frame.new true 0 [105]),
    .frame (Frame.new true 2 [255])]).messages = [.text ['h', 'i'], .binary [255]] := by
  decide +kernel

example : ((Session.initial server).run server [.frame (Frame.new false 1 [104]), .frame (Frame.new true 1 [105])]).ended = some 1002 := by
  decide +kernel

/-! ### C111 -/

/-- The sizes of what was delivered, and of what was begun. -/
def Bounded (c : Config) (s : Session) : Prop :=
  (∀ m ∈ s.messages, ∃ data, m.Is c.codec data ∧ data.length ≤ c.maxSize) ∧
    (s.ended = none → (s.parts = none → s.room = c.maxSize) ∧ ∀ p, s.parts = some p → p.2.flatten.length + s.room = c.maxSize)

/-- A frame which ends the connection delivers nothing. -/
theorem frame_messages (c : Config) (s : Session) (f : Frame) (he : s.ended = none) :
    (s.frame c f).ended = none ∨ (s.frame c f).messages = s.messages := by
  have hdel : ∀ text data, (s.deliver c text data).ended = none ∨ (s.deliver c text data).messages = s.messages := by
    intro text data
    unfold Session.deliver
    split
    · split
      · exact Or.inr (abort_fields _ _).1
      · exact Or.inl he
    · exact Or.inl he
  unfold Session.frame
  split
  · exact Or.inr (abort_fields _ _).1
  · split
    · exact Or.inr (abort_fields _ _).1
    · split
      · unfold Session.dataFrame
        split
        · split
          · exact Or.inr (abort_fields _ _).1
          · split
            · exact hdel _ _
            · exact Or.inl he
        · split
          · exact Or.inr (abort_fields _ _).1
          · split
            · exact hdel _ _
            · exact Or.inl he
      · split
        · exact Or.inr (closeFrame_ended c s f.data).2.1
        · split
          · unfold Session.pingFrame
            split
            · exact Or.inr rfl
            · split
              · exact Or.inr rfl
              · exact Or.inr (abort_fields _ _).1
            · exact Or.inr (abort_fields _ _).1
          · unfold Session.pongFrame
            split
            · split
              · exact Or.inr (abort_fields _ _).1
              · exact Or.inr rfl
            · exact Or.inr (abort_fields _ _).1

/-- C111, one half: no message is delivered which has more than `max_size` bytes, in whatever pieces it comes.  The other half is
`C111_within_partial`. -/
theorem C111_bounded (c : Config) (ops : List Op) :
    ∀ m ∈ ((Session.initial c).run c ops).messages, ∃ data, m.Is c.codec data ∧ data.length ≤ c.maxSize := by
  have key : ∀ s, Bounded c s → Bounded c (s.run c ops) := by
    induction ops with
    | nil => exact fun s h => h
    | cons op ops ih =>
      intro s h
      rw [run_cons]
      apply ih
      by_cases hu : (∀ f, op ≠ .frame f) ∧ op ≠ .eof ∧ op ≠ .timeout
      · obtain ⟨h1, h2, h3, h4, -⟩ := step_user (c := c) (s := s) op hu.1 hu.2.1 hu.2.2
        unfold Bounded
        rw [h1, h2, h3, h4]
        exact h
      · have habort : ∀ code, Bounded c (s.abort code) := by
          intro code
          refine ⟨by rw [(abort_fields s code).1]; exact h.1, fun e => by simp [abort_ended] at e⟩
        cases op with
        | frame f =>
          by_cases hg : s.ended = none ∧ s.stuck = false
          · rw [step_frame hg.1 hg.2]
            cases hend : (s.frame c f).ended with
            | some code =>
              refine ⟨?_, fun e => by rw [hend] at e; cases e⟩
              have hmsg : (s.frame c f).messages = s.messages :=
                (frame_messages c s f hg.1).resolve_left (by rw [hend]; simp)
              rw [hmsg]; exact h.1
            | none =>
              obtain ⟨hlen, -, hc⟩ := frame_cases hend
              obtain ⟨hb1, hb2⟩ := h.2 hg.1
              rcases hc with ⟨hop, hfr⟩ | ⟨-, -, hfr⟩ | ⟨-, -, -, -, hfr⟩
              · rw [hfr] at hend ⊢
                rcases dataFrame_cases hop hend with ⟨hp, -, hd⟩ | ⟨text, datas, hp, -, hd⟩
                · have hr := hb1 hp
                  rcases hd with ⟨-, m, hd, hk⟩ | ⟨-, hd⟩
                  · rw [hd]
                    refine ⟨fun x hx => ?_, fun _ => ⟨fun _ => rfl, fun p hp => by cases hp⟩⟩
                    rcases List.mem_append.1 hx with hx | hx
                    · exact h.1 x hx
                    · rw [List.mem_singleton.1 hx]
                      rcases hk with ⟨-, t, rfl, ht⟩ | ⟨-, rfl⟩
                      · exact ⟨f.data, ht, by omega⟩
                      · exact ⟨f.data, rfl, by omega⟩
                  · rw [hd]
                    refine ⟨h.1, fun _ => ⟨fun e => (by cases e), fun p hp => ?_⟩⟩
                    cases hp
                    simp; omega
                · have hr := hb2 _ hp
                  rcases hd with ⟨-, m, hd, hk⟩ | ⟨-, hd⟩
                  · rw [hd]
                    refine ⟨fun x hx => ?_, fun _ => ⟨fun _ => rfl, fun p hp => by cases hp⟩⟩
                    rcases List.mem_append.1 hx with hx | hx
                    · exact h.1 x hx
                    · rw [List.mem_singleton.1 hx]
                      rcases hk with ⟨-, t, rfl, ht⟩ | ⟨-, rfl⟩
                      · exact ⟨_, ht, by simp at hr ⊢; omega⟩
                      · exact ⟨_, rfl, by simp at hr ⊢; omega⟩
                  · rw [hd]
                    refine ⟨h.1, fun _ => ⟨fun e => (by cases e), fun p hp => ?_⟩⟩
                    cases hp
                    simp at hr ⊢; omega
              · rw [hfr] at hend ⊢
                unfold Session.pingFrame at hend ⊢
                split at hend
                · exact ⟨h.1, fun _ => h.2 hg.1⟩
                · split at hend
                  · rename_i h0; rw [if_pos h0]; exact ⟨h.1, fun _ => h.2 hg.1⟩
                  · simp [abort_ended] at hend
                · simp [abort_ended] at hend
              · rw [hfr]; exact h
          · simp only [Session.step]; rw [if_neg hg]; exact h
        | eof =>
          simp only [Session.step]
          split
          · exact habort _
          · exact h
        | timeout =>
          simp only [Session.step]
          split
          · exact habort _
          · exact h
        | _ => exact absurd ⟨by simp, by simp, by simp⟩ hu
  exact (key (Session.initial c) ⟨by simp [Session.initial], fun _ => ⟨fun _ => rfl, fun p hp => by cases hp⟩⟩).1

/-- C111, what holds of the other half: a message of at most `max_size` bytes in one frame is delivered. -/
theorem C111_within_partial (c : Config) (m : Message) (data : Bytes) (hm : m.Is c.codec data) (hl : data.length ≤ c.maxSize) :
    ((Session.initial c).run c [.frame (Frame.new true m.code data)]).messages = [m] := by
  have hcode : m.code = 1 ∨ m.code = 2 := by cases m <;> simp [Message.code]
  have hlt : m.code.toNat < 16 := by rcases hcode with h | h <;> rw [h] <;> decide
  have hmem : m.code ∈ [(0 : Byte), 1, 2] := by rcases hcode with h | h <;> rw [h] <;> simp
  rw [run_cons, run_nil, step_frame rfl rfl]
  unfold Session.frame
  rw [C04_constructed_frame_valid true m.code data (Or.inl hmem), new_op true m.code hlt data, new_data,
    if_neg (by simp [Session.initial]; omega)]
  dsimp only
  rw [if_pos (by rcases hcode with h | h <;> simp [h])]
  unfold Session.dataFrame Session.deliver
  rw [new_op true m.code hlt data, new_final true m.code hlt data, new_data]
  cases m with
  | text t =>
    have : c.codec.decode data = some t := hm
    simp [Session.initial, Message.code, this]
  | binary b =>
    have : data = b := hm
    simp [Session.initial, Message.code, this]

/-- C111 does not hold: between the pieces of a message, a control frame is measured by what is left for the message.  The message
would have at most `max_size` bytes, and the ping at most 125. -/
theorem C111_violated (c : Config) (first ping last : Bytes) (h1 : first.length + last.length ≤ c.maxSize) (_hp : ping.length ≤ 125)
    (h2 : c.maxSize < first.length + ping.length) :
    ((Session.initial c).run c [.frame (Frame.new false 2 first), .frame (Frame.new true 9 ping), .frame (Frame.new true 0 last)]).ended =
      some 1009 ∧
    ((Session.initial c).run c [.frame (Frame.new false 2 first), .frame (Frame.new true 9 ping), .frame (Frame.new true 0 last)]).messages =
      [] := by
  have e1 : (Session.initial c).frame c (Frame.new false 2 first) =
      { Session.initial c with parts := some (false, [first]), room := c.maxSize - first.length } := by
    unfold Session.frame
    rw [C04_constructed_frame_valid false 2 first (Or.inl (by simp)), new_op false 2 (by decide) first, new_data,
      if_neg (by simp [Session.initial]; omega)]
    dsimp only
    rw [if_pos (by decide)]
    unfold Session.dataFrame
    rw [new_op false 2 (by decide) first, new_final false 2 (by decide) first, new_data]
    rfl
  have e2 : ({ Session.initial c with parts := some (false, [first]), room := c.maxSize - first.length } : Session).frame c
      (Frame.new true 9 ping) =
      ({ Session.initial c with parts := some (false, [first]), room := c.maxSize - first.length } : Session).abort 1009 := by
    unfold Session.frame
    rw [if_pos (by simp [new_data]; omega)]
  rw [run_cons, step_frame rfl rfl, e1, run_cons, step_frame rfl rfl, e2]
  refine ⟨run_ended _ (abort_ended _ _), ?_⟩
  rw [run_cons, run_nil]
  simp only [Session.step]
  rw [if_neg (by simp [abort_ended])]
  exact (abort_fields _ _).1

example : ((Session.initial server).run server [.frame (Frame.new false 2 (List.replicate 150 1)), .frame (Frame.new true 9 (List.replicate 60 2)),
    .frame (Frame.new true 0 [3])]).ended = some 1009 := by
  decide +kernel

end Verif.WebSocketSession
