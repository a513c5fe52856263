import Verif.Ssl.Waiter

/-! The properties of the ssl pipe and of the ssl transport layer. -/

namespace Verif.Ssl

/-! A small engine, for the examples. What is fed is understood byte by byte: 0 is the peer's close notify, 7 a broken
record, 3 a hello of the peer, anything else a byte of plaintext. Its own records are its plaintext plus 100, its hello
is 103, its close notify 100. -/

structure ToyS where
  inc : List Nat
  out : List Nat
  eof : Bool
  deriving DecidableEq

def toy : Engine where
  σ := ToyS
  init := ⟨[], [], false⟩
  wrap := fun g => { g with out := [103] }
  feed := fun g b => { g with inc := g.inc ++ b }
  handshake := fun g =>
    match g.inc with
    | [] => (g, .error .wantRead)
    | 3 :: r => ({ g with inc := r }, .ok ())
    | _ :: r => ({ g with inc := r }, .error (.ssl 1))
  read := fun g =>
    match g.inc with
    | [] => (g, .error .wantRead)
    | 0 :: r => ({ g with inc := r, eof := true }, .ok [])
    | 7 :: r => ({ g with inc := r }, .error (.ssl 7))
    | x :: r => ({ g with inc := r }, .ok [x])
  write := fun g b => ({ g with out := g.out ++ b.map (· + 100) }, .ok b.length)
  unwrap := fun g =>
    if g.eof then ({ g with out := g.out ++ [100] }, .ok ())
    else
      match g.inc with
      | 0 :: r => ({ g with inc := r, eof := true }, .ok ())
      | _ => ({ g with out := g.out ++ [100] }, .error .wantRead)
  drain := fun g => ({ g with out := [] }, g.out)

def toyC : Cfg := ⟨true, true, 10⟩

theorem toy_full : FullWrites toy := by
  intro g b g' n h
  cases h; rfl

theorem toy_willing : Willing toy := fun _ _ => ⟨_, rfl⟩

theorem toy_sslReads : SslReads toy := by
  intro g g' e h
  simp only [toy] at h
  split at h <;> cases h <;> rfl

/-- A good run: connect, shake hands, talk, and be closed by the peer. -/
def toyGood : List Op :=
  [.made, .tick, .data [3, 5], .tick, .write [1, 2], .data [6], .write [4], .data [0], .lost none]

/-! C165: what is written does not leave in the clear. -/

theorem C165_polite_writers_never_leak_partial (E : Engine) (c : Cfg) (ops : List Op) (h : Polite c false (init E) ops)
    (b : Bytes) : Wire.plain b ∉ (run c (init E) ops).wire := by
  intro hb
  obtain ⟨r, hr⟩ := conf_run c ops false (init E) (Conf.init) h _ hb
  cases hr

example : Polite toyC false (init toy) toyGood :=
  ⟨rfl, trivial, trivial, trivial, ⟨rfl, rfl⟩, trivial, ⟨rfl, rfl⟩, trivial, trivial, trivial⟩

example : (run toyC (init toy) toyGood).wire = [.record [103], .record [101, 102], .record [104], .record [100]] := by
  decide +kernel

/-- After the peer has closed, while the underlying transport still has bytes to send, whatever is written goes out as
it is. -/
theorem C165_writing_after_the_peer_closed_leaks_violated (x : Nat) (xs : Bytes) :
    Wire.plain (x :: xs) ∈
      (run toyC (init toy) [.made, .tick, .data [3], .data [0], .write (x :: xs)]).wire := by
  have h : run toyC (init toy) [.made, .tick, .data [3], .data [0], .write (x :: xs)] =
      (step toyC (run toyC (init toy) [.made, .tick, .data [3], .data [0]]) (.write (x :: xs))).1 := rfl
  have hs : run toyC (init toy) [.made, .tick, .data [3], .data [0]] =
      { (init toy) with
        tr := true, trClosing := true, closing := true, est := true, waiter := false, settled := [none], sched := 1,
        eng := ⟨[], [], true⟩, shaken := 1, app := [.made], wire := [.record [103], .record [100]] } := by
    rfl
  rw [h, hs]
  simp [step, stepLive, writeApp, process, procLoop, entry, feedApp, trWrites, trWrite, procEnd, init]

/-- What is written before the connection is made goes out ahead of the handshake. -/
theorem C165_writing_before_the_handshake_leaks_violated :
    (run toyC (init toy) [.write [1, 2], .made, .tick]).wire = [.plain [1, 2], .record [103]] := by
  decide +kernel

/-! C166: what is written reaches the engine in order, once. -/

theorem C166_writes_are_conserved (E : Engine) (hE : FullWrites E) (c : Cfg) (ops : List Op)
    (h : (run c (init E) ops).hung = false) :
    (run c (init E) ops).sent ++ ((run c (init E) ops).backlog.map fun e => e.1.drop e.2).flatten = written ops := by
  have := (out_run hE c ops [] (init E) OutInv.init h).1.sum
  exact this

theorem C166_refused_buffers_are_repeated (E : Engine) (hE : FullWrites E) (c : Cfg) (ops : List Op)
    (i : Nat) (b b' : Bytes) (k : Bool)
    (h1 : (run c (init E) ops).calls[i]? = some (b, false)) (h2 : (run c (init E) ops).calls[i + 1]? = some (b', k)) :
    b' = b := by
  have key : ∀ (l : List (Bytes × Bool)) (i : Nat), Retried l → l[i]? = some (b, false) → l[i + 1]? = some (b', k) →
      b' = b := by
    intro l
    induction l with
    | nil => intro i _ h _; cases h
    | cons x xs ih =>
      intro i hr h1 h2
      obtain ⟨y, z⟩ := x
      cases i with
      | zero =>
        cases xs with
        | nil => cases h2
        | cons w ws =>
          cases h1
          cases h2
          exact hr.1 rfl _ rfl
      | succ i => exact ih i hr.2 h1 h2
  exact key _ i (retried_run hE c ops [] (init E) OutInv.init) h1 h2

example : (run toyC (init toy) toyGood).sent = [1, 2, 4] ∧ written toyGood = [1, 2, 4] := by decide +kernel

/-! C167: what the engine decrypts reaches the protocol. -/

/-- The bytes a protocol was given. -/
def given : List App → Bytes
  | [] => []
  | .data b :: l => b ++ given l
  | _ :: l => given l

theorem given_delivered : ∀ l : List App, given l = delivered l
  | [] => rfl
  | .data b :: l => by
    have := given_delivered l
    unfold given
    rw [this]
    rfl
  | .made :: l => given_delivered l
  | .eof :: l => given_delivered l
  | .lost :: l => given_delivered l

theorem C167_only_decrypted_bytes_in_order_partial (E : Engine) (hE : SslReads E) (c : Cfg) (ops : List Op)
    (h : Calm c false false (init E) ops) : given (run c (init E) ops).app <+: (run c (init E) ops).got := by
  obtain ⟨_, _, k⟩ := inb_run hE c ops false false (init E) inb_init h
  rw [given_delivered]; exact k.pre

theorem C167_everything_decrypted_is_given_partial (E : Engine) (hE : SslReads E) (c : Cfg) (ops : List Op)
    (h : Calm c false false (init E) ops) (ha : (run c (init E) ops).aborted = false)
    (hh : (run c (init E) ops).hung = false) : given (run c (init E) ops).app = (run c (init E) ops).got := by
  obtain ⟨_, _, k⟩ := inb_run hE c ops false false (init E) inb_init h
  rw [given_delivered]; exact k.eq ha hh

example : Calm toyC false false (init toy) toyGood :=
  ⟨rfl, trivial, ⟨rfl, rfl⟩, trivial, trivial, ⟨rfl, rfl⟩, trivial, ⟨rfl, rfl⟩, trivial, trivial⟩

example : given (run toyC (init toy) toyGood).app = [5, 6] ∧ (run toyC (init toy) toyGood).got = [5, 6] := by
  decide +kernel

/-- Bytes that came together with a broken record are decrypted and then dropped. -/
theorem C167_bytes_ahead_of_a_broken_record_are_dropped_violated :
    Calm toyC false false (init toy) [.made, .tick, .data [3], .data [5, 6, 7]] ∧
    (run toyC (init toy) [.made, .tick, .data [3], .data [5, 6, 7]]).got = [5, 6] ∧
    (run toyC (init toy) [.made, .tick, .data [3], .data [5, 6, 7]]).app = [.made] :=
  ⟨⟨rfl, trivial, ⟨rfl, rfl⟩, ⟨rfl, rfl⟩, trivial⟩, by decide +kernel, by decide +kernel⟩

/-- Data that comes before the first callback of the loop is given to the protocol as it is. -/
theorem C167_early_data_is_passed_through_violated (E : Engine) (c : Cfg) (x : Nat) (xs : Bytes) :
    (run c (init E) [.made, .data (x :: xs)]).app = [.data (x :: xs)] ∧
    (run c (init E) [.made, .data (x :: xs)]).got = [] := ⟨rfl, rfl⟩

/-! C168: the waiter tells how the handshake ended. -/

theorem C168_settled_at_most_once (E : Engine) (c : Cfg) (ops : List Op) :
    (run c (init E) ops).settled.length ≤ 1 := by
  obtain ⟨_, k, _⟩ := winv_run c ops [] false (init E) winv_init
  cases hw : (run c (init E) ops).waiter with
  | true => rw [k.open_ hw]; exact Nat.zero_le _
  | false => rw [k.once hw]; exact Nat.le_refl _

theorem C168_settled_after_a_handshake (E : Engine) (c : Cfg) (ops : List Op) (h : 0 < (run c (init E) ops).shaken) :
    (run c (init E) ops).settled.length = 1 := by
  obtain ⟨_, k, _⟩ := winv_run c ops [] false (init E) winv_init
  exact k.once (k.hs h)

theorem C168_settled_after_a_loss (E : Engine) (c : Cfg) (ops : List Op) (h : (run c (init E) ops).hung = false)
    (hm : Op.made ∈ ops) (ht : (run c (init E) ops).tr = false) : (run c (init E) ops).settled.length = 1 := by
  obtain ⟨m', k, _, k3⟩ := winv_run c ops [] false (init E) winv_init
  exact k.once (k.gone (k3 h hm) ht)

/-- A result means a handshake, as long as no connection is lost without an exception. -/
theorem C168_result_means_handshake_partial (E : Engine) (c : Cfg) (ops : List Op) (h : Op.lost none ∉ ops)
    (hr : (run c (init E) ops).settled = [none]) : 0 < (run c (init E) ops).shaken := by
  obtain ⟨_, k, _⟩ := winv_run c ops [] false (init E) winv_init
  have hl : ∀ l : List Op, none ∈ losses l → Op.lost none ∈ l := by
    intro l
    induction l with
    | nil => intro hx; cases hx
    | cons op l ih =>
      intro hx
      rw [losses_cons] at hx
      rcases List.mem_append.1 hx with hx | hx
      · cases op with
        | lost e =>
          simp only [losses, List.mem_singleton] at hx
          rw [← hx]
          exact List.mem_cons_self ..
        | _ => simp only [losses, List.not_mem_nil] at hx
      · exact List.mem_cons_of_mem _ (ih hx)
  rcases k.good hr with hx | hx
  · exact hx
  · exact absurd (hl ops (by simpa using hx)) h

example : (run toyC (init toy) [.made, .tick, .data [3]]).settled = [none] ∧
    (run toyC (init toy) [.made, .tick, .data [4]]).settled = [some (.ssl 1)] ∧
    (run toyC (init toy) [.made, .tick, .eof]).settled = [some .reset] := by decide +kernel

/-- Aborting while the handshake is in progress makes the waiter report success. -/
theorem C168_aborting_the_handshake_reports_success_violated (E : Engine) (c : Cfg) :
    (run c (init E) [.made, .abort, .lost none]).settled = [none] ∧
    (run c (init E) [.made, .abort, .lost none]).shaken = 0 ∧
    (run c (init E) [.made, .abort, .lost none]).app = [] := by
  refine ⟨?_, ?_, ?_⟩ <;> rfl

/-! C169: the calls of the protocol. -/

theorem C169_lifecycle (E : Engine) (hE : SslReads E) (c : Cfg) (hc : c.callMade = true) (ops : List Op)
    (h : Calm c false false (init E) ops) :
    (run c (init E) ops).app = [] ∨
    ∃ mid, (∀ a ∈ mid, a = .eof ∨ ∃ b, a = .data b) ∧
      ((run c (init E) ops).app = .made :: mid ∨ (run c (init E) ops).app = .made :: (mid ++ [.lost])) := by
  obtain ⟨_, _, k, _⟩ := told_run hE c hc ops false false (init E) told_init h
  exact k.life.wf

theorem C169_loss_is_told_to_who_was_connected (E : Engine) (hE : SslReads E) (c : Cfg) (hc : c.callMade = true)
    (ops : List Op) (h : Calm c false false (init E) ops) (hh : (run c (init E) ops).hung = false) (hm : Op.made ∈ ops)
    (ht : (run c (init E) ops).tr = false) :
    (run c (init E) ops).app = [] ∨
    ∃ mid, (∀ a ∈ mid, a = .eof ∨ ∃ b, a = .data b) ∧ (run c (init E) ops).app = .made :: (mid ++ [.lost]) := by
  obtain ⟨m', _, k, _, k3⟩ := told_run hE c hc ops false false (init E) told_init h
  exact k.gone (k3 hh hm) ht

example : (run toyC (init toy) toyGood).app = [.made, .data [5], .data [6], .lost] := by decide +kernel

/-! C170: what can be sent is sent. -/

theorem appLoop_willing (E : Engine) (hE : Willing E) (f : Nat) (s : St E) (d : Bytes) (o : Nat) (acc : List Wire)
    (ho : o < d.length) : ∃ w, (appLoop (f + 1) s d o acc).2 = .ok (w, d.length) ∧
      (appLoop (f + 1) s d o acc).1.sent = s.sent ++ d.drop o := by
  obtain ⟨g, hg⟩ := hE s.eng (d.drop o)
  have ha : appWrite s d o =
      ({ s with eng := g, need := false, sent := s.sent ++ (d.drop o).take (d.drop o).length,
                calls := s.calls ++ [(d.drop o, true)] }, .ok (o + (d.drop o).length)) := by
    unfold appWrite
    rw [if_pos ho, hg]
  have hl : o + (d.drop o).length = d.length := by rw [List.length_drop]; omega
  unfold appLoop
  rw [ha]
  simp only [hl, true_or, if_true]
  refine ⟨_, rfl, ?_⟩
  rw [sent_drainW, List.take_length]

theorem procLoop_willing (E : Engine) (hE : Willing E) (c : Cfg) (hf : 1 ≤ c.fuel) (n : Nat) : ∀ s : St E,
    s.ps = .wrapped → s.backlog.length = n → (∀ e ∈ s.backlog, DataEntry e) →
    (procLoop c n s).2 = .ok () ∧ (procLoop c n s).1.backlog = [] ∧
      (procLoop c n s).1.fatal = s.fatal ∧ (procLoop c n s).1.hung = s.hung ∧
      (procLoop c n s).1.sent = s.sent ++ pending s.backlog := by
  induction n with
  | zero =>
    intro s _ hn _
    have : s.backlog = [] := List.length_eq_zero_iff.1 hn
    refine ⟨rfl, this, rfl, rfl, ?_⟩
    rw [this]; exact (List.append_nil _).symm
  | succ n ih =>
    intro s hp hn hd
    unfold procLoop
    split
    · next hb => rw [hb] at hn; cases hn
    · next data off rest hb =>
      have hde : DataEntry (data, off) := hd _ (by rw [hb]; exact List.mem_cons_self ..)
      obtain ⟨k, hk⟩ : ∃ k, c.fuel = k + 1 := ⟨c.fuel - 1, by omega⟩
      have he : entry c s data off = appLoop (k + 1) s data off [] := by
        cases data with
        | nil => exact absurd rfl hde.1
        | cons x xs =>
          show feedApp c s (x :: xs) off = _
          unfold feedApp
          rw [if_neg (by rw [hp]; nofun), hk]
      obtain ⟨w, h1, h2⟩ := appLoop_willing E hE k s data off [] hde.2
      have f := frameA_appLoop (k + 1) s data off []
      cases hq : appLoop (k + 1) s data off [] with
      | mk s1 r =>
        rw [hq] at h1 h2 f
        cases h1
        rw [he, hq]
        have fw := frameW_trWrites w s1
        simp only [Nat.lt_irrefl, if_false]
        obtain ⟨i1, i2, i3, i4, i5⟩ := ih { trWrites s1 w with backlog := rest } (fw.ps.trans (f.ps.trans hp))
          (by show rest.length = n; rw [hb] at hn; simpa using hn)
          (fun e hx => hd e (by rw [hb]; exact List.mem_cons_of_mem _ hx))
        refine ⟨i1, i2, i3.trans (fw.fatal.trans f.fatal), i4.trans (fw.hung.trans f.hung), ?_⟩
        rw [i5]
        show (trWrites s1 w).sent ++ pending rest = _
        rw [fw.sent, h2, hb, pending_cons, List.append_assoc]

/-- An established session over an engine that takes what it is given: a write leaves nothing behind. -/
theorem C170_willing_engines_get_everything_partial (E : Engine) (hE : Willing E) (c : Cfg) (hf : 1 ≤ c.fuel) (s : St E)
    (ht : s.tr = true) (hh : s.hung = false) (hp : s.ps = .wrapped)
    (hd : ∀ e ∈ s.backlog, e.1 ≠ [] ∧ e.2 < e.1.length) (x : Nat) (xs : Bytes) :
    (step c s (.write (x :: xs))).1.backlog = [] ∧
    (step c s (.write (x :: xs))).1.fatal = s.fatal ∧ (step c s (.write (x :: xs))).1.hung = false ∧
    (step c s (.write (x :: xs))).1.sent =
      s.sent ++ (s.backlog.map fun e => e.1.drop e.2).flatten ++ (x :: xs) := by
  have hd' : ∀ e ∈ s.backlog ++ [(x :: xs, 0)], DataEntry e := by
    intro e he
    rcases List.mem_append.1 he with he | he
    · exact hd e he
    · rw [List.mem_singleton] at he; rw [he]
      exact ⟨nofun, Nat.succ_pos _⟩
  obtain ⟨k1, k2, k3, k4, k5⟩ := procLoop_willing E hE c hf _ { s with backlog := s.backlog ++ [(x :: xs, 0)] } hp rfl hd'
  have hs : step c s (.write (x :: xs)) =
      procEnd c (procLoop c (s.backlog ++ [(x :: xs, 0)]).length { s with backlog := s.backlog ++ [(x :: xs, 0)] }) := by
    unfold step
    rw [if_neg (by rw [hh]; nofun)]
    show process c { s with backlog := s.backlog ++ [(x :: xs, 0)] } = _
    unfold process
    rw [if_pos ht]
  rw [hs]
  cases hq : procLoop c (s.backlog ++ [(x :: xs, 0)]).length { s with backlog := s.backlog ++ [(x :: xs, 0)] } with
  | mk s1 r =>
    rw [hq] at k1 k2 k3 k4 k5
    cases k1
    refine ⟨k2, k3, k4.trans hh, ?_⟩
    show s1.sent = _
    rw [k5]
    show s.sent ++ pending (s.backlog ++ [(x :: xs, 0)]) = _
    rw [pending_append, ← List.append_assoc]
    exact congrArg (_ ++ ·) (List.append_nil (x :: xs))

/-- The same for a callback of the loop: what was written while the handshake was going on is sent. -/
theorem C170_scheduled_callbacks_send_everything_partial (E : Engine) (hE : Willing E) (c : Cfg) (hf : 1 ≤ c.fuel)
    (s : St E) (ht : s.tr = true) (hh : s.hung = false) (hp : s.ps = .wrapped) (hc : 0 < s.sched)
    (hd : ∀ e ∈ s.backlog, e.1 ≠ [] ∧ e.2 < e.1.length) :
    (step c s .tick).1.backlog = [] ∧ (step c s .tick).1.fatal = s.fatal ∧ (step c s .tick).1.hung = false ∧
    (step c s .tick).1.sent = s.sent ++ (s.backlog.map fun e => e.1.drop e.2).flatten := by
  obtain ⟨k1, k2, k3, k4, k5⟩ := procLoop_willing E hE c hf _ { s with sched := s.sched - 1 } hp rfl hd
  have hs : step c s .tick = procEnd c (procLoop c s.backlog.length { s with sched := s.sched - 1 }) := by
    unfold step
    rw [if_neg (by rw [hh]; nofun)]
    show (if s.sched = 0 then _ else process c { s with sched := s.sched - 1 }) = _
    rw [if_neg (by omega)]
    unfold process
    rw [if_pos ht]
  rw [hs]
  cases hq : procLoop c s.backlog.length { s with sched := s.sched - 1 } with
  | mk s1 r =>
    rw [hq] at k1 k2 k3 k4 k5
    cases k1
    exact ⟨k2, k3, k4.trans hh, k5⟩

example : (run toyC (init toy) [.made, .tick, .data [3], .write [1, 2]]).ps = .wrapped ∧
    (run toyC (init toy) [.made, .tick, .data [3], .write [1, 2]]).backlog = [] ∧
    (run toyC (init toy) [.made, .tick, .data [3], .write [1, 2]]).sent = [1, 2] := by decide +kernel

/-- An engine whose first write has to wait for data of the peer: the state tells whether any was fed. -/
def shy : Engine where
  σ := Bool
  init := false
  wrap := fun g => g
  feed := fun _ _ => true
  handshake := fun g => (g, .ok ())
  read := fun g => (g, .error .wantRead)
  write := fun g b => if g then (g, .ok b.length) else (g, .error .wantRead)
  unwrap := fun g => (g, .ok ())
  drain := fun g => (g, [])

/-- What the engine once refused because it needs data of the peer stays where it is, however much the peer sends. -/
theorem C170_refused_writes_stay_violated (l : List Bytes) :
    (run toyC (init shy) ([.made, .tick, .tick, .write [1]] ++ l.map .data)).backlog = [([1], 0)] ∧
    (run toyC (init shy) ([.made, .tick, .tick, .write [1]] ++ l.map .data)).sched = 0 ∧
    (run toyC (init shy) ([.made, .tick, .tick, .write [1]] ++ l.map .data)).sent = [] := by
  have key : ∀ (l : List Bytes) (s : St shy), s.ps = .wrapped → s.tr = true → s.hung = false →
      s.backlog = [([1], 0)] → s.sched = 0 → s.sent = [] →
      (run toyC s (l.map .data)).backlog = [([1], 0)] ∧ (run toyC s (l.map .data)).sched = 0 ∧
      (run toyC s (l.map .data)).sent = [] := by
    intro l
    induction l with
    | nil => intro s _ _ _ h1 h2 h3; exact ⟨h1, h2, h3⟩
    | cons b bs ih =>
      intro s hp ht hh h1 h2 h3
      have hs : (step toyC s (.data b)).1 = { feedIn s b with need := true } := by
        unfold step
        rw [if_neg (by rw [hh]; nofun)]
        show (if s.tr = true then dataReceived toyC s b else (s, Res.ok ())).1 = _
        rw [if_pos ht]
        unfold dataReceived
        rw [feedSsl_wrapped toyC s b false hp]
        have h1 : (feedWrapped toyC (feedIn s b)) = ({ feedIn s b with need := true, got := s.got ++ [] }, .ok ([], [])) := rfl
        rw [h1, List.append_nil]
        rfl
      show (run toyC (step toyC s (.data b)).1 (bs.map .data)).backlog = _ ∧
        (run toyC (step toyC s (.data b)).1 (bs.map .data)).sched = _ ∧
        (run toyC (step toyC s (.data b)).1 (bs.map .data)).sent = _
      rw [hs]
      exact ih { feedIn s b with need := true } hp ht hh h1 h2 h3
  exact key l (run toyC (init shy) [.made, .tick, .tick, .write [1]]) rfl rfl rfl rfl rfl rfl

end Verif.Ssl
