import Verif.Response.PropsFlow

/-! C245: what reads give. -/
namespace Verif.Response

/-- What of the bytes after its head is the body of the message. -/
inductive IsBody : Msg → Bytes → Bytes → Prop
  | exactly (m : Msg) (n : Nat) (a : Bytes) (h : m.body = .exactly n) (ha : n ≤ a.length) : IsBody m a (a.take n)
  | untilEof (m : Msg) (a b : Bytes) (h : m.body = .untilEof) : IsBody m (a ++ b) a

theorem IsBody.more {m : Msg} {a q : Bytes} (h : IsBody m a q) (c : Bytes) : IsBody m (a ++ c) q := by
  cases h with
  | exactly n _ h ha =>
    rw [← List.take_append_of_le_length ha (l₂ := c)]
    exact .exactly m n _ h (by rw [List.length_append]; omega)
  | untilEof _ b h => rw [List.append_assoc]; exact .untilEof m _ _ h

/-- What the running reader waits for, when `a` arrived. -/
inductive Reads : Msg → Bytes → Need → Prop
  | left (m : Msg) (n r : Nat) (a : Bytes) (h : m.body = .exactly n) (hr : 0 < r) (ha : a.length + r = n) : Reads m a (.left r)
  | eof (m : Msg) (a : Bytes) (h : m.body = .untilEof) : Reads m a .eof

def NoBytes (outs : List Out) : Prop := ∀ b, .bytes b ∉ outs
def OnlyBytes (q : Bytes) (outs : List Out) : Prop := ∀ b, .bytes b ∈ outs → b = q

/-- The fields that reading looks at. -/
inductive Sees (s : State) (a : Bytes) : Prop
  /-- no head, or a head without a body: there is nothing to read -/
  | nothing (hd : s.done = none) (hr : s.reader = none) (hs : s.set = false) (hw : s.watched = false) (hh : s.has = false)
      (hb : s.body = none) (hn : NoBytes s.outs) (hf : s.message = none → s.buffer = a)
  | running (m : Msg) (need : Need) (hm : s.message = some m) (hr : s.reader = some need) (hs : s.set = true) (hd : s.done = none)
      (hw : s.watched = true) (hh : s.has = true) (hc : s.chunks = a) (hb : s.body = none) (hn : NoBytes s.outs) (hq : Reads m a need)
  /-- the body is there and was not read -/
  | ready (m : Msg) (q : Bytes) (hm : s.message = some m) (hr : s.reader = none) (hs : s.set = false) (hd : s.done = some .success)
      (hc : s.chunks = q) (hh : s.has = true) (hb : s.body = none) (hn : NoBytes s.outs) (hq : IsBody m a q)
  /-- the body was read -/
  | taken (m : Msg) (q : Bytes) (hm : s.message = some m) (hr : s.reader = none) (hs : s.set = false) (hd : s.done = some .success)
      (hh : s.has = false) (hb : s.body = some q) (hn : OnlyBytes q s.outs) (hq : IsBody m a q)
  /-- the body is lost -/
  | lost (m : Msg) (hm : s.message = some m) (hr : s.reader = none) (hs : s.set = false) (hd : s.done.isSome = true)
      (hh : s.has = true → s.done ≠ some .success) (hb : s.body = none) (hn : NoBytes s.outs)

/-- All these fields are the same. -/
structure Eqv (s t : State) : Prop where
  message : t.message = s.message
  reader : t.reader = s.reader
  set : t.set = s.set
  done : t.done = s.done
  watched : t.watched = s.watched
  chunks : t.chunks = s.chunks
  buffer : t.buffer = s.buffer
  body : t.body = s.body
  has : t.has = s.has
  outs : t.outs = s.outs

theorem Sees.eqv {s t : State} {a : Bytes} (h : Sees s a) (e : Eqv s t) : Sees t a := by
  cases h with
  | nothing hd hr hs hw hh hb hn hf =>
    exact .nothing (e.done.trans hd) (e.reader.trans hr) (e.set.trans hs) (e.watched.trans hw) (e.has.trans hh) (e.body.trans hb)
      (by rw [e.outs]; exact hn) (by rw [e.message, e.buffer]; exact hf)
  | running m need hm hr hs hd hw hh hc hb hn hq =>
    exact .running m need (e.message.trans hm) (e.reader.trans hr) (e.set.trans hs) (e.done.trans hd) (e.watched.trans hw)
      (e.has.trans hh) (e.chunks.trans hc) (e.body.trans hb) (by rw [e.outs]; exact hn) hq
  | ready m q hm hr hs hd hc hh hb hn hq =>
    exact .ready m q (e.message.trans hm) (e.reader.trans hr) (e.set.trans hs) (e.done.trans hd) (e.chunks.trans hc) (e.has.trans hh)
      (e.body.trans hb) (by rw [e.outs]; exact hn) hq
  | taken m q hm hr hs hd hh hb hn hq =>
    exact .taken m q (e.message.trans hm) (e.reader.trans hr) (e.set.trans hs) (e.done.trans hd) (e.has.trans hh) (e.body.trans hb)
      (by rw [e.outs]; exact hn) hq
  | lost m hm hr hs hd hh hb hn =>
    exact .lost m (e.message.trans hm) (e.reader.trans hr) (e.set.trans hs) (by rw [e.done]; exact hd) (by rw [e.has, e.done]; exact hh)
      (e.body.trans hb) (by rw [e.outs]; exact hn)

theorem Eqv.refl (s : State) : Eqv s s := ⟨rfl, rfl, rfl, rfl, rfl, rfl, rfl, rfl, rfl, rfl⟩

theorem Eqv.trans {s t u : State} (h : Eqv s t) (g : Eqv t u) : Eqv s u :=
  ⟨g.message.trans h.message, g.reader.trans h.reader, g.set.trans h.set, g.done.trans h.done, g.watched.trans h.watched,
    g.chunks.trans h.chunks, g.buffer.trans h.buffer, g.body.trans h.body, g.has.trans h.has, g.outs.trans h.outs⟩

theorem cleanUp_eqv (s : State) : Eqv s (cleanUp s) := by
  rw [cleanUp_eq]; exact ⟨rfl, rfl, rfl, rfl, rfl, rfl, rfl, rfl, rfl, rfl⟩

theorem connRelease_eqv (s : State) : Eqv s (connRelease s) := by
  unfold connRelease; split <;> exact ⟨rfl, rfl, rfl, rfl, rfl, rfl, rfl, rfl, rfl, rfl⟩

theorem connClose_eqv (s : State) : Eqv s (connClose s) := by
  unfold connClose; split <;> exact ⟨rfl, rfl, rfl, rfl, rfl, rfl, rfl, rfl, rfl, rfl⟩

theorem releaseConn_eqv (s : State) : Eqv s (releaseConn s) := by
  unfold releaseConn
  split
  · exact Eqv.trans (t := { s with conn := false }) ⟨rfl, rfl, rfl, rfl, rfl, rfl, rfl, rfl, rfl, rfl⟩ (connRelease_eqv _)
  · exact Eqv.refl s

theorem responseEof_eqv (s : State) : Eqv s (responseEof s) := by
  unfold responseEof
  split
  · exact Eqv.refl s
  · split
    · split
      · exact Eqv.refl s
      · refine Eqv.trans (Eqv.trans (t := releaseConn { s with released := true }) (Eqv.trans (t := { s with released := true }) ?_
          (releaseConn_eqv _)) ?_) (cleanUp_eqv _) <;> exact ⟨rfl, rfl, rfl, rfl, rfl, rfl, rfl, rfl, rfl, rfl⟩
    · exact Eqv.trans (t := { s with closed := true }) ⟨rfl, rfl, rfl, rfl, rfl, rfl, rfl, rfl, rfl, rfl⟩ (cleanUp_eqv _)

/-! `finish` of a stream which runs, aside from what concerns the connection. -/

theorem finish_success {s : State} (hd : s.done = none) (hw : s.watched = true) :
    Eqv { s with done := some .success, watched := false } (finish s .success) := by
  unfold finish runCallbacks
  dsimp only
  rw [if_neg (show ¬ s.done.isSome = true by rw [hd]; decide), if_pos hw, if_neg (show ¬ (some Done.success = some Done.aborted) by decide)]
  exact responseEof_eqv _

theorem finish_exception {s : State} (hd : s.done = none) (hw : s.watched = true) :
    Eqv { s with done := some .exception, watched := false, chunks := [] } (finish s .exception) := by
  unfold finish runCallbacks
  dsimp only
  rw [if_neg (show ¬ s.done.isSome = true by rw [hd]; decide), if_pos hw,
    if_neg (show ¬ (some Done.exception = some Done.aborted) by decide)]
  exact responseEof_eqv _

theorem finish_aborted {s : State} (hd : s.done = none) (hw : s.watched = true) :
    Eqv { s with done := some .aborted, watched := false, reader := none, set := false } (finish s .aborted) := by
  unfold finish runCallbacks
  dsimp only
  rw [if_neg (show ¬ s.done.isSome = true by rw [hd]; decide), if_pos hw, if_pos (show some Done.aborted = some Done.aborted from rfl)]
  refine Eqv.trans ?_ (responseEof_eqv _)
  exact ⟨rfl, rfl, rfl, rfl, rfl, rfl, rfl, rfl, rfl, rfl⟩

theorem not_success {d : Option Done} (h : d = some .exception) : d ≠ some .success := by rw [h]; decide

theorem finish_done {s : State} (d : Done) (h : s.done.isSome = true) : finish s d = s := by
  unfold finish; rw [if_pos h]

theorem Sees.failed {s : State} {a : Bytes} (h : Sees s a) : Sees (setException s) a := by
  cases hs : s.set
  · rw [setException_idle hs]
    exact h.eqv ⟨rfl, rfl, rfl, rfl, rfl, rfl, rfl, rfl, rfl, rfl⟩
  · cases h with
    | nothing hd hr hs' => rw [hs'] at hs; cases hs
    | ready m q hm hr hs' => rw [hs'] at hs; cases hs
    | taken m q hm hr hs' => rw [hs'] at hs; cases hs
    | lost m hm hr hs' => rw [hs'] at hs; cases hs
    | running m need hm hr hs' hd hw hh hc hb hn hq =>
      unfold setException
      rw [if_pos hs]
      have e := finish_exception (s := { s with failed := true, set := false }) hd hw
      generalize finish { s with failed := true, set := false } .exception = t at e
      exact .lost m (e.message.trans hm) rfl e.set (by show t.done.isSome = true; rw [e.done]; rfl)
        (fun _ => not_success e.done) (e.body.trans hb) (by show NoBytes t.outs; rw [e.outs]; exact hn)

theorem Sees.ended {s : State} {a : Bytes} (h : Sees s a) : Sees (eofReceived s) a := by
  unfold eofReceived
  cases h with
  | nothing hd hr hs hw hh hb hn hf => rw [hr]; exact .nothing hd rfl hs hw hh hb hn hf
  | ready m q hm hr hs hd hc hh hb hn hq => rw [hr]; exact .ready m q hm rfl hs hd hc hh hb hn hq
  | taken m q hm hr hs hd hh hb hn hq => rw [hr]; exact .taken m q hm rfl hs hd hh hb hn hq
  | lost m hm hr hs hd hh hb hn => rw [hr]; exact .lost m hm rfl hs hd hh hb hn
  | running m need hm hr hs hd hw hh hc hb hn hq =>
    rw [hr]
    cases hq with
    | left n r _ h hr' ha =>
      have e := finish_exception (s := { s with atEof := true, reader := none, set := false }) hd hw
      dsimp only
      generalize finish { s with atEof := true, reader := none, set := false } .exception = t at e
      exact .lost m (e.message.trans hm) e.reader e.set (by rw [e.done]; rfl) (fun _ => not_success e.done) (e.body.trans hb)
        (by rw [e.outs]; exact hn)
    | eof _ h =>
      have e := finish_success (s := { s with atEof := true, reader := none, set := false }) hd hw
      dsimp only
      generalize finish { s with atEof := true, reader := none, set := false } .success = t at e
      refine .ready m a (e.message.trans hm) e.reader e.set e.done (e.chunks.trans hc) (e.has.trans hh) (e.body.trans hb)
        (by rw [e.outs]; exact hn) ?_
      have := IsBody.untilEof m a [] h
      rw [List.append_nil] at this
      exact this

theorem Sees.received {s : State} {a : Bytes} (h : Sees s a) (bs : Bytes) : Sees (received s bs) (a ++ bs) := by
  unfold Response.received
  cases h with
  | nothing hd hr hs hw hh hb hn hf =>
    rw [hr]
    exact .nothing hd rfl hs hw hh hb hn (fun hm => by show s.buffer ++ bs = _; rw [hf hm])
  | ready m q hm hr hs hd hc hh hb hn hq => rw [hr]; exact .ready m q hm rfl hs hd hc hh hb hn (hq.more bs)
  | taken m q hm hr hs hd hh hb hn hq => rw [hr]; exact .taken m q hm rfl hs hd hh hb hn (hq.more bs)
  | lost m hm hr hs hd hh hb hn => rw [hr]; exact .lost m hm rfl hs hd hh hb hn
  | running m need hm hr hs hd hw hh hc hb hn hq =>
    rw [hr]
    cases hq with
    | eof _ h =>
      exact .running m .eof hm rfl hs hd hw hh (by show s.chunks ++ bs = _; rw [hc]) hb hn (.eof m _ h)
    | left n r _ h hr' ha =>
      dsimp only
      by_cases hl : bs.length < r
      · rw [if_pos hl]
        exact .running m _ hm rfl hs hd hw hh (by show s.chunks ++ bs = _; rw [hc]) hb hn
          (.left m n _ _ h (by omega) (by rw [List.length_append]; omega))
      · rw [if_neg hl]
        have e := finish_success (s := { s with reader := some (.left r), chunks := s.chunks ++ bs.take r, buffer := bs.drop r }) hd hw
        generalize finish { s with reader := some (.left r), chunks := s.chunks ++ bs.take r, buffer := bs.drop r } .success = t at e
        refine .ready m (a ++ bs.take r) (e.message.trans hm) rfl rfl e.done (e.chunks.trans (by show s.chunks ++ _ = _; rw [hc]))
          (e.has.trans hh) (e.body.trans hb) (by show NoBytes t.outs; rw [e.outs]; exact hn) ?_
        have := IsBody.exactly m n (a ++ bs) h (by rw [List.length_append]; omega)
        rw [← ha, List.take_length_add_append] at this
        exact this

theorem Sees.broken {s : State} {a : Bytes} (h : Sees s a) : Sees (broken s) a := by
  unfold Response.broken
  cases h with
  | nothing hd hr hs hw hh hb hn hf => rw [hr]; exact .nothing hd hr hs hw hh hb hn hf
  | ready m q hm hr hs hd hc hh hb hn hq => rw [hr]; exact .ready m q hm hr hs hd hc hh hb hn hq
  | taken m q hm hr hs hd hh hb hn hq => rw [hr]; exact .taken m q hm hr hs hd hh hb hn hq
  | lost m hm hr hs hd hh hb hn => rw [hr]; exact .lost m hm hr hs hd hh hb hn
  | running m need hm hr hs hd hw hh hc hb hn hq =>
    rw [hr]
    have e := finish_exception hd hw
    dsimp only
    generalize finish s .exception = t at e
    exact .lost m (e.message.trans hm) rfl rfl (by show t.done.isSome = true; rw [e.done]; rfl) (fun _ => not_success e.done)
      (e.body.trans hb) (by show NoBytes t.outs; rw [e.outs]; exact hn)

/-- The head is there, and the body is to be read; `b` is what `get_payload_reader_task` gave. -/
theorem started_sees {s : State} {a : Bytes} {m : Msg} (b : Body) (hbd : m.body = b) (hne : b ≠ .empty) (hm : s.message = some m)
    (hd : s.done = none) (hr : s.reader = none) (hs : s.set = false) (hb : s.body = none) (hn : NoBytes s.outs)
    (hf : s.buffer = a) : Sees { watch (setReader s b) with has := true } a := by
  have fin : ∀ t : State, t.done.isSome = true → Eqv t (watch t) := by
    intro t ht; unfold watch; rw [if_pos ht]; exact responseEof_eqv t
  have go : ∀ t : State, t.done = none → watch t = { t with watched := true } := by
    intro t ht; unfold watch; rw [if_neg (by rw [ht]; decide)]
  unfold setReader
  by_cases hfail : s.failed = true
  · rw [if_pos hfail]
    have e := fin { s with done := some .exception } rfl
    generalize watch { s with done := some .exception } = t at e
    exact .lost m (e.message.trans hm) (e.reader.trans hr) (e.set.trans hs) (by show t.done.isSome = true; rw [e.done]; rfl)
      (fun _ => not_success e.done) (e.body.trans hb) (by show NoBytes t.outs; rw [e.outs]; exact hn)
  · rw [if_neg hfail]
    cases b with
    | empty => exact absurd rfl hne
    | exactly n =>
      dsimp only
      by_cases hl : n ≤ s.buffer.length
      · rw [if_pos hl]
        have e := fin { s with done := some .success, chunks := s.buffer.take n, buffer := s.buffer.drop n } rfl
        generalize watch { s with done := some .success, chunks := s.buffer.take n, buffer := s.buffer.drop n } = t at e
        refine .ready m (a.take n) (e.message.trans hm) (e.reader.trans hr) (e.set.trans hs) e.done
          (e.chunks.trans (by show s.buffer.take n = _; rw [hf])) rfl (e.body.trans hb) (by show NoBytes t.outs; rw [e.outs]; exact hn) ?_
        exact .exactly m n a hbd (by rw [← hf]; exact hl)
      · rw [if_neg hl]
        by_cases he : s.atEof = true
        · rw [if_pos he]
          have e := fin { s with done := some .exception, buffer := [] } rfl
          generalize watch { s with done := some .exception, buffer := [] } = t at e
          exact .lost m (e.message.trans hm) (e.reader.trans hr) (e.set.trans hs) (by show t.done.isSome = true; rw [e.done]; rfl)
            (fun _ => not_success e.done) (e.body.trans hb) (by show NoBytes t.outs; rw [e.outs]; exact hn)
        · rw [if_neg he, go { s with chunks := s.buffer, buffer := [], reader := some (.left (n - s.buffer.length)), set := true } hd]
          exact .running m _ hm rfl rfl hd rfl rfl hf hb hn (.left m n _ a hbd (by omega) (by rw [← hf]; omega))
    | untilEof =>
      dsimp only
      by_cases he : s.atEof = true
      · rw [if_pos he]
        have e := fin { s with done := some .success, chunks := s.buffer, buffer := [] } rfl
        generalize watch { s with done := some .success, chunks := s.buffer, buffer := [] } = t at e
        refine .ready m a (e.message.trans hm) (e.reader.trans hr) (e.set.trans hs) e.done
          (e.chunks.trans (by show s.buffer = _; rw [hf])) rfl (e.body.trans hb) (by show NoBytes t.outs; rw [e.outs]; exact hn) ?_
        have := IsBody.untilEof m a [] hbd
        rw [List.append_nil] at this
        exact this
      · rw [if_neg he, go { s with chunks := s.buffer, buffer := [], reader := some .eof, set := true } hd]
        exact .running m _ hm rfl rfl hd rfl rfl hf hb hn (.eof m a hbd)

theorem Sees.start {s : State} {a : Bytes} (h : Sees s a) (m : Msg) : Sees (start s m) a := by
  unfold Response.start
  cases hm : s.message with
  | some m' => exact h
  | none =>
    cases h with
    | running m' need hm' => rw [hm'] at hm; cases hm
    | ready m' q hm' => rw [hm'] at hm; cases hm
    | taken m' q hm' => rw [hm'] at hm; cases hm
    | lost m' hm' => rw [hm'] at hm; cases hm
    | nothing hd hr hs hw hh hb hn hf =>
      have base : Sees { s with message := some m } a := .nothing hd hr hs hw hh hb hn (by intro hx; cases hx)
      dsimp only
      split
      · exact base
      · exact base.eqv (responseEof_eqv _)
      · split
        · exact base.eqv (responseEof_eqv _)
        · rename_i hne
          exact started_sees (s := { s with message := some m }) m.body rfl hne rfl hd hr hs hb hn (hf hm)

theorem Sees.notify {s : State} {a : Bytes} (h : Sees s a) : Sees (notify s) a := by
  unfold Response.notify
  split
  · exact h
  · split
    · exact h.failed.eqv ⟨rfl, rfl, rfl, rfl, rfl, rfl, rfl, rfl, rfl, rfl⟩
    · exact h.eqv ⟨rfl, rfl, rfl, rfl, rfl, rfl, rfl, rfl, rfl, rfl⟩

theorem Sees.close {s : State} {a : Bytes} (h : Sees s a) : Sees (close s) a := by
  have hn := h.notify
  unfold Response.close
  generalize Response.notify s = t at hn
  dsimp only
  split
  · exact hn
  · refine Sees.eqv ?_ (cleanUp_eqv _)
    split
    · exact Sees.eqv (s := { t with closed := true, conn := false }) (hn.eqv ⟨rfl, rfl, rfl, rfl, rfl, rfl, rfl, rfl, rfl, rfl⟩) (connClose_eqv _)
    · exact hn.eqv ⟨rfl, rfl, rfl, rfl, rfl, rfl, rfl, rfl, rfl, rfl⟩

theorem Sees.release {s : State} {a : Bytes} (h : Sees s a) : Sees (release s) a := by
  have hn := h.notify
  unfold Response.release
  generalize Response.notify s = t at hn
  dsimp only
  split
  · exact hn
  · refine Sees.eqv ?_ (cleanUp_eqv _)
    exact Sees.eqv (s := { t with closed := true }) (hn.eqv ⟨rfl, rfl, rfl, rfl, rfl, rfl, rfl, rfl, rfl, rfl⟩) (releaseConn_eqv _)

theorem noBytes_snoc {outs : List Out} (h : NoBytes outs) {o : Out} (ho : ∀ b, o ≠ .bytes b) : NoBytes (outs ++ [o]) := by
  intro b hb
  rcases List.mem_append.1 hb with hb | hb
  · exact h b hb
  · exact ho b (List.mem_singleton.1 hb).symm

theorem onlyBytes_snoc {outs : List Out} {q : Bytes} (h : OnlyBytes q outs) {o : Out} (ho : ∀ b, o = .bytes b → b = q) :
    OnlyBytes q (outs ++ [o]) := by
  intro b hb
  rcases List.mem_append.1 hb with hb | hb
  · exact h b hb
  · exact ho b (List.mem_singleton.1 hb).symm

theorem NoBytes.only {outs : List Out} (h : NoBytes outs) (q : Bytes) : OnlyBytes q outs := fun b hb => absurd hb (h b)

/-- The end of a `read` that found the stream done. -/
theorem Sees.readEnds {s : State} {a : Bytes} (h : Sees s a) (hh : s.has = true) (hd : s.done.isSome = true) : Sees (readEnds s) a := by
  unfold Response.readEnds
  cases h with
  | nothing hd' => rw [hd'] at hd; cases hd
  | running m need hm hr hs hd' => rw [hd'] at hd; cases hd
  | taken m q hm hr hs hd' hh' => rw [hh'] at hh; cases hh
  | ready m q hm hr hs hd' hc hh' hb hn hq =>
    split
    · exact .taken m q hm hr hs hd' rfl (by show some s.chunks = _; rw [hc])
        (onlyBytes_snoc (hn.only q) (by intro b hb'; rw [hc] at hb'; cases hb'; rfl)) hq
    · rename_i hx; exact absurd hd' hx
  | lost m hm hr hs hd' hh' hb hn =>
    split
    · rename_i hq; exact absurd hq (hh' hh)
    · exact .lost m hm hr hs hd' (by intro hx; cases hx) hb (noBytes_snoc hn (by intro b hb'; cases hb'))

theorem Sees.read {s : State} {a : Bytes} (h : Sees s a) : Sees (read s) a := by
  unfold Response.read
  split
  · exact h
  · split
    · rename_i hh
      split
      · rename_i hd; exact h.readEnds hh hd
      · exact h.eqv ⟨rfl, rfl, rfl, rfl, rfl, rfl, rfl, rfl, rfl, rfl⟩
    · rename_i hh
      have no : ∀ b, Out.nothing ≠ .bytes b := by intro b hb; cases hb
      cases h with
      | nothing hd hr hs hw hh' hb hn hf => rw [hb]; exact .nothing hd hr hs hw hh' rfl (noBytes_snoc hn no) hf
      | running m need hm hr hs hd hw hh' => exact absurd hh' hh
      | ready m q hm hr hs hd hc hh' => exact absurd hh' hh
      | taken m q hm hr hs hd hh' hb hn hq =>
        rw [hb]
        exact .taken m q hm hr hs hd hh' rfl (onlyBytes_snoc hn (by intro b hb'; cases hb'; rfl)) hq
      | lost m hm hr hs hd hh' hb hn => rw [hb]; exact .lost m hm hr hs hd hh' rfl (noBytes_snoc hn no)

/-- A task waits only for a stream which the response has. -/
def Waits (s : State) : Prop := s.reading = true → s.has = true

theorem Sees.cancelRead {s : State} {a : Bytes} (h : Sees s a) (hw : Waits s) : Sees (cancelRead s) a := by
  unfold Response.cancelRead
  split
  · rename_i hr
    have hh := hw hr
    have no : ∀ b, Out.cancelled ≠ .bytes b := by intro b hb; cases hb
    cases h with
    | nothing hd hr hs hw hh' => rw [hh'] at hh; cases hh
    | taken m q hm hr hs hd hh' => rw [hh'] at hh; cases hh
    | ready m q hm hr hs hd hc hh' hb hn hq =>
      rw [finish_done _ (by rw [hd]; rfl)]
      exact .lost m hm hr hs (by show s.done.isSome = true; rw [hd]; rfl) (by intro hx; cases hx) hb (noBytes_snoc hn no)
    | lost m hm hr hs hd hh' hb hn =>
      rw [finish_done _ hd]
      exact .lost m hm hr hs hd (by intro hx; cases hx) hb (noBytes_snoc hn no)
    | running m need hm hr hs hd hw hh' hc hb hn hq =>
      have e := finish_aborted hd hw
      generalize finish s .aborted = t at e
      exact .lost m (e.message.trans hm) e.reader e.set (by show t.done.isSome = true; rw [e.done]; rfl) (by intro hx; cases hx)
        (e.body.trans hb) (noBytes_snoc hn no)
  · exact h

/-! `Waits` is kept by every step: only reading touches what it speaks of. -/

theorem reading_releaseConn (s : State) : (releaseConn s).reading = s.reading := by
  unfold releaseConn
  split
  · unfold connRelease; split <;> rfl
  · rfl

theorem reading_responseEof (s : State) : (responseEof s).reading = s.reading := by
  unfold responseEof
  split
  · rfl
  · split
    · split
      · rfl
      · rw [cleanUp_eq]
        exact reading_releaseConn { s with released := true }
    · rw [cleanUp_eq]

theorem reading_runCallbacks (s : State) :
    (runCallbacks s).reading = s.reading ∧ (runCallbacks s).has = s.has := by
  unfold runCallbacks
  by_cases hw : s.watched = true
  · rw [if_pos hw]
    refine ⟨(reading_responseEof _).trans ?_, (responseEof_eqv _).has.trans ?_⟩ <;> (split <;> rfl)
  · rw [if_neg hw]; exact ⟨rfl, rfl⟩

theorem reading_finish (s : State) (d : Done) : (finish s d).reading = s.reading ∧ (finish s d).has = s.has := by
  unfold finish
  split
  · exact ⟨rfl, rfl⟩
  · exact reading_runCallbacks _

theorem Waits.of {s t : State} (h : Waits s) (hr : t.reading = s.reading) (hh : t.has = s.has) : Waits t := by
  intro hx; rw [hh]; exact h (hr ▸ hx)

theorem waits_setException {s : State} (h : Waits s) : Waits (setException s) := by
  unfold setException
  split
  · exact h.of (reading_finish _ _).1 (reading_finish _ _).2
  · exact h

theorem waits_notify {s : State} (h : Waits s) : Waits (notify s) := by
  unfold notify
  split
  · exact h
  · split
    · exact (waits_setException h).of rfl rfl
    · exact h

theorem waits_close {s : State} (h : Waits s) : Waits (close s) := by
  have hn := waits_notify h
  unfold close
  generalize notify s = t at hn
  dsimp only
  split
  · exact hn
  · rw [cleanUp_eq]
    split
    · unfold connClose; split <;> exact hn
    · exact hn

theorem waits_releaseConn {s : State} (h : Waits s) : Waits (releaseConn s) := by
  unfold releaseConn connRelease
  split
  · split <;> exact h
  · exact h

theorem waits_release {s : State} (h : Waits s) : Waits (release s) := by
  have hn := waits_notify h
  unfold release
  generalize notify s = t at hn
  dsimp only
  split
  · exact hn
  · rw [cleanUp_eq]
    exact waits_releaseConn (s := { t with closed := true }) hn

theorem waits_responseEof {s : State} (h : Waits s) : Waits (responseEof s) :=
  h.of (reading_responseEof s) (responseEof_eqv s).has

theorem waits_readEnds (s : State) : Waits (readEnds s) := by
  unfold readEnds; split <;> (intro hx; cases hx)

theorem waits_step {s : State} (h : Waits s) (op : Op) : Waits (step s op) := by
  cases op with
  | receive bs =>
    show Waits (received s bs)
    unfold received
    split
    · exact h
    · exact h
    · rename_i n _
      split
      · exact h
      · have := reading_finish { s with chunks := s.chunks ++ bs.take n, buffer := bs.drop n } .success
        exact h.of this.1 this.2
  | broken =>
    show Waits (broken s)
    unfold broken
    split
    · exact h
    · exact h.of (reading_finish s .exception).1 (reading_finish s .exception).2
  | eof =>
    show Waits (eofReceived s)
    unfold eofReceived
    split
    · exact h
    · exact h.of (reading_finish _ _).1 (reading_finish _ _).2
    · exact h.of (reading_finish _ _).1 (reading_finish _ _).2
  | lost => exact waits_setException h
  | start m =>
    show Waits (start s m)
    unfold start
    split
    · exact h
    · split
      · exact h
      · exact waits_responseEof (s := { s with message := some m }) h
      · split
        · exact waits_responseEof (s := { s with message := some m }) h
        · intro _; rfl
  | startFails =>
    show Waits (match s.message with | none => close s | some _ => s)
    split
    · exact waits_close h
    · exact h
  | read =>
    show Waits (read s)
    unfold read
    split
    · exact h
    · split
      · rename_i hh
        split
        · exact waits_readEnds s
        · intro _; exact hh
      · split <;> exact h
  | wake =>
    show Waits (wake s)
    unfold wake
    split
    · exact waits_readEnds s
    · exact h
  | cancelRead =>
    show Waits (cancelRead s)
    unfold cancelRead
    split
    · intro hx; cases hx
    · exact h
  | close => exact waits_close h
  | release => exact waits_release h
  | del =>
    show Waits (del s)
    unfold del
    split
    · exact h
    · exact waits_releaseConn h
  | writerEnds =>
    show Waits (writerEnds s)
    unfold writerEnds
    split <;> exact h
  | writerFails =>
    show Waits (writerFails s)
    unfold writerFails
    split
    · split
      · exact (waits_setException h).of rfl rfl
      · exact h
    · exact h
  | detach =>
    show Waits (detach s)
    unfold detach
    split <;> exact h

theorem Sees.step {s : State} {a : Bytes} (h : Sees s a) (hw : Waits s) (op : Op) : Sees (step s op) (a ++ bytesOf op) := by
  cases op with
  | receive bs => exact h.received bs
  | broken => rw [show bytesOf .broken = [] from rfl, List.append_nil]; exact h.broken
  | eof => rw [show bytesOf .eof = [] from rfl, List.append_nil]; exact h.ended
  | lost => rw [show bytesOf .lost = [] from rfl, List.append_nil]; exact h.failed
  | start m => rw [show bytesOf (.start m) = [] from rfl, List.append_nil]; exact h.start m
  | startFails =>
    rw [show bytesOf .startFails = [] from rfl, List.append_nil]
    show Sees (match s.message with | none => Response.close s | some _ => s) a
    split
    · exact h.close
    · exact h
  | read => rw [show bytesOf .read = [] from rfl, List.append_nil]; exact h.read
  | wake =>
    rw [show bytesOf .wake = [] from rfl, List.append_nil]
    show Sees (wake s) a
    unfold wake
    split
    · rename_i hx
      have hx : s.reading = true ∧ s.done.isSome = true := by simpa using hx
      exact h.readEnds (hw hx.1) hx.2
    · exact h
  | cancelRead => rw [show bytesOf .cancelRead = [] from rfl, List.append_nil]; exact h.cancelRead hw
  | close => rw [show bytesOf .close = [] from rfl, List.append_nil]; exact h.close
  | release => rw [show bytesOf .release = [] from rfl, List.append_nil]; exact h.release
  | del =>
    rw [show bytesOf .del = [] from rfl, List.append_nil]
    show Sees (del s) a
    unfold del
    split
    · exact h
    · exact h.eqv (releaseConn_eqv s)
  | writerEnds =>
    rw [show bytesOf .writerEnds = [] from rfl, List.append_nil]
    show Sees (writerEnds s) a
    unfold writerEnds
    split
    · exact h.eqv ⟨rfl, rfl, rfl, rfl, rfl, rfl, rfl, rfl, rfl, rfl⟩
    · exact h
  | writerFails =>
    rw [show bytesOf .writerFails = [] from rfl, List.append_nil]
    show Sees (writerFails s) a
    unfold writerFails
    split
    · split
      · exact h.failed.eqv ⟨rfl, rfl, rfl, rfl, rfl, rfl, rfl, rfl, rfl, rfl⟩
      · exact h.eqv ⟨rfl, rfl, rfl, rfl, rfl, rfl, rfl, rfl, rfl, rfl⟩
    · exact h
  | detach =>
    rw [show bytesOf .detach = [] from rfl, List.append_nil]
    show Sees (detach s) a
    unfold detach
    split
    · exact h.eqv ⟨rfl, rfl, rfl, rfl, rfl, rfl, rfl, rfl, rfl, rfl⟩
    · exact h

theorem Sees.run {s : State} {a : Bytes} (h : Sees s a) (hw : Waits s) (ops : List Op) : Sees (run s ops) (a ++ arrived ops) := by
  induction ops generalizing s a with
  | nil => rw [show arrived [] = [] from rfl, List.append_nil]; exact h
  | cons op ops ih =>
    rw [show arrived (op :: ops) = bytesOf op ++ arrived ops from rfl, ← List.append_assoc]
    exact ih (h.step hw op) (waits_step hw op)

theorem sees_fresh (x : Method) (p : Nat) (f : Bool) : Sees (fresh x p f) [] :=
  .nothing rfl rfl rfl rfl rfl rfl (by intro b hb; cases hb) (fun _ => rfl)

/-- C245: whatever happens, all reads of a response which give bytes give the same bytes, and these are the body: as many bytes after the head as
the message says, or those until the peer ended the connection. -/
theorem C245_body_partial (x : Method) (performed : Nat) (force : Bool) (ops : List Op) (b : Bytes)
    (h : .bytes b ∈ (run (fresh x performed force) ops).outs) :
    ∃ m, headOf none ops = some m ∧ IsBody m (arrived ops) b ∧
      ∀ b', .bytes b' ∈ (run (fresh x performed force) ops).outs → b' = b := by
  have hs := (sees_fresh x performed force).run (by intro hx; cases hx) ops
  have hm := ((Ok.fresh x performed force).run ops).msg
  rw [List.nil_append] at hs
  cases hs with
  | nothing hd hr hs hw hh hb hn hf => exact absurd h (hn b)
  | running m need hm' hr hs hd hw hh hc hb hn hq => exact absurd h (hn b)
  | ready m q hm' hr hs hd hc hh hb hn hq => exact absurd h (hn b)
  | lost m hm' hr hs hd hh hb hn => exact absurd h (hn b)
  | taken m q hm' hr hs hd hh hb hn hq =>
    have hbq := hn b h
    refine ⟨m, hm.symm.trans hm', by rw [hbq]; exact hq, ?_⟩
    intro b' hb'
    rw [hn b' hb', hbq]

example : (run (fresh .other 0 false) [.receive [1], .start { body := .exactly 2 }, .read, .receive [2, 3], .wake, .close, .read]).outs =
    [.bytes [1, 2], .bytes [1, 2]] := by decide

/-! What was given stays given. -/

theorem outs_runCallbacks (s : State) : (runCallbacks s).outs = s.outs := by
  unfold runCallbacks
  by_cases hw : s.watched = true
  · rw [if_pos hw]
    refine (responseEof_eqv _).outs.trans ?_
    split <;> rfl
  · rw [if_neg hw]

theorem outs_finish (s : State) (d : Done) : (finish s d).outs = s.outs := by
  unfold finish
  split
  · rfl
  · exact outs_runCallbacks _

theorem outs_setException (s : State) : (setException s).outs = s.outs := by
  unfold setException
  split
  · exact outs_finish _ _
  · rfl

theorem outs_notify (s : State) : (notify s).outs = s.outs := by
  unfold notify
  split
  · rfl
  · split
    · exact outs_setException s
    · rfl

theorem outs_close (s : State) : (close s).outs = s.outs := by
  have hn := outs_notify s
  unfold close
  generalize notify s = t at hn
  dsimp only
  split
  · exact hn
  · refine (cleanUp_eqv _).outs.trans ?_
    split
    · exact (connClose_eqv _).outs.trans hn
    · exact hn

theorem outs_release (s : State) : (release s).outs = s.outs := by
  have hn := outs_notify s
  unfold release
  generalize notify s = t at hn
  dsimp only
  split
  · exact hn
  · exact (cleanUp_eqv _).outs.trans ((releaseConn_eqv _).outs.trans hn)

theorem outs_readEnds (s : State) : s.outs <+: (readEnds s).outs := by
  unfold readEnds; split <;> exact List.prefix_append _ _

theorem prefix_of_eq {l r : List Out} (h : r = l) : l <+: r := h ▸ List.prefix_refl _

theorem outs_setReader (s : State) (b : Body) : (setReader s b).outs = s.outs := by
  unfold setReader
  split
  · rfl
  · split
    · rfl
    · split
      · rfl
      · split <;> rfl
    · split <;> rfl

theorem outs_step (s : State) (op : Op) : s.outs <+: (step s op).outs := by
  cases op with
  | receive bs =>
    refine prefix_of_eq ?_
    show (received s bs).outs = _
    unfold received
    split
    · rfl
    · rfl
    · split
      · rfl
      · exact outs_finish _ _
  | broken =>
    refine prefix_of_eq ?_
    show (broken s).outs = _
    unfold broken
    split
    · rfl
    · exact outs_finish _ _
  | eof =>
    refine prefix_of_eq ?_
    show (eofReceived s).outs = _
    unfold eofReceived
    split
    · rfl
    · exact outs_finish _ _
    · exact outs_finish _ _
  | lost => exact prefix_of_eq (outs_setException s)
  | start m =>
    refine prefix_of_eq ?_
    show (start s m).outs = _
    unfold start
    split
    · rfl
    · split
      · rfl
      · exact (responseEof_eqv _).outs
      · split
        · exact (responseEof_eqv _).outs
        · show (watch _).outs = _
          unfold watch
          split
          · exact (responseEof_eqv _).outs.trans (outs_setReader _ _)
          · exact outs_setReader _ _
  | startFails =>
    show s.outs <+: State.outs (match s.message with | none => close s | some _ => s)
    split
    · exact prefix_of_eq (outs_close s)
    · exact List.prefix_refl _
  | read =>
    show s.outs <+: (read s).outs
    unfold read
    split
    · exact List.prefix_refl _
    · split
      · split
        · exact outs_readEnds s
        · exact List.prefix_refl _
      · split <;> exact List.prefix_append _ _
  | wake =>
    show s.outs <+: (wake s).outs
    unfold wake
    split
    · exact outs_readEnds s
    · exact List.prefix_refl _
  | cancelRead =>
    show s.outs <+: (cancelRead s).outs
    unfold cancelRead
    split
    · exact List.prefix_append _ _
    · exact List.prefix_refl _
  | close => exact prefix_of_eq (outs_close s)
  | release => exact prefix_of_eq (outs_release s)
  | del =>
    refine prefix_of_eq ?_
    show (del s).outs = _
    unfold del
    split
    · rfl
    · exact (releaseConn_eqv s).outs
  | writerEnds =>
    refine prefix_of_eq ?_
    show (writerEnds s).outs = _
    unfold writerEnds
    split <;> rfl
  | writerFails =>
    refine prefix_of_eq ?_
    show (writerFails s).outs = _
    unfold writerFails
    split
    · split
      · exact outs_setException s
      · rfl
    · rfl
  | detach =>
    refine prefix_of_eq ?_
    show (detach s).outs = _
    unfold detach
    split <;> rfl

theorem outs_run (s : State) (ops : List Op) : s.outs <+: (run s ops).outs := by
  induction ops generalizing s with
  | nil => exact List.prefix_refl _
  | cons op ops ih => exact (outs_step s op).trans (ih (step s op))

theorem waits_run {s : State} (h : Waits s) (ops : List Op) : Waits (run s ops) := by
  induction ops generalizing s with
  | nil => exact h
  | cons op ops ih => exact ih (waits_step h op)

/-- C245: once a read gave the body, every later read gives it again at once, whatever happens between. -/
theorem C245_again_partial (x : Method) (performed : Nat) (force : Bool) (ops between : List Op) (b : Bytes)
    (h : .bytes b ∈ (run (fresh x performed force) ops).outs) :
    (run (fresh x performed force) (ops ++ between ++ [.read])).outs = (run (fresh x performed force) (ops ++ between)).outs ++ [.bytes b] := by
  have hin : .bytes b ∈ (run (fresh x performed force) (ops ++ between)).outs := by
    rw [run_append]; exact (outs_run _ between).subset h
  have hs := (sees_fresh x performed force).run (by intro hx; cases hx) (ops ++ between)
  have hw := waits_run (s := fresh x performed force) (by intro hx; cases hx) (ops ++ between)
  rw [run_append _ _ [.read]]
  generalize run (fresh x performed force) (ops ++ between) = s at hin hs hw
  show (read s).outs = _
  cases hs with
  | nothing hd hr hs hw hh hb hn hf => exact absurd hin (hn b)
  | running m need hm' hr hs hd hw hh hc hb hn hq => exact absurd hin (hn b)
  | ready m q hm' hr hs hd hc hh hb hn hq => exact absurd hin (hn b)
  | lost m hm' hr hs hd hh hb hn => exact absurd hin (hn b)
  | taken m q hm' hr hs hd hh hb hn hq =>
    have hbq := hn b hin
    have hrd : s.reading = false := by
      cases hx : s.reading
      · rfl
      · have := hw hx; rw [hh] at this; cases this
    unfold read
    rw [if_neg (by rw [hrd]; decide), if_neg (by rw [hh]; decide), hb, hbq]

example : (run (fresh .other 0 false)
    ([.start { body := .exactly 1 }, .receive [7], .read] ++ [.lost, .release, .del] ++ [.read])).outs = [.bytes [7], .bytes [7]] := by decide

/-- C245 does not hold as stated: after a read was cancelled, every later read gives nothing, in silence, although the whole body arrives. It is
so for every body. -/
theorem C245_cancelled_violated (performed n : Nat) (force : Bool) (m : Msg) (part rest : Bytes) (hb : m.body = .exactly n)
    (hu : m.upgraded = false) (hp : Permits (some m) performed force) (hn : part.length < n) :
    (run (fresh .other performed force) [.receive part, .start m, .read, .cancelRead, .receive rest, .read]).outs = [.cancelled, .nothing] := by
  have : run (fresh .other performed force) [.receive part, .start m, .read, .cancelRead, .receive rest, .read] =
      read (received (cancelRead (read (run (fresh .other performed force) [.receive part, .start m]))) rest) := rfl
  rw [this, started _ _ _ _ _ hb hn]
  obtain ⟨_, h2, _, _, _, _, h7, h8, h9, h10⟩ := aborted_mid hu hp part (n - part.length)
  generalize cancelRead (read (mid performed force m part (n - part.length))) = s at *
  unfold received
  rw [h2]
  unfold read
  dsimp only
  rw [h9, h8, h7]
  show s.outs ++ [Out.nothing] = _
  rw [h10]
  rfl

/-- C245: nor after a read which failed: the next one gives nothing instead of the failure. -/
theorem C245_failed_violated (performed n : Nat) (force : Bool) (m : Msg) (hb : m.body = .exactly n) (hn : 0 < n) :
    (run (fresh .other performed force) [.start m, .lost, .read, .read]).outs = [.error, .nothing] := by
  have : run (fresh .other performed force) [.start m, .lost, .read, .read] =
      read (read (setException (step (fresh .other performed force) (.start m)))) := rfl
  rw [this, started_nil _ _ _ _ hb hn]
  have e := finish_exception (s := { mid performed force m [] n with failed := true, set := false }) rfl rfl
  have hr := (reading_finish { mid performed force m [] n with failed := true, set := false } .exception).1
  have hx : setException (mid performed force m [] n) =
      { finish { mid performed force m [] n with failed := true, set := false } .exception with reader := none } := rfl
  rw [hx]
  generalize finish { mid performed force m [] n with failed := true, set := false } .exception = t at e hr
  have h1 : t.has = true := e.has
  have h2 : t.done = some .exception := e.done
  have h3 : t.body = none := e.body
  have h4 : t.outs = [] := e.outs
  have h5 : t.reading = false := hr
  unfold read readEnds
  simp [h1, h2, h3, h4, h5]

end Verif.Response
