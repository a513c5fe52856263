/-
Properties C182 - C185: the transports of pipes.
-/
import Verif.Pipe.Model

namespace Verif.Pipe

/-! ### Specification -/

/-- What was given to be written while the transport was not closing. -/
def accepted : Wr → List Op → List Nat
  | _, [] => []
  | s, .write d sys :: l => (if s.closing then [] else d) ++ accepted (step s (.write d sys)) l
  | s, o :: l => accepted (step s o) l

/-- A protocol told that the connection is lost without an exception is told that it
was closed. -/
def toldLost (s : Wr) (failed : Bool) : Prop := Told.lost failed ∈ s.told

/-! ### The write end: bytes -/

structure Inv (s : Wr) (acc : List Nat) : Prop where
  writer : s.writer = !s.buf.isEmpty
  closing : s.closing = false → s.queue = [] ∧ s.alive = true
  dropped : ∃ d, acc = s.pipe ++ s.buf ++ d ∧ (d ≠ [] → s.closing = true ∧ s.buf = [])
  reader : s.reader = true → s.closing = true → s.buf ≠ []

theorem maybePause_fields (s : Wr) : s.maybePause.pipe = s.pipe ∧ s.maybePause.buf = s.buf ∧
    s.maybePause.writer = s.writer ∧ s.maybePause.closing = s.closing ∧ s.maybePause.queue = s.queue ∧
    s.maybePause.alive = s.alive ∧ s.maybePause.reader = s.reader ∧ s.maybePause.stale = s.stale ∧
    s.maybePause.low = s.low ∧ s.maybePause.high = s.high := by
  unfold Wr.maybePause; split
  · simp
  · split <;> simp

theorem maybeResume_fields (s : Wr) : s.maybeResume.pipe = s.pipe ∧ s.maybeResume.buf = s.buf ∧
    s.maybeResume.writer = s.writer ∧ s.maybeResume.closing = s.closing ∧ s.maybeResume.queue = s.queue ∧
    s.maybeResume.alive = s.alive ∧ s.maybeResume.reader = s.reader ∧ s.maybeResume.stale = s.stale ∧
    s.maybeResume.low = s.low ∧ s.maybeResume.high = s.high := by
  unfold Wr.maybeResume; split <;> simp

/-- What of an operation is given to be written. -/
def given (s : Wr) : Op → List Nat
  | .write d _ => if s.closing then [] else d
  | _ => []

theorem accepted_cons (s : Wr) (o : Op) (l : List Op) : accepted s (o :: l) = given s o ++ accepted (step s o) l := by
  cases o <;> simp [accepted, given]

/-- What an operation does to the parts which hold bytes, case by case. -/
theorem close_fields (s : Wr) (f : Bool) : (s.close_ f).pipe = s.pipe ∧ (s.close_ f).buf = [] ∧
    (s.close_ f).closing = true ∧ (s.close_ f).writer = (if s.buf.isEmpty then s.writer else false) ∧
    (s.close_ f).queue = s.queue ++ [f] ∧ (s.close_ f).alive = s.alive ∧ (s.close_ f).told = s.told ∧
    (s.close_ f).reader = false ∧ (s.close_ f).paused = s.paused ∧
    (s.close_ f).stale = (if s.alive then s.stale else s.stale + 1) ∧
    (s.close_ f).low = s.low ∧ (s.close_ f).high = s.high := by
  unfold Wr.close_
  by_cases h : s.buf = []
  · simp [h]
  · have : s.buf.isEmpty = false := by simpa using h
    simp [this]

theorem callLost_fields (s : Wr) (f : Bool) : (s.callLost f).pipe = s.pipe ∧ (s.callLost f).buf = s.buf ∧
    (s.callLost f).closing = s.closing ∧ (s.callLost f).writer = s.writer ∧ (s.callLost f).queue = s.queue ∧
    (s.callLost f).alive = false ∧ (s.callLost f).told = (if s.alive then s.told ++ [.lost f] else s.told) ∧
    (s.callLost f).paused = s.paused ∧ (s.callLost f).stale = s.stale ∧ (s.callLost f).high = s.high ∧
    (s.callLost f).low = s.low := by
  unfold Wr.callLost
  cases h : s.alive <;> simp [h]

theorem close_inv {s : Wr} {acc : List Nat} (h : Inv s acc) (f : Bool) : Inv (s.close_ f) acc := by
  obtain ⟨e1, e2, e3, e4, e5, e6, e7, e8, -⟩ := close_fields s f
  refine ⟨?_, ?_, ?_, by rw [e8]; exact nofun⟩
  · rw [e4, e2, h.writer]; cases s.buf <;> rfl
  · rw [e3]; exact nofun
  · obtain ⟨d, h1, _⟩ := h.dropped
    exact ⟨s.buf ++ d, by rw [e1, e2, h1]; simp, fun _ => ⟨e3, e2⟩⟩

theorem Inv.kept {s : Wr} {acc : List Nat} (h : Inv s acc) (hx : s.closing = false ∨ s.buf ≠ []) :
    acc = s.pipe ++ s.buf := by
  obtain ⟨dr, h1, h2⟩ := h.dropped
  cases dr with
  | nil => rw [h1, List.append_nil]
  | cons x y =>
    have := h2 nofun
    rcases hx with hx | hx
    · rw [hx] at this; exact absurd this.1 nofun
    · exact absurd this.2 hx

theorem step_inv {s : Wr} {acc : List Nat} (h : Inv s acc) (o : Op) : Inv (step s o) (acc ++ given s o) := by
  cases o with
  | write d sys =>
    simp only [step, given, Wr.write]
    by_cases hd : d = []
    · subst hd; simp; exact h
    have hd' : d.isEmpty = false := by simpa using hd
    simp only [hd', Bool.false_eq_true, if_false]
    by_cases hc : s.closing = true
    · simp only [if_pos hc, List.append_nil]; exact h
    simp only [if_neg hc]
    have hc' : s.closing = false := by simpa using hc
    obtain ⟨hq, ha⟩ := h.closing hc'
    have h1 := h.kept (.inl hc')
    have mp : ∀ (b p : List Nat) (w : Bool), w = true → b ≠ [] → p ++ b = acc ++ d →
        Inv (Wr.maybePause { s with pipe := p, writer := w, buf := b }) (acc ++ d) := by
      intro b p w hw hb hp
      obtain ⟨e1, e2, e3, e4, e5, e6, e7, -⟩ := maybePause_fields { s with pipe := p, writer := w, buf := b }
      have hbe : b.isEmpty = false := by simpa using hb
      refine ⟨by rw [e3, e2, hw]; simp [hbe], by rw [e5, e6]; exact fun _ => ⟨hq, ha⟩,
        ⟨[], by rw [e1, e2, List.append_nil]; exact hp.symm, nofun⟩, ?_⟩
      rw [e4, e2]; exact fun _ hx => absurd hx hc
    by_cases hb : s.buf = []
    · have hbe : s.buf.isEmpty = true := by simp [hb]
      rw [if_pos hbe]
      cases sys with
      | failed =>
        obtain ⟨e1, e2, e3, e4, e5, e6, e7, e8, -⟩ := close_fields s true
        refine ⟨?_, ?_, ?_, by rw [e8]; exact nofun⟩
        · rw [e4, e2, h.writer, hb]; rfl
        · rw [e3]; exact nofun
        · refine ⟨d, ?_, fun _ => ⟨e3, e2⟩⟩
          rw [e1, e2, h1, hb]
      | blocked => exact mp _ s.pipe true rfl (by simp [hd]) (by rw [h1]; simp)
      | took n =>
        simp only
        by_cases hn : n ≥ d.length
        · rw [if_pos hn]
          refine ⟨h.writer, h.closing, ⟨[], ?_, nofun⟩, h.reader⟩
          simp only [h1, hb, List.take_of_length_le hn, List.append_nil]
        · rw [if_neg hn]
          have hne : s.buf ++ d.drop n ≠ [] := by
            rw [hb, List.nil_append]
            intro e
            have := congrArg List.length e
            rw [List.length_drop] at this; simp at this; omega
          exact mp (s.buf ++ d.drop n) (s.pipe ++ d.take n) true rfl hne (by rw [h1, hb]; simp)
    · have hbe : ¬ s.buf.isEmpty = true := by simpa using hb
      rw [if_neg hbe]
      exact mp (s.buf ++ d) s.pipe s.writer (by rw [h.writer]; simpa using hb) (by simp [hd]) (by rw [h1]; simp)
  | writeReady sys =>
    simp only [step, given, List.append_nil, Wr.writeReady]
    by_cases hw : s.writer = true
    case neg => have : (!s.writer) = true := by simpa using hw
                rw [if_pos this]; exact h
    have hw' : ¬ (!s.writer) = true := by simpa using hw
    rw [if_neg hw']
    have hbuf : s.buf ≠ [] := by
      intro e; have := h.writer; rw [hw, e] at this; exact absurd this nofun
    have h1 := h.kept (.inr hbuf)
    cases sys with
    | blocked => exact h
    | failed =>
      obtain ⟨e1, e2, e3, e4, e5, e6, e7, e8, -⟩ := close_fields { s with buf := [], writer := false } true
      refine ⟨?_, ?_, ?_, by rw [e8]; exact nofun⟩
      · rw [e4, e2]; rfl
      · rw [e3]; exact nofun
      · exact ⟨s.buf, by rw [e1, e2, h1]; simp, fun _ => ⟨e3, e2⟩⟩
    | took n =>
      obtain ⟨e1, e2, e3, e4, e5, e6, e7, -⟩ :=
        maybeResume_fields { s with pipe := s.pipe ++ s.buf.take n, buf := s.buf.drop n }
      simp only
      have hcat : s.pipe ++ s.buf.take n ++ s.buf.drop n = acc := by
        rw [h1, List.append_assoc, List.take_append_drop]
      generalize ({ s with pipe := s.pipe ++ s.buf.take n, buf := s.buf.drop n } : Wr).maybeResume = u at *
      simp only at e1 e2 e3 e4 e5 e6 e7
      by_cases hn : u.buf = []
      · have hn' : u.buf.isEmpty = true := by simp [hn]
        rw [if_pos hn']
        have hp : acc = u.pipe := by rw [← hcat, e1, ← e2, hn, List.append_nil]
        by_cases hc : u.closing = true
        · rw [if_pos hc]
          obtain ⟨f1, f2, f3, f4, f5, f6, f7, -⟩ := callLost_fields { u with writer := false, reader := false } false
          have f8 : (Wr.callLost { u with writer := false, reader := false } false).reader = false := by
            unfold Wr.callLost; split <;> rfl
          refine ⟨by rw [f4, f2]; simp only [hn]; rfl, ?_, ⟨[], ?_, nofun⟩, by rw [f8]; exact nofun⟩
          · rw [f3]; intro hx; exact absurd (hc.symm.trans hx) nofun
          · rw [f1, f2]; simp only [hn, List.append_nil]; exact hp
        · rw [if_neg hc]
          refine ⟨by simp only [hn]; rfl, ?_, ⟨[], ?_, nofun⟩, fun _ hx => absurd hx hc⟩
          · simp only [e4, e5, e6]; exact h.closing
          · simp only [hn, List.append_nil]; exact hp
      · have hn' : ¬ u.buf.isEmpty = true := by simpa using hn
        rw [if_neg hn']
        refine ⟨?_, by rw [e4, e5, e6]; exact h.closing, ⟨[], ?_, nofun⟩, fun _ _ => hn⟩
        · rw [e3, hw]; simpa using hn
        · rw [e1, e2, List.append_nil]; exact hcat.symm
  | readReady =>
    simp only [step, given, List.append_nil, Wr.readReady]
    split
    · exact h
    · exact close_inv h _
  | eof =>
    simp only [step, given, List.append_nil, Wr.eof]
    by_cases hc : s.closing = true
    · rw [if_pos hc]; exact h
    rw [if_neg hc]
    have h1 := h.kept (.inl (by simpa using hc))
    split
    · exact ⟨h.writer, nofun, ⟨[], by simpa using h1, nofun⟩, nofun⟩
    · next hb => exact ⟨h.writer, nofun, ⟨[], by simpa using h1, nofun⟩, fun _ _ => by simpa using hb⟩
  | abort f => simpa [step, given] using close_inv h f
  | runQueue =>
    simp only [step, given, List.append_nil]
    cases hq : s.queue with
    | nil => exact h
    | cons f q =>
      simp only
      obtain ⟨f1, f2, f3, f4, f5, f6, -⟩ := callLost_fields { s with queue := q } f
      have f8 : (Wr.callLost { s with queue := q } f).reader = s.reader := by
        unfold Wr.callLost; split <;> rfl
      refine ⟨by rw [f4, f2]; exact h.writer, ?_, by rw [f1, f2, f3]; exact h.dropped, by rw [f8, f3, f2]; exact h.reader⟩
      rw [f3]
      intro hc
      have := (h.closing hc).1
      rw [hq] at this; exact absurd this nofun
  | limits lo hi =>
    simp only [step, given, List.append_nil, Wr.limits]
    split
    · exact h
    · obtain ⟨e1, e2, e3, e4, e5, e6, e7, -⟩ :=
        maybePause_fields { s with low := (limitsOf lo hi).1, high := (limitsOf lo hi).2 }
      exact ⟨by rw [e3, e2]; exact h.writer, by rw [e4, e5, e6]; exact h.closing, by rw [e1, e2, e4]; exact h.dropped,
        by rw [e7, e4, e2]; exact h.reader⟩

theorem new_inv (r : Bool) : Inv (Wr.new r) [] := ⟨rfl, fun _ => ⟨rfl, rfl⟩, ⟨[], rfl, nofun⟩, nofun⟩

theorem run_inv (l : List Op) : ∀ (s : Wr) (acc : List Nat), Inv s acc → Inv (run s l) (acc ++ accepted s l) := by
  induction l with
  | nil => intro s acc h; simpa [run, accepted] using h
  | cons o l ih =>
    intro s acc h
    have := ih _ _ (step_inv h o)
    rw [accepted_cons, ← List.append_assoc]
    exact this

/-- Whatever happens, what the system took is what was given, from the beginning,
without gaps and in order. -/
theorem C182_prefix (r : Bool) (l : List Op) : (run (Wr.new r) l).pipe <+: accepted (Wr.new r) l := by
  have h := run_inv l _ _ (new_inv r)
  rw [List.nil_append] at h
  obtain ⟨d, h1, _⟩ := h.dropped
  exact ⟨(run (Wr.new r) l).buf ++ d, by rw [h1, List.append_assoc]⟩

/-- While the transport is not closing, what was not taken yet is kept. -/
theorem C182_kept (r : Bool) (l : List Op) (hc : (run (Wr.new r) l).closing = false) :
    (run (Wr.new r) l).pipe ++ (run (Wr.new r) l).buf = accepted (Wr.new r) l := by
  have h := run_inv l _ _ (new_inv r)
  rw [List.nil_append] at h
  obtain ⟨d, h1, h2⟩ := h.dropped
  have : d = [] := by
    cases d with
    | nil => rfl
    | cons x y => have := (h2 nofun).1; rw [hc] at this; exact absurd this nofun
  rw [h1, this, List.append_nil]

/-- What is said about the end of the connection. -/
structure Fin (s : Wr) (acc : List Nat) : Prop where
  dropped : s.closing = true → acc ≠ s.pipe ++ s.buf → true ∈ s.queue ∨ Told.lost true ∈ s.told
  clean : false ∈ s.queue ∨ Told.lost false ∈ s.told → s.closing = true ∧ acc = s.pipe ∧ s.buf = []
  told : s.closing = false → ∀ f, Told.lost f ∉ s.told

theorem maybePause_lost (s : Wr) (f : Bool) : Told.lost f ∈ s.maybePause.told ↔ Told.lost f ∈ s.told := by
  unfold Wr.maybePause
  split
  · rfl
  · split
    · rfl
    · cases s.alive <;> simp

theorem maybeResume_lost (s : Wr) (f : Bool) : Told.lost f ∈ s.maybeResume.told ↔ Told.lost f ∈ s.told := by
  unfold Wr.maybeResume
  split
  · cases s.alive <;> simp
  · rfl

theorem close_fin {s : Wr} {acc : List Nat} (h : Fin s acc) (f : Bool) (hf : f = false → acc = s.pipe) :
    Fin (s.close_ f) acc := by
  obtain ⟨e1, e2, e3, e4, e5, e6, e7, -⟩ := close_fields s f
  cases f with
  | true =>
    refine ⟨fun _ _ => .inl (by rw [e5]; simp), ?_, by rw [e3]; exact nofun⟩
    rw [e5, e7]
    intro hx
    have hx' : false ∈ s.queue ∨ Told.lost false ∈ s.told := by simpa using hx
    obtain ⟨_, c2, _⟩ := h.clean hx'
    exact ⟨e3, by rw [e1]; exact c2, e2⟩
  | false =>
    refine ⟨?_, ?_, by rw [e3]; exact nofun⟩
    · intro _ hne
      exact absurd (by rw [e1, e2, List.append_nil]; exact hf rfl) hne
    · intro _
      exact ⟨e3, by rw [e1]; exact hf rfl, e2⟩

theorem step_fin {s : Wr} {acc : List Nat} (hi : Inv s acc) (h : Fin s acc)
    (hdead : s.alive = false → ∃ f, Told.lost f ∈ s.told) (o : Op) (ho : o ≠ .abort false) :
    Fin (step s o) (acc ++ given s o) := by
  cases o with
  | write d sys =>
    simp only [step, given, Wr.write]
    by_cases hd : d = []
    · subst hd; simp; exact h
    have hd' : d.isEmpty = false := by simpa using hd
    simp only [hd', Bool.false_eq_true, if_false]
    by_cases hc : s.closing = true
    · simp only [if_pos hc, List.append_nil]; exact h
    simp only [if_neg hc]
    have hc' : s.closing = false := by simpa using hc
    obtain ⟨hq, ha⟩ := hi.closing hc'
    have ht := h.told hc'
    have open_ : ∀ u : Wr, u.closing = false → u.queue = [] → (∀ f, Told.lost f ∉ u.told) → Fin u (acc ++ d) := by
      intro u h1 h2 h3
      refine ⟨fun hx => absurd hx (by rw [h1]; exact nofun), ?_, fun _ => h3⟩
      rw [h2]
      rintro (hx | hx)
      · exact absurd hx (by simp)
      · exact absurd hx (h3 false)
    have mp : ∀ u : Wr, u.closing = false → u.queue = [] → u.told = s.told → Fin u.maybePause (acc ++ d) := by
      intro u h1 h2 h3
      obtain ⟨e1, e2, e3, e4, e5, e6, -⟩ := maybePause_fields u
      refine open_ _ (by rw [e4]; exact h1) (by rw [e5]; exact h2) (fun f => ?_)
      rw [maybePause_lost, h3]; exact ht f
    split
    · cases sys with
      | failed =>
        obtain ⟨e1, e2, e3, e4, e5, e6, e7, -⟩ := close_fields s true
        refine ⟨fun _ _ => .inl (by rw [e5]; simp), ?_, by rw [e3]; exact nofun⟩
        rw [e5, e7, hq]
        rintro (hx | hx)
        · simp at hx
        · exact absurd hx (ht false)
      | blocked => exact mp _ hc' hq rfl
      | took n =>
        simp only
        split
        · exact open_ _ hc' hq ht
        · exact mp _ hc' hq rfl
    · exact mp _ hc' hq rfl
  | writeReady sys =>
    simp only [step, given, List.append_nil, Wr.writeReady]
    by_cases hw : s.writer = true
    case neg => have : (!s.writer) = true := by simpa using hw
                rw [if_pos this]; exact h
    have hw' : ¬ (!s.writer) = true := by simpa using hw
    rw [if_neg hw']
    have hbuf : s.buf ≠ [] := by
      intro e; have := hi.writer; rw [hw, e] at this; exact absurd this nofun
    have h1 := hi.kept (.inr hbuf)
    have hno : ¬ (false ∈ s.queue ∨ Told.lost false ∈ s.told) := fun hx => hbuf (h.clean hx).2.2
    cases sys with
    | blocked => exact h
    | failed =>
      obtain ⟨e1, e2, e3, e4, e5, e6, e7, -⟩ := close_fields { s with buf := [], writer := false } true
      refine ⟨fun _ _ => .inl (by rw [e5]; simp), ?_, by rw [e3]; exact nofun⟩
      rw [e5, e7]
      intro hx
      exact absurd (by simpa using hx) hno
    | took n =>
      simp only
      obtain ⟨e1, e2, e3, e4, e5, e6, -⟩ :=
        maybeResume_fields { s with pipe := s.pipe ++ s.buf.take n, buf := s.buf.drop n }
      have el := maybeResume_lost { s with pipe := s.pipe ++ s.buf.take n, buf := s.buf.drop n }
      have hcat : acc = s.pipe ++ s.buf.take n ++ s.buf.drop n := by
        rw [h1, List.append_assoc, List.take_append_drop]
      generalize ({ s with pipe := s.pipe ++ s.buf.take n, buf := s.buf.drop n } : Wr).maybeResume = u at *
      simp only at e1 e2 e3 e4 e5 e6 el
      have base : ∀ v : Wr, v.pipe = u.pipe → v.buf = u.buf → v.closing = u.closing → v.queue = u.queue →
          v.told = u.told → Fin v acc := by
        intro v g1 g2 g3 g4 g5
        refine ⟨?_, ?_, ?_⟩
        · intro _ hne; exact absurd (by rw [g1, g2, e1, e2]; exact hcat) hne
        · rw [g4, g5, e5, el]; intro hx; exact absurd hx hno
        · rw [g3, e4, g5]; intro hc f; rw [el]; exact h.told hc f
      split
      · next hn =>
        split
        · next hc =>
          obtain ⟨f1, f2, f3, f4, f5, f6, f7, -⟩ := callLost_fields { u with writer := false, reader := false } false
          have hub : u.buf = [] := by simpa using hn
          have hpa : acc = u.pipe := by rw [e1, hcat]; rw [e2] at hub; rw [hub, List.append_nil]
          refine ⟨?_, ?_, ?_⟩
          · intro _ hne
            exact absurd (by rw [f1, f2]; simp only [hub, List.append_nil]; exact hpa) hne
          · intro _
            exact ⟨by rw [f3]; exact hc, by rw [f1]; exact hpa, by rw [f2]; exact hub⟩
          · rw [f3]; intro hc'; exact absurd (hc.symm.trans hc') nofun
        · exact base _ rfl rfl rfl rfl rfl
      · exact base _ rfl rfl rfl rfl rfl
  | readReady =>
    simp only [step, given, List.append_nil, Wr.readReady]
    split
    · exact h
    · next hr =>
      have hr' : s.reader = true := by simpa using hr
      refine close_fin h _ ?_
      intro hb
      have hb' : s.buf = [] := by simpa using hb
      have hc : s.closing = false := by
        cases hx : s.closing with
        | false => rfl
        | true => exact absurd hb' (hi.reader hr' hx)
      rw [hi.kept (.inl hc), hb', List.append_nil]
  | eof =>
    simp only [step, given, List.append_nil, Wr.eof]
    by_cases hc : s.closing = true
    · rw [if_pos hc]; exact h
    rw [if_neg hc]
    have hc' : s.closing = false := by simpa using hc
    have h1 := hi.kept (.inl hc')
    have ht := h.told hc'
    obtain ⟨hq, ha⟩ := hi.closing hc'
    split
    · next hb =>
      have hb' : s.buf = [] := by simpa using hb
      exact ⟨fun _ hne => absurd h1 hne, fun _ => ⟨rfl, by rw [h1, hb', List.append_nil], hb'⟩, nofun⟩
    · refine ⟨fun _ hne => absurd h1 hne, ?_, nofun⟩
      simp only [hq]
      rintro (hx | hx)
      · exact absurd hx (by simp)
      · exact absurd hx (ht false)
  | abort f =>
    simp only [step, given, List.append_nil]
    exact close_fin h f (fun e => absurd (by rw [e]) ho)
  | runQueue =>
    simp only [step, given, List.append_nil]
    cases hq : s.queue with
    | nil => exact h
    | cons f q =>
      simp only
      obtain ⟨f1, f2, f3, f4, f5, f6, f7, -⟩ := callLost_fields { s with queue := q } f
      have hcl : s.closing = true := by
        cases hx : s.closing with
        | true => rfl
        | false => have := (hi.closing hx).1; rw [hq] at this; exact absurd this nofun
      simp only at f1 f2 f3 f4 f5 f7
      refine ⟨?_, ?_, by rw [f3, hcl]; exact nofun⟩
      · rw [f3, f1, f2, f5, f7]
        intro hc hne
        have hd := h.dropped hc hne
        rw [hq] at hd
        cases ha : s.alive with
        | false =>
          simp only [Bool.false_eq_true, if_false]
          obtain ⟨g, hg⟩ := hdead ha
          cases g with
          | true => exact .inr hg
          | false =>
            obtain ⟨_, c2, c3⟩ := h.clean (.inr hg)
            exact absurd (by rw [c3, List.append_nil]; exact c2) hne
        | true =>
          simp only [if_true]
          rcases hd with hd | hd
          · rcases List.mem_cons.1 hd with hd | hd
            · exact .inr (by simp [hd])
            · exact .inl hd
          · exact .inr (by simp [hd])
      · rw [f5, f7, f3, f1, f2]
        intro hx
        refine h.clean ?_
        rw [hq]
        rcases hx with hx | hx
        · exact .inl (by simp [hx])
        · cases ha : s.alive with
          | false => rw [ha] at hx; exact .inr (by simpa using hx)
          | true => rw [ha] at hx; simp at hx; rcases hx with hx | hx
                    · exact .inr hx
                    · exact .inl (by simp [hx])
  | limits lo hi' =>
    simp only [step, given, List.append_nil, Wr.limits]
    split
    · exact h
    · obtain ⟨e1, e2, e3, e4, e5, e6, e7, -⟩ :=
        maybePause_fields { s with low := (limitsOf lo hi').1, high := (limitsOf lo hi').2 }
      have el := maybePause_lost { s with low := (limitsOf lo hi').1, high := (limitsOf lo hi').2 }
      simp only at e1 e2 e4 e5 el
      exact ⟨by rw [e4, e1, e2, e5, el]; exact h.dropped, by rw [e5, el, e4, e1, e2]; exact h.clean,
        by rw [e4]; intro hc f; rw [el]; exact h.told hc f⟩

/-! ### The write end: what the protocol is told -/

/-- Pauses and resumes in turn. -/
def alternating : Nat → List Told
  | 0 => []
  | n + 1 => alternating n ++ [if n % 2 = 0 then .pause else .resume]

/-- What the protocol was told, and when it will be told of the end. -/
structure Sig (s : Wr) : Prop where
  alive : s.alive = true → ∃ n, s.told = alternating n ∧ (s.paused = true ↔ n % 2 = 1)
  dead : s.alive = false → ∃ n f, s.told = alternating n ++ [.lost f]
  high : s.paused = false → s.buf.length ≤ s.high
  wakes : s.paused = true → s.alive = true → s.writer = true ∨ s.queue ≠ []
  ends : s.closing = true → s.alive = true → s.writer = true ∨ s.queue ≠ []
  limits : s.low ≤ s.high

theorem alternating_pause {s : Wr} (h : s.alive = true → ∃ n, s.told = alternating n ∧ (s.paused = true ↔ n % 2 = 1))
    (ha : s.alive = true) (hp : s.paused = false) : ∃ n, s.told ++ [.pause] = alternating n ∧ n % 2 = 1 := by
  obtain ⟨n, h1, h2⟩ := h ha
  have hn : n % 2 = 0 := by
    rw [hp] at h2
    have : ¬ n % 2 = 1 := fun e => absurd (h2.2 e) nofun
    omega
  exact ⟨n + 1, by rw [alternating, if_pos hn, h1], by omega⟩

theorem alternating_resume {s : Wr} (h : s.alive = true → ∃ n, s.told = alternating n ∧ (s.paused = true ↔ n % 2 = 1))
    (ha : s.alive = true) (hp : s.paused = true) : ∃ n, s.told ++ [.resume] = alternating n ∧ n % 2 = 0 := by
  obtain ⟨n, h1, h2⟩ := h ha
  have hn : n % 2 = 1 := h2.1 hp
  exact ⟨n + 1, by rw [alternating, if_neg (by omega), h1], by omega⟩

/-- Pausing establishes the bound of the buffer. -/
theorem maybePause_sig {s : Wr} (h1 : s.alive = true → ∃ n, s.told = alternating n ∧ (s.paused = true ↔ n % 2 = 1))
    (h2 : s.alive = false → ∃ n f, s.told = alternating n ++ [.lost f]) (h3 : s.buf ≠ [] → s.writer = true)
    (h4 : s.paused = true → s.alive = true → s.writer = true ∨ s.queue ≠ [])
    (h5 : s.closing = true → s.alive = true → s.writer = true ∨ s.queue ≠ []) (h6 : s.low ≤ s.high) :
    Sig s.maybePause := by
  unfold Wr.maybePause
  split
  · next hb => exact ⟨h1, h2, fun _ => hb, h4, h5, h6⟩
  · next hb =>
    split
    · next hp => exact ⟨h1, h2, fun hx => absurd (hp.symm.trans hx) nofun, h4, h5, h6⟩
    · next hp =>
      have hw : s.writer = true := h3 (by intro e; rw [e] at hb; simp at hb)
      have hp' : s.paused = false := by simpa using hp
      refine ⟨?_, ?_, nofun, fun _ _ => .inl hw, fun _ _ => .inl hw, h6⟩
      · intro ha
        simp only at ha ⊢
        obtain ⟨n, e1, e2⟩ := alternating_pause h1 ha hp'
        exact ⟨n, by rw [if_pos ha]; exact e1, by simp [e2]⟩
      · intro ha
        simp only at ha ⊢
        rw [if_neg (by rw [ha]; exact nofun)]
        exact h2 ha

theorem maybeResume_sig {s : Wr} (h1 : s.alive = true → ∃ n, s.told = alternating n ∧ (s.paused = true ↔ n % 2 = 1))
    (h2 : s.alive = false → ∃ n f, s.told = alternating n ++ [.lost f]) :
    (s.maybeResume.alive = true → ∃ n, s.maybeResume.told = alternating n ∧ (s.maybeResume.paused = true ↔ n % 2 = 1)) ∧
    (s.maybeResume.alive = false → ∃ n f, s.maybeResume.told = alternating n ++ [.lost f]) := by
  unfold Wr.maybeResume
  split
  · next hp =>
    have hp' : s.paused = true := by simp at hp; exact hp.1
    refine ⟨?_, ?_⟩
    · intro ha
      simp only at ha ⊢
      obtain ⟨n, e1, e2⟩ := alternating_resume h1 ha hp'
      exact ⟨n, by rw [if_pos ha]; exact e1, by simp [e2]⟩
    · intro ha
      simp only at ha ⊢
      rw [if_neg (by rw [ha]; exact nofun)]
      exact h2 ha
  · exact ⟨h1, h2⟩

theorem close_sig' {s : Wr} (h1 : s.alive = true → ∃ n, s.told = alternating n ∧ (s.paused = true ↔ n % 2 = 1))
    (h2 : s.alive = false → ∃ n f, s.told = alternating n ++ [.lost f]) (h6 : s.low ≤ s.high) (f : Bool) :
    Sig (s.close_ f) := by
  obtain ⟨e1, e2, e3, e4, e5, e6, e7, e8, e9, e10, e11, e12⟩ := close_fields s f
  refine ⟨by rw [e6, e7, e9]; exact h1, by rw [e6, e7]; exact h2, fun _ => by rw [e2]; simp,
    fun _ _ => .inr (by rw [e5]; simp), fun _ _ => .inr (by rw [e5]; simp), by rw [e11, e12]; exact h6⟩

theorem close_sig {s : Wr} (h : Sig s) (f : Bool) : Sig (s.close_ f) := close_sig' h.alive h.dead h.limits f

theorem callLost_sig {s : Wr} (h : Sig s) (f : Bool) (u : Wr) (ha : u.alive = s.alive) (ht : u.told = s.told)
    (hp : u.paused = s.paused) (hb : u.buf = s.buf) (hh : u.high = s.high) (hl : u.low = s.low) : Sig (u.callLost f) := by
  obtain ⟨f1, f2, f3, f4, f5, f6, f7, f8, f9, f10, f11⟩ := callLost_fields u f
  refine ⟨by rw [f6]; exact nofun, fun _ => ?_, by rw [f8, f2, f10, hp, hb, hh]; exact h.high, by rw [f6]; exact nofun,
    by rw [f6]; exact nofun, by rw [f10, f11, hh, hl]; exact h.limits⟩
  rw [f7, ha, ht]
  cases hal : s.alive with
  | true =>
    obtain ⟨n, e, _⟩ := h.alive hal
    exact ⟨n, f, by simp [e]⟩
  | false => exact h.dead hal

theorem step_sig {s : Wr} {acc : List Nat} (hi : Inv s acc) (h : Sig s) (o : Op) : Sig (step s o) := by
  have hwr : s.buf ≠ [] → s.writer = true := by
    intro hb; rw [hi.writer]; simpa using hb
  cases o with
  | write d sys =>
    simp only [step, Wr.write]
    split
    · exact h
    split
    · exact h
    next hc =>
    split
    · next hb =>
      have hb' : s.buf = [] := by simpa using hb
      cases sys with
      | failed => exact close_sig h true
      | blocked => exact maybePause_sig h.alive h.dead (fun _ => rfl) (fun _ _ => .inl rfl) (fun _ _ => .inl rfl) h.limits
      | took n =>
        simp only
        split
        · exact ⟨h.alive, h.dead, h.high, h.wakes, h.ends, h.limits⟩
        · exact maybePause_sig h.alive h.dead (fun _ => rfl) (fun _ _ => .inl rfl) (fun _ _ => .inl rfl) h.limits
    · next hb =>
      have hb' : s.buf ≠ [] := by simpa using hb
      exact maybePause_sig h.alive h.dead (fun _ => hwr hb') (fun _ _ => .inl (hwr hb')) (fun _ _ => .inl (hwr hb')) h.limits
  | writeReady sys =>
    simp only [step, Wr.writeReady]
    split
    · exact h
    next hw =>
    have hw' : s.writer = true := by simpa using hw
    cases sys with
    | blocked => exact h
    | failed =>
      exact close_sig' (s := { s with buf := [], writer := false }) h.alive h.dead h.limits true
    | took n =>
      simp only
      obtain ⟨e1, e2, e3, e4, e5, e6, e7, e8, e9, e10⟩ :=
        maybeResume_fields { s with pipe := s.pipe ++ s.buf.take n, buf := s.buf.drop n }
      obtain ⟨g1, g2⟩ :=
        maybeResume_sig (s := { s with pipe := s.pipe ++ s.buf.take n, buf := s.buf.drop n }) h.alive h.dead
      have hlen : (s.buf.drop n).length ≤ s.buf.length := by rw [List.length_drop]; omega
      have hpz : ({ s with pipe := s.pipe ++ s.buf.take n, buf := s.buf.drop n } : Wr).maybeResume.paused = true →
          s.low < (s.buf.drop n).length := by
        unfold Wr.maybeResume
        split
        · exact nofun
        · next hx =>
          intro hp
          simp only at hp
          simp only [hp, Bool.true_and] at hx
          have : ¬ (s.buf.drop n).length ≤ s.low := by simpa using hx
          omega
      have hpz' : ({ s with pipe := s.pipe ++ s.buf.take n, buf := s.buf.drop n } : Wr).maybeResume.paused = false →
          (s.buf.drop n).length ≤ s.high := by
        unfold Wr.maybeResume
        split
        · next hx =>
          intro _
          have : (s.buf.drop n).length ≤ s.low := by simp at hx; simpa using hx.2
          have := h.limits
          omega
        · intro hp
          have := h.high hp
          omega
      generalize ({ s with pipe := s.pipe ++ s.buf.take n, buf := s.buf.drop n } : Wr).maybeResume = u at *
      simp only at e1 e2 e3 e4 e5 e6 e7 e8 e9 e10
      have hlim : u.low ≤ u.high := by rw [e9, e10]; exact h.limits
      split
      · next hn =>
        have hn' : u.buf = [] := by simpa using hn
        have hnp : u.paused = false := by
          cases hx : u.paused with
          | false => rfl
          | true =>
            have := hpz hx
            rw [← e2, hn'] at this
            exact absurd this (Nat.not_lt_zero _)
        split
        · obtain ⟨f1, f2, f3, f4, f5, f6, f7, f8, f9, f10, f11⟩ :=
            callLost_fields { u with writer := false, reader := false } false
          refine ⟨by rw [f6]; exact nofun, fun _ => ?_, fun _ => by rw [f2]; simp only [hn']; exact Nat.zero_le _,
            by rw [f6]; exact nofun, by rw [f6]; exact nofun, by rw [f10, f11]; exact hlim⟩
          rw [f7]
          simp only
          cases ha : u.alive with
          | true =>
            obtain ⟨k, e, _⟩ := g1 ha
            exact ⟨k, false, by simp [e]⟩
          | false => exact g2 ha
        · next hc =>
          exact ⟨g1, g2, fun _ => by simp only [hn']; exact Nat.zero_le _, fun hx => absurd (hnp.symm.trans hx) nofun,
            fun hx => absurd hx hc, hlim⟩
      · have hwu : u.writer = true := e3.trans hw'
        exact ⟨g1, g2, by rw [e2, e10]; exact hpz', fun _ _ => .inl hwu, fun _ _ => .inl hwu, hlim⟩
  | readReady =>
    simp only [step, Wr.readReady]
    split
    · exact h
    · exact close_sig h _
  | eof =>
    simp only [step, Wr.eof]
    split
    · exact h
    split
    · exact ⟨h.alive, h.dead, h.high, fun _ _ => .inr (by simp), fun _ _ => .inr (by simp), h.limits⟩
    · next hb =>
      have hb' : s.buf ≠ [] := by simpa using hb
      exact ⟨h.alive, h.dead, h.high, h.wakes, fun _ _ => .inl (hwr hb'), h.limits⟩
  | abort f => exact close_sig h f
  | runQueue =>
    simp only [step]
    cases hq : s.queue with
    | nil => exact h
    | cons f q => exact callLost_sig h f { s with queue := q } rfl rfl rfl rfl rfl rfl
  | limits lo hi' =>
    simp only [step, Wr.limits]
    split
    · exact h
    · exact maybePause_sig h.alive h.dead hwr h.wakes h.ends (by simp only; omega)

theorem new_sig (r : Bool) : Sig (Wr.new r) :=
  ⟨fun _ => ⟨0, rfl, by simp [Wr.new]⟩, nofun, fun _ => Nat.zero_le _, nofun, nofun, by simp [Wr.new]⟩

theorem run_sig (l : List Op) : ∀ (s : Wr) (acc : List Nat), Inv s acc → Sig s → Sig (run s l) := by
  induction l with
  | nil => intro s _ _ h; exact h
  | cons o l ih => intro s acc hi h; exact ih _ _ (step_inv hi o) (step_sig hi h o)

theorem run_fin (l : List Op) : ∀ (s : Wr) (acc : List Nat), Inv s acc → Sig s → Fin s acc → Op.abort false ∉ l →
    Fin (run s l) (acc ++ accepted s l) := by
  induction l with
  | nil => intro s acc _ _ h _; simpa [run, accepted] using h
  | cons o l ih =>
    intro s acc hi hs h hn
    have hdead : s.alive = false → ∃ f, Told.lost f ∈ s.told := by
      intro ha
      obtain ⟨n, f, e⟩ := hs.dead ha
      exact ⟨f, by rw [e]; simp⟩
    have := ih _ _ (step_inv hi o) (step_sig hi hs o)
      (step_fin hi h hdead o (fun e => hn (by simp [e]))) (fun hx => hn (by simp [hx]))
    rw [accepted_cons, ← List.append_assoc]
    exact this

/-- A protocol which is told that the connection was closed, without an exception and
without an abort, was taken everything it gave. -/
theorem C182_closed_is_complete (r : Bool) (l : List Op) (hn : Op.abort false ∉ l)
    (ht : toldLost (run (Wr.new r) l) false) : (run (Wr.new r) l).pipe = accepted (Wr.new r) l := by
  have h := run_fin l _ _ (new_inv r) (new_sig r) ⟨nofun, by simp [Wr.new], by simp [Wr.new]⟩ hn
  rw [List.nil_append] at h
  exact (h.clean (.inr ht)).2.1.symm

/-- If something was given which will never be taken, the protocol is told of an
exception, at the latest when the loop ran its calls. -/
theorem C182_failure_is_told (r : Bool) (l : List Op) (hn : Op.abort false ∉ l)
    (hc : (run (Wr.new r) l).closing = true)
    (hd : accepted (Wr.new r) l ≠ (run (Wr.new r) l).pipe ++ (run (Wr.new r) l).buf)
    (hq : (run (Wr.new r) l).queue = []) : toldLost (run (Wr.new r) l) true := by
  have h := run_fin l _ _ (new_inv r) (new_sig r) ⟨nofun, by simp [Wr.new], by simp [Wr.new]⟩ hn
  rw [List.nil_append] at h
  rcases h.dropped hc hd with hx | hx
  · rw [hq] at hx; exact absurd hx (by simp)
  · exact hx

/-! ### C183: what the protocol is told -/

/-- The protocol is told to pause and to resume in turn, and once, at the end, that the
connection is lost. -/
theorem C183_signals (r : Bool) (l : List Op) :
    ∃ n, (run (Wr.new r) l).told = alternating n ∨ ∃ f, (run (Wr.new r) l).told = alternating n ++ [.lost f] := by
  have h := run_sig l _ _ (new_inv r) (new_sig r)
  cases ha : (run (Wr.new r) l).alive with
  | true => obtain ⟨n, e, _⟩ := h.alive ha; exact ⟨n, .inl e⟩
  | false => obtain ⟨n, f, e⟩ := h.dead ha; exact ⟨n, .inr ⟨f, e⟩⟩

/-- While it was not told to pause, not more than the high limit is kept. -/
theorem C183_bound (r : Bool) (l : List Op) (hl : ∀ f, ¬ toldLost (run (Wr.new r) l) f)
    (hp : ∃ n, n % 2 = 0 ∧ (run (Wr.new r) l).told = alternating n) :
    (run (Wr.new r) l).buf.length ≤ (run (Wr.new r) l).high := by
  have h := run_sig l _ _ (new_inv r) (new_sig r)
  refine h.high ?_
  have len : ∀ n, (alternating n).length = n := by
    intro n
    induction n with
    | zero => rfl
    | succ k ih => simp [alternating, ih]
  cases ha : (run (Wr.new r) l).alive with
  | false =>
    obtain ⟨n, f, e⟩ := h.dead ha
    exact absurd (show toldLost _ f by unfold toldLost; rw [e]; simp) (hl f)
  | true =>
    obtain ⟨n, e, hn⟩ := h.alive ha
    obtain ⟨m, hm, e'⟩ := hp
    have : n = m := by
      have := congrArg List.length (e.symm.trans e')
      rwa [len, len] at this
    subst this
    cases hx : (run (Wr.new r) l).paused with
    | false => rfl
    | true => have := hn.1 hx; omega

/-- A protocol which was told to pause, or of which the transport is closing, will hear
of it: until the connection is lost a callback is registered or a call is to be run. -/
theorem C183_not_forgotten (r : Bool) (l : List Op) (hl : ∀ f, ¬ toldLost (run (Wr.new r) l) f)
    (hp : (∃ n, n % 2 = 1 ∧ (run (Wr.new r) l).told = alternating n) ∨ (run (Wr.new r) l).closing = true) :
    (run (Wr.new r) l).writer = true ∨ (run (Wr.new r) l).queue ≠ [] := by
  have h := run_sig l _ _ (new_inv r) (new_sig r)
  have len : ∀ n, (alternating n).length = n := by
    intro n
    induction n with
    | zero => rfl
    | succ k ih => simp [alternating, ih]
  cases ha : (run (Wr.new r) l).alive with
  | false =>
    obtain ⟨n, f, e⟩ := h.dead ha
    exact absurd (show toldLost _ f by unfold toldLost; rw [e]; simp) (hl f)
  | true =>
    rcases hp with ⟨m, hm, e'⟩ | hc
    · obtain ⟨n, e, hn⟩ := h.alive ha
      have : n = m := by
        have := congrArg List.length (e.symm.trans e')
        rwa [len, len] at this
      subst this
      exact h.wakes (hn.2 hm) ha
    · exact h.ends hc ha

/-- When the loop runs the next call, or the system takes everything kept, after the
transport was closed, the protocol is told that the connection is lost. -/
theorem C183_lost_comes (r : Bool) (l : List Op) (hc : (run (Wr.new r) l).closing = true) (n : Nat)
    (hn : (run (Wr.new r) l).buf.length ≤ n) :
    ∃ f, toldLost (run (Wr.new r) (l ++ [.writeReady (.took n), .runQueue])) f := by
  have h := run_sig l _ _ (new_inv r) (new_sig r)
  have hi := run_inv l _ _ (new_inv r)
  have h2 := run_sig (l ++ [.writeReady (.took n), .runQueue]) _ _ (new_inv r) (new_sig r)
  have e : run (Wr.new r) (l ++ [.writeReady (.took n), .runQueue])
      = step (step (run (Wr.new r) l) (.writeReady (.took n))) .runQueue := by
    simp [run]
  rw [e] at h2 ⊢
  have hdead : (step (step (run (Wr.new r) l) (.writeReady (.took n))) .runQueue).alive = false := by
    generalize run (Wr.new r) l = s at *
    cases ha : s.alive with
    | false =>
      have k1 : (step s (.writeReady (.took n))).alive = false := by
        simp only [step, Wr.writeReady]
        obtain ⟨-, -, -, -, -, e6, -⟩ := maybeResume_fields { s with pipe := s.pipe ++ s.buf.take n, buf := s.buf.drop n }
        split
        · exact ha
        · split
          · split
            · exact (callLost_fields _ _).2.2.2.2.2.1
            · exact e6.trans ha
          · exact e6.trans ha
      simp only [step] at k1 ⊢
      split
      · exact k1
      · exact (callLost_fields _ _).2.2.2.2.2.1
    | true =>
      rcases h.ends hc ha with hw | hq
      · have k1 : (step s (.writeReady (.took n))).alive = false := by
          simp only [step, Wr.writeReady]
          obtain ⟨-, e2, -, e4, -, e6, -⟩ := maybeResume_fields { s with pipe := s.pipe ++ s.buf.take n, buf := s.buf.drop n }
          rw [if_neg (by simp [hw])]
          have hz : (s.buf.drop n).isEmpty = true := by simpa using hn
          rw [if_pos (by rw [e2]; exact hz), if_pos (by rw [e4]; exact hc)]
          exact (callLost_fields _ _).2.2.2.2.2.1
        simp only [step] at k1 ⊢
        split
        · exact k1
        · exact (callLost_fields _ _).2.2.2.2.2.1
      · have k1 : (step s (.writeReady (.took n))).queue = s.queue := by
          simp only [step, Wr.writeReady]
          obtain ⟨-, -, -, -, e5, -⟩ := maybeResume_fields { s with pipe := s.pipe ++ s.buf.take n, buf := s.buf.drop n }
          split
          · rfl
          · split
            · split
              · exact (callLost_fields _ _).2.2.2.2.1.trans e5
              · exact e5
            · exact e5
        generalize step s (.writeReady (.took n)) = u at *
        simp only [step]
        split
        · next hx => rw [k1] at hx; exact absurd hx hq
        · exact (callLost_fields _ _).2.2.2.2.2.1
  obtain ⟨k, f, ek⟩ := h2.dead hdead
  exact ⟨f, by unfold toldLost; rw [ek]; simp⟩

/-! ### C184: the read end -/

/-- How the read end came to its end. -/
inductive End where
  | open_ | eof | failed | closed
deriving DecidableEq, Repr

/-- What is to be read: everything which comes while reading is not paused, until the
end, a failure or a `close`. -/
def received : Bool → End → List ROp → List (List Nat) × End
  | _, e, [] => ([], e)
  | p, .open_, .readReady (.data d) :: l =>
    if p then received p .open_ l
    else if d = [] then received p .eof l
    else (d :: (received p .open_ l).1, (received p .open_ l).2)
  | p, .open_, .readReady .failed :: l => if p then received p .open_ l else received p .failed l
  | p, .open_, .readReady .blocked :: l => received p .open_ l
  | _, .open_, .pause :: l => received true .open_ l
  | _, .open_, .resume :: l => received false .open_ l
  | p, .open_, .close :: l => received p .closed l
  | p, .open_, .runQueue :: l => received p .open_ l
  | p, .eof, _ :: l => received p .eof l
  | p, .failed, _ :: l => received p .failed l
  | p, .closed, _ :: l => received p .closed l

/-- What the protocol is told at the end. -/
def End.tail : End → List RTold
  | .open_ => []
  | .eof => [.eof, .lost false]
  | .failed => [.lost true]
  | .closed => [.lost false]

/-- What a call will tell. -/
def RCall.tells : RCall → RTold
  | .eof => .eof
  | .lost f => .lost f

structure RInv (s : Rd) (p : Bool) (e : End) (data : List (List Nat)) : Prop where
  closing : s.closing = true ↔ e ≠ .open_
  paused : e = .open_ → s.paused = p
  reader : s.reader = true ↔ e = .open_ ∧ s.paused = false
  told : s.told ++ s.queue.map RCall.tells = data.map .data ++ e.tail
  alive : s.alive = true ∨ s.queue = []
  open_ : e = .open_ → s.queue = [] ∧ s.alive = true

theorem received_ended (l : List ROp) (p : Bool) (e : End) (he : e ≠ .open_) : received p e l = ([], e) := by
  induction l with
  | nil => cases e <;> rfl
  | cons o l ih => cases e <;> first | exact absurd rfl he | (simp only [received]; exact ih)

/-- An ended transport only runs its calls. -/
theorem rstep_ended {s : Rd} {p : Bool} {e : End} {data : List (List Nat)} (h : RInv s p e data) (he : e ≠ .open_)
    (o : ROp) : RInv (rstep s o) p e data := by
  have hc := h.closing.2 he
  have hr : s.reader = false := by
    cases hx : s.reader with
    | false => rfl
    | true => exact absurd (h.reader.1 hx).1 he
  cases o with
  | readReady g =>
    cases g <;> simp only [rstep, Rd.readReady, hr, Bool.not_false, if_true] <;> exact h
  | pause => simp only [rstep, Rd.pause, hc, Bool.true_or, if_true]; exact h
  | resume => simp only [rstep, Rd.resume, hc, Bool.true_or, if_true]; exact h
  | close => simp only [rstep, Rd.close, hc, if_true]; exact h
  | runQueue =>
    simp only [rstep, Rd.runQueue]
    have ht := h.told
    have ha := h.alive
    cases hq : s.queue with
    | nil => exact h
    | cons c q =>
      rw [hq] at ht ha
      have ha' : s.alive = true := by rcases ha with ha | ha; exact ha; exact absurd ha nofun
      cases c with
      | eof =>
        exact ⟨h.closing, h.paused, h.reader, by simpa [RCall.tells] using ht, .inl ha', fun x => absurd x he⟩
      | lost f =>
        simp only [ha', Bool.not_true, Bool.false_eq_true, if_false]
        refine ⟨h.closing, h.paused, h.reader, by simpa [RCall.tells] using ht, .inr ?_, fun x => absurd x he⟩
        simp only
        -- a call which tells of the loss is the last one
        have key : ∀ (t : List RTold) (q : List RCall), t ++ RTold.lost f :: q.map RCall.tells = data.map .data ++ e.tail →
            q = [] := by
          intro t q hx
          have hd : ∀ x ∈ data.map RTold.data, ∀ f, x ≠ .lost f := by
            intro x hx f e
            obtain ⟨y, _, rfl⟩ := List.mem_map.1 hx
            exact absurd e nofun
          generalize data.map RTold.data = D at hx hd
          induction D generalizing t with
          | nil =>
            rw [List.nil_append] at hx
            cases e with
            | open_ => exact absurd rfl he
            | eof =>
              cases t with
              | nil => simp [End.tail] at hx
              | cons a t =>
                cases t with
                | nil =>
                  have h3 : a = RTold.eof ∧ f = false ∧ q = [] := by simpa [End.tail] using hx
                  exact h3.2.2
                | cons b t =>
                  have := congrArg List.length hx
                  simp [End.tail] at this
            | failed =>
              have := congrArg List.length hx
              simp [End.tail] at this
              exact List.length_eq_zero_iff.1 (by omega)
            | closed =>
              have := congrArg List.length hx
              simp [End.tail] at this
              exact List.length_eq_zero_iff.1 (by omega)
          | cons a D ih =>
            cases t with
            | nil =>
              have : RTold.lost f = a := by
                have := congrArg List.head? hx
                simpa using this
              exact absurd this.symm (hd a (by simp) f)
            | cons b t =>
              refine ih t ?_ (fun x hm => hd x (by simp [hm]))
              have := congrArg List.tail hx
              simpa using this
        exact key s.told q (by simpa [RCall.tells] using ht)

theorem run_rinv (l : List ROp) : ∀ (s : Rd) (p : Bool) (e : End) (data : List (List Nat)), RInv s p e data →
    ∃ q, RInv (rrun s l) q (received p e l).2 (data ++ (received p e l).1) := by
  induction l with
  | nil => intro s p e data h; exact ⟨p, by cases e <;> simpa [rrun, received] using h⟩
  | cons o l ih =>
    intro s p e data h
    by_cases he : e = .open_
    case neg =>
      obtain ⟨q, hq⟩ := ih _ p e data (rstep_ended h he o)
      rw [received_ended _ _ _ he] at hq ⊢
      exact ⟨q, hq⟩
    subst he
    have hc : s.closing = false := by
      cases hx : s.closing with
      | false => rfl
      | true => exact absurd rfl (h.closing.1 hx)
    have hp := h.paused rfl
    obtain ⟨hq, hal⟩ := h.open_ rfl
    have ht := h.told
    have hre : s.reader = !p := by
      cases hx : s.reader with
      | true => have := (h.reader.1 hx).2; rw [hp] at this; rw [this]; rfl
      | false =>
        cases hy : p with
        | true => rfl
        | false => have := h.reader.2 ⟨rfl, hp.trans hy⟩; rw [hx] at this; exact absurd this nofun
    obtain ⟨closing, paused, reader, alive, queue, told⟩ := s
    simp only at hc hp hq hal ht hre
    subst hc hp hq hal hre
    simp only [List.map_nil, List.append_nil, End.tail] at ht
    subst ht
    have mk : ∀ (r : Rd) (p' : Bool) (e' : End) (d' : List (List Nat)), RInv r p' e' d' →
        rstep ⟨false, paused, !paused, true, [], data.map .data⟩ o = r →
        received paused .open_ (o :: l) = (d'.drop data.length ++ (received p' e' l).1, (received p' e' l).2) →
        d' = data ++ d'.drop data.length →
        ∃ q, RInv (rrun ⟨false, paused, !paused, true, [], data.map .data⟩ (o :: l)) q
          (received paused .open_ (o :: l)).2 (data ++ (received paused .open_ (o :: l)).1) := by
      intro r p' e' d' hr hs hrec hd
      obtain ⟨q, hq⟩ := ih r p' e' d' hr
      refine ⟨q, ?_⟩
      rw [hrec]
      simp only [rrun, List.foldl_cons, hs]
      rw [← List.append_assoc, ← hd]
      exact hq
    cases o with
    | readReady g =>
      cases g with
      | blocked => exact mk _ paused .open_ data h rfl (by simp [received]) (by simp)
      | failed =>
        cases paused with
        | true => exact mk _ true .open_ data h rfl (by simp [received]) (by simp)
        | false =>
          refine mk ⟨true, false, false, true, [.lost true], data.map .data⟩ false .failed data ?_ rfl (by simp [received]) (by simp)
          exact ⟨by simp, nofun, by simp, by simp [End.tail, RCall.tells], .inl rfl, nofun⟩
      | data d =>
        cases paused with
        | true => exact mk _ true .open_ data h rfl (by simp [received]) (by simp)
        | false =>
          by_cases hd : d = []
          · subst hd
            refine mk ⟨true, false, false, true, [.eof, .lost false], data.map .data⟩ false .eof data ?_ rfl (by simp [received]) (by simp)
            exact ⟨by simp, nofun, by simp, by simp [End.tail, RCall.tells], .inl rfl, nofun⟩
          · have hd' : d.isEmpty = false := by simpa using hd
            refine mk ⟨false, false, true, true, [], data.map .data ++ [.data d]⟩ false .open_ (data ++ [d]) ?_ ?_
              (by simp [received, hd]) (by simp)
            · exact ⟨by simp, fun _ => rfl, by simp, by simp [End.tail], .inl rfl, fun _ => ⟨rfl, rfl⟩⟩
            · simp [rstep, Rd.readReady, hd']
    | pause =>
      refine mk ⟨false, true, false, true, [], data.map .data⟩ true .open_ data ?_ ?_ (by simp [received]) (by simp)
      · exact ⟨by simp, fun _ => rfl, by simp, by simp [End.tail], .inl rfl, fun _ => ⟨rfl, rfl⟩⟩
      · cases paused <;> rfl
    | resume =>
      refine mk ⟨false, false, true, true, [], data.map .data⟩ false .open_ data ?_ ?_ (by simp [received]) (by simp)
      · exact ⟨by simp, fun _ => rfl, by simp, by simp [End.tail], .inl rfl, fun _ => ⟨rfl, rfl⟩⟩
      · cases paused <;> rfl
    | close =>
      refine mk ⟨true, paused, false, true, [.lost false], data.map .data⟩ paused .closed data ?_ rfl (by simp [received]) (by simp)
      exact ⟨by simp, nofun, by simp, by simp [End.tail, RCall.tells], .inl rfl, nofun⟩
    | runQueue => exact mk _ paused .open_ data h rfl (by simp [received]) (by simp)

/-- What the protocol was told, with what the loop still has to tell it, is what was
received while reading was not paused, in order, then how it ended; the loss is told
once and last. -/
theorem C184_read_end (l : List ROp) :
    (rrun Rd.new l).told ++ (rrun Rd.new l).queue.map RCall.tells
      = (received false .open_ l).1.map .data ++ (received false .open_ l).2.tail := by
  obtain ⟨q, h⟩ := run_rinv l Rd.new false .open_ []
    ⟨by simp [Rd.new], fun _ => rfl, by simp [Rd.new], rfl, .inl rfl, fun _ => ⟨rfl, rfl⟩⟩
  simpa using h.told

theorem received_runQueue (l : List ROp) : ∀ (p : Bool) (e : End), received p e (l ++ [.runQueue]) = received p e l := by
  induction l with
  | nil => intro p e; cases e <;> simp [received]
  | cons o l ih =>
    intro p e
    by_cases he : e = .open_
    · subst he
      rw [List.cons_append]
      cases o with
      | readReady g => cases g <;> simp only [received, ih]
      | _ => simp only [received, ih]
    · rw [received_ended _ _ _ he, received_ended _ _ _ he]

/-- Two runs of the loop are enough to tell it all. -/
theorem C184_all_told (l : List ROp) :
    (rrun Rd.new (l ++ [.runQueue, .runQueue])).told
      = (received false .open_ l).1.map .data ++ (received false .open_ l).2.tail := by
  have h0 := C184_read_end l
  have h1 := C184_read_end (l ++ [.runQueue] ++ [.runQueue])
  rw [received_runQueue, received_runQueue, List.append_assoc] at h1
  have hlen : (rrun Rd.new l).queue.length ≤ 2 := by
    have hc := congrArg (List.countP (fun t => match t with | RTold.data _ => false | _ => true)) h0
    rw [List.countP_append, List.countP_append] at hc
    have c1 : ∀ q : List RCall,
        List.countP (fun t => match t with | RTold.data _ => false | _ => true) (q.map RCall.tells) = q.length := by
      intro q
      induction q with
      | nil => rfl
      | cons c q ih => cases c <;> simp [RCall.tells] at ih ⊢ <;> exact ih
    have c2 : ∀ d : List (List Nat),
        List.countP (fun t => match t with | RTold.data _ => false | _ => true) (d.map RTold.data) = 0 := by
      intro d
      induction d with
      | nil => rfl
      | cons c q ih => simp at ih ⊢
    have c3 : ∀ e : End, List.countP (fun t => match t with | RTold.data _ => false | _ => true) e.tail ≤ 2 := by
      intro e; cases e <;> decide
    have := c3 (received false .open_ l).2
    rw [c1, c2] at hc
    omega
  have hq : (rrun Rd.new (l ++ [.runQueue, .runQueue])).queue = [] := by
    have e : rrun Rd.new (l ++ [.runQueue, .runQueue]) = (rrun Rd.new l).runQueue.runQueue := by
      simp [rrun, rstep]
    rw [e]
    have dec : ∀ s : Rd, s.runQueue.queue.length = s.queue.length - 1 := by
      intro s
      unfold Rd.runQueue
      split
      · next hx => simp [hx]
      · next hx => simp [hx]
      · next hx => split <;> simp [hx]
    refine List.length_eq_zero_iff.1 ?_
    rw [dec, dec]; omega
  have e2 : [ROp.runQueue] ++ [ROp.runQueue] = [.runQueue, .runQueue] := rfl
  rw [e2, hq] at h1
  simpa using h1

/-! ### C185: numbers of closed files -/

/-- When the end is to be told or was told, nothing is left to be done. -/
def Over (s : Wr) : Prop := s.queue ≠ [] ∨ s.alive = false → s.closing = true ∧ s.buf = [] ∧ s.reader = false

theorem close_over {s : Wr} (ha : s.alive = true) (hs : s.stale = 0) (f : Bool) :
    Over (s.close_ f) ∧ (s.close_ f).stale = 0 := by
  obtain ⟨e1, e2, e3, e4, e5, e6, e7, e8, e9, e10, -⟩ := close_fields s f
  exact ⟨fun _ => ⟨e3, e2, e8⟩, by rw [e10, if_pos ha]; exact hs⟩

theorem step_over {s : Wr} {acc : List Nat} (hi : Inv s acc) (h : Over s) (hs : s.stale = 0) (o : Op)
    (ho : ∀ f, o ≠ .abort f) : Over (step s o) ∧ (step s o).stale = 0 := by
  have live : ∀ u : Wr, u.queue = [] → u.alive = true → Over u := by
    intro u h1 h2 hx
    rcases hx with hx | hx
    · exact absurd h1 hx
    · exact absurd (h2.symm.trans hx) nofun
  have mp : ∀ u : Wr, u.queue = [] → u.alive = true → u.stale = 0 → Over u.maybePause ∧ u.maybePause.stale = 0 := by
    intro u h1 h2 h3
    obtain ⟨e1, e2, e3, e4, e5, e6, e7, e8, -⟩ := maybePause_fields u
    exact ⟨live _ (e5.trans h1) (e6.trans h2), e8.trans h3⟩
  have notOver : s.buf ≠ [] ∨ s.reader = true → s.queue = [] ∧ s.alive = true := by
    intro hx
    have : ¬ (s.queue ≠ [] ∨ s.alive = false) := by
      intro hy
      obtain ⟨_, h2, h3⟩ := h hy
      rcases hx with hx | hx
      · exact hx h2
      · exact absurd (hx.symm.trans h3) nofun
    refine ⟨Decidable.byContradiction fun e => this (.inl e), ?_⟩
    cases ha : s.alive with
    | true => rfl
    | false => exact absurd (.inr ha) this
  cases o with
  | write d sys =>
    simp only [step, Wr.write]
    split
    · exact ⟨h, hs⟩
    split
    · exact ⟨h, hs⟩
    next hc =>
    obtain ⟨hq, ha⟩ := hi.closing (by simpa using hc)
    split
    · cases sys with
      | failed => exact close_over ha hs true
      | blocked => exact mp _ hq ha hs
      | took n =>
        simp only
        split
        · exact ⟨live _ hq ha, hs⟩
        · exact mp _ hq ha hs
    · exact mp _ hq ha hs
  | writeReady sys =>
    simp only [step, Wr.writeReady]
    split
    · exact ⟨h, hs⟩
    next hw =>
    have hw' : s.writer = true := by simpa using hw
    have hbuf : s.buf ≠ [] := by
      intro e; have := hi.writer; rw [hw', e] at this; exact absurd this nofun
    obtain ⟨hq, ha⟩ := notOver (.inl hbuf)
    cases sys with
    | blocked => exact ⟨h, hs⟩
    | failed => exact close_over (s := { s with buf := [], writer := false }) ha hs true
    | took n =>
      simp only
      obtain ⟨e1, e2, e3, e4, e5, e6, e7, e8, -⟩ :=
        maybeResume_fields { s with pipe := s.pipe ++ s.buf.take n, buf := s.buf.drop n }
      generalize ({ s with pipe := s.pipe ++ s.buf.take n, buf := s.buf.drop n } : Wr).maybeResume = u at *
      split
      · next hn =>
        split
        · next hc =>
          obtain ⟨f1, f2, f3, f4, f5, f6, f7, f8, f9, -⟩ :=
            callLost_fields { u with writer := false, reader := false } false
          have fr : (Wr.callLost { u with writer := false, reader := false } false).reader = false := by
            unfold Wr.callLost; split <;> rfl
          exact ⟨fun _ => ⟨f3.trans hc, f2.trans (by simpa using hn), fr⟩, f9.trans (e8.trans hs)⟩
        · exact ⟨live _ (e5.trans hq) (e6.trans ha), e8.trans hs⟩
      · exact ⟨live _ (e5.trans hq) (e6.trans ha), e8.trans hs⟩
  | readReady =>
    simp only [step, Wr.readReady]
    split
    · exact ⟨h, hs⟩
    · next hr => exact close_over (notOver (.inr (by simpa using hr))).2 hs _
  | eof =>
    simp only [step, Wr.eof]
    split
    · exact ⟨h, hs⟩
    next hc =>
    obtain ⟨hq, ha⟩ := hi.closing (by simpa using hc)
    split
    · next hb => exact ⟨fun _ => ⟨rfl, by simpa using hb, rfl⟩, hs⟩
    · exact ⟨live _ hq ha, hs⟩
  | abort f => exact absurd rfl (ho f)
  | runQueue =>
    simp only [step]
    cases hq : s.queue with
    | nil => exact ⟨h, hs⟩
    | cons f q =>
      obtain ⟨h1, h2, h3⟩ := h (.inl (by rw [hq]; exact nofun))
      obtain ⟨f1, f2, f3, f4, f5, f6, f7, f8, f9, -⟩ := callLost_fields { s with queue := q } f
      have fr : (Wr.callLost { s with queue := q } f).reader = s.reader := by
        unfold Wr.callLost; split <;> rfl
      exact ⟨fun _ => ⟨f3.trans h1, f2.trans h2, fr.trans h3⟩, f9.trans hs⟩
  | limits lo hi' =>
    simp only [step, Wr.limits]
    split
    · exact ⟨h, hs⟩
    · obtain ⟨e1, e2, e3, e4, e5, e6, e7, e8, -⟩ :=
        maybePause_fields { s with low := (limitsOf lo hi').1, high := (limitsOf lo hi').2 }
      refine ⟨?_, e8.trans hs⟩
      intro hx
      rw [e5, e6] at hx
      obtain ⟨h1, h2, h3⟩ := h hx
      exact ⟨e4.trans h1, e2.trans h2, e7.trans h3⟩

/-- A transport which is not aborted after the connection was lost does not remove
callbacks of a number which may be another's. -/
theorem C185_own_number_partial (r : Bool) (l : List Op) (hn : ∀ f, Op.abort f ∉ l) :
    (run (Wr.new r) l).stale = 0 := by
  have key : ∀ (l : List Op) (s : Wr) (acc : List Nat), Inv s acc → Over s → s.stale = 0 → (∀ f, Op.abort f ∉ l) →
      (run s l).stale = 0 := by
    intro l
    induction l with
    | nil => intro s _ _ _ h _; exact h
    | cons o l ih =>
      intro s acc hi hd h hn
      obtain ⟨k1, k2⟩ := step_over hi hd h o (fun f e => hn f (by simp [e]))
      exact ih _ _ (step_inv hi o) k1 k2 (fun f hx => hn f (by simp [hx]))
  exact key l _ _ (new_inv r) (by rintro (hx | hx) <;> exact absurd hx (by simp [Wr.new])) rfl hn

/-- Aborting a transport of which the pipe was closed removes the callbacks of its old
number. -/
theorem C185_stale_violated (l : List Op) (r f : Bool) (hl : ∃ g, toldLost (run (Wr.new r) l) g) :
    (run (Wr.new r) (l ++ [.abort f])).stale = (run (Wr.new r) l).stale + 1 := by
  have h := run_sig l _ _ (new_inv r) (new_sig r)
  have hdead : (run (Wr.new r) l).alive = false := by
    cases ha : (run (Wr.new r) l).alive with
    | false => rfl
    | true =>
      obtain ⟨n, e, _⟩ := h.alive ha
      obtain ⟨g, hg⟩ := hl
      unfold toldLost at hg
      rw [e] at hg
      have : ∀ n, Told.lost g ∉ alternating n := by
        intro n
        induction n with
        | zero => simp [alternating]
        | succ k ih =>
          simp only [alternating, List.mem_append, List.mem_singleton, not_or]
          refine ⟨ih, ?_⟩
          split <;> exact nofun
      exact absurd hg (this n)
  have e : run (Wr.new r) (l ++ [.abort f]) = (run (Wr.new r) l).close_ f := by simp [run, step]
  rw [e, (close_fields _ _).2.2.2.2.2.2.2.2.2.1, hdead]
  simp

/-! ### Examples -/

-- C182, C183: a write of which the system takes a part, an end, the rest in two parts
example : (run (Wr.new true) [.write [1, 2, 3] (.took 1), .write [4] .blocked, .eof, .writeReady (.took 2)])
    = { Wr.new true with pipe := [1, 2, 3], buf := [4], closing := true, writer := true } := by decide

example : (run (Wr.new true)
    [.write [1, 2, 3] (.took 1), .write [4] .blocked, .eof, .writeReady (.took 2), .writeReady (.took 1)])
    = { Wr.new true with pipe := [1, 2, 3, 4], closing := true, reader := false, alive := false, told := [.lost false] } := by
  decide

example : accepted (Wr.new true) [.write [1, 2, 3] (.took 1), .write [4] .blocked, .eof, .write [9] .blocked]
    = [1, 2, 3, 4] := by decide

example : (run (Wr.new true) [.limits (some 1) (some 2), .write [1, 2, 3] .blocked, .writeReady (.took 1), .writeReady (.took 1)]).told
    = [.pause, .resume] := by decide

-- the other end is closed while bytes are kept
example : (run (Wr.new true) [.write [1, 2, 3] (.took 1), .readReady, .runQueue]).told = [.lost true] := by decide

-- C184
example : received false .open_ [.readReady (.data [1]), .pause, .readReady (.data [2]), .resume, .readReady (.data [2]),
    .readReady (.data []), .readReady (.data [3])] = ([[1], [2]], .eof) := by decide

example : (rrun Rd.new [.readReady (.data [1]), .pause, .readReady (.data [2]), .resume, .readReady (.data [2]),
    .readReady (.data []), .runQueue, .runQueue]).told = [.data [1], .data [2], .eof, .lost false] := by decide

-- C185
example : (run (Wr.new true) [.write [1] (.took 1), .eof, .runQueue, .abort false]).stale = 1 := by decide

end Verif.Pipe
