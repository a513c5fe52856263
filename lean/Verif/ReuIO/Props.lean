/-
Properties C178 - C181: reusable buffers and asynchronous files.
-/
import Verif.ReuIO.Model

namespace Verif.ReuIO

set_option linter.unusedSimpArgs false

/-! ### The specification of a reusable buffer -/

/-- What was written in the last session of writes, where the cursor is, and
whether it was read since. -/
structure Sp where
  data : List Nat
  pos : Nat
  reading : Bool

/-- Uses a buffer is made for: writing at its end or after a read, reading an
amount which is not negative, moving inside what was written. -/
def calm (s : Sp) : Op → Prop
  | .write _ => s.reading = true ∨ s.pos = s.data.length
  | .read a => ∀ n, a = some n → 0 ≤ n
  | .seek o .set => 0 ≤ o ∧ o ≤ s.data.length
  | .seek o .cur => 0 ≤ s.pos + o ∧ s.pos + o ≤ s.data.length
  | .seek _ .end_ => False
  | .close => True

/-- What is left after the cursor, up to an amount. -/
def portion (s : Sp) : Option Int → List Nat
  | none => s.data.drop s.pos
  | some n => (s.data.drop s.pos).take n.toNat

/-- What a use is to do. -/
def spec (s : Sp) : Op → Sp × Out
  | .write d =>
    let old := if s.reading then [] else s.data
    (⟨old ++ d, (old ++ d).length, false⟩, .num d.length)
  | .read a => (⟨s.data, s.pos + (portion s a).length, true⟩, .bytes (portion s a))
  | .seek o .set => (⟨s.data, o.toNat, s.reading⟩, .num o.toNat)
  | .seek o .cur => (⟨s.data, (s.pos + o).toNat, s.reading⟩, .num (s.pos + o).toNat)
  | .seek o .end_ => (⟨s.data, (s.data.length + o).toNat, s.reading⟩, .num (s.data.length + o).toNat)
  | .close => (⟨s.data, 0, s.reading⟩, .unit)

def specRun (s : Sp) : List Op → Sp × List Out
  | [] => (s, [])
  | o :: l => ((specRun (spec s o).1 l).1, (spec s o).2 :: (specRun (spec s o).1 l).2)

def Calm (s : Sp) : List Op → Prop
  | [] => True
  | o :: l => calm s o ∧ Calm (spec s o).1 l

/-- The buffer holds what the specification says. -/
structure Rel (r : Reu) (s : Sp) : Prop where
  data : r.bio.buf.take r.size = s.data
  size : r.size = s.data.length
  pos : r.bio.pos = s.pos
  le : s.pos ≤ s.data.length
  reading : r.reading = s.reading

theorem step_rel {r : Reu} {s : Sp} (h : Rel r s) (o : Op) (hc : calm s o) :
    Rel (step r o).1 (spec s o).1 ∧ (step r o).2 = (spec s o).2 := by
  obtain ⟨⟨buf, pos⟩, reading, size⟩ := r
  obtain ⟨data, spos, sreading⟩ := s
  obtain ⟨h1, h2, h3, h4, h5⟩ := h
  simp only at h1 h2 h3 h4 h5
  subst h3 h5
  have hlen : size ≤ buf.length := by
    have := congrArg List.length h1
    rw [List.length_take] at this; omega
  cases o with
  | write d =>
    refine ⟨?_, rfl⟩
    have key : ∀ (old : List Nat) (b : List Nat), b.take old.length = old → old.length ≤ b.length →
        (Bio.write ⟨b, old.length⟩ d).buf.take (old.length + d.length) = old ++ d ∧
        (Bio.write ⟨b, old.length⟩ d).pos = old.length + d.length := by
      intro old b hb hl
      unfold Bio.write
      by_cases hd : d = []
      · subst hd; simp [hb]
      · have : d.isEmpty = false := by simpa using hd
        rw [this]
        simp only [Bool.false_eq_true, if_false]
        have hz : old.length - b.length = 0 := by omega
        rw [hz]
        simp only [List.replicate_zero, List.append_nil, hb]
        exact ⟨by rw [List.take_left' (by simp)], trivial⟩
    cases reading with
    | true =>
      have hk := key [] buf (by simp) (by simp)
      simp only [step, spec, Reu.write, if_true]
      exact ⟨by simpa using hk.1, by simp, by simpa using hk.2, by simp, rfl⟩
    | false =>
      have hp : pos = data.length := by
        rcases hc with hc | hc
        · exact absurd hc nofun
        · exact hc
      subst hp
      have hk := key data buf (by rw [← h2]; exact h1) (by omega)
      simp only [step, spec, Reu.write, Bool.false_eq_true, if_false]
      rw [h2]
      exact ⟨hk.1, by simp, by simpa using hk.2, by simp, rfl⟩
  | read a =>
    have hd : (buf.drop pos).take (size - pos) = data.drop pos := by
      rw [← h1, List.drop_take]
    have key : ∀ n : Int, 0 ≤ n → n ≤ size - pos →
        Bio.read ⟨buf, pos⟩ n = (⟨buf, pos + ((data.drop pos).take n.toNat).length⟩, (data.drop pos).take n.toNat) := by
      intro n h0 hn
      have e : (buf.drop pos).take n.toNat = (data.drop pos).take n.toNat := by
        rw [← hd, List.take_take, Nat.min_eq_left (by omega)]
      simp only [Bio.read, if_neg (show ¬ n < 0 by omega), e]
    have main : ∃ n : Int, 0 ≤ n ∧ n ≤ size - pos ∧
        (data.drop pos).take n.toNat = portion ⟨data, pos, reading⟩ a ∧
        step ⟨⟨buf, pos⟩, reading, size⟩ (.read a) =
          ({ bio := (Bio.read ⟨buf, pos⟩ n).1, reading := true, size := size }, .bytes (Bio.read ⟨buf, pos⟩ n).2) := by
      have hall : ∀ k, (data.drop pos).length ≤ k → (data.drop pos).take k = data.drop pos := fun k hk =>
        List.take_of_length_le hk
      cases a with
      | none =>
        refine ⟨(size : Int) - pos, by omega, by omega, ?_, rfl⟩
        simp only [portion]
        exact hall _ (by rw [List.length_drop]; omega)
      | some n =>
        have hn := hc n rfl
        by_cases hg : n > (size : Int) - pos
        · refine ⟨(size : Int) - pos, by omega, by omega, ?_, ?_⟩
          · simp only [portion]
            rw [hall _ (by rw [List.length_drop]; omega), hall _ (by rw [List.length_drop]; omega)]
          · simp only [step, Reu.read, if_pos hg]
        · refine ⟨n, hn, by omega, rfl, ?_⟩
          simp only [step, Reu.read, if_neg hg]
    obtain ⟨n, hn0, hn1, hp, hs⟩ := main
    rw [hs, key n hn0 hn1]
    simp only [spec, hp]
    refine ⟨⟨h1, h2, rfl, ?_, rfl⟩, trivial⟩
    have : (portion ⟨data, pos, reading⟩ a).length ≤ data.length - pos := by
      rw [← hp, List.length_take, List.length_drop]; omega
    simp only; omega
  | seek off w =>
    cases w with
    | set =>
      obtain ⟨g1, g2⟩ := hc
      simp only at g2
      have hle : ¬ off.toNat > size := by omega
      simp only [step, Reu.seek, Bio.seek, if_neg (show ¬ off < 0 by omega), if_neg hle, spec, reduceCtorEq,
        if_false]
      exact ⟨⟨h1, h2, rfl, by simp only; omega, rfl⟩, trivial⟩
    | cur =>
      obtain ⟨g1, g2⟩ := hc
      simp only at g1 g2
      have hle : ¬ ((pos : Int) + off).toNat > size := by omega
      simp only [step, Reu.seek, Bio.seek, if_neg hle, spec, reduceCtorEq, if_false]
      exact ⟨⟨h1, h2, rfl, by simp only; omega, rfl⟩, trivial⟩
    | end_ => exact hc.elim
  | close =>
    simp only [step, Reu.close, Reu.seek, Bio.seek, spec, reduceCtorEq, if_false]
    exact ⟨⟨h1, by simpa using h2, rfl, by simp, rfl⟩, trivial⟩

/-! ### C178: what is read is what was written -/

/-- Every read, write and move of a calm use gives what the specification gives. -/
theorem C178_calm_uses_partial (l : List Op) (h : Calm ⟨[], 0, false⟩ l) :
    (run Reu.new l).2 = (specRun ⟨[], 0, false⟩ l).2 ∧
      (run Reu.new l).1.len = (specRun ⟨[], 0, false⟩ l).1.data.length := by
  have key : ∀ (l : List Op) (r : Reu) (s : Sp), Rel r s → Calm s l →
      (run r l).2 = (specRun s l).2 ∧ Rel (run r l).1 (specRun s l).1 := by
    intro l
    induction l with
    | nil => intro r s hr _; exact ⟨rfl, hr⟩
    | cons o l ih =>
      intro r s hr hc
      obtain ⟨h1, h2⟩ := step_rel hr o hc.1
      obtain ⟨h3, h4⟩ := ih _ _ h1 hc.2
      exact ⟨by simp only [run, specRun, h2, h3], h4⟩
  obtain ⟨h1, h2⟩ := key l Reu.new ⟨[], 0, false⟩ ⟨rfl, rfl, rfl, Nat.le_refl _, rfl⟩ h
  exact ⟨h1, h2.size⟩

theorem writes_data (ds : List (List Nat)) : ∀ (r : Reu) (s : Sp), Rel r s → s.reading = false →
    s.pos = s.data.length →
    Rel (run r (ds.map .write)).1 ⟨s.data ++ ds.flatten, (s.data ++ ds.flatten).length, false⟩ := by
  induction ds with
  | nil => intro r s h h1 h2; simp only [List.map_nil, run, List.flatten_nil, List.append_nil]
           obtain ⟨d, p, rd⟩ := s
           simp only at h1 h2; subst h1 h2; exact h
  | cons d ds ih =>
    intro r s h h1 h2
    have hs := (step_rel h (.write d) (.inr h2)).1
    simp only [spec, h1, Bool.false_eq_true, if_false] at hs
    have := ih _ _ hs rfl rfl
    simpa [run] using this

/-- What was written in a session, with whatever was in the buffer before, is read
back after `close`, again and again. -/
theorem C178_reuse (before : List Op) (hb : Calm ⟨[], 0, false⟩ before) (n : Option Int) (hn : ∀ k, n = some k → 0 ≤ k)
    (d : List Nat) (ds : List (List Nat)) (times : Nat) :
    let r := (run Reu.new before).1
    let w := (run r (.read n :: .write d :: ds.map .write)).1
    (run w (List.replicate times [Op.close, Op.read none]).flatten).2
        = (List.replicate times [Out.unit, Out.bytes (d ++ ds.flatten)]).flatten ∧
      w.len = (d ++ ds.flatten).length := by
  intro r w
  have key : ∀ (l : List Op) (r : Reu) (s : Sp), Rel r s → Calm s l → ∃ s', Rel (run r l).1 s' := by
    intro l
    induction l with
    | nil => intro r s hr _; exact ⟨s, hr⟩
    | cons o l ih => intro r s hr hc; exact ih _ _ (step_rel hr o hc.1).1 hc.2
  obtain ⟨s0, h0⟩ := key before Reu.new ⟨[], 0, false⟩ ⟨rfl, rfl, rfl, Nat.le_refl _, rfl⟩ hb
  have h1 := (step_rel h0 (.read n) hn).1
  have h2 := (step_rel h1 (.write d) (.inl rfl)).1
  simp only [spec, if_true, List.nil_append] at h2
  have h3 := writes_data ds _ _ h2 rfl rfl
  have hw : Rel w ⟨d ++ ds.flatten, (d ++ ds.flatten).length, false⟩ := h3
  refine ⟨?_, hw.size⟩
  have loop : ∀ (times : Nat) (w : Reu) (p : Nat) (b : Bool), Rel w ⟨d ++ ds.flatten, p, b⟩ →
      (run w (List.replicate times [Op.close, Op.read none]).flatten).2
        = (List.replicate times [Out.unit, Out.bytes (d ++ ds.flatten)]).flatten := by
    intro times
    induction times with
    | zero => intro w p b _; rfl
    | succ k ih =>
      intro w p b hr
      have a1 := step_rel hr .close trivial
      have a2 := step_rel a1.1 (.read none) nofun
      have e : ∀ (u : Reu) (l : List Op), (run u ([Op.close, Op.read none] ++ l)).2
          = (step u .close).2 :: (step (step u .close).1 (.read none)).2
              :: (run (step (step u .close).1 (.read none)).1 l).2 := fun u l => rfl
      simp only [List.replicate_succ, List.flatten_cons]
      rw [e, a1.2, a2.2, ih _ _ _ a2.1]
      simp [spec, portion]
  exact loop times w _ _ hw

/-- A negative amount reads bytes of an earlier session. -/
theorem C178_negative_amount_violated :
    (run Reu.new [.write [1, 2, 3], .read none, .write [9], .close, .read (some (-1))]).2
      = [.num 3, .bytes [], .num 1, .unit, .bytes [9, 2, 3]] := by decide

/-- So does moving past what was written. -/
theorem C178_seek_past_violated :
    (run Reu.new [.write [1, 2, 3], .read none, .write [9], .seek 3 .set, .close, .read none]).2
      = [.num 3, .bytes [], .num 1, .num 3, .unit, .bytes [9, 2, 3]] := by decide

/-- Moving to the end does not move: what is written then replaces the start. -/
theorem C178_seek_end_violated :
    (run Reu.new [.write [1, 2, 3], .close, .seek 0 .end_, .write [4], .close, .read none]).2
      = [.num 3, .unit, .num 3, .num 1, .unit, .bytes [4, 2, 3]] := by decide

/-! ### C179: the length is the length of what can be read -/

/-- After writing again over what was written the length is too large: for any
two texts, written with a `close` between them, it is their sum. -/
theorem C179_length_violated (a b : List Nat) (ha : a ≠ []) (hb : b ≠ []) :
    let r := (run Reu.new [.write a, .close, .write b]).1
    r.len = a.length + b.length ∧
      ∃ d, (run r [.close, .read none]).2 = [.unit, .bytes d] ∧ d.length < r.len := by
  have ha' : a.isEmpty = false := by simpa using ha
  have hb' : b.isEmpty = false := by simpa using hb
  have e : (run Reu.new [.write a, .close, .write b]).1 = ⟨⟨b ++ a.drop b.length, b.length⟩, false, a.length + b.length⟩ := by
    simp [run, step, Reu.new, Reu.write, Bio.write, Reu.close, Reu.seek, Bio.seek, ha', hb']
  intro r
  have hr : r = ⟨⟨b ++ a.drop b.length, b.length⟩, false, a.length + b.length⟩ := e
  rw [hr]
  refine ⟨rfl, _, rfl, ?_⟩
  have h1 := List.length_pos_iff.2 ha
  have h2 := List.length_pos_iff.2 hb
  simp only [Reu.read, step, Reu.close, Reu.seek, Bio.seek, Bio.read, Reu.len]
  simp
  split
  · omega
  · simp; omega

/-- In a calm use the length is that of what `close` and a read give. -/
theorem C179_length_calm_partial (l : List Op) (h : Calm ⟨[], 0, false⟩ l) :
    ∃ d, (run (run Reu.new l).1 [.close, .read none]).2 = [.unit, .bytes d] ∧ d.length = (run Reu.new l).1.len := by
  have key : ∀ (l : List Op) (r : Reu) (s : Sp), Rel r s → Calm s l → ∃ s', Rel (run r l).1 s' := by
    intro l
    induction l with
    | nil => intro r s hr _; exact ⟨s, hr⟩
    | cons o l ih => intro r s hr hc; exact ih _ _ (step_rel hr o hc.1).1 hc.2
  obtain ⟨s, hs⟩ := key l Reu.new ⟨[], 0, false⟩ ⟨rfl, rfl, rfl, Nat.le_refl _, rfl⟩ h
  have a1 := step_rel hs .close trivial
  have a2 := step_rel a1.1 (.read none) nofun
  refine ⟨s.data, ?_, hs.size.symm⟩
  show [(step _ .close).2, (step (step _ .close).1 (.read none)).2] = _
  rw [a1.2, a2.2]
  simp [spec, portion]

/-! ### C180: after `close` an asynchronous file is read from its start -/

def arun (size : Nat) (s : Ras) (l : List AOp) : Ras := l.foldl (astep size) s

/-- Nothing the executor has not run is left when the file is closed. -/
def Orderly : Ras → Nat → List AOp → Prop
  | _, _, [] => True
  | s, size, o :: l => (o = .close → s.pending = []) ∧ (∀ n, o = .read n → s.pending = []) ∧
      Orderly (astep size s o) size l

/-- The positions at which reads are to begin: the start after a `close`, else
where the one before ended; an executed read with how much it got. -/
def starts (size : Nat) : Nat → Bool → Option Nat → List AOp → List (Nat × Nat)
  | _, _, _, [] => []
  | p, _, q, .close :: l => starts size p true q l
  | p, c, _, .read n :: l => starts size p c (some n) l
  | p, c, none, .execute :: l => starts size p c none l
  | p, c, some n, .execute :: l =>
    let f := if c then 0 else p
    (f, min n (size - f)) :: starts size (f + min n (size - f)) false none l

/-- If one read is awaited before the next use, every read begins where it is to. -/
theorem C180_rewind_partial (size : Nat) (l : List AOp) (h : Orderly ⟨false, 0, [], []⟩ size l) :
    (arun size ⟨false, 0, [], []⟩ l).ran = starts size 0 false none l := by
  have key : ∀ (l : List AOp) (c : Bool) (p : Nat) (q : Option Nat) (ran : List (Nat × Nat)),
      Orderly ⟨c, p, (q.map (fun n => (c, n))).toList, ran⟩ size l →
      (arun size ⟨c, p, (q.map (fun n => (c, n))).toList, ran⟩ l).ran = ran ++ starts size p c q l := by
    intro l
    induction l with
    | nil => intro c p q ran _; simp [arun, starts]
    | cons o l ih =>
      intro c p q ran ho
      cases o with
      | close =>
        have hq : q = none := by
          have := ho.1 rfl
          cases q with
          | none => rfl
          | some n => simp at this
        subst hq
        have := ih true p none ran ho.2.2
        simpa [arun, starts, astep] using this
      | read n =>
        have hq : q = none := by
          have := ho.2.1 n rfl
          cases q with
          | none => rfl
          | some n => simp at this
        subst hq
        have := ih c p (some n) ran ho.2.2
        simpa [arun, starts, astep] using this
      | execute =>
        cases q with
        | none =>
          have := ih c p none ran ho.2.2
          simpa [arun, starts, astep] using this
        | some n =>
          cases c with
          | true =>
            have := ih false (0 + min n (size - 0)) none (ran ++ [(0, min n (size - 0))]) ho.2.2
            simpa [arun, starts, astep] using this
          | false =>
            have := ih false (p + min n (size - p)) none (ran ++ [(p, min n (size - p))]) ho.2.2
            simpa [arun, starts, astep] using this
  have := key l false 0 none [] h
  simpa using this

/-- A file closed while a read waits which is itself the first after a `close`: the
next read does not begin at the start. -/
theorem C180_rewind_lost_violated (size n m : Nat) (hn : 0 < n) (hs : 0 < size) :
    ∃ p, 0 < p ∧ (arun size ⟨false, 0, [], []⟩
      [.close, .read n, .close, .execute, .read m, .execute]).ran = [(0, min n size), (p, min m (size - p))] := by
  refine ⟨min n size, by omega, ?_⟩
  simp [arun, astep]

/-- Two reads which are given one after the other after a `close` both read the
start, the second does not continue the first. -/
theorem C180_both_rewind_violated (size n m : Nat) :
    (arun size ⟨false, 0, [], []⟩ [.close, .read n, .read m, .execute, .execute]).ran
      = [(0, min n size), (0, min m size)] := by
  simp [arun, astep]

/-! ### C181: executors are released -/

/-- A file object as it is made. -/
def made (a : Aio) : Prop := (∃ o b, a = openIO o b) ∨ ∃ o c, a = wrapIO o c

/-- An executor is never released twice. -/
theorem C181_not_released_twice (a : Aio) (ha : made a) (l : List LOp) :
    (l.foldl lstep a).released ≤ (l.foldl lstep a).claimed := by
  have key : ∀ (l : List LOp) (a : Aio), a.released + (if a.has then 1 else 0) ≤ a.claimed →
      (l.foldl lstep a).released ≤ (l.foldl lstep a).claimed := by
    intro l
    induction l with
    | nil => intro a h; simp only [List.foldl_nil]; omega
    | cons o l ih =>
      intro a h
      refine ih _ ?_
      obtain ⟨own, has, hasIO, fo, cl, rl⟩ := a
      rcases o with w | _ | w
      · cases own <;> cases has <;> cases hasIO <;> cases w <;> simp_all [lstep, del, drop] <;> omega
      · cases own <;> cases has <;> cases hasIO <;> simp_all [lstep, del, drop] <;> omega
      · cases own <;> cases has <;> cases hasIO <;> cases w <;> simp_all [lstep, del, drop] <;> omega
  refine key l a ?_
  rcases ha with ⟨o, b, rfl⟩ | ⟨o, c, rfl⟩
  · simp [openIO]
  · cases c <;> simp [wrapIO]

/-- The executor claimed from an event loop is released when the object is
collected, whether or not the file could be opened, was closed or detached, if no
call waits then. -/
theorem C181_claimed_released_partial (a : Aio) (ha : made a) (hown : a.own = false) (l : List LOp)
    (hl : ∀ w, LOp.collect w ∉ l) :
    ((l ++ [LOp.collect false]).foldl lstep a).released = ((l ++ [LOp.collect false]).foldl lstep a).claimed := by
  have key : ∀ (l : List LOp) (a : Aio), (∀ w, LOp.collect w ∉ l) → a.own = false →
      a.released + (if a.has then 1 else 0) = a.claimed →
      (l.foldl lstep a).own = false ∧
        (l.foldl lstep a).released + (if (l.foldl lstep a).has then 1 else 0) = (l.foldl lstep a).claimed := by
    intro l
    induction l with
    | nil => intro a _ ho h; exact ⟨ho, h⟩
    | cons o l ih =>
      intro a hn ho h
      have hno : ∀ w, o ≠ .collect w := fun w e => hn w (by simp [e])
      refine ih _ (fun w hw => hn w (by simp [hw])) ?_ ?_
      · obtain ⟨own, has, hasIO, fo, cl, rl⟩ := a
        rcases o with w | _ | w
        · cases has <;> cases hasIO <;> cases w <;> simp_all [lstep, del, drop]
        · cases has <;> cases hasIO <;> simp_all [lstep, del, drop]
        · exact absurd rfl (hno w)
      · obtain ⟨own, has, hasIO, fo, cl, rl⟩ := a
        rcases o with w | _ | w
        · cases has <;> cases hasIO <;> cases w <;> simp_all [lstep, del, drop]
        · cases has <;> cases hasIO <;> simp_all [lstep, del, drop]
        · exact absurd rfl (hno w)
  have h0 : a.released + (if a.has then 1 else 0) = a.claimed := by
    rcases ha with ⟨o, b, rfl⟩ | ⟨o, c, rfl⟩
    · simp [openIO]
    · cases c <;> simp [wrapIO]
  obtain ⟨h1, h2⟩ := key l a hl hown h0
  rw [List.foldl_append]
  revert h1 h2
  generalize l.foldl lstep a = b
  intro h1 h2
  obtain ⟨own, has, hasIO, fo, cl, rl⟩ := b
  cases has <;> cases hasIO <;> simp_all [lstep, del, drop]

/-- A file which was opened or wrapped: when `close` returns with no call waiting,
its executor is released and it is closed, and closing again changes nothing. -/
theorem C181_close (a : Aio) (ha : (∃ o, a = openIO o true) ∨ ∃ o c, a = wrapIO o c) (l : List LOp) :
    (lstep a (.close false)).released = a.claimed ∧ (lstep a (.close false)).fileOpen = false ∧
      l.foldl lstep (lstep a (.close false)) = lstep a (.close false) := by
  have fix : ∀ (l : List LOp) (b : Aio), b.has = false → l.foldl lstep b = b := by
    intro l
    induction l with
    | nil => intro b _; rfl
    | cons o l ih =>
      intro b hb
      have : lstep b o = b := by cases o <;> simp [lstep, del, drop, hb]
      rw [List.foldl_cons, this, ih b hb]
  rcases ha with ⟨o, rfl⟩ | ⟨o, c, rfl⟩
  · cases o <;> exact ⟨rfl, rfl, fix l _ rfl⟩
  · cases c <;> cases o <;> exact ⟨rfl, rfl, fix l _ rfl⟩

/-- The thread started for a file outside of an event loop is never stopped if the
file is detached. -/
theorem C181_detached_thread_violated (l : List LOp) :
    let z := l.foldl lstep (lstep (wrapIO true false) .detach)
    z.claimed = 1 ∧ z.released = 0 := by
  have fix : ∀ (l : List LOp) (b : Aio), b.has = false → l.foldl lstep b = b := by
    intro l
    induction l with
    | nil => intro b _; rfl
    | cons o l ih =>
      intro b hb
      have : lstep b o = b := by cases o <;> simp [lstep, del, drop, hb]
      rw [List.foldl_cons, this, ih b hb]
  intro z
  have : z = lstep (wrapIO true false) .detach := fix l _ rfl
  rw [this]; exact ⟨rfl, rfl⟩

/-- The executor claimed for a file which is collected while a call waits is not
released: `close` fails, and so does dropping the executor. -/
theorem C181_waiting_call_violated (l : List LOp) (hl : ∀ o ∈ l, o = .close true) :
    let z := (l ++ [LOp.collect true]).foldl lstep (openIO false true)
    z.claimed = 1 ∧ z.released = 0 ∧ z.has = false := by
  have key : ∀ (l : List LOp) (b : Aio), (∀ o ∈ l, o = .close true) →
      b.own = false ∧ b.has = true ∧ b.hasIO = true ∧ b.claimed = 1 ∧ b.released = 0 →
      (l.foldl lstep b).own = false ∧ (l.foldl lstep b).has = true ∧ (l.foldl lstep b).hasIO = true ∧
        (l.foldl lstep b).claimed = 1 ∧ (l.foldl lstep b).released = 0 := by
    intro l
    induction l with
    | nil => intro b _ h; exact h
    | cons o l ih =>
      intro b hb h
      have ho := hb o (by simp)
      subst ho
      refine ih _ (fun x hx => hb x (by simp [hx])) ?_
      obtain ⟨h1, h2, h3, h4, h5⟩ := h
      simp [lstep, del, h1, h2, h3, h4, h5]
  obtain ⟨h1, h2, h3, h4, h5⟩ := key l (openIO false true) hl ⟨rfl, rfl, rfl, rfl, rfl⟩
  intro z
  have hz : z = lstep (l.foldl lstep (openIO false true)) (.collect true) := by
    show (l ++ [LOp.collect true]).foldl lstep (openIO false true) = _
    rw [List.foldl_append]; rfl
  rw [hz]
  simp [lstep, del, drop, h1, h2, h3, h4, h5]

/-! ### Examples -/

-- C178: two sessions; the second is shorter
example : (run Reu.new [.write [1, 2], .write [3], .close, .read (some 2), .read none, .write [9, 8], .close, .read none]).2
    = [.num 2, .num 1, .unit, .bytes [1, 2], .bytes [3], .num 2, .unit, .bytes [9, 8]] := by decide

example : Calm ⟨[], 0, false⟩
    [.write [1, 2], .write [3], .close, .read (some 2), .read none, .write [9, 8], .close, .read none] := by
  simp [Calm, calm, spec, portion]

example : Calm ⟨[], 0, false⟩ [.write [1, 2], .seek 1 .set, .read (some 1), .seek (-2) .cur] := by
  simp [Calm, calm, spec, portion]

-- C180
example : Orderly ⟨false, 0, [], []⟩ 10 [.read 4, .execute, .close, .read 3, .execute, .read 20, .execute] := by
  simp [Orderly, astep]

example : (arun 10 ⟨false, 0, [], []⟩ [.read 4, .execute, .close, .read 3, .execute, .read 20, .execute]).ran
    = [(0, 4), (0, 3), (3, 7)] := by decide

-- C181
example : [LOp.close false, .close false, .collect false].foldl lstep (openIO false true)
    = ⟨false, false, true, false, 1, 1⟩ := by decide

example : [LOp.collect false].foldl lstep (openIO false false) = ⟨false, false, false, false, 1, 1⟩ := by decide

example : [LOp.close true, .close false].foldl lstep (openIO false true) = ⟨false, false, true, false, 1, 1⟩ := by decide

end Verif.ReuIO
