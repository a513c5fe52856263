/-
Properties C194 - C196: the stream reader of the asyncio extension.
-/
import Verif.Asyncio.Streams

namespace Verif.Asyncio.Streams

/-! ### C194: no byte is lost or changed -/

/-- The bytes of a result. -/
def Res.bytes : Res → List Nat
  | .data d => d
  | .incomplete d => d
  | .overrun => []
  | .tooLong d => d
  | .failed d => d

/-- What was fed to the stream before its end. -/
def fed : Bool → List Op → List Nat
  | _, [] => []
  | e, .feed d :: l => (if e then [] else d) ++ fed e l
  | _, .eof :: l => fed true l
  | e, _ :: l => fed e l

/-- The bytes which left the buffer, then those which a call keeps, then those in the buffer. -/
def R.all (s : R) : List Nat :=
  (s.out.map (fun x => x.2.bytes)).flatten ++ (match s.call with | some (_, _, acc) => acc | none => []) ++ s.buf

/-- No call keeps bytes. -/
def R.idle (s : R) : Prop := ∀ a off acc, s.call = some (a, off, acc) → acc = []

/-- Only `read` with a negative number keeps bytes while it waits. -/
def R.accOk (s : R) : Prop := ∀ a off acc, s.call = some (a, off, acc) → acc = [] ∨ a = .all

/-- The bytes which left the buffer. -/
def R.gone (s : R) : List Nat := (s.out.map (fun x => x.2.bytes)).flatten

theorem maybeResume_fields (s : R) :
    s.maybeResume.buf = s.buf ∧ s.maybeResume.call = s.call ∧ s.maybeResume.out = s.out ∧ s.maybeResume.eof = s.eof ∧
    s.maybeResume.exc = s.exc ∧ s.maybeResume.limit = s.limit ∧ s.maybeResume.wake = s.wake := by
  unfold R.maybeResume
  split <;> exact ⟨rfl, rfl, rfl, rfl, rfl, rfl, rfl⟩

theorem maybeResume_all (s : R) : s.maybeResume.all = s.all ∧ s.maybeResume.eof = s.eof := by
  obtain ⟨h1, h2, h3, h4, _⟩ := maybeResume_fields s
  exact ⟨by simp only [R.all, h1, h2, h3], h4⟩

theorem finish_all (s : R) (a : Ask) (r : Res) : (s.finish a r).all = s.gone ++ r.bytes ++ s.buf := by
  simp [R.all, R.finish, R.gone]

theorem wait_all (s : R) (a : Ask) (off : Nat) (acc : List Nat) : (s.wait a off acc).all = s.gone ++ acc ++ s.buf := by
  simp [R.all, R.wait, R.gone]

/-- A call which takes what it gives from the front of the buffer. -/
theorem cut_all (s : R) (a : Ask) (k : Nat) (r : Res) (hr : r.bytes = s.buf.take k) :
    (R.maybeResume ({ s with buf := s.buf.drop k }.finish a r)).all = s.gone ++ s.buf := by
  rw [(maybeResume_all _).1, finish_all, hr]
  show s.gone ++ s.buf.take k ++ s.buf.drop k = _
  rw [List.append_assoc, List.take_append_drop]

theorem goUntil_all (s : R) (a : Ask) (sep : List Nat) (off : Nat) :
    (s.goUntil a sep off).all = s.gone ++ s.buf ∧ (s.goUntil a sep off).eof = s.eof := by
  unfold R.goUntil
  split
  · split
    · split
      · exact ⟨cut_all s a _ _ rfl, (maybeResume_fields _).2.2.2.1⟩
      · exact ⟨by rw [finish_all]; simp [Res.bytes], rfl⟩
    · exact ⟨cut_all s a _ _ rfl, (maybeResume_fields _).2.2.2.1⟩
  · split
    · split
      · exact ⟨cut_all s a _ _ rfl, (maybeResume_fields _).2.2.2.1⟩
      · refine ⟨?_, (maybeResume_fields _).2.2.2.1⟩
        rw [(maybeResume_all _).1, finish_all]
        simp [Res.bytes, R.gone]
    · exact ⟨by rw [finish_all]; simp [Res.bytes], rfl⟩
  · refine ⟨?_, rfl⟩
    rw [finish_all]
    split <;> simp [Res.bytes, R.gone]
  · exact ⟨by rw [wait_all]; simp, rfl⟩

theorem goExactly_all (s : R) (n : Nat) :
    (s.goExactly n).all = s.gone ++ s.buf ∧ (s.goExactly n).eof = s.eof := by
  unfold R.goExactly
  split
  · split
    · refine ⟨?_, rfl⟩
      rw [finish_all]; simp [Res.bytes, R.gone]
    · exact ⟨by rw [wait_all]; simp, rfl⟩
  · exact ⟨cut_all s _ _ _ rfl, (maybeResume_fields _).2.2.2.1⟩

theorem takeRead_all (s : R) (n : Nat) :
    (s.takeRead n).all = s.gone ++ s.buf ∧ (s.takeRead n).eof = s.eof :=
  ⟨cut_all s _ _ _ rfl, (maybeResume_fields _).2.2.2.1⟩

theorem goAll_all (f : Nat) : ∀ (s : R) (acc : List Nat),
    (R.goAll f s acc).all = s.gone ++ acc ++ s.buf ∧ (R.goAll f s acc).eof = s.eof := by
  induction f with
  | zero => intro s acc; exact ⟨wait_all _ _ _ _, rfl⟩
  | succ f ih =>
    intro s acc
    unfold R.goAll
    split
    · exact ⟨finish_all _ _ _, rfl⟩
    · split
      · exact ⟨wait_all _ _ _ _, rfl⟩
      · split
        · exact ⟨finish_all _ _ _, rfl⟩
        · have := ih (R.maybeResume { s with buf := s.buf.drop s.limit }) (acc ++ s.buf.take s.limit)
          obtain ⟨h1, h2, h3, h4, _⟩ := maybeResume_fields { s with buf := s.buf.drop s.limit }
          refine ⟨this.1.trans ?_, this.2.trans h4⟩
          rw [h1, show (R.maybeResume { s with buf := s.buf.drop s.limit }).gone = s.gone by simp only [R.gone, h3]]
          simp only [List.append_assoc, List.take_append_drop]

theorem resumeAll_all (s : R) (acc : List Nat) :
    (s.resumeAll acc).all = s.gone ++ acc ++ s.buf ∧ (s.resumeAll acc).eof = s.eof := by
  unfold R.resumeAll
  split
  · exact ⟨finish_all _ _ _, rfl⟩
  · have := goAll_all (s.buf.length + 1) (R.maybeResume { s with buf := s.buf.drop s.limit }) (acc ++ s.buf.take s.limit)
    obtain ⟨h1, h2, h3, h4, _⟩ := maybeResume_fields { s with buf := s.buf.drop s.limit }
    refine ⟨this.1.trans ?_, this.2.trans h4⟩
    rw [h1, show (R.maybeResume { s with buf := s.buf.drop s.limit }).gone = s.gone by simp only [R.gone, h3]]
    simp only [List.append_assoc, List.take_append_drop]

theorem start_all (s : R) (a : Ask) : (s.start a).all = s.gone ++ s.buf ∧ (s.start a).eof = s.eof := by
  unfold R.start
  split
  · exact ⟨by rw [finish_all]; simp [Res.bytes], rfl⟩
  · split
    · split
      · exact ⟨by rw [finish_all]; simp [Res.bytes], rfl⟩
      · split
        · exact ⟨by rw [wait_all]; simp, rfl⟩
        · exact takeRead_all s _
    · have := goAll_all (s.buf.length + 1) s []
      simpa using this
    · split
      · exact ⟨by rw [finish_all]; simp [Res.bytes], rfl⟩
      · exact goExactly_all s _
    · exact goUntil_all s _ _ _
    · exact goUntil_all s _ _ _

/-- Only `read` with a negative number keeps bytes. -/
theorem accOk_of_none {s : R} (h : s.call = none) : s.accOk := by
  intro a o c hx; exact absurd (h.symm.trans hx) nofun

theorem finish_accOk (s : R) (a : Ask) (r : Res) : (s.finish a r).accOk := accOk_of_none rfl

theorem maybeResume_accOk {s : R} (h : s.accOk) : s.maybeResume.accOk := by
  intro a o c hx
  rw [(maybeResume_fields s).2.1] at hx
  exact h a o c hx

theorem wait_accOk (s : R) (a : Ask) (off : Nat) (acc : List Nat) (h : acc = [] ∨ a = .all) : (s.wait a off acc).accOk := by
  intro a' o c hx
  simp [R.wait] at hx
  obtain ⟨rfl, _, rfl⟩ := hx
  exact h

theorem goUntil_accOk (s : R) (a : Ask) (sep : List Nat) (off : Nat) : (s.goUntil a sep off).accOk := by
  unfold R.goUntil
  split
  · split
    · split
      · exact maybeResume_accOk (finish_accOk _ _ _)
      · exact finish_accOk _ _ _
    · exact maybeResume_accOk (finish_accOk _ _ _)
  · split
    · split
      · exact maybeResume_accOk (finish_accOk _ _ _)
      · exact maybeResume_accOk (finish_accOk _ _ _)
    · exact finish_accOk _ _ _
  · exact finish_accOk _ _ _
  · exact wait_accOk _ _ _ _ (.inl rfl)

theorem goExactly_accOk (s : R) (n : Nat) : (s.goExactly n).accOk := by
  unfold R.goExactly
  split
  · split
    · exact finish_accOk _ _ _
    · exact wait_accOk _ _ _ _ (.inl rfl)
  · exact maybeResume_accOk (finish_accOk _ _ _)

theorem goAll_accOk (f : Nat) : ∀ (s : R) (acc : List Nat), (R.goAll f s acc).accOk := by
  induction f with
  | zero => intro s acc; exact wait_accOk _ _ _ _ (.inr rfl)
  | succ f ih =>
    intro s acc
    unfold R.goAll
    split
    · exact finish_accOk _ _ _
    · split
      · exact wait_accOk _ _ _ _ (.inr rfl)
      · split
        · exact finish_accOk _ _ _
        · exact ih _ _

theorem resume_accOk {s : R} (h : s.accOk) : s.resume.accOk := by
  unfold R.resume
  split
  · exact finish_accOk _ _ _
  · split
    · exact maybeResume_accOk (finish_accOk _ _ _)
    · unfold R.resumeAll
      split
      · exact finish_accOk _ _ _
      · exact goAll_accOk _ _ _
    · exact goExactly_accOk _ _
    · exact goUntil_accOk _ _ _ _
    · exact goUntil_accOk _ _ _ _
  · exact h

theorem start_accOk (s : R) (a : Ask) : (s.start a).accOk := by
  unfold R.start
  split
  · exact finish_accOk _ _ _
  · split
    · split
      · exact finish_accOk _ _ _
      · split
        · exact wait_accOk _ _ _ _ (.inl rfl)
        · exact maybeResume_accOk (finish_accOk _ _ _)
    · exact goAll_accOk _ _ _
    · split
      · exact finish_accOk _ _ _
      · exact goExactly_accOk _ _
    · exact goUntil_accOk _ _ _ _
    · exact goUntil_accOk _ _ _ _

theorem wakeUp_fields (s : R) (f : Bool) :
    (s.wakeUp f).buf = s.buf ∧ (s.wakeUp f).call = s.call ∧ (s.wakeUp f).out = s.out ∧ (s.wakeUp f).eof = s.eof ∧
    (s.wakeUp f).limit = s.limit ∧ (s.wakeUp f).paused = s.paused ∧ (s.wakeUp f).exc = s.exc := by
  unfold R.wakeUp
  split <;> exact ⟨rfl, rfl, rfl, rfl, rfl, rfl, rfl⟩

theorem resume_all {s : R} (h : s.accOk) : s.resume.all = s.all ∧ s.resume.eof = s.eof := by
  unfold R.resume
  split
  · next a off acc hc hw =>
    exact ⟨by rw [finish_all]; simp [R.all, hc, R.gone, Res.bytes], rfl⟩
  · next a off acc hc hw =>
    have hall : s.all = s.gone ++ acc ++ s.buf := by simp [R.all, hc, R.gone]
    have hnil : a ≠ .all → s.all = s.gone ++ s.buf := by
      intro ha
      rcases h a off acc hc with e | e
      · subst e; simpa using hall
      · exact absurd e ha
    split
    · rw [hnil nofun]; exact takeRead_all s _
    · rw [hall]; exact resumeAll_all s acc
    · rw [hnil nofun]; exact goExactly_all s _
    · rw [hnil nofun]; exact goUntil_all s _ _ _
    · rw [hnil nofun]; exact goUntil_all s _ _ _
  · exact ⟨rfl, rfl⟩

theorem feed_all (s : R) (d : List Nat) :
    (step s (.feed d)).all = s.all ++ (if s.eof then [] else d) ∧ (step s (.feed d)).eof = s.eof ∧
    (step s (.feed d)).call = s.call := by
  simp only [step]
  split
  · next h =>
    refine ⟨?_, rfl, rfl⟩
    cases he : s.eof with
    | true => simp
    | false =>
      rw [he] at h
      have : d = [] := by simpa using h
      subst this; simp
  · next h =>
    have he : s.eof = false := by
      cases he : s.eof with
      | true => rw [he] at h; exact absurd rfl h
      | false => rfl
    obtain ⟨h1, h2, h3, h4, _⟩ := wakeUp_fields { s with buf := s.buf ++ d } false
    have e : (R.wakeUp { s with buf := s.buf ++ d } false).all = s.all ++ d := by
      simp only [R.all, h1, h2, h3, List.append_assoc]
    have e2 : s.all ++ (if s.eof = true then [] else d) = s.all ++ d := by rw [if_neg (by rw [he]; exact nofun)]
    split
    · exact ⟨e.trans e2.symm, h4, h2⟩
    · exact ⟨e.trans e2.symm, h4, h2⟩

/-- What left the buffer, in order, what a call keeps and what is in the buffer is what was
fed to the stream. -/
theorem C194_conserved (limit : Nat) (l : List Op) : (run (R.new limit) l).all = fed false l := by
  have key : ∀ (l : List Op) (s : R), s.accOk → (run s l).all = s.all ++ fed s.eof l := by
    intro l
    induction l with
    | nil => intro s _; simp [run, fed]
    | cons o l ih =>
      intro s h
      have e : run s (o :: l) = run (step s o) l := rfl
      rw [e]
      cases o with
      | ask a =>
        simp only [step, fed]
        split
        · exact ih s h
        · next hc =>
          have hc : s.call = none := by simpa using hc
          rw [ih _ (start_accOk s a), (start_all s a).1, (start_all s a).2]
          simp [R.all, hc, R.gone]
      | resume =>
        rw [show step s .resume = s.resume from rfl, ih _ (resume_accOk h), (resume_all h).1, (resume_all h).2]
        rfl
      | feed d =>
        obtain ⟨h1, h2, h3⟩ := feed_all s d
        have hk : (step s (.feed d)).accOk := by intro a o c hx; rw [h3] at hx; exact h a o c hx
        rw [ih _ hk, h1, h2]
        simp only [fed, List.append_assoc]
      | eof =>
        obtain ⟨h1, h2, h3, h4, _⟩ := wakeUp_fields { s with eof := true } false
        have hk : (step s .eof).accOk := by intro a o c hx; exact h a o c (h2.symm.trans hx)
        rw [ih _ hk]
        rw [show step s .eof = R.wakeUp { s with eof := true } false from rfl, h4]
        simp only [R.all, h1, h2, h3, fed]
      | exc =>
        obtain ⟨h1, h2, h3, h4, _⟩ := wakeUp_fields { s with exc := true } true
        have hk : (step s .exc).accOk := by intro a o c hx; exact h a o c (h2.symm.trans hx)
        rw [ih _ hk]
        rw [show step s .exc = R.wakeUp { s with exc := true } true from rfl, h4]
        simp only [R.all, h1, h2, h3, fed]
  have := key l (R.new limit) (accOk_of_none rfl)
  simpa [R.all, R.new] using this

/-! ### C195: a call gives what it was asked for -/

/-- The separator begins at that place. -/
def at_ (sep d : List Nat) (i : Nat) : Prop := sep <+: d.drop i

/-- What is right for an answer. -/
def right (limit : Nat) : Ask → Res → Prop
  | .read n, .data d => d.length ≤ n
  | .all, .data _ => True
  | .exactly n, .data d => d.length = n
  | .exactly n, .incomplete d => d.length < n
  | .until sep, .data d => ∃ p, d = p ++ sep ∧ p.length ≤ limit ∧ ∀ i < p.length, ¬ at_ sep d i
  | .until sep, .incomplete d => ∀ i, ¬ at_ sep d i
  | .until _, .overrun => True
  | .line, .data d => (∃ p, d = p ++ [10] ∧ p.length ≤ limit ∧ ∀ i < p.length, ¬ at_ [10] d i) ∨ ∀ i, ¬ at_ [10] d i
  | .line, .tooLong d => limit < d.length
  | _, .failed _ => True
  | _, _ => False

/-- The separators are not empty. -/
def Ask.ok : Ask → Prop
  | .until sep => sep ≠ []
  | _ => True

/-- The separator of a call. -/
def Ask.sep : Ask → Option (List Nat)
  | .until sep => some sep
  | .line => some [10]
  | _ => none

/-- The answers are right, and the offset of a call which waits has no separator before it. -/
structure Good (s : R) : Prop where
  right : ∀ x ∈ s.out, right s.limit x.1 x.2
  callOk : ∀ a off acc, s.call = some (a, off, acc) → a.ok
  off : ∀ a off acc sep, s.call = some (a, off, acc) → a.sep = some sep →
    (off = 0 ∨ off + sep.length ≤ s.buf.length + 1) ∧ ∀ i < off, ¬ at_ sep s.buf i

theorem findFrom_some {sep buf : List Nat} {off i : Nat} (h : findFrom sep buf off = some i) :
    off ≤ i ∧ at_ sep buf i ∧ ∀ j, off ≤ j → j < i → ¬ at_ sep buf j := by
  unfold findFrom at h
  rw [List.find?_range_eq_some] at h
  simp only [Bool.and_eq_true, decide_eq_true_eq, List.isPrefixOf_iff_prefix] at h
  refine ⟨h.1.1, h.1.2, ?_⟩
  intro j h1 h2 h3
  have := h.2.2 j h2
  simp only [Bool.not_eq_true', Bool.and_eq_false_iff, decide_eq_false_iff_not] at this
  rcases this with hx | hx
  · exact hx h1
  · exact absurd ((List.isPrefixOf_iff_prefix).2 h3) (by rw [hx]; exact nofun)

theorem findFrom_none {sep buf : List Nat} {off : Nat} (hs : sep ≠ []) (h : findFrom sep buf off = none) (j : Nat)
    (hj : off ≤ j) : ¬ at_ sep buf j := by
  unfold findFrom at h
  rw [List.find?_eq_none] at h
  intro hx
  by_cases hl : j < buf.length + 1
  · have := h j (List.mem_range.2 hl)
    simp only [Bool.and_eq_true, decide_eq_true_eq, not_and] at this
    exact this hj ((List.isPrefixOf_iff_prefix).2 hx)
  · unfold at_ at hx
    rw [List.drop_eq_nil_of_le (by omega)] at hx
    exact hs (List.prefix_nil.1 hx)

theorem at_short {sep d : List Nat} {i : Nat} (hs : sep ≠ []) (h : at_ sep d i) : i + sep.length ≤ d.length := by
  have h1 := h.length_le
  have h2 : 0 < sep.length := List.length_pos_iff.2 hs
  rw [List.length_drop] at h1
  omega

theorem at_take {sep d : List Nat} {i k : Nat} (h : at_ sep (d.take k) i) : at_ sep d i := by
  unfold at_ at h ⊢
  rw [List.drop_take] at h
  exact h.trans (List.take_prefix _ _)

theorem at_append {sep d e : List Nat} {i : Nat} (hi : i + sep.length ≤ d.length) (h : at_ sep (d ++ e) i) : at_ sep d i := by
  unfold at_ at h ⊢
  rw [List.drop_append_of_le_length (by omega)] at h
  obtain ⟨t, ht⟩ := h
  have := congrArg (List.take sep.length) ht
  rw [List.take_left' rfl, List.take_append_of_le_length (by rw [List.length_drop]; omega)] at this
  rw [this]
  exact List.take_prefix _ _

/-- What is given up to a separator which was found first. -/
theorem found_right {sep buf : List Nat} {i : Nat} (ha : at_ sep buf i) (hb : ∀ j < i, ¬ at_ sep buf j) (hs : sep ≠ []) :
    buf.take (i + sep.length) = buf.take i ++ sep ∧ (buf.take i).length = i ∧
      ∀ j < (buf.take i).length, ¬ at_ sep (buf.take (i + sep.length)) j := by
  have hl := at_short hs ha
  have hi : (buf.take i).length = i := by rw [List.length_take]; omega
  refine ⟨?_, hi, ?_⟩
  · rw [List.take_add]
    congr 1
    obtain ⟨t, ht⟩ := ha
    rw [← ht]
    exact List.take_left' rfl
  · intro j hj hx
    rw [hi] at hj
    exact hb j hj (at_take hx)

theorem good_of (s : R) (h1 : ∀ x ∈ s.out, right s.limit x.1 x.2) (h2 : s.call = none) : Good s :=
  ⟨h1, fun _ _ _ hx => absurd (h2.symm.trans hx) nofun, fun _ _ _ _ hx => absurd (h2.symm.trans hx) nofun⟩

theorem maybeResume_good {s : R} (h : Good s) : Good s.maybeResume := by
  obtain ⟨h1, h2, h3, h4, h5, h6, h7⟩ := maybeResume_fields s
  refine ⟨?_, ?_, ?_⟩
  · rw [h3, h6]; exact h.right
  · rw [h2]; exact h.callOk
  · rw [h2, h1]; exact h.off

theorem finish_good {s : R} (hr : ∀ x ∈ s.out, right s.limit x.1 x.2) (a : Ask) (r : Res) (h : right s.limit a r) :
    Good (s.finish a r) := by
  refine good_of _ ?_ rfl
  intro x hx
  rcases List.mem_append.1 hx with hx | hx
  · exact hr x hx
  · simp at hx; subst hx; exact h

theorem wait_good {s : R} (hr : ∀ x ∈ s.out, right s.limit x.1 x.2) (a : Ask) (off : Nat) (acc : List Nat) (ha : a.ok)
    (ho : ∀ sep, a.sep = some sep → (off = 0 ∨ off + sep.length ≤ s.buf.length + 1) ∧ ∀ i < off, ¬ at_ sep s.buf i) :
    Good (s.wait a off acc) := by
  refine ⟨hr, ?_, ?_⟩
  · intro a' o' c' hx
    simp [R.wait] at hx
    rw [← hx.1]; exact ha
  · intro a' o' c' sep hx hs
    simp [R.wait] at hx
    obtain ⟨rfl, rfl, _⟩ := hx
    exact ho sep hs

theorem goUntil_good {s : R} (hr : ∀ x ∈ s.out, right s.limit x.1 x.2) (a : Ask) (sep : List Nat) (off : Nat)
    (hs : a.sep = some sep) (ha : a.ok)
    (ho : (off = 0 ∨ off + sep.length ≤ s.buf.length + 1) ∧ ∀ i < off, ¬ at_ sep s.buf i) :
    Good (s.goUntil a sep off) := by
  have hne : sep ≠ [] := by
    cases a with
    | «until» q => have : q = sep := Option.some.inj hs; subst this; exact ha
    | line => have : [10] = sep := Option.some.inj hs; subst this; simp
    | _ => exact absurd hs nofun
  have hpos : 0 < sep.length := List.length_pos_iff.2 hne
  have hcase : a = .until sep ∨ (a = .line ∧ sep = [10]) := by
    cases a with
    | «until» q => have : q = sep := Option.some.inj hs; subst this; exact .inl rfl
    | line => exact .inr ⟨rfl, (Option.some.inj hs).symm⟩
    | _ => exact absurd hs nofun
  -- before the offset there is nothing, so what is not found from it on is nowhere
  have hnone : findFrom sep s.buf off = none → ∀ i, ¬ at_ sep s.buf i := by
    intro h i
    by_cases hi : i < off
    · exact ho.2 i hi
    · exact findFrom_none hne h i (by omega)
  have hshort : ¬ (s.buf.length - off ≥ sep.length) → ∀ i, ¬ at_ sep s.buf i := by
    intro h i hx
    have h1 := at_short hne hx
    by_cases hi : i < off
    · exact ho.2 i hi hx
    · omega
  have hended : (∀ i, ¬ at_ sep s.buf i) →
      Good ({ s with buf := [] }.finish a (if a = Ask.line then .data s.buf else .incomplete s.buf)) := by
    intro h
    refine finish_good (s := { s with buf := [] }) hr a _ ?_
    rcases hcase with e | ⟨e, e2⟩
    · subst e; simp only [if_neg (show ¬ (Ask.until sep = Ask.line) from nofun)]; exact h
    · subst e e2; simp only [if_true]; exact .inr h
  have hover : a ≠ .line → Good (s.finish a .overrun) := by
    intro hn
    refine finish_good hr a _ ?_
    rcases hcase with e | ⟨e, _⟩
    · subst e; trivial
    · exact absurd e hn
  unfold R.goUntil
  split
  · next i hf =>
    unfold R.search at hf
    split at hf
    · split at hf
      · next j hj =>
        have : j = i := Search.found.inj hf
        subst this
        obtain ⟨g1, g2, g3⟩ := findFrom_some hj
        have hbefore : ∀ k < j, ¬ at_ sep s.buf k := by
          intro k hk
          by_cases h : k < off
          · exact ho.2 k h
          · exact g3 k (by omega) hk
        obtain ⟨f1, f2, f3⟩ := found_right g2 hbefore hne
        have hl := at_short hne g2
        split
        · next hlim =>
          split
          · next hal =>
            refine maybeResume_good (finish_good (s := { s with buf := s.buf.drop (j + sep.length) }) hr a _ ?_)
            subst hal
            show s.limit < (s.buf.take (j + sep.length)).length
            rw [List.length_take]; omega
          · next hal => exact hover hal
        · next hlim =>
          refine maybeResume_good (finish_good (s := { s with buf := s.buf.drop (j + sep.length) }) hr a _ ?_)
          have hp : ∃ p, s.buf.take (j + sep.length) = p ++ sep ∧ p.length ≤ s.limit ∧
              ∀ k < p.length, ¬ at_ sep (s.buf.take (j + sep.length)) k :=
            ⟨s.buf.take j, f1, by rw [f2]; omega, f3⟩
          rcases hcase with e | ⟨e, e2⟩
          · subst e; exact hp
          · subst e e2; exact .inl hp
      · split at hf
        · exact absurd hf nofun
        · split at hf <;> exact absurd hf nofun
    · split at hf <;> exact absurd hf nofun
  · next o hf =>
    unfold R.search at hf
    split at hf
    · split at hf
      · exact absurd hf nofun
      · split at hf
        · next hj hlim =>
          have : s.buf.length + 1 - sep.length = o := Search.tooFar.inj hf
          subst this
          split
          · next hal =>
            have hsl : sep = [10] := by
              rcases hcase with e | ⟨_, e⟩
              · rw [hal] at e; exact absurd e nofun
              · exact e
            split
            · next hp =>
              exact absurd ((List.isPrefixOf_iff_prefix).1 hp) (hnone hj _)
            · refine maybeResume_good (finish_good (s := { s with buf := [] }) hr a _ ?_)
              subst hal hsl
              show s.limit < s.buf.length
              simpa using hlim
          · next hal => exact hover hal
        · split at hf <;> exact absurd hf nofun
    · split at hf <;> exact absurd hf nofun
  · next hf =>
    unfold R.search at hf
    split at hf
    · split at hf
      · exact absurd hf nofun
      · next hj => exact hended (hnone hj)
    · next hx => exact hended (hshort hx)
  · next o hf =>
    unfold R.search at hf
    split at hf
    · next hge =>
      split at hf
      · exact absurd hf nofun
      · next hj =>
        split at hf
        · exact absurd hf nofun
        · split at hf
          · exact absurd hf nofun
          · have : s.buf.length + 1 - sep.length = o := Search.more.inj hf
            subst this
            refine wait_good hr a _ [] ha ?_
            intro q hq
            have : sep = q := Option.some.inj (hs.symm.trans hq)
            subst this
            exact ⟨.inr (by omega), fun i _ => hnone hj i⟩
    · split at hf
      · exact absurd hf nofun
      · have : off = o := Search.more.inj hf
        subst this
        refine wait_good hr a _ [] ha ?_
        intro q hq
        have : sep = q := Option.some.inj (hs.symm.trans hq)
        subst this
        exact ho

theorem goExactly_good {s : R} (hr : ∀ x ∈ s.out, right s.limit x.1 x.2) (n : Nat) : Good (s.goExactly n) := by
  unfold R.goExactly
  split
  · next h =>
    split
    · exact finish_good (s := { s with buf := [] }) hr _ _ h
    · exact wait_good hr _ _ _ trivial nofun
  · next h =>
    refine maybeResume_good (finish_good (s := { s with buf := s.buf.drop n }) hr _ _ ?_)
    show (s.buf.take n).length = n
    rw [List.length_take]; omega

theorem takeRead_good {s : R} (hr : ∀ x ∈ s.out, right s.limit x.1 x.2) (n : Nat) : Good (s.takeRead n) := by
  refine maybeResume_good (finish_good (s := { s with buf := s.buf.drop n }) hr _ _ ?_)
  show (s.buf.take n).length ≤ n
  rw [List.length_take]; omega

theorem goAll_good (f : Nat) : ∀ (s : R) (acc : List Nat), (∀ x ∈ s.out, right s.limit x.1 x.2) → Good (R.goAll f s acc) := by
  induction f with
  | zero => intro s acc hr; exact wait_good hr _ _ _ trivial nofun
  | succ f ih =>
    intro s acc hr
    unfold R.goAll
    split
    · exact finish_good hr _ _ trivial
    · split
      · exact wait_good hr _ _ _ trivial nofun
      · split
        · exact finish_good hr _ _ trivial
        · refine ih _ _ ?_
          obtain ⟨h1, h2, h3, h4, h5, h6, h7⟩ := maybeResume_fields { s with buf := s.buf.drop s.limit }
          rw [h3, h6]; exact hr

theorem step_good {s : R} (o : Op) (h : Good s) (ho : ∀ a, o = .ask a → a.ok) : Good (step s o) := by
  cases o with
  | ask a =>
    simp only [step]
    split
    · exact h
    · unfold R.start
      split
      · refine finish_good h.right _ _ ?_
        cases a <;> trivial
      · split
        · split
          · exact finish_good h.right _ _ (Nat.zero_le _)
          · split
            · exact wait_good h.right _ _ _ trivial nofun
            · exact takeRead_good h.right _
        · exact goAll_good _ _ _ h.right
        · split
          · next hn => exact finish_good h.right _ _ hn.symm
          · exact goExactly_good h.right _
        · exact goUntil_good h.right _ _ _ rfl (ho _ rfl) ⟨.inl rfl, nofun⟩
        · exact goUntil_good h.right _ _ _ rfl (ho _ rfl) ⟨.inl rfl, nofun⟩
  | resume =>
    simp only [step]
    unfold R.resume
    split
    · next a _ _ hc hw =>
      refine finish_good h.right _ _ ?_
      cases a <;> trivial
    · next a off acc hc hw =>
      split
      · exact takeRead_good h.right _
      · unfold R.resumeAll
        split
        · exact finish_good h.right _ _ trivial
        · refine goAll_good _ _ _ ?_
          obtain ⟨h1, h2, h3, h4, h5, h6, h7⟩ := maybeResume_fields { s with buf := s.buf.drop s.limit }
          rw [h3, h6]; exact h.right
      · exact goExactly_good h.right _
      · exact goUntil_good h.right _ _ _ rfl (h.callOk _ _ _ hc) (h.off _ _ _ _ hc rfl)
      · exact goUntil_good h.right _ _ _ rfl (h.callOk _ _ _ hc) (h.off _ _ _ _ hc rfl)
    · exact h
  | feed d =>
    simp only [step]
    split
    · exact h
    · obtain ⟨h1, h2, h3, h4, h5, h6, h7⟩ := wakeUp_fields { s with buf := s.buf ++ d } false
      have hg : Good (R.wakeUp { s with buf := s.buf ++ d } false) := by
        refine ⟨?_, ?_, ?_⟩
        · rw [h3, h5]; exact h.right
        · rw [h2]; exact h.callOk
        · rw [h2, h1]
          intro a off acc sep hc hs
          obtain ⟨g1, g2⟩ := h.off a off acc sep hc hs
          refine ⟨?_, ?_⟩
          · rcases g1 with g1 | g1
            · exact .inl g1
            · refine .inr ?_
              simp only [List.length_append]; omega
          · intro i hi hx
            have : i + sep.length ≤ s.buf.length := by
              rcases g1 with g1 | g1 <;> omega
            exact g2 i hi (at_append this hx)
      split
      · exact ⟨hg.right, hg.callOk, hg.off⟩
      · exact hg
  | eof =>
    obtain ⟨h1, h2, h3, h4, h5, h6, h7⟩ := wakeUp_fields { s with eof := true } false
    exact ⟨by show ∀ x ∈ (R.wakeUp _ _).out, _; rw [h3]; show ∀ x ∈ s.out, right (R.wakeUp _ _).limit _ _; rw [h5]; exact h.right,
      by show ∀ _ _ _, (R.wakeUp _ _).call = _ → _; rw [h2]; exact h.callOk,
      by show ∀ _ _ _ _, (R.wakeUp _ _).call = _ → _ → (_ ∨ _ ≤ (R.wakeUp _ _).buf.length + 1) ∧ ∀ _ < _, ¬ at_ _ (R.wakeUp _ _).buf _
         rw [h2, h1]; exact h.off⟩
  | exc =>
    obtain ⟨h1, h2, h3, h4, h5, h6, h7⟩ := wakeUp_fields { s with exc := true } true
    exact ⟨by show ∀ x ∈ (R.wakeUp _ _).out, _; rw [h3]; show ∀ x ∈ s.out, right (R.wakeUp _ _).limit _ _; rw [h5]; exact h.right,
      by show ∀ _ _ _, (R.wakeUp _ _).call = _ → _; rw [h2]; exact h.callOk,
      by show ∀ _ _ _ _, (R.wakeUp _ _).call = _ → _ → (_ ∨ _ ≤ (R.wakeUp _ _).buf.length + 1) ∧ ∀ _ < _, ¬ at_ _ (R.wakeUp _ _).buf _
         rw [h2, h1]; exact h.off⟩

theorem run_limit : ∀ (l : List Op) (s : R), (run s l).limit = s.limit := by
  have fin : ∀ (s : R) a r, (s.finish a r).limit = s.limit := fun _ _ _ => rfl
  have wt : ∀ (s : R) a o c, (s.wait a o c).limit = s.limit := fun _ _ _ _ => rfl
  have mr : ∀ s : R, s.maybeResume.limit = s.limit := fun s => (maybeResume_fields s).2.2.2.2.2.1
  have gu : ∀ (s : R) a sep off, (s.goUntil a sep off).limit = s.limit := by
    intro s a sep off
    unfold R.goUntil
    split
    · split
      · split
        · rw [mr]; rfl
        · rfl
      · rw [mr]; rfl
    · split
      · split <;> (rw [mr]; rfl)
      · rfl
    · rfl
    · rfl
  have ge : ∀ (s : R) n, (s.goExactly n).limit = s.limit := by
    intro s n
    unfold R.goExactly
    split
    · split <;> rfl
    · rw [mr]; rfl
  have ga : ∀ (f : Nat) (s : R) acc, (R.goAll f s acc).limit = s.limit := by
    intro f
    induction f with
    | zero => intro s acc; rfl
    | succ f ih =>
      intro s acc
      unfold R.goAll
      split
      · rfl
      · split
        · rfl
        · split
          · rfl
          · rw [ih, mr]
  have tr : ∀ (s : R) n, (s.takeRead n).limit = s.limit := by
    intro s n; unfold R.takeRead; rw [mr]; rfl
  intro l
  induction l with
  | nil => intro s; rfl
  | cons o l ih =>
    intro s
    have e : run s (o :: l) = run (step s o) l := rfl
    rw [e, ih]
    cases o with
    | ask a =>
      simp only [step]
      split
      · rfl
      · unfold R.start
        split
        · rfl
        · split
          · split
            · rfl
            · split
              · rfl
              · exact tr _ _
          · exact ga _ _ _
          · split
            · rfl
            · exact ge _ _
          · exact gu _ _ _ _
          · exact gu _ _ _ _
    | resume =>
      simp only [step]
      unfold R.resume
      split
      · rfl
      · split
        · exact tr _ _
        · unfold R.resumeAll
          split
          · rfl
          · rw [ga, mr]
        · exact ge _ _
        · exact gu _ _ _ _
        · exact gu _ _ _ _
      · rfl
    | feed d =>
      simp only [step]
      split
      · rfl
      · have := (wakeUp_fields { s with buf := s.buf ++ d } false).2.2.2.2.1
        split <;> exact this
    | eof => exact (wakeUp_fields { s with eof := true } false).2.2.2.2.1
    | exc => exact (wakeUp_fields { s with exc := true } true).2.2.2.2.1

/-- Every answer is right for what was asked: the length, the first separator, the end. -/
theorem C195_right (limit : Nat) (l : List Op) (hl : ∀ a, .ask a ∈ l → a.ok) (x : Ask × Res)
    (hx : x ∈ (run (R.new limit) l).out) : right limit x.1 x.2 := by
  have key : ∀ (l : List Op) (s : R), (∀ a, .ask a ∈ l → a.ok) → Good s → Good (run s l) := by
    intro l
    induction l with
    | nil => intro s _ h; exact h
    | cons o l ih =>
      intro s hl h
      exact ih _ (fun a ha => hl a (by simp [ha])) (step_good o h (fun a e => hl a (by simp [e])))
  have h := (key l (R.new limit) hl (good_of _ nofun rfl)).right x hx
  rw [run_limit] at h
  exact h

/-- Answers which say that the end came. -/
def saysEnd : Ask → Res → Bool
  | .read n, .data d => n != 0 && d.isEmpty
  | .all, .data _ => true
  | .exactly _, .incomplete _ => true
  | .until _, .incomplete _ => true
  | .line, .data d => d.getLast? != some 10
  | _, _ => false

/-- Such answers are given only after the end, and a call is woken only for data or the end. -/
structure Ends (s : R) : Prop where
  out : ∀ x ∈ s.out, saysEnd x.1 x.2 = true → s.eof = true
  woken : s.call.isSome = true → s.wake = some false → s.buf ≠ [] ∨ s.eof = true
  pos : ∀ n off acc, s.call = some (.read n, off, acc) → n ≠ 0

theorem maybeResume_ends {s : R} (h : Ends s) : Ends s.maybeResume := by
  obtain ⟨h1, h2, h3, h4, h5, h6, h7⟩ := maybeResume_fields s
  exact ⟨by rw [h3, h4]; exact h.out, by rw [h2, h7, h1, h4]; exact h.woken, by rw [h2]; exact h.pos⟩

theorem finish_ends {s : R} (ho : ∀ x ∈ s.out, saysEnd x.1 x.2 = true → s.eof = true) (a : Ask) (r : Res)
    (h : saysEnd a r = true → s.eof = true) : Ends (s.finish a r) := by
  refine ⟨?_, nofun, nofun⟩
  intro x hx
  rcases List.mem_append.1 hx with hx | hx
  · exact ho x hx
  · simp at hx; subst hx; exact h

theorem wait_ends {s : R} (ho : ∀ x ∈ s.out, saysEnd x.1 x.2 = true → s.eof = true) (a : Ask) (off : Nat) (acc : List Nat)
    (hp : ∀ n, a = .read n → n ≠ 0) : Ends (s.wait a off acc) := by
  refine ⟨ho, nofun, ?_⟩
  intro n o c hx
  simp [R.wait] at hx
  exact hp n hx.1

theorem cut_ends {s : R} (ho : ∀ x ∈ s.out, saysEnd x.1 x.2 = true → s.eof = true) (b : List Nat) (a : Ask) (r : Res)
    (h : saysEnd a r = true → s.eof = true) : Ends (R.maybeResume ({ s with buf := b }.finish a r)) :=
  maybeResume_ends (finish_ends (s := { s with buf := b }) ho a r h)

theorem goUntil_ends {s : R} (ho : ∀ x ∈ s.out, saysEnd x.1 x.2 = true → s.eof = true) (a : Ask) (sep : List Nat) (off : Nat)
    (hs : a = .until sep ∨ (a = .line ∧ sep = [10])) : Ends (s.goUntil a sep off) := by
  have hend : s.search sep off = .ended → s.eof = true := by
    intro hx
    unfold R.search at hx
    split at hx
    · split at hx
      · exact absurd hx nofun
      · split at hx
        · exact absurd hx nofun
        · split at hx
          · next he => exact he
          · exact absurd hx nofun
    · split at hx
      · next he => exact he
      · exact absurd hx nofun
  have hov : saysEnd a .overrun = false := by rcases hs with rfl | ⟨rfl, _⟩ <;> rfl
  have htl : ∀ d, saysEnd a (.tooLong d) = false := by intro d; rcases hs with rfl | ⟨rfl, _⟩ <;> rfl
  unfold R.goUntil
  split
  · next i hf =>
    split
    · split
      · exact cut_ends ho _ _ _ (fun h => by rw [htl] at h; exact absurd h nofun)
      · exact finish_ends ho _ _ (fun h => by rw [hov] at h; exact absurd h nofun)
    · refine cut_ends ho _ _ _ (fun h => ?_)
      rcases hs with rfl | ⟨rfl, rfl⟩
      · exact absurd h nofun
      · exfalso
        have hat : at_ [10] s.buf i := by
          unfold R.search at hf
          split at hf
          · split at hf
            · next j hj =>
              have : j = i := Search.found.inj hf
              subst this
              exact (findFrom_some hj).2.1
            · split at hf
              · exact absurd hf nofun
              · split at hf <;> exact absurd hf nofun
          · split at hf <;> exact absurd hf nofun
        have e : s.buf.take (i + 1) = s.buf.take i ++ [10] := by
          rw [List.take_add]
          congr 1
          obtain ⟨t, ht⟩ := hat
          rw [← ht]; rfl
        simp only [saysEnd, List.length_singleton, e] at h
        simp at h
  · split
    · split
      · exact cut_ends ho _ _ _ (fun h => by rw [htl] at h; exact absurd h nofun)
      · exact cut_ends ho _ _ _ (fun h => by rw [htl] at h; exact absurd h nofun)
    · exact finish_ends ho _ _ (fun h => by rw [hov] at h; exact absurd h nofun)
  · next hf => exact finish_ends (s := { s with buf := [] }) ho _ _ (fun _ => hend hf)
  · refine wait_ends ho _ _ _ ?_
    intro n e
    rcases hs with h | ⟨h, _⟩ <;> rw [h] at e <;> exact absurd e nofun

theorem goExactly_ends {s : R} (ho : ∀ x ∈ s.out, saysEnd x.1 x.2 = true → s.eof = true) (n : Nat) : Ends (s.goExactly n) := by
  unfold R.goExactly
  split
  · split
    · next he => exact finish_ends (s := { s with buf := [] }) ho _ _ (fun _ => he)
    · exact wait_ends ho _ _ _ nofun
  · exact cut_ends ho _ _ _ nofun

theorem takeRead_ends {s : R} (ho : ∀ x ∈ s.out, saysEnd x.1 x.2 = true → s.eof = true) (n : Nat) (hb : s.buf ≠ [] ∨ s.eof = true) :
    Ends (s.takeRead n) := by
  refine cut_ends ho _ _ _ (fun h => ?_)
  rcases hb with hb | hb
  · simp only [saysEnd, Bool.and_eq_true, bne_iff_ne, List.isEmpty_iff, List.take_eq_nil_iff] at h
    rcases h.2 with hx | hx
    · exact absurd hx h.1
    · exact absurd hx hb
  · exact hb

theorem goAll_ends (f : Nat) : ∀ (s : R) (acc : List Nat), 0 < s.limit →
    (∀ x ∈ s.out, saysEnd x.1 x.2 = true → s.eof = true) → Ends (R.goAll f s acc) := by
  induction f with
  | zero => intro s acc _ ho; exact wait_ends ho _ _ _ nofun
  | succ f ih =>
    intro s acc h0 ho
    unfold R.goAll
    split
    · exact finish_ends ho _ _ nofun
    · split
      · exact wait_ends ho _ _ _ nofun
      · next he =>
        split
        · next ht =>
          refine finish_ends ho _ _ (fun _ => ?_)
          rw [List.isEmpty_iff, List.take_eq_nil_iff] at ht
          have hb : s.buf = [] := ht.resolve_left (by omega)
          rw [hb] at he
          simpa using he
        · obtain ⟨h1, h2, h3, h4, h5, h6, h7⟩ := maybeResume_fields { s with buf := s.buf.drop s.limit }
          refine ih _ _ (by rw [h6]; exact h0) ?_
          rw [h3, h4]; exact ho

theorem step_ends {s : R} (o : Op) (h0 : 0 < s.limit) (h : Ends s) : Ends (step s o) := by
  cases o with
  | ask a =>
    simp only [step]
    split
    · exact h
    · unfold R.start
      split
      · refine finish_ends h.out _ _ ?_
        intro hx
        cases a <;> exact absurd hx nofun
      · split
        · next n =>
          split
          · next hn => exact finish_ends h.out _ _ (fun hx => by subst hn; exact absurd hx (by decide))
          · next hn =>
            split
            · refine wait_ends h.out _ _ _ ?_
              intro k e
              have : n = k := by injection e
              subst this; exact hn
            · next he =>
              refine takeRead_ends h.out _ ?_
              simp only [Bool.and_eq_true, List.isEmpty_iff, not_and, Bool.not_eq_true', Bool.not_eq_false] at he
              by_cases hb : s.buf = []
              · exact .inr (he hb)
              · exact .inl hb
        · exact goAll_ends _ _ _ h0 h.out
        · split
          · exact finish_ends h.out _ _ nofun
          · exact goExactly_ends h.out _
        · exact goUntil_ends h.out _ _ _ (.inl rfl)
        · exact goUntil_ends h.out _ _ _ (.inr ⟨rfl, rfl⟩)
  | resume =>
    simp only [step]
    unfold R.resume
    split
    · next a _ _ hc hw =>
      refine finish_ends h.out _ _ ?_
      intro hx
      cases a <;> exact absurd hx nofun
    · next a off acc hc hw =>
      have hwk := h.woken (by rw [hc]; rfl) hw
      split
      · exact takeRead_ends h.out _ hwk
      · unfold R.resumeAll
        split
        · next ht =>
          refine finish_ends h.out _ _ (fun _ => ?_)
          rw [List.isEmpty_iff, List.take_eq_nil_iff] at ht
          have hb : s.buf = [] := ht.resolve_left (by omega)
          exact hwk.resolve_left (fun hx => hx hb)
        · obtain ⟨h1, h2, h3, h4, h5, h6, h7⟩ := maybeResume_fields { s with buf := s.buf.drop s.limit }
          refine goAll_ends _ _ _ (by rw [h6]; exact h0) ?_
          rw [h3, h4]; exact h.out
      · exact goExactly_ends h.out _
      · exact goUntil_ends h.out _ _ _ (.inl rfl)
      · exact goUntil_ends h.out _ _ _ (.inr ⟨rfl, rfl⟩)
    · exact h
  | feed d =>
    simp only [step]
    split
    · exact h
    · next hd =>
      obtain ⟨h1, h2, h3, h4, h5, h6, h7⟩ := wakeUp_fields { s with buf := s.buf ++ d } false
      have hg : Ends (R.wakeUp { s with buf := s.buf ++ d } false) := by
        refine ⟨by rw [h3, h4]; exact h.out, ?_, by rw [h2]; exact h.pos⟩
        intro _ _
        rw [h1]
        refine .inl (fun e => hd ?_)
        simp only [List.append_eq_nil_iff] at e
        rw [e.2]; simp
      split
      · exact ⟨hg.out, hg.woken, hg.pos⟩
      · exact hg
  | eof =>
    obtain ⟨h1, h2, h3, h4, h5, h6, h7⟩ := wakeUp_fields { s with eof := true } false
    exact ⟨fun _ _ _ => h4, fun _ _ => .inr h4,
      by show ∀ _ _ _, (R.wakeUp _ _).call = _ → _; rw [h2]; exact h.pos⟩
  | exc =>
    obtain ⟨h1, h2, h3, h4, h5, h6, h7⟩ := wakeUp_fields { s with exc := true } true
    refine ⟨?_, ?_, by show ∀ _ _ _, (R.wakeUp _ _).call = _ → _; rw [h2]; exact h.pos⟩
    · show ∀ x ∈ (R.wakeUp _ _).out, _ → (R.wakeUp _ _).eof = true
      rw [h3, h4]; exact h.out
    · intro hc hw
      show (R.wakeUp _ _).buf ≠ [] ∨ (R.wakeUp _ _).eof = true
      rw [h1, h4]
      refine h.woken (by rw [← hc]; exact congrArg Option.isSome h2.symm) ?_
      simp only [step] at hw
      unfold R.wakeUp at hw
      split at hw
      · exact absurd hw nofun
      · exact hw

/-- Nothing for something, everything, less than was asked for and a line without its end are
given only after the end of the stream. -/
theorem C195_end (limit : Nat) (h0 : 0 < limit) (l : List Op) (x : Ask × Res)
    (hx : x ∈ (run (R.new limit) l).out) (hs : saysEnd x.1 x.2 = true) : (run (R.new limit) l).eof = true := by
  have key : ∀ (l : List Op) (s : R), 0 < s.limit → Ends s → Ends (run s l) := by
    intro l
    induction l with
    | nil => intro s _ h; exact h
    | cons o l ih =>
      intro s h0 h
      exact ih _ (by rw [show (step s o).limit = s.limit from run_limit [o] s]; exact h0) (step_ends o h0 h)
  exact (key l (R.new limit) h0 ⟨nofun, nofun, nofun⟩).out x hx hs

/-! ### C196: the transport is paused and resumed -/

/-- What always holds: while a call waits for data the transport is not paused; if it is paused
more than the limit is kept, or the end came. -/
structure Flow (s : R) : Prop where
  waits : s.call.isSome = true → s.wake = none → s.paused = false
  keeps : s.paused = true → s.limit < s.buf.length ∨ s.eof = true

theorem maybeResume_flow (s : R) (h : s.call = none) : Flow s.maybeResume := by
  unfold R.maybeResume
  split
  · exact ⟨fun _ _ => rfl, nofun⟩
  · next hx =>
    refine ⟨fun hc => ?_, fun hp => .inl ?_⟩
    · rw [h] at hc; exact absurd hc nofun
    · simp only [Bool.and_eq_true, decide_eq_true_eq, not_and] at hx
      exact Nat.lt_of_not_le (hx hp)

theorem wait_flow (s : R) (a : Ask) (off : Nat) (acc : List Nat) : Flow (s.wait a off acc) := ⟨fun _ _ => rfl, nofun⟩

theorem finish_flow {s : R} (a : Ask) (r : Res) (h : s.paused = true → s.limit < s.buf.length ∨ s.eof = true) :
    Flow (s.finish a r) := ⟨nofun, h⟩

theorem goUntil_flow {s : R} (h : Flow s) (a : Ask) (sep : List Nat) (off : Nat) : Flow (s.goUntil a sep off) := by
  have hend : s.search sep off = .ended → s.eof = true := by
    intro hx
    unfold R.search at hx
    split at hx
    · split at hx
      · exact absurd hx nofun
      · split at hx
        · exact absurd hx nofun
        · split at hx
          · next he => exact he
          · exact absurd hx nofun
    · split at hx
      · next he => exact he
      · exact absurd hx nofun
  unfold R.goUntil
  split
  · split
    · split
      · exact maybeResume_flow _ rfl
      · exact finish_flow _ _ h.keeps
    · exact maybeResume_flow _ rfl
  · split
    · split
      · exact maybeResume_flow _ rfl
      · exact maybeResume_flow _ rfl
    · exact finish_flow _ _ h.keeps
  · next hx => exact finish_flow (s := { s with buf := [] }) _ _ (fun _ => .inr (hend hx))
  · exact wait_flow _ _ _ _

theorem goExactly_flow {s : R} (n : Nat) : Flow (s.goExactly n) := by
  unfold R.goExactly
  split
  · split
    · next he => exact finish_flow (s := { s with buf := [] }) _ _ (fun _ => .inr he)
    · exact wait_flow _ _ _ _
  · exact maybeResume_flow _ rfl

theorem goAll_flow (f : Nat) : ∀ (s : R) (acc : List Nat),
    (s.paused = true → s.limit < s.buf.length ∨ s.eof = true) → Flow (R.goAll f s acc) := by
  induction f with
  | zero => intro s acc _; exact wait_flow _ _ _ _
  | succ f ih =>
    intro s acc h
    unfold R.goAll
    split
    · exact finish_flow _ _ h
    · split
      · exact wait_flow _ _ _ _
      · split
        · exact finish_flow _ _ h
        · refine ih _ _ ?_
          unfold R.maybeResume
          split
          · exact nofun
          · next hx =>
            intro hp
            simp only [Bool.and_eq_true, decide_eq_true_eq, not_and] at hx
            exact .inl (Nat.lt_of_not_le (hx hp))

theorem step_flow {s : R} (o : Op) (h : Flow s) : Flow (step s o) := by
  cases o with
  | ask a =>
    simp only [step]
    split
    · exact h
    · unfold R.start
      split
      · exact finish_flow _ _ h.keeps
      · split
        · split
          · exact finish_flow _ _ h.keeps
          · split
            · exact wait_flow _ _ _ _
            · exact maybeResume_flow _ rfl
        · exact goAll_flow _ _ _ h.keeps
        · split
          · exact finish_flow _ _ h.keeps
          · exact goExactly_flow _
        · exact goUntil_flow h _ _ _
        · exact goUntil_flow h _ _ _
  | resume =>
    simp only [step]
    unfold R.resume
    split
    · exact finish_flow _ _ h.keeps
    · split
      · exact maybeResume_flow _ rfl
      · unfold R.resumeAll
        split
        · exact finish_flow _ _ h.keeps
        · refine goAll_flow _ _ _ ?_
          unfold R.maybeResume
          split
          · exact nofun
          · next hx =>
            intro hp
            simp only [Bool.and_eq_true, decide_eq_true_eq, not_and] at hx
            exact .inl (Nat.lt_of_not_le (hx hp))
      · exact goExactly_flow _
      · exact goUntil_flow h _ _ _
      · exact goUntil_flow h _ _ _
    · exact h
  | feed d =>
    simp only [step]
    split
    · exact h
    · obtain ⟨h1, h2, h3, h4, h5, h6, h7⟩ := wakeUp_fields { s with buf := s.buf ++ d } false
      have hw : (R.wakeUp { s with buf := s.buf ++ d } false).call.isSome = true →
          (R.wakeUp { s with buf := s.buf ++ d } false).wake = none → False := by
        unfold R.wakeUp
        split
        · intro _ hx; exact absurd hx nofun
        · next hx =>
          intro hc hw
          simp only at hc hw
          rw [hc, hw] at hx
          exact hx rfl
      split
      · next hx =>
        refine ⟨fun a b => (hw a b).elim, fun _ => .inl ?_⟩
        simp only [Bool.and_eq_true, decide_eq_true_eq] at hx
        have := hx.2
        simp only
        omega
      · refine ⟨fun a b => (hw a b).elim, ?_⟩
        rw [h6, h5, h1, h4]
        intro hp
        rcases h.keeps hp with hx | hx
        · refine .inl ?_
          simp only [List.length_append]; omega
        · exact .inr hx
  | eof =>
    obtain ⟨h1, h2, h3, h4, h5, h6, h7⟩ := wakeUp_fields { s with eof := true } false
    refine ⟨?_, fun _ => .inr h4⟩
    intro hc hw
    show (R.wakeUp _ _).paused = false
    rw [h6]
    refine h.waits ?_ ?_
    · rw [← hc]; exact congrArg Option.isSome h2.symm
    · simp only [step] at hw
      unfold R.wakeUp at hw
      split at hw
      · exact absurd hw nofun
      · exact hw
  | exc =>
    obtain ⟨h1, h2, h3, h4, h5, h6, h7⟩ := wakeUp_fields { s with exc := true } true
    refine ⟨?_, ?_⟩
    · intro hc hw
      show (R.wakeUp _ _).paused = false
      rw [h6]
      refine h.waits ?_ ?_
      · rw [← hc]; exact congrArg Option.isSome h2.symm
      · simp only [step] at hw
        unfold R.wakeUp at hw
        split at hw
        · exact absurd hw nofun
        · exact hw
    · show (R.wakeUp _ _).paused = true → (R.wakeUp _ _).limit < (R.wakeUp _ _).buf.length ∨ (R.wakeUp _ _).eof = true
      rw [h6, h5, h1, h4]; exact h.keeps

/-- While a call waits for data the transport is not paused, and if it is paused there is more
than the limit to read, or the end came. -/
theorem C196_no_deadlock (limit : Nat) (l : List Op) : Flow (run (R.new limit) l) := by
  have key : ∀ (l : List Op) (s : R), Flow s → Flow (run s l) := by
    intro l
    induction l with
    | nil => intro s h; exact h
    | cons o l ih => intro s h; exact ih _ (step_flow o h)
  exact key l _ ⟨nofun, nofun⟩

/-- When a call reads and leaves no more than the limit the transport is not paused any more. -/
theorem C196_resumed (limit : Nat) (l : List Op) (he : (run (R.new limit) l).eof = false)
    (h : (run (R.new limit) l).buf.length ≤ limit) : (run (R.new limit) l).paused = false := by
  have hf := (C196_no_deadlock limit l).keeps
  rw [run_limit] at hf
  cases hp : (run (R.new limit) l).paused with
  | false => rfl
  | true =>
    rcases hf hp with hx | hx
    · exact absurd h (Nat.not_le.2 hx)
    · rw [he] at hx; exact absurd hx nofun

/-- A transport which gives nothing while it is paused, and not more than so many bytes at once. -/
def obeys (m : Nat) : R → List Op → Prop
  | _, [] => True
  | s, o :: l => (∀ d, o = .feed d → s.paused = false ∧ d.length ≤ m) ∧ obeys m (step s o) l

/-- What a call may keep in the buffer while it waits. -/
def Ask.small (limit k : Nat) : Ask → Prop
  | .exactly n => n ≤ k
  | .until sep => limit + sep.length ≤ k
  | .line => limit + 1 ≤ k
  | _ => True

theorem maybeResume_buf (s : R) : s.maybeResume.buf = s.buf := (maybeResume_fields s).1
theorem maybeResume_limit (s : R) : s.maybeResume.limit = s.limit := (maybeResume_fields s).2.2.2.2.2.1

/-- While the transport is not paused the buffer is small, and the calls which wait are small
too. -/
structure Small (k : Nat) (s : R) : Prop where
  buf : s.paused = false → s.buf.length ≤ k
  call : ∀ a off acc, s.call = some (a, off, acc) → a.small s.limit k ∧ off ≤ s.limit

theorem maybeResume_small {k : Nat} {s : R} (hk : s.limit ≤ k) (hb : s.paused = false → s.buf.length ≤ k)
    (hc : ∀ a off acc, s.call = some (a, off, acc) → a.small s.limit k ∧ off ≤ s.limit) : Small k s.maybeResume := by
  refine ⟨?_, by rw [(maybeResume_fields s).2.1, maybeResume_limit]; exact hc⟩
  unfold R.maybeResume
  split
  · next h =>
    intro _
    simp only [Bool.and_eq_true, decide_eq_true_eq] at h
    exact Nat.le_trans h.2 hk
  · exact hb

theorem finish_small {k : Nat} {s : R} (a : Ask) (r : Res) (hb : s.paused = false → s.buf.length ≤ k) :
    Small k (s.finish a r) := ⟨hb, nofun⟩

theorem wait_small {k : Nat} {s : R} {a : Ask} {off : Nat} (acc : List Nat) (hb : s.buf.length ≤ k)
    (ha : a.small s.limit k) (ho : off ≤ s.limit) : Small k (s.wait a off acc) := by
  refine ⟨fun _ => hb, ?_⟩
  intro a' o' c' hx
  simp [R.wait] at hx
  obtain ⟨rfl, rfl, _⟩ := hx
  exact ⟨ha, ho⟩

theorem cut_small {k : Nat} {s : R} (hk : s.limit ≤ k) (hb : s.paused = false → s.buf.length ≤ k) (a : Ask) (n : Nat)
    (r : Res) : Small k (R.maybeResume ({ s with buf := s.buf.drop n }.finish a r)) := by
  refine maybeResume_small hk ?_ nofun
  intro hp
  show (s.buf.drop n).length ≤ k
  have := hb hp
  rw [List.length_drop]; omega

theorem goUntil_small {k : Nat} {s : R} (hk : s.limit ≤ k) (hb : s.paused = false → s.buf.length ≤ k) (a : Ask)
    (sep : List Nat) (off : Nat) (ha : a.small s.limit k) (hs : s.limit + sep.length ≤ k) (ho : off ≤ s.limit) :
    Small k (s.goUntil a sep off) := by
  unfold R.goUntil
  split
  · split
    · split
      · exact cut_small hk hb _ _ _
      · exact finish_small _ _ hb
    · exact cut_small hk hb _ _ _
  · split
    · split
      · exact cut_small hk hb _ _ _
      · exact maybeResume_small hk (fun _ => Nat.zero_le _) nofun
    · exact finish_small _ _ hb
  · exact finish_small (s := { s with buf := [] }) _ _ (fun _ => Nat.zero_le _)
  · next o hf =>
    unfold R.search at hf
    split at hf
    · split at hf
      · exact absurd hf nofun
      · split at hf
        · exact absurd hf nofun
        · next hl =>
          split at hf
          · exact absurd hf nofun
          · have : s.buf.length + 1 - sep.length = o := Search.more.inj hf
            subst this
            exact wait_small _ (by omega) ha (by omega)
    · next hx =>
      split at hf
      · exact absurd hf nofun
      · have : off = o := Search.more.inj hf
        subst this
        exact wait_small _ (by omega) ha ho

theorem goExactly_small {k : Nat} {s : R} (hk : s.limit ≤ k) (hb : s.paused = false → s.buf.length ≤ k) (n : Nat)
    (hn : n ≤ k) : Small k (s.goExactly n) := by
  unfold R.goExactly
  split
  · split
    · exact finish_small (s := { s with buf := [] }) _ _ (fun _ => Nat.zero_le _)
    · exact wait_small _ (by omega) hn (Nat.zero_le _)
  · exact cut_small hk hb _ _ _

theorem goAll_small {k : Nat} (f : Nat) : ∀ (s : R) (acc : List Nat), 0 < s.limit → s.buf.length < f → s.limit ≤ k →
    (s.paused = false → s.buf.length ≤ k) → Small k (R.goAll f s acc) := by
  induction f with
  | zero => intro s acc _ h; exact absurd h (by omega)
  | succ f ih =>
    intro s acc h0 hf hk hb
    unfold R.goAll
    split
    · exact finish_small _ _ hb
    · split
      · next he =>
        simp only [Bool.and_eq_true, List.isEmpty_iff] at he
        exact wait_small _ (by rw [he.1]; exact Nat.zero_le _) trivial (Nat.zero_le _)
      · split
        · exact finish_small _ _ hb
        · next hne =>
          have hpos : 0 < s.buf.length := by
            refine List.length_pos_iff.2 (fun e => hne ?_)
            rw [e]; simp
          have hsm := maybeResume_small (s := { s with buf := s.buf.drop s.limit, call := none }) hk
            (fun hp => by have := hb hp; simp only [List.length_drop]; omega) nofun
          refine ih _ _ ?_ ?_ ?_ ?_
          · rw [maybeResume_limit]; exact h0
          · rw [maybeResume_buf]; simp only [List.length_drop]; omega
          · rw [maybeResume_limit]; exact hk
          · rw [maybeResume_buf]
            unfold R.maybeResume
            split
            · next hx =>
              intro _
              simp only [Bool.and_eq_true, decide_eq_true_eq] at hx
              exact Nat.le_trans hx.2 hk
            · intro hp
              have := hb hp
              simp only [List.length_drop]; omega

/-- With such a transport the buffer stays small: twice the limit, or what a call asks for, and
what comes at once. -/
theorem C196_bounded (limit m k : Nat) (h0 : 0 < limit) (hk : 2 * limit ≤ k) (l : List Op)
    (ha : ∀ a, .ask a ∈ l → a.small limit k) (hl : obeys m (R.new limit) l) :
    (run (R.new limit) l).buf.length ≤ k + m := by
  have shrink : ∀ (s : R) (o : Op), (∀ d, o ≠ .feed d) → (step s o).buf.length ≤ s.buf.length := by
    have mr : ∀ s : R, s.maybeResume.buf = s.buf := maybeResume_buf
    have gu : ∀ (s : R) a sep off, (s.goUntil a sep off).buf.length ≤ s.buf.length := by
      intro s a sep off
      unfold R.goUntil
      split
      · split
        · split
          · rw [mr]; simp [R.finish]
          · exact Nat.le_refl _
        · rw [mr]; simp [R.finish]
      · split
        · split <;> (rw [mr]; simp [R.finish])
        · exact Nat.le_refl _
      · exact Nat.zero_le _
      · exact Nat.le_refl _
    have ge : ∀ (s : R) n, (s.goExactly n).buf.length ≤ s.buf.length := by
      intro s n
      unfold R.goExactly
      split
      · split
        · exact Nat.zero_le _
        · exact Nat.le_refl _
      · rw [mr]; simp [R.finish]
    have ga : ∀ (f : Nat) (s : R) acc, (R.goAll f s acc).buf.length ≤ s.buf.length := by
      intro f
      induction f with
      | zero => intro s acc; exact Nat.le_refl _
      | succ f ih =>
        intro s acc
        unfold R.goAll
        split
        · exact Nat.le_refl _
        · split
          · exact Nat.le_refl _
          · split
            · exact Nat.le_refl _
            · refine Nat.le_trans (ih _ _) ?_
              rw [mr]; simp
    have tr : ∀ (s : R) n, (s.takeRead n).buf.length ≤ s.buf.length := by
      intro s n; unfold R.takeRead; rw [mr]; simp [R.finish]
    intro s o ho
    cases o with
    | feed d => exact absurd rfl (ho d)
    | ask a =>
      simp only [step]
      split
      · exact Nat.le_refl _
      · unfold R.start
        split
        · exact Nat.le_refl _
        · split
          · split
            · exact Nat.le_refl _
            · split
              · exact Nat.le_refl _
              · exact tr _ _
          · exact ga _ _ _
          · split
            · exact Nat.le_refl _
            · exact ge _ _
          · exact gu _ _ _ _
          · exact gu _ _ _ _
    | resume =>
      simp only [step]
      unfold R.resume
      split
      · exact Nat.le_refl _
      · split
        · exact tr _ _
        · unfold R.resumeAll
          split
          · exact Nat.le_refl _
          · refine Nat.le_trans (ga _ _ _) ?_
            rw [mr]; simp
        · exact ge _ _
        · exact gu _ _ _ _
        · exact gu _ _ _ _
      · exact Nat.le_refl _
    | eof => simp only [step, (wakeUp_fields { s with eof := true } false).1]; exact Nat.le_refl _
    | exc => simp only [step, (wakeUp_fields { s with exc := true } true).1]; exact Nat.le_refl _
  have small : ∀ (s : R) (o : Op), Small k s → s.limit = limit → (∀ a, o = .ask a → a.small limit k) →
      (∀ d, o = .feed d → s.paused = false) → Small k (step s o) := by
    intro s o h hlim ha ho
    have hk1 : s.limit ≤ k := by rw [hlim]; omega
    have h01 : 0 < s.limit := by rw [hlim]; exact h0
    cases o with
    | ask a =>
      have ha := ha a rfl
      rw [← hlim] at ha
      simp only [step]
      split
      · exact h
      · unfold R.start
        split
        · exact finish_small _ _ h.buf
        · split
          · split
            · exact finish_small _ _ h.buf
            · split
              · next he =>
                simp only [Bool.and_eq_true, List.isEmpty_iff] at he
                exact wait_small _ (by rw [he.1]; exact Nat.zero_le _) trivial (Nat.zero_le _)
              · exact cut_small hk1 h.buf _ _ _
          · exact goAll_small _ _ _ h01 (Nat.lt_succ_self _) hk1 h.buf
          · split
            · exact finish_small _ _ h.buf
            · exact goExactly_small hk1 h.buf _ ha
          · exact goUntil_small hk1 h.buf _ _ _ ha ha (Nat.zero_le _)
          · exact goUntil_small hk1 h.buf _ _ _ ha ha (Nat.zero_le _)
    | resume =>
      simp only [step]
      unfold R.resume
      split
      · exact finish_small _ _ h.buf
      · next a off acc hc hw =>
        have hcall := h.call _ _ _ hc
        split
        · exact cut_small hk1 h.buf _ _ _
        · unfold R.resumeAll
          split
          · exact finish_small _ _ h.buf
          · refine goAll_small _ _ _ ?_ ?_ ?_ ?_
            · rw [maybeResume_limit]; exact h01
            · rw [maybeResume_buf]; simp only [List.length_drop]; omega
            · rw [maybeResume_limit]; exact hk1
            · rw [maybeResume_buf]
              unfold R.maybeResume
              split
              · next hx =>
                intro _
                simp only [Bool.and_eq_true, decide_eq_true_eq] at hx
                exact Nat.le_trans hx.2 hk1
              · intro hp
                have := h.buf hp
                simp only [List.length_drop]; omega
        · exact goExactly_small hk1 h.buf _ hcall.1
        · exact goUntil_small hk1 h.buf _ _ _ hcall.1 hcall.1 hcall.2
        · exact goUntil_small hk1 h.buf _ _ _ hcall.1 hcall.1 hcall.2
      · exact h
    | feed d =>
      have hp0 := ho d rfl
      simp only [step]
      split
      · exact h
      · obtain ⟨g1, g2, g3, g4, g5, g6, g7⟩ := wakeUp_fields { s with buf := s.buf ++ d } false
        split
        · refine ⟨nofun, ?_⟩
          show ∀ (a : Ask) off acc, (R.wakeUp _ _).call = _ → a.small (R.wakeUp _ _).limit k ∧ off ≤ (R.wakeUp _ _).limit
          rw [g2, g5]; exact h.call
        · next hx =>
          refine ⟨?_, by rw [g2, g5]; exact h.call⟩
          intro hp
          simp only [Bool.and_eq_true, Bool.not_eq_true', decide_eq_true_eq, not_and] at hx
          have h3 := hx hp
          have h4 : (R.wakeUp { s with buf := s.buf ++ d } false).limit = limit := g5.trans hlim
          omega
    | eof =>
      obtain ⟨g1, g2, g3, g4, g5, g6, g7⟩ := wakeUp_fields { s with eof := true } false
      refine ⟨?_, ?_⟩
      · show (R.wakeUp _ _).paused = false → (R.wakeUp _ _).buf.length ≤ k
        rw [g6, g1]; exact h.buf
      · show ∀ (a : Ask) off acc, (R.wakeUp _ _).call = _ → a.small (R.wakeUp _ _).limit k ∧ off ≤ (R.wakeUp _ _).limit
        rw [g2, g5]; exact h.call
    | exc =>
      obtain ⟨g1, g2, g3, g4, g5, g6, g7⟩ := wakeUp_fields { s with exc := true } true
      refine ⟨?_, ?_⟩
      · show (R.wakeUp _ _).paused = false → (R.wakeUp _ _).buf.length ≤ k
        rw [g6, g1]; exact h.buf
      · show ∀ (a : Ask) off acc, (R.wakeUp _ _).call = _ → a.small (R.wakeUp _ _).limit k ∧ off ≤ (R.wakeUp _ _).limit
        rw [g2, g5]; exact h.call
  have key : ∀ (l : List Op) (s : R), Small k s → s.limit = limit → s.buf.length ≤ k + m →
      (∀ a, .ask a ∈ l → a.small limit k) → obeys m s l → (run s l).buf.length ≤ k + m := by
    intro l
    induction l with
    | nil => intro s _ _ h _ _; exact h
    | cons o l ih =>
      intro s h hlim hb ha hl
      refine ih (step s o) (small s o h hlim (fun a e => ha a (by simp [e])) (fun d e => (hl.1 d e).1)) ?_ ?_
        (fun a hx => ha a (by simp [hx])) hl.2
      · exact (run_limit [o] s).trans hlim
      · by_cases hfd : ∃ d, o = .feed d
        · obtain ⟨d, rfl⟩ := hfd
          have hd := hl.1 d rfl
          have hb1 := h.buf hd.1
          simp only [step]
          split
          · exact hb
          · obtain ⟨g1, _⟩ := wakeUp_fields { s with buf := s.buf ++ d } false
            have : (R.wakeUp { s with buf := s.buf ++ d } false).buf.length ≤ k + m := by
              rw [g1]; simp only [List.length_append]; omega
            split <;> exact this
        · exact Nat.le_trans (shrink s o (fun d e => hfd ⟨d, e⟩)) hb
  exact key l (R.new limit) ⟨fun _ => Nat.zero_le _, nofun⟩ rfl (Nat.zero_le _) ha hl

/-! ### Examples -/

-- C194, C195
example : (run (R.new 4) [.ask .line, .feed [1, 2], .resume, .feed [3, 10, 5], .resume, .ask (.exactly 3), .feed [6, 7, 8],
    .resume, .ask .all, .eof, .resume]).out
    = [(.line, .data [1, 2, 3, 10]), (.exactly 3, .data [5, 6, 7]), (.all, .data [8])] := by decide

example : (run (R.new 2) [.feed [1, 2, 3, 4, 10, 6], .ask .line, .ask (.until [6]), .ask .line]).out
    = [(.line, .tooLong [1, 2, 3, 4, 10]), (.until [6], .data [6])] := by decide

-- C196
example : (run (R.new 2) [.feed [1, 2, 3, 4, 5], .ask (.read 2)]).paused = true := by decide
example : (run (R.new 2) [.feed [1, 2, 3, 4, 5], .ask (.read 3)]).paused = false := by decide

end Verif.Asyncio.Streams
