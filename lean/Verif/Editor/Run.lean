/-
Runs of the editor: the cursor stays in the text, and the text an editor has been
given is known while it is not modified.
-/
import Verif.Editor.Walk

namespace Verif.Editor

theorem Does.inText {d : DS} {t : Flat} (h : Does d t) : InText d := by
  obtain ⟨z, hz, he, _⟩ := h
  exact (inText_iff d).2 ⟨z, hz, he⟩

theorem Does.flat_eq {d : DS} {t : Flat} (h : Does d t) : flat d = t := by
  obtain ⟨_, _, _, he⟩ := h
  exact he

theorem apply_ds (e : Ed) (d : Option DS) (b : Bool) : (apply e d b).ds = d.getD e.ds := by
  cases d <;> rfl

theorem apply_hist (e : Ed) (d : Option DS) (b : Bool) : (apply e d b).hist = e.hist := by
  cases d <;> rfl

theorem new_inText (b : Option (List Line)) (h : ∀ l, b = some l → Broken l) : InText (DS.new b) := by
  have key : ∀ l : List Line, l ≠ [] → Broken l →
      InText ⟨l, l.length - 1, (lineAt l (l.length - 1)).length⟩ := by
    intro l hl hb
    have := List.length_pos_iff.2 hl
    exact ⟨by simp only; omega, Nat.le_refl _, hb⟩
  have e1 : Broken [[]] := by simp [Broken]
  cases b with
  | none => exact key [[]] (by simp) e1
  | some l =>
    cases l with
    | nil => exact key [[]] (by simp) e1
    | cons a r => exact key (a :: r) (by simp) (h _ rfl)

theorem moveHist_some {f : Hist → Hist × Option (List Line)} {e e' : Ed} (h : moveHist f e = some e') :
    e.ds.li = 0 ∧ e.ds.ci = 0 ∧ (e.modified = false ∨ isEmpty e.ds.buf = true) ∧
    e'.ds = ⟨(f e.hist).2.getD [[]], 0, 0⟩ ∧ e'.modified = false ∧ e'.hist = (f e.hist).1 ∧ e'.alive = e.alive := by
  unfold moveHist at h
  by_cases h1 : e.ds.li = 0
  · by_cases h2 : e.ds.ci = 0
    · cases hm : e.modified with
      | false =>
        have hs : shouldMove e = (true, false) := by simp [shouldMove, h1, h2, hm]
        rw [hs] at h
        simp only [if_true, Option.some.injEq] at h
        subst h
        exact ⟨h1, h2, .inl rfl, by simp [h1, h2], rfl, rfl, rfl⟩
      | true =>
        cases hb : isEmpty e.ds.buf with
        | false =>
          have hs : shouldMove e = (false, true) := by simp [shouldMove, h1, h2, hm, hb]
          rw [hs] at h; exact absurd h nofun
        | true =>
          have hs : shouldMove e = (true, false) := by simp [shouldMove, h1, h2, hm, hb]
          rw [hs] at h
          simp only [if_true, Option.some.injEq] at h
          subst h
          exact ⟨h1, h2, .inr rfl, by simp [h1, h2], rfl, rfl, rfl⟩
    · have hs : shouldMove e = (false, e.modified) := by simp [shouldMove, h1, h2]
      rw [hs] at h; exact absurd h nofun
  · have hs : shouldMove e = (false, e.modified) := by simp [shouldMove, h1]
    rw [hs] at h; exact absurd h nofun

theorem moveHist_none {f : Hist → Hist × Option (List Line)} {e : Ed} (h : moveHist f e = none) :
    e.ds.li ≠ 0 ∨ e.ds.ci ≠ 0 ∨ (e.modified = true ∧ isEmpty e.ds.buf = false) := by
  unfold moveHist at h
  by_cases h1 : e.ds.li = 0
  · by_cases h2 : e.ds.ci = 0
    · right; right
      cases hm : e.modified <;> cases hb : isEmpty e.ds.buf <;>
        simp [shouldMove, h1, h2, hm, hb] at h ⊢
    · right; left; exact h2
  · left; exact h1

theorem moveHist_inText {f : Hist → Hist × Option (List Line)} {e e' : Ed}
    (hf : ∀ h b, HistOk h → (f h).2 = some b → b ≠ [] ∧ Broken b) (hh : HistOk e.hist)
    (h : moveHist f e = some e') : InText e'.ds := by
  obtain ⟨_, _, _, hd, _⟩ := moveHist_some h
  rw [hd]
  cases hb : (f e.hist).2 with
  | none => simp [InText, Broken]
  | some b =>
    obtain ⟨h1, h2⟩ := hf _ b hh hb
    have := List.length_pos_iff.2 h1
    exact ⟨by simpa using this, by simp, by simpa using h2⟩

theorem prev_ok (h : Hist) (b) (hh : HistOk h) (hb : h.prev.2 = some b) : b ≠ [] ∧ Broken b := by
  obtain ⟨i, hi⟩ := prev_mem hb
  exact hh i b hi

theorem next_ok (h : Hist) (b) (hh : HistOk h) (hb : h.next.2 = some b) : b ≠ [] ∧ Broken b := by
  obtain ⟨i, hi⟩ := next_mem hb
  exact hh i b hi

theorem does_of {d : DS} (h : InText d) {g : DS → DS} {t : Flat → Flat}
    (hk : ∀ z : Z, z.Ok → Does (g z.ds) (t (flat z.ds))) : Does (g d) (t (flat d)) := by
  obtain ⟨z, hz, he⟩ := (inText_iff d).1 h
  subst he
  exact hk z hz

theorem tab_inText (env : Env) (hn : ∀ n ∈ env.names, 10 ∉ n) (auto : Bool) {d : DS} (h : InText d) :
    InText (tabDS env auto d).1 := by
  obtain ⟨z, hz, he⟩ := (inText_iff d).1 h
  subst he
  cases auto with
  | false => exact (key_tab_paste env hz).inText
  | true =>
    obtain ⟨pre, x, y, post⟩ := z
    rw [tab_auto]
    split
    · exact (inText_iff _).2 ⟨_, hz, rfl⟩
    · next a ha =>
      have hax : 10 ∉ a := by
        simp only [completion] at ha
        split at ha
        · exact absurd ha nofun
        · next w _ =>
          cases hc : commonPrefix env.names w with
          | none => rw [hc] at ha; exact absurd ha nofun
          | some p =>
            rw [hc] at ha
            have : p.drop w.length = a := by simpa using ha
            subst this
            obtain ⟨⟨m, hm⟩, hp, _⟩ := commonPrefix_some hc
            exact nomem_drop _ (fun hx => hn m hm.1 ((hp m hm).subset hx))
      exact (inText_iff _).2 ⟨⟨pre, x ++ a, y, post⟩, ⟨hz.pre, nomem_append hz.x hax, hz.y, hz.post⟩, rfl⟩
    · exact (key_tab_spaces hz).inText

theorem process_inText (env : Env) (hn : ∀ n ∈ env.names, 10 ∉ n) (auto : Bool) {e : Ed} (h : InText e.ds)
    (hh : HistOk e.hist) (k : Key) (hk : k ≠ .print 10) :
    InText (process env auto e k).1.ds ∧ HistOk (process env auto e k).1.hist := by
  have hsame : InText e.ds ∧ HistOk e.hist := ⟨h, hh⟩
  have hopt : ∀ (g : DS → Option DS) (t : Flat → Flat) (b : Bool),
      (∀ z : Z, z.Ok → Does ((g z.ds).getD z.ds) (t (flat z.ds))) →
      InText (apply e (g e.ds) b).ds ∧ HistOk (apply e (g e.ds) b).hist := by
    intro g t b hg
    rw [apply_ds, apply_hist]
    exact ⟨(does_of (g := fun d => (g d).getD d) h hg).inText, hh⟩
  have hent : InText (enterDS env auto e.ds) := by
    obtain ⟨z, hz, he⟩ := (inText_iff _).1 h
    rw [he]; exact (key_enter env auto hz).inText
  cases k with
  | interrupt => exact hsame
  | destroy => exact hsame
  | enter =>
    simp only [process]
    split
    · split
      · next d hd =>
        refine ⟨?_, hh⟩
        simp only [checkout] at hd
        split at hd
        · exact absurd hd nofun
        · next i _ =>
          have : DS.new (e.hist.elems i) = d := by simpa using hd
          rw [← this]
          exact new_inText _ (fun l hl => (hh i l hl).2)
      · split
        · exact hsame
        · exact ⟨hent, hh⟩
    · exact ⟨hent, hh⟩
  | left => exact hopt leftDS (fun t => refKey t .left) _ (fun z hz => key_left hz)
  | right => exact hopt rightDS (fun t => refKey t .right) _ (fun z hz => key_right hz)
  | up =>
    simp only [process]
    split
    · next e' he =>
      cases auto with
      | false => exact absurd he nofun
      | true =>
        refine ⟨moveHist_inText prev_ok hh he, ?_⟩
        rw [(moveHist_some he).2.2.2.2.2.1]
        exact hh
    · exact hopt upDS (fun t => refKey t .up) _ (fun z hz => key_up hz)
  | down =>
    simp only [process]
    split
    · next e' he =>
      cases auto with
      | false => exact absurd he nofun
      | true =>
        refine ⟨moveHist_inText next_ok hh he, ?_⟩
        rw [(moveHist_some he).2.2.2.2.2.1]
        exact hh
    · exact hopt downDS (fun t => refKey t .down) _ (fun z hz => key_down hz)
  | end_ => exact hopt endDS (fun t => refKey t .end_) _ (fun z hz => key_end hz)
  | home => exact hopt homeDS (fun t => refKey t .home) _ (fun z hz => key_home hz)
  | backTab => exact hopt backTabDS (fun t => refKey t .backTab) _ (fun z hz => key_backTab hz)
  | delRight => exact hopt delRightDS (fun t => refKey t .delRight) _ (fun z hz => key_delRight hz)
  | tab => exact ⟨tab_inText env hn auto h, hh⟩
  | delLeft => exact hopt delLeftDS (fun t => refKey t .delLeft) _ (fun z hz => key_delLeft hz)
  | print c =>
    simp only [process]
    split
    · refine ⟨?_, hh⟩
      have hc : c ≠ 10 := fun hc => hk (by rw [hc])
      exact (does_of (g := printDS c) (t := fun t => refKey t (.print c)) h
        (fun z hz => key_print hz hc)).inText
    · exact hsame

theorem processAll_inText (env : Env) (hn : ∀ n ∈ env.names, 10 ∉ n) (auto : Bool) :
    ∀ (ks : List Key) {e : Ed}, InText e.ds → HistOk e.hist → (∀ k ∈ ks, k ≠ .print 10) →
    InText (processAll env auto e ks).1.ds ∧ HistOk (processAll env auto e ks).1.hist
  | [], _, h, hh, _ => ⟨h, hh⟩
  | k :: r, e, h, hh, hk => by
    have hp := process_inText env hn auto h hh k (hk k (List.mem_cons_self ..))
    simp only [processAll]
    split
    · next e' he =>
      rw [he] at hp
      exact processAll_inText env hn auto r hp.1 hp.2 (fun x hx => hk x (List.mem_cons_of_mem _ hx))
    · next e' o _ he => rw [he] at hp; exact hp

theorem keyOf_print {t : Line} {c : Chr} (h : keyOf t = some (.print c)) : t = [c] ∧ c ≠ 10 := by
  unfold keyOf at h
  split at h <;> try (cases h; done)
  next d =>
    by_cases h3 : d = 3
    · simp [h3] at h
    · by_cases h4 : d = 4
      · simp [h4] at h
      · by_cases h5 : d = 10
        · simp [h5] at h
        · by_cases h6 : d = 13
          · simp [h6] at h
          · by_cases h7 : d = 9
            · simp [h7] at h
            · by_cases h8 : d = 127
              · simp [h8] at h
              · simp [h3, h4, h5, h6, h7, h8] at h
                subst h
                exact ⟨rfl, h5⟩

theorem keys_ok (ts : List Line) : ∀ k ∈ ts.filterMap keyOf, k ≠ .print 10 := by
  intro k hk he
  subst he
  obtain ⟨t, _, ht⟩ := List.mem_filterMap.1 hk
  exact (keyOf_print ht).2 rfl

theorem feed_inText (env : Env) (hn : ∀ n ∈ env.names, 10 ∉ n) (trim : Line → Option Line) {e : Ed}
    (h : InText e.ds) (hh : HistOk e.hist) (s : Line) :
    InText (feed env trim e s).1.ds ∧ HistOk (feed env trim e s).1.hist := by
  unfold feed
  split
  · exact processAll_inText env hn _ _ h hh (keys_ok _)
  · split
    · exact processAll_inText env hn _ _ h hh (keys_ok _)
    · exact processAll_inText env hn _ _ h hh (keys_ok _)

/-- A key of a paste. -/
theorem process_paste (env : Env) (hp : PrOk env.pr) {e : Ed} (h : InText e.ds) (k : Key)
    (h1 : k ≠ .interrupt) (h2 : k ≠ .destroy) (h3 : ∀ c, k = .print c → env.pr c = true) :
    (process env false e k).2 = .ok ∧ InText (process env false e k).1.ds ∧
      flat (process env false e k).1.ds = refKey (flat e.ds) k ∧
      (process env false e k).1.hist = e.hist := by
  have hopt : ∀ (g : DS → Option DS) (b : Bool),
      (∀ z : Z, z.Ok → Does ((g z.ds).getD z.ds) (refKey (flat z.ds) k)) →
      Out.ok = Out.ok ∧ InText (apply e (g e.ds) b).ds ∧ flat (apply e (g e.ds) b).ds = refKey (flat e.ds) k ∧
        (apply e (g e.ds) b).hist = e.hist := by
    intro g b hg
    rw [apply_ds, apply_hist]
    have := does_of (g := fun d => (g d).getD d) (t := fun t => refKey t k) h hg
    exact ⟨rfl, this.inText, this.flat_eq, rfl⟩
  cases k with
  | interrupt => exact absurd rfl h1
  | destroy => exact absurd rfl h2
  | enter =>
    have := does_of (g := enterDS env false) (t := fun t => refKey t .enter) h (fun z hz => by
      have := key_enter env false hz
      simpa [indentBy, refEnter, refKey] using this)
    exact ⟨rfl, this.inText, this.flat_eq, rfl⟩
  | left => exact hopt leftDS _ (fun z hz => key_left hz)
  | right => exact hopt rightDS _ (fun z hz => key_right hz)
  | up => exact hopt upDS _ (fun z hz => key_up hz)
  | down => exact hopt downDS _ (fun z hz => key_down hz)
  | end_ => exact hopt endDS _ (fun z hz => key_end hz)
  | home => exact hopt homeDS _ (fun z hz => key_home hz)
  | backTab => exact hopt backTabDS _ (fun z hz => key_backTab hz)
  | delRight => exact hopt delRightDS _ (fun z hz => key_delRight hz)
  | delLeft => exact hopt delLeftDS _ (fun z hz => key_delLeft hz)
  | tab =>
    have := does_of (g := fun d => (tabDS env false d).1) (t := fun t => refKey t .tab) h
      (fun z hz => key_tab_paste env hz)
    exact ⟨rfl, this.inText, this.flat_eq, rfl⟩
  | print c =>
    have hc := h3 c rfl
    have hc10 : c ≠ 10 := fun he => by
      have := hp 10 (by simp)
      rw [he, this] at hc; exact absurd hc nofun
    have := does_of (g := printDS c) (t := fun t => refKey t (.print c)) h (fun z hz => key_print hz hc10)
    simp only [process, hc, if_true]
    exact ⟨trivial, this.inText, this.flat_eq, trivial⟩

theorem processAll_paste (env : Env) (hp : PrOk env.pr) : ∀ (ks : List Key) {e : Ed}, InText e.ds →
    (∀ k ∈ ks, k ≠ .interrupt ∧ k ≠ .destroy ∧ ∀ c, k = .print c → env.pr c = true) →
    (processAll env false e ks).2 = .ok ∧ InText (processAll env false e ks).1.ds ∧
      flat (processAll env false e ks).1.ds = ks.foldl refKey (flat e.ds) ∧
      (processAll env false e ks).1.hist = e.hist
  | [], _, h, _ => ⟨rfl, h, rfl, rfl⟩
  | k :: r, e, h, hk => by
    obtain ⟨h1, h2, h3⟩ := hk k (List.mem_cons_self ..)
    obtain ⟨q1, q2, q3, q4⟩ := process_paste env hp h k h1 h2 h3
    have ih := processAll_paste env hp r q2 (fun x hx => hk x (List.mem_cons_of_mem _ hx))
    have e : processAll env false e (k :: r) = processAll env false (process env false e k).1 r := by
      simp only [processAll]
      split
      · next e' he => rw [he]
      · next e' o ho he => rw [he] at q1; exact absurd q1 ho
    rw [e, List.foldl_cons, ← q3, ← q4]
    exact ih

/-- An editor with the text it was last given: when it was opened, from the
history, or by its number. -/
structure Given where
  ed : Ed
  given : List Line

/-- A key pressed alone; the text is given when a history move or an indexed
input replaces it. -/
def Given.key (env : Env) (g : Given) (k : Key) : Given :=
  let e' := (process env true g.ed k).1
  let loaded : Bool := match k with
    | .up => (moveHist Hist.prev g.ed).isSome
    | .down => (moveHist Hist.next g.ed).isSome
    | .enter => (checkout env g.ed).isSome
    | _ => false
  ⟨e', if loaded then e'.ds.buf else g.given⟩

/-- The tab changes the text, or nothing is edited. -/
def GoodKey (env : Env) (g : Given) (k : Key) : Prop :=
  k = .tab → (tabDS env true g.ed.ds).2 = true ∨ g.ed.modified = false

def GoodKeys (env : Env) : Given → List Key → Prop
  | _, [] => True
  | g, k :: r => GoodKey env g k ∧ GoodKeys env (g.key env k) r

/-- An editor which is not modified has the text it was given. -/
def Known (g : Given) : Prop := g.ed.modified = false → g.ed.ds.buf = g.given

theorem left_buf {d d' : DS} (h : leftDS d = some d') : d'.buf = d.buf := by
  unfold leftDS at h
  split at h
  · split at h
    · exact absurd h nofun
    · cases h; rfl
  · cases h; rfl

theorem right_buf {d d' : DS} (h : rightDS d = some d') : d'.buf = d.buf := by
  unfold rightDS at h
  split at h
  · split at h
    · exact absurd h nofun
    · cases h; rfl
  · cases h; rfl

theorem home_buf {d d' : DS} (h : homeDS d = some d') : d'.buf = d.buf := by
  unfold homeDS at h
  split at h
  · exact absurd h nofun
  · cases h; rfl

theorem end_buf {d d' : DS} (h : endDS d = some d') : d'.buf = d.buf := by
  unfold endDS at h
  split at h
  · exact absurd h nofun
  · cases h; rfl

theorem up_buf {d d' : DS} (h : upDS d = some d') : d'.buf = d.buf := by
  unfold upDS at h
  split at h
  · split at h
    · exact absurd h nofun
    · cases h; rfl
  · cases h; rfl

theorem down_buf {d d' : DS} (h : downDS d = some d') : d'.buf = d.buf := by
  unfold downDS at h
  split at h
  · simp only at h
    split at h
    · exact absurd h nofun
    · cases h; rfl
  · cases h; rfl

theorem tabSpaces_buf {d : DS} (h : (tabSpacesDS true d).2 = false) : (tabSpacesDS true d).1.buf = d.buf := by
  simp only [tabSpacesDS, if_true] at h ⊢
  by_cases hz : (tabSkip ((lineAt d.buf d.li).drop d.ci) (4 - d.ci % 4) != 0) = true
  · rw [if_pos hz] at h; exact absurd h nofun
  · rw [if_neg hz]

theorem tab_buf {env : Env} {d : DS} (h : (tabDS env true d).2 = false) : (tabDS env true d).1.buf = d.buf := by
  simp only [tabDS, if_true] at h ⊢
  cases hi : identAt env (lineAt d.buf d.li) d.ci with
  | none =>
    rw [hi] at h
    exact tabSpaces_buf h
  | some w =>
    rw [hi] at h
    simp only at h ⊢
    cases hc : commonPrefix env.names w with
    | none => rfl
    | some p => rw [hc] at h; exact absurd h nofun

theorem apply_move {g : Given} (hg : Known g) {d : Option DS} (hd : ∀ d', d = some d' → d'.buf = g.ed.ds.buf) :
    Known ⟨apply g.ed d false, g.given⟩ := by
  cases d with
  | none => exact hg
  | some d' =>
    intro hm
    simp only [apply, Bool.false_or] at hm ⊢
    rw [hd d' rfl]
    exact hg hm

theorem apply_edit {g : Given} (hg : Known g) (d : Option DS) : Known ⟨apply g.ed d true, g.given⟩ := by
  cases d with
  | none => exact hg
  | some d' => intro hm; exact absurd hm (by simp [apply])

theorem key_known (env : Env) {g : Given} (hg : Known g) (k : Key) (hk : GoodKey env g k) :
    Known (g.key env k) := by
  cases k with
  | interrupt => exact hg
  | destroy => exact hg
  | enter =>
    unfold Given.key
    simp only [process, if_true]
    cases hc : checkout env g.ed with
    | some d => intro _; rfl
    | none =>
      simp only [Option.isSome_none, Bool.false_eq_true, if_false]
      split
      · exact hg
      · intro hm; exact absurd hm nofun
  | left => exact apply_move hg (fun d' h => left_buf h)
  | right => exact apply_move hg (fun d' h => right_buf h)
  | up =>
    unfold Given.key
    simp only [process, if_true]
    cases hc : moveHist Hist.prev g.ed with
    | some d => intro _; rfl
    | none => exact apply_move hg (fun d' h => up_buf h)
  | down =>
    unfold Given.key
    simp only [process, if_true]
    cases hc : moveHist Hist.next g.ed with
    | some d => intro _; rfl
    | none => exact apply_move hg (fun d' h => down_buf h)
  | end_ => exact apply_move hg (fun d' h => end_buf h)
  | home => exact apply_move hg (fun d' h => home_buf h)
  | backTab => exact apply_edit hg _
  | delRight => exact apply_edit hg _
  | delLeft => exact apply_edit hg _
  | tab =>
    intro hm
    rcases hk rfl with h | h
    · simp only [Given.key, process, h] at hm; exact absurd hm nofun
    · simp only [Given.key, process] at hm ⊢
      rw [tab_buf hm]
      exact hg h
  | print c =>
    unfold Given.key
    simp only [process, Bool.false_eq_true, if_false]
    split
    · intro hm; exact absurd hm nofun
    · exact hg

theorem keys_known (env : Env) : ∀ (ks : List Key) {g : Given}, Known g → GoodKeys env g ks →
    Known (ks.foldl (Given.key env) g)
  | [], _, h, _ => h
  | k :: r, _, h, hk => keys_known env r (key_known env h k hk.1) hk.2

end Verif.Editor
