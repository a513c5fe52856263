/-
Properties C171 - C177: the editor of the interactive console.
-/
import Verif.Editor.Run

namespace Verif.Editor

/-! ### C171: keys of a paste edit the text at the cursor -/

/-- Whatever keys a paste consists of, the text and the cursor are what the
specification makes of them, and the cursor is in the text. -/
theorem C171_paste_edits_the_text (env : Env) (hp : PrOk env.pr) (e : Ed) (h : InText e.ds) (ks : List Key)
    (hk : ∀ k ∈ ks, k ≠ .interrupt ∧ k ≠ .destroy ∧ ∀ c, k = .print c → env.pr c = true) :
    (processAll env false e ks).2 = .ok ∧ InText (processAll env false e ks).1.ds ∧
      flat (processAll env false e ks).1.ds = ks.foldl refKey (flat e.ds) := by
  obtain ⟨h1, h2, h3, _⟩ := processAll_paste env hp ks h hk
  exact ⟨h1, h2, h3⟩

/-- The text before the cursor and the text after it are the text. -/
theorem C171_flat_is_the_text (d : DS) : (flat d).1 ++ (flat d).2 = text d.buf := by simp [flat]

/-- The keys which move the cursor keep the text. -/
theorem C171_moves_keep_the_text (env : Env) (auto : Bool) (e : Ed) (k : Key)
    (hk : k = .left ∨ k = .right ∨ k = .home ∨ k = .end_ ∨ (auto = false ∧ (k = .up ∨ k = .down))) :
    (process env auto e k).1.ds.buf = e.ds.buf ∧ (process env auto e k).1.modified = e.modified := by
  have key : ∀ d : Option DS, (∀ d', d = some d' → d'.buf = e.ds.buf) →
      (apply e d false).ds.buf = e.ds.buf ∧ (apply e d false).modified = e.modified := by
    intro d hd
    cases d with
    | none => exact ⟨rfl, rfl⟩
    | some d' => exact ⟨hd d' rfl, by simp [apply]⟩
  rcases hk with rfl | rfl | rfl | rfl | ⟨rfl, rfl | rfl⟩
  · exact key _ (fun _ h => left_buf h)
  · exact key _ (fun _ h => right_buf h)
  · exact key _ (fun _ h => home_buf h)
  · exact key _ (fun _ h => end_buf h)
  · exact key _ (fun _ h => up_buf h)
  · exact key _ (fun _ h => down_buf h)

/-- Left then right is back where it began, unless the cursor is at the start. -/
theorem C171_left_right (d : DS) (h : InText d) (h0 : (flat d).1 ≠ []) :
    ∃ d', leftDS d = some d' ∧ rightDS d' = some d := by
  obtain ⟨⟨pre, x, y, post⟩, _, rfl⟩ := (inText_iff d).1 h
  rcases snoc_cases x with hx | ⟨x', c, hx⟩
  · subst hx
    rcases snoc_cases pre with hp | ⟨p', p, hp⟩
    · subst hp; rw [flat_z] at h0; exact absurd rfl h0
    · subst hp; exact ⟨_, left_line .., right_line ..⟩
  · subst hx; exact ⟨_, left_char .., right_char ..⟩

/-- Deleting to the left takes back what was typed. -/
theorem C171_delete_undoes_print (d : DS) (h : InText d) (c : Chr) : delLeftDS (printDS c d) = some d := by
  obtain ⟨⟨pre, x, y, post⟩, _, rfl⟩ := (inText_iff d).1 h
  rw [print_z, delLeft_char]

/-! ### C172: single keys -/

/-- The keys which do not look at what they are part of do the same when pressed
alone. -/
theorem C172_plain_keys (env : Env) (e : Ed) (h : InText e.ds) (k : Key)
    (hk : k = .left ∨ k = .right ∨ k = .home ∨ k = .end_ ∨ k = .backTab ∨ k = .delLeft ∨ k = .delRight ∨
      ∃ c, k = .print c ∧ c ≠ 10 ∧ env.pr c = true) :
    flat (process env true e k).1.ds = refKey (flat e.ds) k := by
  have hopt : ∀ (g : DS → Option DS) (k' : Key) (b : Bool),
      (∀ z : Z, z.Ok → Does ((g z.ds).getD z.ds) (refKey (flat z.ds) k')) →
      flat (apply e (g e.ds) b).ds = refKey (flat e.ds) k' := by
    intro g k' b hg
    rw [apply_ds]
    exact (does_of (g := fun d => (g d).getD d) (t := fun t => refKey t k') h hg).flat_eq
  rcases hk with rfl | rfl | rfl | rfl | rfl | rfl | rfl | ⟨c, rfl, hc, hp⟩
  · exact hopt leftDS _ _ (fun z hz => key_left hz)
  · exact hopt rightDS _ _ (fun z hz => key_right hz)
  · exact hopt homeDS _ _ (fun z hz => key_home hz)
  · exact hopt endDS _ _ (fun z hz => key_end hz)
  · exact hopt backTabDS _ _ (fun z hz => key_backTab hz)
  · exact hopt delLeftDS _ _ (fun z hz => key_delLeft hz)
  · exact hopt delRightDS _ _ (fun z hz => key_delRight hz)
  · simp only [process, hp, if_true]
    exact (does_of (g := printDS c) (t := fun t => refKey t (.print c)) h (fun z hz => key_print hz hc)).flat_eq

/-- Enter begins a line with the spaces of the line it leaves, four more after a
colon, four less after a word which leaves the block. -/
theorem C172_enter_indents (env : Env) (e : Ed) (h : InText e.ds) (hc : checkout env e = none)
    (hx : env.exits e.ds.buf e.ds.li e.ds.ci = false) :
    ∃ k, flat (process env true e .enter).1.ds = refEnter (flat e.ds) k ∧
      let l := lineBefore (flat e.ds).1
      let n := leading (l ++ lineAfter (flat e.ds).2)
      (lastVisible l = some 58 → k = n + 4) ∧
      (lastVisible l ≠ some 58 → leavesBlock env.ws l → k = n - 4) ∧
      (lastVisible l ≠ some 58 → ¬ leavesBlock env.ws l → k = n) := by
  have he : (process env true e .enter).1.ds = enterDS env true e.ds := by
    simp [process, hc, hx]
  rw [he]
  obtain ⟨⟨pre, x, y, post⟩, hz, heq⟩ := (inText_iff e.ds).1 h
  rw [heq]
  refine ⟨_, (key_enter env true hz).flat_eq, ?_⟩
  rw [flat_z]
  simp only [(before_cut hz.x pre).2, (after_cut hz.y post).1, leading_eq, lastVisible, ← startsWithWord_iff]
  have hend := endsWithRev_iff x.reverse
  simp only [indentBy, if_true]
  refine ⟨fun h1 => ?_, fun h1 h2 => ?_, fun h1 h2 => ?_⟩
  · rw [if_pos (hend.2 h1)]; split <;> omega
  · rw [if_neg (fun hh => h1 (hend.1 hh)), if_pos h2]; split <;> omega
  · rw [if_neg (fun hh => h1 (hend.1 hh)), if_neg h2]; split <;> omega

/-- A tab which has no word before it goes to the next multiple of four, using
the spaces which are there. -/
theorem C172_tab_goes_to_the_next_stop (env : Env) (e : Ed) (h : InText e.ds)
    (hw : lineBefore (flat e.ds).1 = [] ∨ ∃ l c, lineBefore (flat e.ds).1 = l ++ [c] ∧ c ∈ breakChars) :
    flat (process env true e .tab).1.ds = refTab (flat e.ds) := by
  obtain ⟨⟨pre, x, y, post⟩, hz, heq⟩ := (inText_iff e.ds).1 h
  have hi : completion env x y = none := by
    have hl : lastWordRev x.reverse = [] := by
      rw [heq, flat_z] at hw
      simp only [(before_cut hz.x pre).2] at hw
      rcases hw with hw | ⟨l, c, hw, hc⟩
      · subst hw; rfl
      · subst hw; simp [lastWordRev, hc]
    simp only [completion, identAt, List.take_left' rfl, hl]
    split
    · rfl
    · next w hw2 => split at hw2 <;> simp at hw2
  simp only [process]
  rw [heq, tab_auto, hi]
  exact (key_tab_spaces hz).flat_eq

/-- Up and down alone move the cursor unless the history is asked. -/
theorem C172_up_and_down (env : Env) (e : Ed) (h : InText e.ds)
    (hm : (flat e.ds).1 ≠ [] ∨ (e.modified = true ∧ isEmpty e.ds.buf = false)) :
    flat (process env true e .up).1.ds = refKey (flat e.ds) .up ∧
    flat (process env true e .down).1.ds = refKey (flat e.ds) .down ∧
    (process env true e .up).1.hist = e.hist ∧ (process env true e .down).1.hist = e.hist := by
  have key : ∀ f, moveHist f e = none := by
    intro f
    cases hf : moveHist f e with
    | none => rfl
    | some e' =>
      exfalso
      obtain ⟨h1, h2, h3, _⟩ := moveHist_some hf
      rcases hm with hm | ⟨hm1, hm2⟩
      · apply hm
        simp [flat, offset, h1, h2]
      · rcases h3 with h3 | h3
        · rw [h3] at hm1; exact absurd hm1 nofun
        · rw [h3] at hm2; exact absurd hm2 nofun
  simp only [process, if_true, key]
  rw [apply_ds, apply_ds, apply_hist, apply_hist]
  exact ⟨(does_of (g := fun d => (upDS d).getD d) (t := fun t => refKey t .up) h
      (fun z hz => key_up hz)).flat_eq,
    (does_of (g := fun d => (downDS d).getD d) (t := fun t => refKey t .down) h
      (fun z hz => key_down hz)).flat_eq, rfl, rfl⟩

/-! ### C173: the cursor stays in the text -/

/-- Whatever is read, in whatever parts, with whatever is taken off: the cursor
is in the text and the lines contain no line breaks. -/
theorem C173_cursor_in_text (env : Env) (hn : ∀ n ∈ env.names, 10 ∉ n) (trim : Line → Option Line)
    (reads : List Line) : ∀ (e : Ed), InText e.ds → HistOk e.hist →
      InText (reads.foldl (fun e s => (feed env trim e s).1) e).ds := by
  induction reads with
  | nil => intro e h _; exact h
  | cons s r ih =>
    intro e h hh
    obtain ⟨h1, h2⟩ := feed_inText env hn trim h hh s
    exact ih _ h1 h2

/-- An editor begins with its cursor in its text, whatever lines it is given. -/
theorem C173_begins_in_text (b : Option (List Line)) (h : ∀ l, b = some l → Broken l) :
    InText (DS.new b) ∧ (flat (DS.new b)).2 = [] := by
  refine ⟨new_inText b h, ?_⟩
  have key : ∀ l : List Line, l ≠ [] → (flat ⟨l, l.length - 1, (lineAt l (l.length - 1)).length⟩).2 = [] := by
    intro l hl
    rcases snoc_cases l with h0 | ⟨p, x, h0⟩
    · exact absurd h0 hl
    · subst h0
      have : (⟨p ++ [x], (p ++ [x]).length - 1, (lineAt (p ++ [x]) ((p ++ [x]).length - 1)).length⟩ : DS)
          = Z.ds ⟨p, x, [], []⟩ := by
        have := lineAt_mid p x []
        simp [Z.ds, this]
      rw [this, flat_z]; rfl
  cases b with
  | none => exact key [[]] (by simp)
  | some l =>
    cases l with
    | nil => exact key [[]] (by simp)
    | cons a r => exact key (a :: r) (by simp)

/-- What the history is given stays usable. -/
theorem C173_history_usable (h : Hist) (hh : HistOk h) (l : List (Nat × Option (List Line)))
    (hl : ∀ x ∈ l, ∀ b, x.2 = some b → Broken b) : HistOk (adds h l) := by
  induction l generalizing h with
  | nil => exact hh
  | cons x r ih =>
    obtain ⟨i, b⟩ := x
    refine ih _ ?_ (fun y hy => hl y (List.mem_cons_of_mem _ hy))
    intro j c hc
    unfold Hist.add at hc
    split at hc
    · exact hh j c hc
    · exact hh j c hc
    · next b' hb' =>
      simp only at hc
      split at hc
      · cases hc
        exact ⟨fun he => hb' (by rw [he]), hl (i, some c) (List.mem_cons_self ..) c rfl⟩
      · exact hh j c hc

/-! ### C174: reads -/

/-- Keys and printable characters put after each other are read as those. -/
theorem C174_tokens_read_back (pr : Chr → Bool) (hp : PrOk pr) (ts : List Line) (h : ∀ t ∈ ts, IsToken pr t) :
    tokens pr ts.flatten = ts := tokens_flatten hp ts h

/-- What a pasted character puts into the text. -/
def pasted (c : Chr) : List Chr := if c = 13 then [10] else if c = 9 then [32, 32, 32, 32] else [c]

theorem keyOf_plain {pr : Chr → Bool} (hp : PrOk pr) {c : Chr} (hc : pr c = true) : keyOf [c] = some (.print c) := by
  have h3 : c ≠ 3 := fun h => by have := hp 3 (by simp); rw [h, this] at hc; exact absurd hc nofun
  have h4 : c ≠ 4 := fun h => by have := hp 4 (by simp); rw [h, this] at hc; exact absurd hc nofun
  have h9 : c ≠ 9 := fun h => by have := hp 9 (by simp); rw [h, this] at hc; exact absurd hc nofun
  have h10 : c ≠ 10 := fun h => by have := hp 10 (by simp); rw [h, this] at hc; exact absurd hc nofun
  have h13 : c ≠ 13 := fun h => by have := hp 13 (by simp); rw [h, this] at hc; exact absurd hc nofun
  have h27 : c ≠ 127 := fun h => by have := hp 127 (by simp); rw [h, this] at hc; exact absurd hc nofun
  simp [keyOf, h3, h4, h9, h10, h13, h27]

theorem fold_pasted {pr : Chr → Bool} (hp : PrOk pr) : ∀ (s : Line), (∀ c ∈ s, pr c = true ∨ c = 10 ∨ c = 13 ∨ c = 9) →
    ∀ t : Flat, ((s.map (fun c => [c])).filterMap keyOf).foldl refKey t = (t.1 ++ s.flatMap pasted, t.2)
  | [], _, t => by simp
  | c :: s, h, t => by
    have ih := fold_pasted hp s (fun x hx => h x (List.mem_cons_of_mem _ hx))
    rcases h c (List.mem_cons_self ..) with hc | rfl | rfl | rfl
    · have h13 : c ≠ 13 := fun h => by have := hp 13 (by simp); rw [h, this] at hc; exact absurd hc nofun
      have h9 : c ≠ 9 := fun h => by have := hp 9 (by simp); rw [h, this] at hc; exact absurd hc nofun
      simp only [List.map_cons, List.filterMap_cons, keyOf_plain hp hc, List.foldl_cons]
      rw [ih]; simp [refKey, pasted, h13, h9]
    · have e : keyOf [10] = some .enter := by decide
      simp only [List.map_cons, List.filterMap_cons, e, List.foldl_cons]
      rw [ih]; simp [refKey, pasted]
    · have e : keyOf [13] = some .enter := by decide
      simp only [List.map_cons, List.filterMap_cons, e, List.foldl_cons]
      rw [ih]; simp [refKey, pasted]
    · have e : keyOf [9] = some .tab := by decide
      simp only [List.map_cons, List.filterMap_cons, e, List.foldl_cons]
      rw [ih]; simp [refKey, pasted]

theorem chars_are_tokens {pr : Chr → Bool} {s : Line} (h : ∀ c ∈ s, pr c = true ∨ c = 10 ∨ c = 13 ∨ c = 9) :
    ∀ t ∈ s.map (fun c => [c]), IsToken pr t := by
  intro t ht
  obtain ⟨c, hc, rfl⟩ := List.mem_map.1 ht
  rcases h c hc with h1 | rfl | rfl | rfl
  · exact .inr ⟨c, rfl, h1⟩
  · exact .inl (by decide)
  · exact .inl (by decide)
  · exact .inl (by decide)

theorem singles_flatten (s : Line) : (s.map (fun c => [c])).flatten = s := by
  induction s with
  | nil => rfl
  | cons c s ih => simp [ih]

theorem keys_of_chars {pr : Chr → Bool} (hp : PrOk pr) {s : Line}
    (h : ∀ c ∈ s, pr c = true ∨ c = 10 ∨ c = 13 ∨ c = 9) :
    ∀ k ∈ (s.map (fun c => [c])).filterMap keyOf,
      k ≠ .interrupt ∧ k ≠ .destroy ∧ ∀ c, k = .print c → pr c = true := by
  intro k hk
  obtain ⟨t, ht, hkt⟩ := List.mem_filterMap.1 hk
  obtain ⟨c, hc, rfl⟩ := List.mem_map.1 ht
  rcases h c hc with h1 | rfl | rfl | rfl
  · rw [keyOf_plain hp h1] at hkt
    cases hkt
    exact ⟨nofun, nofun, fun d hd => by cases hd; exact h1⟩
  · have e : keyOf [10] = some .enter := by decide
    rw [e] at hkt; cases hkt; exact ⟨nofun, nofun, fun d hd => nomatch hd⟩
  · have e : keyOf [13] = some .enter := by decide
    rw [e] at hkt; cases hkt; exact ⟨nofun, nofun, fun d hd => nomatch hd⟩
  · have e : keyOf [9] = some .tab := by decide
    rw [e] at hkt; cases hkt; exact ⟨nofun, nofun, fun d hd => nomatch hd⟩

/-- A text read at once goes into the text as it is, with line breaks for
carriage returns and four spaces for a tab. -/
theorem C174_paste_is_inserted (env : Env) (hp : PrOk env.pr) (trim : Line → Option Line) (e : Ed)
    (h : InText e.ds) (s : Line) (hl : 2 ≤ s.length) (ht : trim s = none)
    (hs : ∀ c ∈ s, env.pr c = true ∨ c = 10 ∨ c = 13 ∨ c = 9) :
    (feed env trim e s).2 = .ok ∧
      flat (feed env trim e s).1.ds = ((flat e.ds).1 ++ s.flatMap pasted, (flat e.ds).2) := by
  have htok : tokens env.pr s = s.map (fun c => [c]) := by
    have := tokens_flatten hp (s.map (fun c => [c])) (chars_are_tokens hs)
    rwa [singles_flatten] at this
  have hk := processAll_paste env hp ((s.map (fun c => [c])).filterMap keyOf) h (keys_of_chars hp hs)
  unfold feed
  rw [htok, if_neg (by simp; omega), ht]
  refine ⟨hk.1, ?_⟩
  simp only
  rw [hk.2.2.1, fold_pasted hp s hs]

/-- Printable characters typed one after another go into the text as if they were
pasted. -/
theorem C174_typed_like_pasted (env : Env) (hp : PrOk env.pr) (trim : Line → Option Line) :
    ∀ (s : Line) (e : Ed), InText e.ds → (∀ c ∈ s, env.pr c = true) →
      flat ((s.map (fun c => [c])).foldl (fun e r => (feed env trim e r).1) e).ds
        = ((flat e.ds).1 ++ s, (flat e.ds).2)
  | [], e, _, _ => by simp
  | c :: s, e, h, hs => by
    have hc := hs c (List.mem_cons_self ..)
    have hc10 : c ≠ 10 := fun he => by have := hp 10 (by simp); rw [he, this] at hc; exact absurd hc nofun
    have htok : tokens env.pr [c] = [[c]] := by
      have := tokens_flatten hp [[c]] (by simp only [List.mem_singleton]; rintro t rfl; exact .inr ⟨c, rfl, hc⟩)
      simpa using this
    have hf : (feed env trim e [c]).1 = { e with ds := printDS c e.ds, modified := true } := by
      unfold feed
      rw [htok]
      simp [keyOf_plain hp hc, processAll, process, hc]
    have hd := does_of (g := printDS c) (t := fun t => refKey t (.print c)) h (fun z hz => key_print hz hc10)
    have ih := C174_typed_like_pasted env hp trim s (feed env trim e [c]).1 (by rw [hf]; exact hd.inText)
      (fun x hx => hs x (List.mem_cons_of_mem _ hx))
    simp only [List.map_cons, List.foldl_cons]
    rw [ih, hf]
    simp only [hd.flat_eq]
    simp [refKey]

theorem tokens_esc (pr : Chr → Bool) : tokens pr [27] = [] := by
  have : readTok pr [27] = 0 := by simp [readTok, keySeqs, keyTable, sub, walk]
  rw [tokens_skip _ this]; rfl

/-- A key whose characters arrive in two reads is lost, and the rest of it becomes
text: arrow left puts `[D` before the cursor. -/
theorem C174_split_read_violated (env : Env) (hp : PrOk env.pr) (h1 : env.pr 91 = true) (h2 : env.pr 68 = true)
    (e : Ed) (h : InText e.ds) :
    (flat (feed env (fun _ => none) e [27, 91, 68]).1.ds = refKey (flat e.ds) .left) ∧
    flat (feed env (fun _ => none) (feed env (fun _ => none) e [27]).1 [91, 68]).1.ds
      = ((flat e.ds).1 ++ [91, 68], (flat e.ds).2) := by
  constructor
  · have htok : tokens env.pr [27, 91, 68] = [[27, 91, 68]] := by
      have := tokens_flatten hp [[27, 91, 68]] (by
        simp only [List.mem_singleton]; rintro t rfl; exact .inl (by decide))
      simpa using this
    unfold feed
    rw [htok]
    exact C172_plain_keys env e h .left (.inl rfl)
  · have hf : (feed env (fun _ => none) e [27]).1 = e := by
      unfold feed; rw [tokens_esc env.pr]; rfl
    rw [hf]
    have := (C174_paste_is_inserted env hp (fun _ => none) e h [91, 68] (by decide) rfl (by
      simp only [List.mem_cons, List.not_mem_nil, or_false]
      rintro c (rfl | rfl)
      · exact .inl h1
      · exact .inl h2)).2
    simpa [pasted] using this

/-- A key the editor does not know becomes text: control and arrow left is
`ESC [ 1 ; 5 D`. -/
theorem C174_unknown_key_violated (env : Env) (hp : PrOk env.pr)
    (hpr : ∀ c ∈ [91, 49, 59, 53, 68], env.pr c = true) (e : Ed) (h : InText e.ds) :
    flat (feed env (fun _ => none) e [27, 91, 49, 59, 53, 68]).1.ds
      = ((flat e.ds).1 ++ [91, 49, 59, 53, 68], (flat e.ds).2) := by
  have hr : readTok env.pr [27, 91, 49, 59, 53, 68] = 0 := by
    simp [readTok, keySeqs, keyTable, sub, walk]
  have htok : tokens env.pr [27, 91, 49, 59, 53, 68] = tokens env.pr [91, 49, 59, 53, 68] := tokens_skip _ hr
  have hf : feed env (fun _ => none) e [27, 91, 49, 59, 53, 68]
      = feed env (fun _ => none) e [91, 49, 59, 53, 68] := by
    unfold feed; rw [htok]
  rw [hf]
  have := (C174_paste_is_inserted env hp (fun _ => none) e h [91, 49, 59, 53, 68] (by decide) rfl
    (fun c hc => .inl (hpr c hc))).2
  simpa [pasted] using this

/-! ### C175: completion -/

/-- What a word is completed to is the longest common beginning of the names it
begins; it is longer than the word. -/
theorem C175_longest_common_prefix (names : List Line) (s p : Line) (h : commonPrefix names s = some p) :
    (∃ m ∈ names, s <+: m ∧ m ≠ s) ∧ (∀ m ∈ names, s <+: m → m ≠ s → p <+: m) ∧
      (∀ q : Line, (∀ m ∈ names, s <+: m → m ≠ s → q <+: m) → q <+: p) ∧ s <+: p ∧ p ≠ s := by
  obtain ⟨⟨m, hm⟩, h2, h3, h4⟩ := commonPrefix_some h
  exact ⟨⟨m, hm⟩, fun m a b c => h2 m ⟨a, b, c⟩, fun q hq => h3 q (fun m hm => hq m hm.1 hm.2.1 hm.2.2), h4⟩

/-- A word is not completed only if no name begins with it, or if the names which
do have nothing more in common. -/
theorem C175_not_completed (names : List Line) (s : Line) (h : commonPrefix names s = none) :
    (∀ m ∈ names, s <+: m → m = s) ∨
      ∀ q : Line, (∀ m ∈ names, s <+: m → m ≠ s → q <+: m) → q <+: s := by
  rcases commonPrefix_none h with h1 | ⟨_, h1⟩
  · left
    intro m hm hs
    exact Classical.byContradiction fun hne => h1 ⟨m, hm, hs, hne⟩
  · right
    exact fun q hq => h1 q (fun m hm => hq m hm.1 hm.2.1 hm.2.2)

/-- The order in which the names are found, and finding one twice, do not matter. -/
theorem C175_any_order (n1 n2 : List Line) (s : Line) (h : ∀ m, m ∈ n1 ↔ m ∈ n2) :
    commonPrefix n1 s = commonPrefix n2 s := commonPrefix_congr s h

/-- A tab which completes adds to the text before the cursor what makes the word
before it the longest common beginning. -/
theorem C175_tab_completes (env : Env) (e : Ed) (h : InText e.ds) (w p : Line)
    (hw : identAt env (lineBefore (flat e.ds).1 ++ lineAfter (flat e.ds).2) (lineBefore (flat e.ds).1).length = some w)
    (hp : commonPrefix env.names w = some p) :
    ∃ a, w ++ a = p ∧ (∃ q, lineBefore (flat e.ds).1 = q ++ w) ∧
      flat (process env true e .tab).1.ds = ((flat e.ds).1 ++ a, (flat e.ds).2) := by
  obtain ⟨⟨pre, x, y, post⟩, hz, heq⟩ := (inText_iff e.ds).1 h
  rw [heq, flat_z] at hw ⊢
  simp only [(before_cut hz.x pre).2, (after_cut hz.y post).1] at hw ⊢
  obtain ⟨_, _, _, hpre, _⟩ := commonPrefix_some hp
  obtain ⟨⟨q, hq, _⟩, _⟩ := identAt_suffix hw
  refine ⟨p.drop w.length, ?_, ⟨q, hq⟩, ?_⟩
  · obtain ⟨t, ht⟩ := hpre
    rw [← ht, List.drop_left' rfl]
  · have hc : completion env x y = some (some (p.drop w.length)) := by simp [completion, hw, hp]
    simp only [process]
    rw [heq, tab_auto, hc]
    simp only
    rw [flat_z]; simp

/-! ### C176: the history -/

/-- Going back shows the nearest earlier entry which differs from what is shown;
nothing only if there is none. -/
theorem C176_back_is_nearest (h : Hist) :
    (∀ b, h.prev.2 = some b → h.prev.1.pos < h.pos ∧ h.at_ h.prev.1.pos = some b ∧ some b ≠ h.at_ h.pos ∧
      ∀ j, h.prev.1.pos < j → j < h.pos → h.at_ j = none ∨ h.at_ j = h.at_ h.pos) ∧
    (h.prev.2 = none → ∀ j, j < h.pos → h.at_ j = none ∨ h.at_ j = h.at_ h.pos) := by
  have hs := prevLoop_spec h (h.at_ h.pos) h.pos
  exact ⟨hs.1, fun hn => (hs.2 hn).2⟩

/-- Going forward likewise, up to the newest. -/
theorem C176_forward_is_nearest (h : Hist) :
    (∀ b, h.next.2 = some b → h.pos < h.next.1.pos ∧ h.at_ h.next.1.pos = some b ∧ some b ≠ h.at_ h.pos ∧
      ∀ j, h.pos < j → j < h.next.1.pos → h.at_ j = none ∨ h.at_ j = h.at_ h.pos) ∧
    (h.next.2 = none → ∀ j, h.pos < j → j ≤ h.size + 1 → h.at_ j = none ∨ h.at_ j = h.at_ h.pos) := by
  have hs := nextLoop_spec h (h.at_ h.pos) (h.size + 1 - h.pos) h.pos
  refine ⟨fun b hb => ?_, fun hn j h1 h2 => (hs.2 hn).2 j h1 (by omega)⟩
  obtain ⟨a1, _, a2, a3, a4⟩ := hs.1 b hb
  exact ⟨a1, a2, a3, a4⟩

theorem next_at (h : Hist) (p : Nat) :
    ({ h with pos := p } : Hist).next.2 = (nextLoop h (h.at_ p) (h.size + 1 - p) p).2 := by
  simp only [Hist.next]
  rw [at_pos]
  have : ∀ cur f k, nextLoop { h with pos := p } cur f k = nextLoop h cur f k := by
    intro cur f
    induction f with
    | zero => intro k; rfl
    | succ f ih => intro k; simp only [nextLoop, at_pos, ih]
  rw [this]

theorem prevLoop_pos (h : Hist) (p : Nat) (cur) (k : Nat) :
    prevLoop { h with pos := p } cur k = prevLoop h cur k := by
  induction k with
  | zero => rfl
  | succ k ih => simp only [prevLoop, at_pos, ih]

theorem prev_at (h : Hist) (p : Nat) :
    ({ h with pos := p } : Hist).prev.2 = (prevLoop h (h.at_ p) p).2 := by
  simp only [Hist.prev]
  rw [at_pos, prevLoop_pos]

/-- Going back from a shown entry and forward again shows it again. -/
theorem C176_back_and_forward (h : Hist) (hb : Bounded h) (b : List Line) (hs : h.at_ h.pos = some b) :
    h.prev.1.next.2 = some b := by
  have hpos : h.pos ≤ h.size + 1 := by
    cases hp : h.pos with
    | zero => omega
    | succ i =>
      rw [hp] at hs
      apply Classical.byContradiction
      intro hgt
      have := hb i (by omega)
      have hs : h.elems i = some b := hs
      rw [hs] at this; exact absurd this nofun
  have hspec := prevLoop_spec h (h.at_ h.pos) h.pos
  have e1 : h.prev.1.next.2 = (nextLoop h (h.at_ h.prev.1.pos) (h.size + 1 - h.prev.1.pos) h.prev.1.pos).2 :=
    next_at h h.prev.1.pos
  have hlt : h.prev.1.pos < h.pos ∧ h.at_ h.prev.1.pos ≠ some b ∧
      ∀ j, h.prev.1.pos < j → j < h.pos → h.at_ j = none ∨ h.at_ j = some b := by
    cases hr : h.prev.2 with
    | some c =>
      obtain ⟨a1, a2, a3, a4⟩ := hspec.1 c hr
      rw [hs] at a3
      refine ⟨a1, ?_, fun j x y => by have := a4 j x y; rwa [hs] at this⟩
      show h.at_ (prevLoop h (h.at_ h.pos) h.pos).1 ≠ some b
      rw [a2]; exact a3
    | none =>
      obtain ⟨a1, a2⟩ := hspec.2 hr
      rw [hs] at a2
      have hp0 : h.prev.1.pos = 0 := a1
      refine ⟨?_, by rw [hp0]; exact nofun, fun j _ h2 => a2 j h2⟩
      rw [hp0]
      cases hp : h.pos with
      | zero => rw [hp] at hs; exact absurd hs nofun
      | succ i => omega
  obtain ⟨g1, g2, g3⟩ := hlt
  rw [e1]
  generalize h.prev.1.pos = p at g1 g2 g3
  have hn := nextLoop_spec h (h.at_ p) (h.size + 1 - p) p
  cases hr : (nextLoop h (h.at_ p) (h.size + 1 - p) p).2 with
  | none =>
    exfalso
    rcases (hn.2 hr).2 h.pos g1 (by omega) with h1 | h1
    · rw [hs] at h1; exact absurd h1 nofun
    · rw [hs] at h1; exact g2 h1.symm
  | some c =>
    obtain ⟨a1, _, a2, a3, a4⟩ := hn.1 c hr
    generalize (nextLoop h (h.at_ p) (h.size + 1 - p) p).1 = q at a1 a2 a4
    rcases Nat.lt_trichotomy q h.pos with hq | hq | hq
    · rcases g3 q a1 hq with h1 | h1
      · rw [a2] at h1; exact absurd h1 nofun
      · rw [← a2, h1]
    · rw [← a2, hq, hs]
    · exfalso
      rcases a4 h.pos g1 hq with h1 | h1
      · rw [hs] at h1; exact absurd h1 nofun
      · rw [hs] at h1; exact g2 h1.symm

/-- Going forward from a shown entry to another and back again shows it again. -/
theorem C176_forward_and_back_partial (h : Hist) (b c : List Line) (hs : h.at_ h.pos = some b)
    (hc : h.next.2 = some c) : h.next.1.prev.2 = some b := by
  have hspec := nextLoop_spec h (h.at_ h.pos) (h.size + 1 - h.pos) h.pos
  have e1 : h.next.1.prev.2 = (prevLoop h (h.at_ h.next.1.pos) h.next.1.pos).2 := prev_at h h.next.1.pos
  obtain ⟨a1, _, a2, a3, a4⟩ := hspec.1 c hc
  change h.pos < h.next.1.pos at a1
  change h.at_ h.next.1.pos = some c at a2
  change ∀ j, h.pos < j → j < h.next.1.pos → _ at a4
  rw [hs] at a3 a4
  rw [e1]
  generalize h.next.1.pos = p at a1 a2 a4
  have hn := prevLoop_spec h (h.at_ p) p
  cases hr : (prevLoop h (h.at_ p) p).2 with
  | none =>
    exfalso
    rcases (hn.2 hr).2 h.pos a1 with h1 | h1
    · rw [hs] at h1; exact absurd h1 nofun
    · rw [hs, a2] at h1; exact a3 h1.symm
  | some d =>
    obtain ⟨b1, b2, b3, b4⟩ := hn.1 d hr
    generalize (prevLoop h (h.at_ p) p).1 = q at b1 b2 b4
    rcases Nat.lt_trichotomy q h.pos with hq | hq | hq
    · exfalso
      rcases b4 h.pos hq a1 with h1 | h1
      · rw [hs] at h1; exact absurd h1 nofun
      · rw [hs, a2] at h1; exact a3 h1.symm
    · rw [← b2, hq, hs]
    · rcases a4 q hq b1 with h1 | h1
      · rw [b2] at h1; exact absurd h1 nofun
      · rw [← b2, h1]

/-- From a new input: back shows the newest entry, forward shows nothing, and back
again does not show the newest entry any more. -/
theorem C176_newest_skipped_violated (h : Hist) (hb : Bounded h) (hp : h.pos = h.size + 2) (b : List Line)
    (hs : h.elems h.size = some b) :
    h.prev.2 = some b ∧ h.prev.1.next.2 = none ∧ h.prev.1.next.1.prev.2 ≠ some b := by
  have hat : h.at_ h.pos = none := by rw [hp]; exact hb _ (by omega)
  have hat1 : h.at_ (h.size + 1) = some b := hs
  have e1 : prevLoop h (h.at_ h.pos) h.pos = (h.size + 1, some b) := by
    rw [hat, hp]; simp only [prevLoop, hat1]; rw [if_neg nofun]
  have p1 : h.prev = ({ h with pos := h.size + 1 }, some b) := by simp only [Hist.prev, e1]
  have p2 : ({ h with pos := h.size + 1 } : Hist).next = ({ h with pos := h.size + 1 }, none) := by
    simp [Hist.next, nextLoop]
  refine ⟨by rw [p1], by rw [p1]; simp only; rw [p2], ?_⟩
  rw [p1]; simp only; rw [p2]; simp only; rw [prev_at, hat1]
  intro hr
  exact ((prevLoop_spec h (some b) (h.size + 1)).1 b hr).2.2.1 rfl

/-- The entries with a smaller number, newest first. -/
def newestFirst (elems : Nat → Option (List Line)) : Nat → List (List Line)
  | 0 => []
  | n + 1 => (elems n).toList ++ newestFirst elems n

/-- Entries which equal the one shown before them are left out. -/
def squash : Option (List Line) → List (List Line) → List (List Line)
  | _, [] => []
  | p, b :: r => if some b = p then squash p r else b :: squash (some b) r

/-- What going back again and again shows. -/
def walkBack : Nat → Hist → List (List Line)
  | 0, _ => []
  | f + 1, h =>
    match h.prev.2 with
    | none => []
    | some b => b :: walkBack f h.prev.1

theorem prevLoop_squash (h : Hist) (cur : Option (List Line)) : ∀ k,
    match prevLoop h cur (k + 1) with
    | (_, none) => squash cur (newestFirst h.elems k) = []
    | (q, some b) => ∃ i, q = i + 1 ∧ h.elems i = some b ∧ i < k ∧
        squash cur (newestFirst h.elems k) = b :: squash (some b) (newestFirst h.elems i)
  | 0 => by simp [prevLoop, Hist.at_, newestFirst, squash]
  | k + 1 => by
    have ih := prevLoop_squash h cur k
    have hk : h.at_ (k + 1) = h.elems k := rfl
    rw [prevLoop, hk]
    cases he : h.elems k with
    | none =>
      simp only [newestFirst, he, Option.toList_none, List.nil_append]
      split
      · next heq => rw [heq] at ih; exact ih
      · next q b heq =>
        rw [heq] at ih
        obtain ⟨i, h1, h2, h3, h4⟩ := ih
        exact ⟨i, h1, h2, by omega, h4⟩
    | some b =>
      simp only [newestFirst, he, Option.toList_some, List.singleton_append, squash]
      by_cases hc : some b = cur
      · rw [if_pos hc, if_pos hc]
        split
        · next heq => rw [heq] at ih; exact ih
        · next q b heq =>
          rw [heq] at ih
          obtain ⟨i, h1, h2, h3, h4⟩ := ih
          exact ⟨i, h1, h2, by omega, h4⟩
      · rw [if_neg hc, if_neg hc]
        exact ⟨k, rfl, he, by omega, rfl⟩

theorem walkBack_from (h : Hist) : ∀ (f k : Nat), k < f →
    walkBack f { h with pos := k + 1 } = squash (h.elems k) (newestFirst h.elems k)
  | 0, k, hk => by omega
  | f + 1, k, hk => by
    have hl := prevLoop_squash h (h.elems k) k
    have e : ({ h with pos := k + 1 } : Hist).prev
        = ({ h with pos := (prevLoop h (h.elems k) (k + 1)).1 }, (prevLoop h (h.elems k) (k + 1)).2) := by
      simp only [Hist.prev, at_pos, prevLoop_pos]; rfl
    simp only [walkBack, e]
    cases hp : prevLoop h (h.elems k) (k + 1) with
    | mk q o =>
      rw [hp] at hl
      cases o with
      | none => exact hl.symm
      | some b =>
        obtain ⟨i, h1, h2, h3, h4⟩ := hl
        simp only
        rw [h4, h1, walkBack_from h f i (by omega), h2]

/-- From a new input, going back again and again shows every entry, newest first,
but those equal to the one shown before. -/
theorem C176_walk_shows_every_entry (l : List (Nat × Option (List Line))) (hg : Growing 0 l) :
    let h := adds Hist.empty l
    walkBack (h.size + 2) h.reset = squash none (newestFirst h.elems (h.size + 1)) := by
  intro h
  have hb : Bounded h := adds_bounded l _ 0 (fun _ _ => rfl) (Nat.le_refl _) hg
  have := walkBack_from h (h.size + 2) (h.size + 1) (by omega)
  rw [hb (h.size + 1) (by omega)] at this
  exact this

/-! ### C177: edits are not replaced by the history -/

/-- As long as no tab is pressed which changes nothing after an edit: an editor
whose text is not the one it was given, and not blank, is not replaced by up or
down. -/
theorem C177_edits_kept_partial (env : Env) (e : Ed) (ks : List Key) :
    let g0 : Given := ⟨e, e.ds.buf⟩
    let g := ks.foldl (Given.key env) g0
    GoodKeys env g0 ks → g.ed.ds.buf ≠ g.given → isEmpty g.ed.ds.buf = false →
      (process env true g.ed .up).1.ds.buf = g.ed.ds.buf ∧ (process env true g.ed .down).1.ds.buf = g.ed.ds.buf := by
  intro g0 g hk hne hblank
  have hkn : Known g := keys_known env ks (g := g0) (fun _ => rfl) hk
  have hmod : g.ed.modified = true := by
    cases hmg : g.ed.modified with
    | true => rfl
    | false => exact absurd (hkn hmg) hne
  have key : ∀ f, moveHist f g.ed = none := by
    intro f
    cases hf : moveHist f g.ed with
    | none => rfl
    | some e' =>
      exfalso
      obtain ⟨_, _, h3, _⟩ := moveHist_some hf
      rcases h3 with h3 | h3
      · rw [h3] at hmod; exact absurd hmod nofun
      · rw [h3] at hblank; exact absurd hblank nofun
  simp only [process, if_true, key]
  rw [apply_ds, apply_ds]
  constructor
  · cases hu : upDS g.ed.ds with
    | none => rfl
    | some d => exact up_buf hu
  · cases hu : downDS g.ed.ds with
    | none => rfl
    | some d => exact down_buf hu

/-- The text an editor is given by the history is an entry of it, or blank. -/
theorem C177_given_by_the_history (f : Hist → Hist × Option (List Line)) (hf : f = Hist.prev ∨ f = Hist.next)
    (e e' : Ed) (h : moveHist f e = some e') : (∃ i, e.hist.elems i = some e'.ds.buf) ∨ e'.ds.buf = [[]] := by
  obtain ⟨_, _, _, hd, _⟩ := moveHist_some h
  rw [hd]
  cases hb : (f e.hist).2 with
  | none => right; rfl
  | some b =>
    left
    rcases hf with rfl | rfl
    · exact prev_mem hb
    · exact next_mem hb

/-- An environment of the examples: printable are the visible characters and the
space, names consist of small letters. -/
def exEnv (names : List Line) : Env :=
  ⟨fun c => decide (32 ≤ c) && decide (c < 127), fun c => c == 32,
   fun l => l.all (fun c => decide (97 ≤ c) && decide (c ≤ 122)), names, fun _ => none, fun _ _ _ => false⟩

/-- A history with one entry, `x`. -/
def exHist : Hist := adds Hist.empty [(0, some [[120]])]

def exEd : Ed := ⟨⟨[[]], 0, 0⟩, false, exHist, true⟩

/-- `ab`, a tab which completes nothing, home, up: what was typed is gone, `x` is
shown. -/
theorem C177_edits_lost_violated :
    let reads : List Line := [[97], [98], [9], [27, 91, 72]]
    let e := reads.foldl (fun e s => (feed (exEnv []) (fun _ => none) e s).1) exEd
    e.ds.buf = [[97, 98]] ∧ isEmpty e.ds.buf = false ∧
      (feed (exEnv []) (fun _ => none) e [27, 91, 65]).1.ds.buf = [[120]] := by
  decide +kernel

/-! ### Examples -/

theorem exEnv_pr (names) : PrOk (exEnv names).pr := by
  intro c hc
  simp only [List.mem_cons, List.not_mem_nil, or_false] at hc
  rcases hc with h | h | h | h | h | h | h <;> subst h <;> rfl

-- C171: `ab⏎c`, up, delete, print `z`: `a` is before the cursor ...
example : flat (processAll (exEnv []) false exEd
    [.print 97, .print 98, .enter, .print 99, .up, .delRight, .print 122]).1.ds = ([97, 122], [10, 99]) := by
  decide +kernel

example : InText exEd.ds ∧ HistOk exEd.hist := by
  refine ⟨by simp [exEd, InText, Broken], ?_⟩
  intro i b h
  simp only [exEd, exHist, adds, Hist.add, Hist.empty] at h
  split at h
  · cases h; simp [Broken]
  · exact absurd h nofun

-- C172: after `if:` a new line begins with four spaces, a tab goes to eight, a back tab to four
example : flat (process (exEnv []) true ⟨⟨[[105, 102, 58]], 0, 3⟩, false, exHist, true⟩ .enter).1.ds
    = ([105, 102, 58, 10, 32, 32, 32, 32], []) := by decide +kernel

example : flat (process (exEnv []) true ⟨⟨[[32, 32, 32, 32, 32, 97]], 0, 4⟩, false, exHist, true⟩ .tab).1.ds
    = ([32, 32, 32, 32, 32, 32, 32, 32], [97]) := by decide +kernel

example : flat (process (exEnv []) true ⟨⟨[[32, 32, 32, 32, 32, 97]], 0, 2⟩, false, exHist, true⟩ .backTab).1.ds
    = ([32], [32, 32, 32, 97]) := by decide +kernel

-- C174: a paste of two lines with a tab
example : flat (feed (exEnv []) (fun _ => none) exEd [97, 13, 9, 98]).1.ds
    = ([97, 10, 32, 32, 32, 32, 98], []) := by decide +kernel

-- C175: `pr` is completed to `prin` if the names are `print` and `prince`
example : commonPrefix [[112, 114, 105, 110, 116], [97], [112, 114, 105, 110, 99, 101]] [112, 114]
    = some [112, 114, 105, 110] := by decide +kernel

-- C176: three inputs, two equal, one not kept
example : walkBack 6 (adds Hist.empty [(0, some [[97]]), (1, some [[98]]), (2, none), (3, some [[98]])]).reset
    = [[[98]], [[97]]] := by decide +kernel

example : Growing 0 [(0, some [[97]]), (1, some [[98]]), (2, none), (3, some [[98]])] := by
  simp [Growing]

-- C177: without the tab the text is kept
example : GoodKeys (exEnv []) ⟨exEd, exEd.ds.buf⟩ [.print 97, .print 98, .home] := by
  simp [GoodKeys, GoodKey]

example : (([.print 97, .print 98, .home] : List Key).foldl (Given.key (exEnv [])) ⟨exEd, exEd.ds.buf⟩).ed.ds.buf
    = [[97, 98]] := by decide +kernel

end Verif.Editor
