import Verif.Weak.Value

namespace Verif.Weak

set_option linter.unusedSectionVars false

variable {K : Type} [DecidableEq K]

structure VInv (weakable : Nat → Bool) (d : VDict K) : Prop where
  nodup : (d.entries.map Prod.fst).Nodup
  strong : ∀ e ∈ d.entries, ∀ o, e.2 = .strong o → weakable o = false
  hashers : ∀ p ∈ d.pending, ∃ r k, p = .hasher r k

theorem find_mem : ∀ (es : List (K × Slot)), (es.map Prod.fst).Nodup → ∀ (k : K) (s : Slot),
    ((es.find? fun e => e.1 == k).map Prod.snd = some s ↔ (k, s) ∈ es)
  | [], _, k, s => by simp
  | e :: es, hn, k, s => by
    rw [List.map_cons] at hn
    have hn' := List.nodup_cons.1 hn
    have ih := find_mem es hn'.2 k s
    by_cases h : e.1 = k
    · rw [List.find?_cons_of_pos (by simp [h]), Option.map_some, List.mem_cons]
      constructor
      · intro hs
        left
        rw [← h, ← Option.some.inj hs]
      · rintro (hs | hs)
        · rw [← hs]
        · exact absurd (List.mem_map_of_mem (f := Prod.fst) hs) (by rw [← h]; exact hn'.1)
    · rw [List.find?_cons_of_neg (by simp [h]), ih, List.mem_cons]
      constructor
      · exact Or.inr
      · rintro (hs | hs)
        · exact absurd (by rw [← hs]) h
        · exact hs

theorem VInv.slot {weakable : Nat → Bool} {d : VDict K} (h : VInv weakable d) (k : K) (s : Slot) :
    d.slot k = some s ↔ (k, s) ∈ d.entries := find_mem d.entries h.nodup k s

theorem slot_erase (d : VDict K) (k k' : K) : (d.erase k).slot k' = if k' = k then none else d.slot k' := by
  unfold VDict.slot VDict.erase
  rw [List.find?_filter]
  by_cases h : k' = k
  · rw [if_pos h, List.find?_eq_none.2 (fun e _ => by simp [h])]; rfl
  · rw [if_neg h]
    congr 2
    funext e
    by_cases he : e.1 = k'
    · simp [he, h]
    · simp [he]

theorem slot_none (d : VDict K) (k : K) : d.slot k = none ↔ d.entries.any (fun e => e.1 == k) = false := by
  unfold VDict.slot
  rw [Option.map_eq_none_iff, List.find?_eq_none]
  simp

theorem find_map (k k' : K) (s : Slot) : ∀ (es : List (K × Slot)),
    ((es.map (fun e => if e.1 == k then (k, s) else e)).find? fun e => e.1 == k').map Prod.snd =
      if k' = k ∧ es.any (fun e => e.1 == k) then some s
      else if k' = k then none else (es.find? fun e => e.1 == k').map Prod.snd
  | [] => by simp
  | e :: es => by
    have ih := find_map k k' s es
    rw [List.map_cons]
    by_cases h : e.1 = k
    · by_cases hk : k' = k
      · simp [h, hk]
      · rw [List.find?_cons_of_neg (by simp [h]; exact fun x => hk x.symm), ih,
          List.find?_cons_of_neg (by simp [h]; exact fun x => hk x.symm)]
        simp [hk]
    · by_cases hk : k' = k
      · subst hk
        have hb : (e.1 == k') = false := by simpa using h
        rw [List.find?_cons_of_neg (by simp [h]), ih, List.any_cons, hb, Bool.false_or]
        simp
      · by_cases he : e.1 = k'
        · rw [List.find?_cons_of_pos (by simp [he, hk]), List.find?_cons_of_pos (by simp [he])]
          simp [h, hk]
        · rw [List.find?_cons_of_neg (by simp [h, he]), ih, List.find?_cons_of_neg (by simp [he])]
          simp [hk]

theorem slot_store (d : VDict K) (k k' : K) (s : Slot) :
    (d.store k s).slot k' = if k' = k then some s else d.slot k' := by
  unfold VDict.store
  split
  · next h =>
    show ((d.entries.map (fun e => if e.1 == k then (k, s) else e)).find? fun e => e.1 == k').map Prod.snd = _
    rw [find_map]
    by_cases hk : k' = k
    · simp [hk, h]
    · simp [hk]; rfl
  · next h =>
    have hn : d.slot k = none := (slot_none d k).2 (Bool.eq_false_iff.2 h)
    show ((d.entries ++ [(k, s)]).find? fun e => e.1 == k').map Prod.snd = _
    rw [List.find?_append]
    by_cases hk : k' = k
    · subst hk
      have : (d.entries.find? fun e => e.1 == k') = none := by
        unfold VDict.slot at hn
        exact Option.map_eq_none_iff.1 hn
      rw [this]; simp
    · rw [if_neg hk]
      unfold VDict.slot
      rw [List.find?_cons_of_neg (by simpa using fun x => hk x.symm)]
      simp

theorem store_keys (d : VDict K) (k : K) (s : Slot) :
    (d.store k s).entries.map Prod.fst = d.entries.map Prod.fst ∨
      ((d.store k s).entries.map Prod.fst = d.entries.map Prod.fst ++ [k] ∧ k ∉ d.entries.map Prod.fst) := by
  unfold VDict.store
  split
  · left
    show (d.entries.map _).map Prod.fst = _
    rw [List.map_map]
    refine List.map_congr_left (fun e _ => ?_)
    by_cases he : e.1 = k
    · simp [he]
    · simp [he]
  · next h =>
    right
    refine ⟨by simp, fun hk => h ?_⟩
    obtain ⟨e, he, hek⟩ := List.mem_map.1 hk
    exact List.any_eq_true.2 ⟨e, he, by simp [hek]⟩

theorem store_mem (d : VDict K) (k : K) (s : Slot) {e : K × Slot} (h : e ∈ (d.store k s).entries) :
    e ∈ d.entries ∨ e = (k, s) := by
  unfold VDict.store at h
  split at h
  · obtain ⟨x, hx, hxe⟩ := List.mem_map.1 h
    by_cases hk : x.1 = k
    · right; rw [← hxe]; simp [hk]
    · left; rw [← hxe]; simpa [hk] using hx
  · rcases List.mem_append.1 h with h | h
    · exact Or.inl h
    · exact Or.inr (List.mem_singleton.1 h)

theorem store_fields (d : VDict K) (k : K) (s : Slot) :
    (d.store k s).pending = d.pending ∧ (d.store k s).dead = d.dead ∧ (d.store k s).iterating = d.iterating := by
  unfold VDict.store; split <;> exact ⟨rfl, rfl, rfl⟩

theorem VInv.store {weakable : Nat → Bool} {d : VDict K} (h : VInv weakable d) (k : K) (s : Slot)
    (hs : ∀ o, s = .strong o → weakable o = false) : VInv weakable (d.store k s) := by
  refine ⟨?_, fun e he o ho => ?_, fun p hp => h.hashers p ((store_fields d k s).1 ▸ hp)⟩
  · rcases store_keys d k s with e | ⟨e, hk⟩ <;> rw [e]
    · exact h.nodup
    · rw [List.nodup_append]
      refine ⟨h.nodup, by simp, fun a ha b hb => ?_⟩
      rw [List.mem_singleton.1 hb]
      exact fun e => hk (e ▸ ha)
  · rcases store_mem d k s he with h1 | h1
    · exact h.strong e h1 o ho
    · subst h1; exact hs o ho

theorem VInv.sub {weakable : Nat → Bool} {d : VDict K} (h : VInv weakable d) {es : List (K × Slot)}
    (hs : es.Sublist d.entries) : VInv weakable { d with entries := es } :=
  ⟨(hs.map Prod.fst).nodup h.nodup, fun e he => h.strong e (hs.subset he), h.hashers⟩

theorem VInv.erase {weakable : Nat → Bool} {d : VDict K} (h : VInv weakable d) (k : K) : VInv weakable (d.erase k) :=
  h.sub List.filter_sublist

theorem VInv.addPending {weakable : Nat → Bool} {d : VDict K} (h : VInv weakable d) (r : Ref) (k : K) :
    VInv weakable (d.addPending r k) := by
  unfold VDict.addPending
  split
  · exact h
  · refine ⟨h.nodup, h.strong, fun p hp => ?_⟩
    rcases List.mem_append.1 hp with hp | hp
    · exact h.hashers p hp
    · exact ⟨r, k, List.mem_singleton.1 hp⟩

theorem vaddPending_fields (d : VDict K) (r : Ref) (k : K) : (d.addPending r k).entries = d.entries ∧
    (d.addPending r k).dead = d.dead ∧ (d.addPending r k).iterating = d.iterating := by
  unfold VDict.addPending; split <;> exact ⟨rfl, rfl, rfl⟩

/-- The end of an iteration removes nothing. -/
theorem commitOne_hasher (d : VDict K) {p : Pend K} (h : ∃ r k, p = .hasher r k) : d.commitOne p = d := by
  obtain ⟨r, k, rfl⟩ := h
  unfold VDict.commitOne
  split <;> simp [Pend.is]

theorem commits_hashers : ∀ (ps : List (Pend K)) (d : VDict K), (∀ p ∈ ps, ∃ r k, p = .hasher r k) →
    ps.foldl VDict.commitOne d = d
  | [], _, _ => rfl
  | p :: ps, d, h => by
    rw [List.foldl_cons, commitOne_hasher d (h p (by simp))]
    exact commits_hashers ps d (fun q hq => h q (List.mem_cons_of_mem _ hq))

theorem vcommit_eq {weakable : Nat → Bool} {d : VDict K} (h : VInv weakable d) (order : POrder K) :
    d.commit order = if d.iterating > 0 then d else { d with pending := [] } := by
  unfold VDict.commit
  split
  · rfl
  · exact commits_hashers _ _ (fun p hp => h.hashers p ((order.perm _).mem_iff.1 hp))

theorem VInv.clearPending {weakable : Nat → Bool} {d : VDict K} (h : VInv weakable d) :
    VInv weakable { d with pending := [] } := ⟨h.nodup, h.strong, by simp⟩

theorem vnotes (weakable : Nat → Bool) : ∀ (rs : List (Ref × K)) (d : VDict K), VInv weakable d →
    VInv weakable (rs.foldl (fun d x => d.addPending x.1 x.2) d) ∧
      (rs.foldl (fun d x => d.addPending x.1 x.2) d).entries = d.entries ∧
      (rs.foldl (fun d x => d.addPending x.1 x.2) d).dead = d.dead ∧
      (rs.foldl (fun d x => d.addPending x.1 x.2) d).iterating = d.iterating
  | [], _, h => ⟨h, rfl, rfl, rfl⟩
  | x :: rs, d, h => by
    rw [List.foldl_cons]
    obtain ⟨a, b, c, e⟩ := vnotes weakable rs (d.addPending x.1 x.2) (h.addPending _ _)
    obtain ⟨f1, f2, f3⟩ := vaddPending_fields d x.1 x.2
    exact ⟨a, b.trans f1, c.trans f2, e.trans f3⟩

theorem verases (weakable : Nat → Bool) : ∀ (rs : List (Ref × K)) (d : VDict K), VInv weakable d →
    VInv weakable (rs.foldl (fun d x => d.erase x.2) d) ∧
      (∀ k, (rs.foldl (fun d x => d.erase x.2) d).slot k = if k ∈ rs.map Prod.snd then none else d.slot k) ∧
      (rs.foldl (fun d x => d.erase x.2) d).dead = d.dead ∧
      (rs.foldl (fun d x => d.erase x.2) d).pending = d.pending ∧
      (rs.foldl (fun d x => d.erase x.2) d).iterating = d.iterating ∧
      (rs.foldl (fun d x => d.erase x.2) d).entries = d.entries.filter (fun e => decide (e.1 ∉ rs.map Prod.snd))
  | [], d, h => ⟨h, by simp, rfl, rfl, rfl, (List.filter_eq_self.2 (by simp)).symm⟩
  | x :: rs, d, h => by
    rw [List.foldl_cons]
    obtain ⟨a, b, c, e, f, g⟩ := verases weakable rs (d.erase x.2) (h.erase _)
    refine ⟨a, fun k => ?_, c, e, f, ?_⟩
    · rw [b, slot_erase]
      by_cases h1 : k ∈ rs.map Prod.snd
      · rw [if_pos h1, if_pos (by simp only [List.map_cons, List.mem_cons]; exact Or.inr h1)]
      · rw [if_neg h1]
        by_cases h2 : k = x.2
        · rw [if_pos h2, if_pos (by simp [h2])]
        · rw [if_neg h2, if_neg]
          simp only [List.map_cons, List.mem_cons]
          rintro (h | h)
          · exact h2 h
          · exact h1 h
    · rw [g]
      show (d.entries.filter _).filter _ = _
      rw [List.filter_filter]
      refine List.filter_congr (fun y _ => ?_)
      by_cases h1 : y.1 ∈ rs.map Prod.snd
      · simp [h1]
      · by_cases h2 : y.1 = x.2
        · simp [h2]
        · simp only [List.map_cons, List.mem_cons]
          simp [h1, h2]

theorem vcallbacks_iterating : ∀ (rs : List (Ref × K)) (d : VDict K), d.iterating > 0 →
    rs.foldl (fun d x => d.callback x.1 x.2) d = rs.foldl (fun d x => d.addPending x.1 x.2) d
  | [], _, _ => rfl
  | x :: rs, d, h => by
    rw [List.foldl_cons, List.foldl_cons]
    have : d.callback x.1 x.2 = d.addPending x.1 x.2 := by simp only [VDict.callback, if_pos h]
    rw [this]
    exact vcallbacks_iterating rs _ (by rw [(vaddPending_fields d x.1 x.2).2.2]; exact h)

theorem vcallbacks_idle : ∀ (rs : List (Ref × K)) (d : VDict K), d.iterating = 0 →
    rs.foldl (fun d x => d.callback x.1 x.2) d = rs.foldl (fun d x => d.erase x.2) d
  | [], _, _ => rfl
  | x :: rs, d, h => by
    rw [List.foldl_cons, List.foldl_cons]
    have : d.callback x.1 x.2 = d.erase x.2 := by
      simp only [VDict.callback, if_neg (by omega : ¬d.iterating > 0)]
    rw [this]
    exact vcallbacks_idle rs _ h

theorem mem_refsTo {d : VDict K} {o : Nat} {k : K} :
    k ∈ (d.refsTo o).map Prod.snd ↔ ∃ r, (k, Slot.weak r) ∈ d.entries ∧ r.target = o := by
  unfold VDict.refsTo
  rw [List.mem_map]
  constructor
  · rintro ⟨x, hx, rfl⟩
    obtain ⟨e, he, hm⟩ := List.mem_filterMap.1 hx
    obtain ⟨k, s⟩ := e
    cases s with
    | strong o => cases hm
    | weak r =>
      by_cases hr : r.target = o
      · simp only [hr, if_true, Option.some.injEq] at hm
        exact ⟨r, by rw [← hm]; exact he, hr⟩
      · simp [hr] at hm
  · rintro ⟨r, he, hr⟩
    exact ⟨(r, k), List.mem_filterMap.2 ⟨_, he, by simp [hr]⟩, rfl⟩

theorem vlive_iff (d : VDict K) (o : Nat) : d.live o = true ↔ o ∉ d.dead := by simp [VDict.live]

theorem vlive_kill (d : VDict K) (o x : Nat) :
    ({ d with dead := o :: d.dead } : VDict K).live x = (d.live x && x != o) := by
  simp only [VDict.live, List.contains_cons, Bool.not_or, Bool.and_comm, bne]

theorem read_congr {d d' : VDict K} (hd : d'.dead = d.dead) : d'.read = d.read := by
  have hl : d'.live = d.live := by funext x; simp only [VDict.live, hd]
  funext s
  cases s with
  | strong => rfl
  | weak r => simp only [VDict.read, hl]

/-- What the dictionary gives after a death. -/
theorem read_kill (weakable : Nat → Bool) {d : VDict K} (h : VInv weakable d) {o : Nat} (ho : weakable o = true)
    (k : K) :
    ((d.slot k).bind ({ d with dead := o :: d.dead } : VDict K).read) =
      if (d.slot k).bind d.read = some o then none else (d.slot k).bind d.read := by
  cases hs : d.slot k with
  | none => simp
  | some s =>
    cases s with
    | weak r =>
      simp only [Option.bind_some, VDict.read, vlive_kill]
      by_cases hl : d.live r.target = true
      · by_cases hr : r.target = o
        · have hl' : d.live o = true := hr ▸ hl
          simp [hr, hl']
        · simp [hr, hl]
      · simp [hl]
    | strong x =>
      have := h.strong _ ((h.slot k _).1 hs) x rfl
      have hne : x ≠ o := by rintro rfl; rw [this] at ho; cases ho
      simp [VDict.read, hne]

theorem vdie_good (weakable : Nat → Bool) {d : VDict K} (h : VInv weakable d) {o : Nat} (ho : weakable o = true) :
    VInv weakable (d.die o) ∧ (d.die o).dead = o :: d.dead ∧ (d.die o).iterating = d.iterating ∧
      (∀ k, (d.die o).plain.at' k = if d.plain.at' k = some o then none else d.plain.at' k) ∧
      (d.iterating = 0 → (d.die o).pending = d.pending ∧
        (d.die o).entries = d.entries.filter (fun e => decide (e.1 ∉ (d.refsTo o).map Prod.snd))) := by
  have hk : VInv weakable ({ d with dead := o :: d.dead } : VDict K) := ⟨h.nodup, h.strong, h.hashers⟩
  by_cases h0 : d.iterating = 0
  · have hd : d.die o = _ := vcallbacks_idle (({ d with dead := o :: d.dead } : VDict K).refsTo o)
      { d with dead := o :: d.dead } h0
    rw [hd]
    obtain ⟨a, b, c, e, f, g⟩ := verases weakable (({ d with dead := o :: d.dead } : VDict K).refsTo o) _ hk
    refine ⟨a, c, f, fun k => ?_, fun _ => ⟨e, g⟩⟩
    show (VDict.slot _ k).bind (VDict.read _) = _
    rw [b]
    have hfun := read_congr (d := { d with dead := o :: d.dead }) c
    rw [hfun]
    by_cases hm : k ∈ (({ d with dead := o :: d.dead } : VDict K).refsTo o).map Prod.snd
    · rw [if_pos hm]
      obtain ⟨r, hr, hro⟩ := mem_refsTo.1 hm
      have hs : d.slot k = some (.weak r) := (h.slot k _).2 hr
      show none = if (d.slot k).bind d.read = some o then none else (d.slot k).bind d.read
      rw [hs]
      simp only [Option.bind_some, VDict.read]
      by_cases hl : d.live r.target = true
      · have hl' : d.live o = true := hro ▸ hl
        simp [hro, hl']
      · simp [hl]
    · rw [if_neg hm]
      exact read_kill weakable h ho k
  · have hd : d.die o = _ := vcallbacks_iterating (({ d with dead := o :: d.dead } : VDict K).refsTo o)
      { d with dead := o :: d.dead } (by show d.iterating > 0; omega)
    rw [hd]
    obtain ⟨a, b, c, e⟩ := vnotes weakable (({ d with dead := o :: d.dead } : VDict K).refsTo o) _ hk
    refine ⟨a, c, e, fun k => ?_, fun h1 => absurd h1 h0⟩
    show (VDict.slot _ k).bind (VDict.read _) = _
    have hfun := read_congr (d := { d with dead := o :: d.dead }) c
    rw [hfun]
    have hslot : VDict.slot ((({ d with dead := o :: d.dead } : VDict K).refsTo o).foldl
        (fun d x => d.addPending x.1 x.2) { d with dead := o :: d.dead }) k = d.slot k := by
      simp only [VDict.slot, b]
    rw [hslot]
    exact read_kill weakable h ho k

/-- The dictionary is determined by its entries and the dead objects. -/
theorem plain_congr {d d' : VDict K} (he : d'.entries = d.entries) (hd : d'.dead = d.dead) : d'.plain = d.plain := by
  have hfun : d'.read = d.read := read_congr hd
  have hslot : d'.slot = d.slot := by
    funext k
    simp only [VDict.slot, he]
  simp only [VDict.plain, hfun, hslot, hd]

theorem plain_erase (d : VDict K) (k : K) : (d.erase k).plain = d.plain.set k none := by
  unfold VDict.plain VPlain.set
  congr 1
  funext k'
  have : (d.erase k).read = d.read := read_congr rfl
  rw [this, slot_erase]
  by_cases h : k' = k
  · simp [h]
  · simp [h]

theorem plain_store (d : VDict K) (k : K) (s : Slot) : (d.store k s).plain = d.plain.set k (d.read s) := by
  have hf := store_fields d k s
  unfold VDict.plain VPlain.set
  rw [read_congr hf.2.1, hf.2.1]
  congr 1
  funext k'
  rw [slot_store]
  by_cases h : k' = k
  · simp [h]
  · simp [h]

theorem plain_set_none {d : VDict K} {k : K} (h : d.plain.at' k = none) : d.plain.set k none = d.plain := by
  unfold VPlain.set
  cases hp : d.plain with
  | mk a b =>
    rw [hp] at h
    congr 1
    funext k'
    by_cases hk : k' = k
    · rw [if_pos hk, hk]; exact h.symm
    · rw [if_neg hk]

theorem vput_good (weakable : Nat → Bool) (kind : VKind) {d : VDict K} (h : VInv weakable d) (k : K) {o : Nat}
    (ho : d.live o = true) :
    (d.put weakable kind k o = none ∧ weakable o = false ∧ kind = .weak) ∨
      ∃ d', d.put weakable kind k o = some d' ∧ VInv weakable d' ∧ d'.plain = d.plain.set k (some o) ∧
        d'.iterating = d.iterating ∧ d'.dead = d.dead ∧ d'.pending = d.pending ∧ ¬(weakable o = false ∧ kind = .weak) ∧
        (∀ e ∈ d'.entries, e ∈ d.entries ∨ e = (k, .weak ⟨d.fresh, o⟩) ∨ e = (k, .strong o)) := by
  unfold VDict.put
  by_cases hw : weakable o = true
  · right
    have hf := store_fields d k (.weak ⟨d.fresh, o⟩)
    rw [if_pos hw]
    refine ⟨_, rfl, ?_, ?_, hf.2.2, hf.2.1, hf.1, by simp [hw], fun e he => ?_⟩
    · have := h.store k (.weak ⟨d.fresh, o⟩) (fun _ e => by cases e)
      exact ⟨this.nodup, this.strong, this.hashers⟩
    · refine (plain_congr (d := d.store k (.weak ⟨d.fresh, o⟩)) rfl rfl).trans ?_
      rw [plain_store]
      simp [VDict.read, ho]
    · rcases store_mem d k _ he with h1 | h1
      · exact Or.inl h1
      · exact Or.inr (Or.inl h1)
  · have hw' : weakable o = false := by simpa using hw
    rw [if_neg hw]
    cases kind with
    | weak => exact Or.inl ⟨rfl, hw', rfl⟩
    | hybrid =>
      right
      have hf := store_fields d k (.strong o)
      refine ⟨_, rfl, ?_, ?_, hf.2.2, hf.2.1, hf.1, by simp, fun e he => ?_⟩
      · exact h.store k (.strong o) (fun x e => by cases e; exact hw')
      · rw [plain_store]; simp [VDict.read]
      · rcases store_mem d k _ he with h1 | h1
        · exact Or.inl h1
        · exact Or.inr (Or.inr h1)

/-- `popitem` on the entries in reverse order. -/
theorem vpopLoop_good (read : Slot → Option Nat) : ∀ (es : List (K × Slot)),
    ((VDict.popLoop read es).2 = none ∧ (VDict.popLoop read es).1 = [] ∧ ∀ e ∈ es, read e.2 = none) ∨
      ∃ later e earlier o, es = later ++ e :: earlier ∧ (∀ x ∈ later, read x.2 = none) ∧ read e.2 = some o ∧
        VDict.popLoop read es = (earlier, some (e.1, o))
  | [] => Or.inl ⟨rfl, rfl, by simp⟩
  | e :: es => by
    rw [VDict.popLoop]
    cases hr : read e.2 with
    | some o => exact Or.inr ⟨[], e, es, o, rfl, by simp, hr, rfl⟩
    | none =>
      rcases vpopLoop_good read es with ⟨a, b, c⟩ | ⟨later, x, earlier, o, a, b, c, d⟩
      · left
        refine ⟨a, b, fun y hy => ?_⟩
        rcases List.mem_cons.1 hy with h | h
        · rw [h]; exact hr
        · exact c y h
      · right
        refine ⟨e :: later, x, earlier, o, by rw [a]; rfl, fun y hy => ?_, c, d⟩
        rcases List.mem_cons.1 hy with h | h
        · rw [h]; exact hr
        · exact b y h

theorem mem_view {weakable : Nat → Bool} {d : VDict K} (h : VInv weakable d) (k : K) (v : Nat) :
    (k, v) ∈ d.view ↔ d.plain.at' k = some v := by
  unfold VDict.view
  rw [List.mem_filterMap]
  show _ ↔ (d.slot k).bind d.read = some v
  constructor
  · rintro ⟨e, he, hm⟩
    cases hr : d.read e.2 with
    | none => rw [hr] at hm; cases hm
    | some o =>
      rw [hr] at hm
      simp only [Option.map_some, Option.some.injEq, Prod.mk.injEq] at hm
      have hs : d.slot k = some e.2 := (h.slot k e.2).2 (by rw [← hm.1]; exact he)
      rw [hs, Option.bind_some, hr, hm.2]
  · intro hb
    cases hs : d.slot k with
    | none => rw [hs] at hb; cases hb
    | some s =>
      rw [hs, Option.bind_some] at hb
      exact ⟨(k, s), (h.slot k s).1 hs, by simp [hb]⟩

theorem view_nodup {weakable : Nat → Bool} {d : VDict K} (h : VInv weakable d) : (d.view.map Prod.fst).Nodup := by
  have hsub : (d.view.map Prod.fst).Sublist (d.entries.map Prod.fst) := by
    unfold VDict.view
    generalize d.entries = es
    induction es with
    | nil => exact List.Sublist.refl _
    | cons e es ih =>
      cases hr : d.read e.2 with
      | none =>
        rw [List.filterMap_cons_none (by simp [hr])]
        exact List.Sublist.trans ih (List.sublist_cons_self _ _)
      | some o =>
        rw [List.filterMap_cons_some (b := (e.1, o)) (by simp [hr])]
        exact List.Sublist.cons_cons _ ih
  exact hsub.nodup h.nodup

theorem vnote_good (weakable : Nat → Bool) {d : VDict K} (h : VInv weakable d) :
    VInv weakable d.note ∧ d.note.entries = d.entries ∧ d.note.dead = d.dead ∧ d.note.iterating = d.iterating :=
  vnotes weakable d.deadRefs d h

theorem vcommit_good (weakable : Nat → Bool) {d : VDict K} (h : VInv weakable d) (order : POrder K) :
    VInv weakable (d.commit order) ∧ (d.commit order).entries = d.entries ∧ (d.commit order).dead = d.dead ∧
      (d.commit order).iterating = d.iterating ∧ (d.iterating = 0 → (d.commit order).pending = []) := by
  rw [vcommit_eq h order]
  split
  · next hi => exact ⟨h, rfl, rfl, rfl, fun h0 => by omega⟩
  · exact ⟨h.clearPending, rfl, rfl, rfl, fun _ => rfl⟩

theorem vstep_good (weakable : Nat → Bool) (kind : VKind) {d : VDict K} (h : VInv weakable d) (op : VOp K) :
    VInv weakable (d.step weakable kind op).1 ∧
      VPlain.Allows weakable kind d.plain op (d.step weakable kind op).1.plain (d.step weakable kind op).2 := by
  have deadOf : ∀ o, ¬d.live o = true → o ∈ d.plain.dead := fun o hl => by
    by_cases hm : o ∈ d.plain.dead
    · exact hm
    · exact absurd ((vlive_iff d o).2 hm) hl
  have noOf : ∀ o, d.live o = true → o ∉ d.plain.dead := fun o hl => (vlive_iff d o).1 hl
  cases op with
  | put k o =>
    by_cases hl : d.live o = true
    · simp only [VDict.step, if_pos hl]
      rw [VPlain.Allows, if_neg (noOf o hl)]
      rcases vput_good weakable kind h k hl with ⟨a, b, c⟩ | ⟨d', a, b, c, _, _, _, e, _⟩
      · rw [a, if_pos ⟨b, c⟩]; exact ⟨h, rfl, rfl⟩
      · rw [a, if_neg e]; exact ⟨b, c, rfl⟩
    · simp only [VDict.step, if_neg hl]
      rw [VPlain.Allows, if_pos (deadOf o hl)]
      exact ⟨h, rfl, rfl⟩
  | setdefault k o =>
    by_cases hl : d.live o = true
    · simp only [VDict.step, if_pos hl]
      rw [VPlain.Allows, if_neg (noOf o hl)]
      have hat : d.plain.at' k = (d.slot k).bind d.read := rfl
      rw [hat]
      cases hb : (d.slot k).bind d.read with
      | some v => exact ⟨h, rfl, rfl⟩
      | none =>
        dsimp only
        rcases vput_good weakable kind h k hl with ⟨a, b, c⟩ | ⟨d', a, b, c, _, _, _, e, _⟩
        · rw [a, if_pos ⟨b, c⟩]; exact ⟨h, rfl, rfl⟩
        · rw [a, if_neg e]; exact ⟨b, c, rfl⟩
    · simp only [VDict.step, if_neg hl]
      rw [VPlain.Allows, if_pos (deadOf o hl)]
      exact ⟨h, rfl, rfl⟩
  | del k =>
    simp only [VDict.step]
    rw [VPlain.Allows]
    cases hs : d.slot k with
    | some s => exact ⟨h.erase k, plain_erase d k, Or.inl rfl⟩
    | none =>
      have hat : d.plain.at' k = none := by
        show (d.slot k).bind d.read = none
        rw [hs]; rfl
      exact ⟨h, (plain_set_none hat).symm, Or.inr ⟨rfl, hat⟩⟩
  | pop k hasDefault =>
    simp only [VDict.step]
    rw [VPlain.Allows]
    have hat : d.plain.at' k = (d.slot k).bind d.read := rfl
    cases hs : d.slot k with
    | some s =>
      rw [hat, hs, Option.bind_some]
      dsimp only
      cases hr : d.read s with
      | some v => exact ⟨h.erase k, plain_erase d k, rfl⟩
      | none =>
        refine ⟨h.erase k, plain_erase d k, ?_⟩
        cases hasDefault
        · exact rfl
        · exact Or.inl rfl
    | none =>
      have hat' : d.plain.at' k = none := by rw [hat, hs]; rfl
      rw [hat']
      dsimp only
      cases hasDefault
      · exact ⟨h, (plain_set_none hat').symm, rfl⟩
      · cases kind
        · exact ⟨h, (plain_set_none hat').symm, Or.inl rfl⟩
        · exact ⟨h, (plain_set_none hat').symm, Or.inr ⟨rfl, rfl⟩⟩
  | look k =>
    simp only [VDict.step]
    rw [VPlain.Allows]
    have hat : d.plain.at' k = (d.slot k).bind d.read := rfl
    rw [hat]
    cases hs : d.slot k with
    | none => exact ⟨h, rfl, rfl⟩
    | some s =>
      rw [Option.bind_some]
      dsimp only
      cases s with
      | strong o => exact ⟨h, rfl, rfl⟩
      | weak r =>
        cases hr : d.read (.weak r) with
        | some v => exact ⟨h, rfl, rfl⟩
        | none =>
          have hn : d.plain.at' k = none := by rw [hat, hs, Option.bind_some, hr]
          by_cases hi : d.iterating > 0
          · dsimp only
            rw [if_pos hi]
            have hf := vaddPending_fields d r k
            exact ⟨h.addPending r k, plain_congr hf.1 hf.2.1, rfl⟩
          · dsimp only
            rw [if_neg hi]
            exact ⟨h.erase k, by rw [plain_erase]; exact plain_set_none hn, rfl⟩
  | popitem =>
    have hp := vpopLoop_good d.read d.entries.reverse
    simp only [VDict.step]
    rw [VPlain.Allows]
    rcases hp with ⟨a, b, c⟩ | ⟨later, e, earlier, o, a, b, c, hpop⟩
    · rw [a, b]
      have hall : ∀ k, d.plain.at' k = none := by
        intro k
        show (d.slot k).bind d.read = none
        cases hs : d.slot k with
        | none => rfl
        | some s => exact c (k, s) (List.mem_reverse.2 ((h.slot k s).1 hs))
      refine ⟨h.sub (List.nil_sublist _), Or.inl ⟨hall, ?_, rfl⟩⟩
      show VPlain.mk _ _ = VPlain.mk _ _
      congr 1
      funext k
      exact (hall k).symm
    · rw [hpop]
      have hent : d.entries = earlier.reverse ++ e :: later.reverse := by
        have := congrArg List.reverse a
        rw [List.reverse_reverse] at this
        rw [this]; simp
      have hsub : earlier.reverse.Sublist d.entries := by rw [hent]; exact List.sublist_append_left _ _
      have hI := h.sub hsub
      refine ⟨hI, Or.inr ⟨e.1, o, ?_, ?_, rfl⟩⟩
      · show (d.slot e.1).bind d.read = some o
        rw [(h.slot e.1 e.2).2 (by rw [hent]; simp), Option.bind_some, c]
      · show VPlain.mk _ _ = VPlain.mk _ _
        congr 1
        funext k
        have hnd := h.nodup
        rw [hent, List.map_append, List.map_cons, List.nodup_append] at hnd
        obtain ⟨n1, n2, n3⟩ := hnd
        show (VDict.slot _ k).bind d.read = if k = e.1 then none else (d.slot k).bind d.read
        cases hs : VDict.slot ({ d with entries := earlier.reverse } : VDict K) k with
        | some s =>
          have hm := (hI.slot k s).1 hs
          have hne : k ≠ e.1 := n3 k (List.mem_map_of_mem (f := Prod.fst) hm) e.1 (by simp)
          rw [if_neg hne, (h.slot k s).2 (hsub.subset hm)]
        | none =>
          by_cases hk : k = e.1
          · rw [if_pos hk]; rfl
          · rw [if_neg hk]
            cases hs' : d.slot k with
            | none => rfl
            | some s =>
              have hm := (h.slot k s).1 hs'
              rw [hent, List.mem_append, List.mem_cons] at hm
              rcases hm with hm | hm | hm
              · rw [(hI.slot k s).2 hm] at hs; cases hs
              · exact absurd (by rw [← hm]) hk
              · exact (b (k, s) (List.mem_reverse.1 hm)).symm
  | clear =>
    refine ⟨⟨by simp [VDict.step], by simp [VDict.step], by simp [VDict.step]⟩, rfl, rfl⟩
  | enter => exact ⟨⟨h.nodup, h.strong, h.hashers⟩, rfl, rfl⟩
  | leave order =>
    simp only [VDict.step]
    rw [VPlain.Allows]
    split
    · obtain ⟨a, b, c, _, _⟩ := vcommit_good weakable
        (d := { d with iterating := d.iterating - 1 }) ⟨h.nodup, h.strong, h.hashers⟩ order
      exact ⟨a, plain_congr b c, Or.inl rfl⟩
    · exact ⟨h, rfl, Or.inr rfl⟩
  | die o =>
    simp only [VDict.step]
    rw [VPlain.Allows]
    by_cases hl : (d.live o && weakable o) = true
    · obtain ⟨hl1, hl2⟩ := Bool.and_eq_true_iff.1 hl
      rw [if_pos hl, if_neg (by rintro (h1 | h1); exact noOf o hl1 h1; rw [hl2] at h1; cases h1)]
      obtain ⟨a, b, _, c, _⟩ := vdie_good weakable h hl2
      refine ⟨a, ?_, rfl⟩
      show VPlain.mk _ _ = VPlain.mk _ _
      congr 1
      funext k
      exact c k
    · rw [if_neg hl, if_pos]
      · exact ⟨h, rfl, rfl⟩
      · by_cases h1 : d.live o = true
        · right; simpa [h1] using hl
        · left; exact deadOf o h1
  | sweep order =>
    simp only [VDict.step]
    rw [VPlain.Allows]
    obtain ⟨a, b, c, _⟩ := vnote_good weakable h
    obtain ⟨a', b', c', _, _⟩ := vcommit_good weakable a order
    exact ⟨a', plain_congr (b'.trans b) (c'.trans c), d.view, rfl, view_nodup h, mem_view h⟩

theorem VInv.init (weakable : Nat → Bool) : VInv weakable ({} : VDict K) := ⟨by simp, by simp, by simp⟩

theorem vrun_good (weakable : Nat → Bool) (kind : VKind) : ∀ (ops : List (VOp K)) {d : VDict K}, VInv weakable d →
    VInv weakable (d.run weakable kind ops).1 ∧
      VPlain.Runs weakable kind d.plain ops (d.run weakable kind ops).1.plain (d.run weakable kind ops).2
  | [], _, h => ⟨h, .nil _⟩
  | op :: ops, _, h => by
    obtain ⟨a, b⟩ := vstep_good weakable kind h op
    obtain ⟨c, e⟩ := vrun_good weakable kind ops a
    exact ⟨c, .cons b e⟩

/-! ## Executions in which nothing dies while an iterator is there -/

/-- All the entries live and nothing is pending. -/
structure VClean (d : VDict K) : Prop where
  alive : ∀ e ∈ d.entries, (d.read e.2).isSome = true
  none : d.pending = []

def VQuiet (d : VDict K) : VOp K → Prop
  | .die _ => d.iterating = 0
  | _ => True

def VAllQuiet (weakable : Nat → Bool) (kind : VKind) : VDict K → List (VOp K) → Prop
  | _, [] => True
  | d, op :: ops => VQuiet d op ∧ VAllQuiet weakable kind (d.step weakable kind op).1 ops

theorem VClean.congr {d d' : VDict K} (h : VClean d) (he : ∀ e ∈ d'.entries, e ∈ d.entries) (hd : d'.dead = d.dead)
    (hp : d'.pending = []) : VClean d' :=
  ⟨fun e hm => by rw [read_congr hd]; exact h.alive e (he e hm), hp⟩

theorem VClean.note {d : VDict K} (h : VClean d) : d.note = d := by
  have : d.deadRefs = [] := by
    unfold VDict.deadRefs
    rw [List.filterMap_eq_nil_iff]
    intro e he
    have := h.alive e he
    obtain ⟨k, s⟩ := e
    cases s with
    | strong o => rfl
    | weak r =>
      by_cases hl : d.live r.target = true
      · simp [hl]
      · simp [VDict.read, hl] at this
  unfold VDict.note
  rw [this]; rfl

theorem vstep_clean (weakable : Nat → Bool) (kind : VKind) {d : VDict K} (hI : VInv weakable d) (h : VClean d)
    (op : VOp K) (hq : VQuiet d op) : VClean (d.step weakable kind op).1 := by
  have hput : ∀ k o, d.live o = true → ∀ d', d.put weakable kind k o = some d' → VClean d' := by
    intro k o hl d' hd'
    rcases vput_good weakable kind hI k hl with ⟨a, _, _⟩ | ⟨d'', a, b, c, e, f, g, i, j⟩
    · rw [a] at hd'; cases hd'
    · rw [a] at hd'; cases hd'
      refine ⟨fun x hx => ?_, by rw [g]; exact h.none⟩
      rw [read_congr f]
      rcases j x hx with h1 | h1 | h1
      · exact h.alive x h1
      · rw [h1]; simp [VDict.read, hl]
      · rw [h1]; simp [VDict.read]
  cases op with
  | put k o =>
    simp only [VDict.step]; split
    · next hl =>
      cases hp : d.put weakable kind k o with
      | none => exact h
      | some d' => exact hput k o hl d' hp
    · exact h
  | setdefault k o =>
    simp only [VDict.step]; split
    · next hl =>
      cases (d.slot k).bind d.read with
      | some v => exact h
      | none =>
        dsimp only
        cases hp : d.put weakable kind k o with
        | none => exact h
        | some d' => exact hput k o hl d' hp
    · exact h
  | del k =>
    simp only [VDict.step]
    cases d.slot k with
    | none => exact h
    | some s => exact h.congr (fun e he => (List.mem_filter.1 he).1) rfl h.none
  | pop k hasDefault =>
    simp only [VDict.step]
    have he : VClean (d.erase k) := h.congr (fun e he => (List.mem_filter.1 he).1) rfl h.none
    cases d.slot k with
    | none =>
      dsimp only
      cases hasDefault
      · exact h
      · cases kind <;> exact h
    | some s =>
      dsimp only
      cases d.read s <;> exact he
  | look k =>
    simp only [VDict.step]
    cases hs : d.slot k with
    | none => exact h
    | some s =>
      have := h.alive _ ((hI.slot k s).1 hs)
      dsimp only at this ⊢
      cases hr : d.read s with
      | none => rw [hr] at this; cases this
      | some v => exact h
  | popitem =>
    rcases vpopLoop_good d.read d.entries.reverse with ⟨a, b, c⟩ | ⟨later, e, earlier, o, a, b, c, hpop⟩
    · refine h.congr (fun e he => ?_) rfl h.none
      simp only [VDict.step, b] at he
      cases he
    · refine h.congr (fun x hx => ?_) rfl h.none
      simp only [VDict.step, hpop] at hx
      have hx' : x ∈ earlier := List.mem_reverse.1 hx
      have : x ∈ d.entries.reverse := by rw [a]; simp [hx']
      exact List.mem_reverse.1 this
  | clear => exact ⟨fun e he => by simp [VDict.step] at he, rfl⟩
  | enter => exact ⟨h.alive, h.none⟩
  | leave order =>
    simp only [VDict.step]; split
    · have hI' : VInv weakable ({ d with iterating := d.iterating - 1 } : VDict K) := ⟨hI.nodup, hI.strong, hI.hashers⟩
      rw [vcommit_eq hI' order]
      split
      · exact ⟨h.alive, h.none⟩
      · exact ⟨h.alive, rfl⟩
    · exact h
  | die o =>
    simp only [VDict.step]; split
    · next hl =>
      obtain ⟨hl1, hl2⟩ := Bool.and_eq_true_iff.1 hl
      obtain ⟨a, b, _, c, e⟩ := vdie_good weakable hI hl2
      obtain ⟨e1, e2⟩ := e hq
      refine ⟨fun x hx => ?_, by rw [e1]; exact h.none⟩
      have hxd : x ∈ d.entries ∧ x.1 ∉ (d.refsTo o).map Prod.snd := by
        rw [e2, List.mem_filter] at hx
        exact ⟨hx.1, by simpa using hx.2⟩
      have hal := h.alive x hxd.1
      obtain ⟨k, s⟩ := x
      cases s with
      | strong v => rfl
      | weak r =>
        have hne : r.target ≠ o := fun hr => hxd.2 (mem_refsTo.2 ⟨r, hxd.1, hr⟩)
        have hlr : d.live r.target = true := by
          by_cases hl : d.live r.target = true
          · exact hl
          · simp [VDict.read, hl] at hal
        have : (d.die o).live r.target = true := by
          rw [vlive_iff, b]
          have := (vlive_iff d r.target).1 hlr
          simp [hne, this]
        simp [VDict.read, this]
    · exact h
  | sweep order =>
    show VClean (d.note.commit order)
    rw [h.note, vcommit_eq hI order]
    split
    · exact h
    · exact ⟨h.alive, rfl⟩

theorem VClean.init : VClean ({} : VDict K) := ⟨by simp, rfl⟩

theorem vrun_clean (weakable : Nat → Bool) (kind : VKind) : ∀ (ops : List (VOp K)) {d : VDict K}, VInv weakable d →
    VClean d → VAllQuiet weakable kind d ops → VClean (d.run weakable kind ops).1
  | [], _, _, h, _ => h
  | op :: ops, _, hI, h, hq =>
    vrun_clean weakable kind ops (vstep_good weakable kind hI op).1 (vstep_clean weakable kind hI h op hq.1) hq.2

theorem VClean.len {d : VDict K} (h : VClean d) : d.len = d.view.length := by
  unfold VDict.len VDict.view
  rw [h.none]
  have : (d.entries.filterMap fun e => (d.read e.2).map fun o => (e.1, o)).length = d.entries.length := by
    have ha := h.alive
    generalize d.entries = es at ha
    induction es with
    | nil => rfl
    | cons e es ih =>
      have he := ha e (by simp)
      cases hr : d.read e.2 with
      | none => rw [hr] at he; cases he
      | some o =>
        rw [List.filterMap_cons_some (b := (e.1, o)) (by simp [hr]), List.length_cons, List.length_cons,
          ih (fun x hx => ha x (List.mem_cons_of_mem _ hx))]
  rw [this]; simp

end Verif.Weak
