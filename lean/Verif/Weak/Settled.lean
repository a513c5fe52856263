import Verif.Weak.Lemmas

namespace Verif.Weak

variable {V : Type}

/-- Every dead entry is noted, and without an iterator there is none. -/
structure Noted (t : Table V) : Prop where
  noted : ∀ r ∈ t.entries.map Prod.fst, t.live r.target = false → r ∈ t.pending
  clean : t.iterating = 0 → ∀ r ∈ t.entries.map Prod.fst, t.live r.target = true

/-- The pending references are exactly the dead entries. -/
structure Settled (t : Table V) : Prop where
  noted : ∀ r ∈ t.entries.map Prod.fst, t.live r.target = false → r ∈ t.pending
  there : ∀ r ∈ t.pending, r ∈ t.entries.map Prod.fst
  none : t.iterating = 0 → t.pending = []

theorem Settled.clean {t : Table V} (h : Settled t) (h0 : t.iterating = 0) :
    ∀ r ∈ t.entries.map Prod.fst, t.live r.target = true := by
  intro r hr
  by_cases hl : t.live r.target = true
  · exact hl
  · have := h.noted r hr (by simpa using hl)
    rw [h.none h0] at this
    cases this

theorem Settled.toNoted {t : Table V} (h : Settled t) : Noted t := ⟨h.noted, h.clean⟩

theorem eraseP_notin {r : Ref} : ∀ (es : List (Ref × V)), (es.map Prod.fst).Nodup →
    (∀ e ∈ es, r.id = e.1.id → r = e.1) → r ∉ (es.eraseP (fun e => r.id == e.1.id)).map Prod.fst
  | [], _, _ => by simp
  | e :: es, hn, hu => by
    rw [List.map_cons] at hn
    have hn' := List.nodup_cons.1 hn
    by_cases hid : r.id = e.1.id
    · rw [List.eraseP_cons_of_pos (by simp [hid])]
      have := hu e (by simp) hid
      rw [this]; exact hn'.1
    · rw [List.eraseP_cons_of_neg (by simp [hid])]
      have ih := eraseP_notin es hn'.2 (fun e he => hu e (List.mem_cons_of_mem _ he))
      rw [List.map_cons, List.mem_cons]
      rintro (h | h)
      · exact hid (by rw [h])
      · exact ih h

theorem discard_notin {cls : Nat → Nat} {t : Table V} {r : Ref} (h : Inv t) (hr : t.live r.target = false)
    (hu : ∀ e ∈ t.entries, r.id = e.1.id → r = e.1) : r ∉ (t.discard cls r).entries.map Prod.fst := by
  have : (t.discard cls r).entries = t.entries.eraseP (fun e => r.id == e.1.id) := by
    unfold Table.discard
    simp only [refEq_dead hr]
  rw [this]
  exact eraseP_notin t.entries h.nodup hu

/-- What is left after discarding dead references. -/
theorem mem_discards {cls : Nat → Nat} : ∀ (rs : List Ref) (t : Table V), Inv t →
    (∀ r ∈ rs, t.live r.target = false ∧ ∀ e ∈ t.entries, r.id = e.1.id → r = e.1) →
    ∀ x, x ∈ (rs.foldl (Table.discard cls) t).entries.map Prod.fst ↔ x ∈ t.entries.map Prod.fst ∧ x ∉ rs
  | [], t, _, _, x => by simp
  | r :: rs, t, h, hr, x => by
    have hr0 := hr r (by simp)
    rw [List.foldl_cons, mem_discards rs (t.discard cls r) (h.discard r) (fun y hy => by
      have hy' := hr y (List.mem_cons_of_mem _ hy)
      exact ⟨hy'.1, fun e he => hy'.2 e (List.mem_of_mem_eraseP he)⟩)]
    constructor
    · rintro ⟨hx, hn⟩
      refine ⟨(discard_sub cls t r).subset hx, ?_⟩
      rw [List.mem_cons]
      rintro (rfl | hx')
      · exact discard_notin h hr0.1 hr0.2 hx
      · exact hn hx'
    · rintro ⟨hx, hn⟩
      rw [List.mem_cons] at hn
      refine ⟨mem_discard hr0.1 hx (fun hid => ?_), fun h' => hn (Or.inr h')⟩
      obtain ⟨e, he, rfl⟩ := List.mem_map.1 hx
      exact hn (Or.inl (hr0.2 e he hid).symm)

theorem callbacks_iterating {cls : Nat → Nat} : ∀ (rs : List Ref) (t : Table V), t.iterating > 0 →
    rs.foldl (Table.callback cls) t = rs.foldl Table.addPending t
  | [], _, _ => rfl
  | r :: rs, t, h => by
    rw [List.foldl_cons, List.foldl_cons]
    have : t.callback cls r = t.addPending r := by simp only [Table.callback, if_pos h]
    rw [this]
    exact callbacks_iterating rs _ (by simpa using h)

theorem callbacks_idle {cls : Nat → Nat} : ∀ (rs : List Ref) (t : Table V), t.iterating = 0 →
    rs.foldl (Table.callback cls) t = rs.foldl (Table.discard cls) t
  | [], _, _ => rfl
  | r :: rs, t, h => by
    rw [List.foldl_cons, List.foldl_cons]
    have : t.callback cls r = t.discard cls r := by
      simp only [Table.callback, if_neg (by omega : ¬t.iterating > 0)]
    rw [this]
    exact callbacks_idle rs _ (by simpa using h)

theorem discards_fields {cls : Nat → Nat} : ∀ (rs : List Ref) (t : Table V),
    (rs.foldl (Table.discard cls) t).pending = t.pending ∧ (rs.foldl (Table.discard cls) t).dead = t.dead ∧
      (rs.foldl (Table.discard cls) t).iterating = t.iterating
  | [], _ => ⟨rfl, rfl, rfl⟩
  | r :: rs, t => by
    rw [List.foldl_cons]
    obtain ⟨a, b, c⟩ := discards_fields (cls := cls) rs (t.discard cls r)
    exact ⟨a, b, c⟩

/-- What a death does, exactly. -/
theorem die_exact {cls : Nat → Nat} {t : Table V} (h : Inv t) (o : Nat) :
    (t.iterating > 0 → (t.die cls o).entries = t.entries ∧
      ∀ x, x ∈ (t.die cls o).pending ↔ x ∈ t.pending ∨ (x ∈ t.entries.map Prod.fst ∧ x.target = o)) ∧
    (t.iterating = 0 → (t.die cls o).pending = t.pending ∧
      ∀ x, x ∈ (t.die cls o).entries.map Prod.fst ↔ x ∈ t.entries.map Prod.fst ∧ x.target ≠ o) := by
  have hk := h.kill o
  have hrs : ∀ r ∈ ((({ t with dead := o :: t.dead } : Table V).entries.map Prod.fst).filter (fun r => r.target == o)),
      r ∈ ({ t with dead := o :: t.dead } : Table V).entries.map Prod.fst ∧
        ({ t with dead := o :: t.dead } : Table V).live r.target = false := fun r hr => by
    obtain ⟨hr1, hr2⟩ := List.mem_filter.1 hr
    have : r.target = o := by simpa using hr2
    exact ⟨hr1, by rw [live_kill]; simp [this]⟩
  constructor
  · intro hi
    have hdie : t.die cls o = _ := callbacks_iterating (cls := cls)
      ((({ t with dead := o :: t.dead } : Table V).entries.map Prod.fst).filter (fun r => r.target == o))
      { t with dead := o :: t.dead } hi
    rw [hdie]
    obtain ⟨_, b, _, _, e⟩ := notes_good _ _ hk hrs
    refine ⟨b, fun x => ?_⟩
    rw [e, List.mem_filter]
    simp
  · intro hi
    have hdie : t.die cls o = _ := callbacks_idle (cls := cls)
      ((({ t with dead := o :: t.dead } : Table V).entries.map Prod.fst).filter (fun r => r.target == o))
      { t with dead := o :: t.dead } hi
    rw [hdie]
    refine ⟨(discards_fields _ _).1, fun x => ?_⟩
    rw [mem_discards _ _ hk (fun r hr => ⟨(hrs r hr).2, fun e he hid =>
      h.uniq r (List.mem_append_left _ (hrs r hr).1) e.1 (List.mem_append_left _ (List.mem_map_of_mem he)) hid⟩)]
    rw [List.mem_filter]
    constructor
    · rintro ⟨a, b⟩
      refine ⟨a, fun hx => b ⟨a, by simp [hx]⟩⟩
    · rintro ⟨a, b⟩
      refine ⟨a, fun hx => b (by simpa using hx.2)⟩

/-- Without a missing reference the loop of the weak key dictionary does what the others do. -/
theorem commitKeys_eq {cls : Nat → Nat} : ∀ (rs : List Ref) (t : Table V), Inv t → rs.Nodup →
    (∀ r ∈ rs, r ∈ t.entries.map Prod.fst ∧ t.live r.target = false) →
    Table.commitKeys cls rs t = rs.foldl (Table.discard cls) t
  | [], _, _, _, _ => rfl
  | r :: rs, t, h, hn, hr => by
    have hr0 := hr r (by simp)
    have hn' := List.nodup_cons.1 hn
    have hany : t.entries.any (fun e => refEq cls t.live r e.1) = true := by
      obtain ⟨e, he, hre⟩ := List.mem_map.1 hr0.1
      rw [List.any_eq_true]
      refine ⟨e, he, ?_⟩
      rw [refEq_dead hr0.2, hre]; simp
    rw [Table.commitKeys, if_pos hany, List.foldl_cons]
    refine commitKeys_eq rs _ (h.discard r) hn'.2 (fun x hx => ?_)
    have hx' := hr x (List.mem_cons_of_mem _ hx)
    refine ⟨mem_discard hr0.2 hx'.1 (fun hid => ?_), hx'.2⟩
    have := h.uniq r (List.mem_append_left _ hr0.1) x (List.mem_append_left _ hx'.1) hid
    exact hn'.1 (this ▸ hx)

theorem commit_mem {cls : Nat → Nat} {kind : Kind} {order : Order} {t : Table V} (h : Inv t) (h0 : t.iterating = 0)
    (hk : kind = .keys → ∀ r ∈ t.pending, r ∈ t.entries.map Prod.fst) :
    ∀ x, x ∈ (t.commit cls kind order).entries.map Prod.fst ↔ x ∈ t.entries.map Prod.fst ∧ x ∉ t.pending := by
  have hi : ¬t.iterating > 0 := by omega
  have hI : Inv ({ t with pending := [] } : Table V) := h.shrink rfl rfl (List.Sublist.refl _) (List.nil_sublist _)
  have hr : ∀ r ∈ order.apply t.pending,
      ({ t with pending := [] } : Table V).live r.target = false ∧
        ∀ e ∈ ({ t with pending := [] } : Table V).entries, r.id = e.1.id → r = e.1 := by
    intro r hr
    have hr' := (order.perm t.pending).mem_iff.1 hr
    exact ⟨h.pdead r hr', fun e he hid =>
      h.uniq r (List.mem_append_right _ hr') e.1 (List.mem_append_left _ (List.mem_map_of_mem he)) hid⟩
  have main := fun x => mem_discards (cls := cls) (order.apply t.pending) _ hI hr x
  intro x
  have hx : x ∈ order.apply t.pending ↔ x ∈ t.pending := (order.perm t.pending).mem_iff
  have := main x
  rw [hx] at this
  unfold Table.commit
  rw [if_neg hi]
  cases kind with
  | set => exact this
  | map => exact this
  | keys =>
    dsimp only
    rw [commitKeys_eq _ _ hI ((order.perm t.pending).nodup_iff.2 h.pnodup) (fun r hr' =>
      ⟨hk rfl r ((order.perm t.pending).mem_iff.1 hr'), (hr r hr').1⟩)]
    exact this

theorem Noted.commit {cls : Nat → Nat} {kind : Kind} {order : Order} {t : Table V} (h : Inv t)
    (hn : ∀ r ∈ t.entries.map Prod.fst, t.live r.target = false → r ∈ t.pending)
    (hk : kind ≠ .keys) : Noted (t.commit cls kind order) := by
  obtain ⟨_, _, hd, hit, hp⟩ := commit_good (cls := cls) (kind := kind) (order := order) h
  have hlive : ∀ x, (t.commit cls kind order).live x = t.live x := fun x => by simp only [Table.live, hd]
  by_cases h0 : t.iterating = 0
  · have hm := commit_mem (cls := cls) (order := order) h h0 (fun e => absurd e hk)
    have hc : ∀ r ∈ (t.commit cls kind order).entries.map Prod.fst, (t.commit cls kind order).live r.target = true := by
      intro r hr
      rw [hlive]
      obtain ⟨h1, h2⟩ := (hm r).1 hr
      by_cases hl : t.live r.target = true
      · exact hl
      · exact absurd (hn r h1 (by simpa using hl)) h2
    exact ⟨fun r hr hdd => absurd hdd (by rw [hc r hr]; simp), fun _ => hc⟩
  · have he : t.commit cls kind order = t := by
      unfold Table.commit; rw [if_pos (by omega)]
    rw [he]
    exact ⟨hn, fun e => absurd e h0⟩

theorem Settled.commit {cls : Nat → Nat} {kind : Kind} {order : Order} {t : Table V} (h : Inv t)
    (hn : ∀ r ∈ t.entries.map Prod.fst, t.live r.target = false → r ∈ t.pending)
    (ht : ∀ r ∈ t.pending, r ∈ t.entries.map Prod.fst) : Settled (t.commit cls kind order) := by
  obtain ⟨_, _, hd, hit, hp⟩ := commit_good (cls := cls) (kind := kind) (order := order) h
  have hlive : ∀ x, (t.commit cls kind order).live x = t.live x := fun x => by simp only [Table.live, hd]
  by_cases h0 : t.iterating = 0
  · have hm := commit_mem (cls := cls) (kind := kind) (order := order) h h0 (fun _ => ht)
    refine ⟨fun r hr hdd => ?_, fun r hr => ?_, fun _ => hp h0⟩
    · obtain ⟨h1, h2⟩ := (hm r).1 hr
      rw [hlive] at hdd
      exact absurd (hn r h1 hdd) h2
    · rw [hp h0] at hr; cases hr
  · have he : t.commit cls kind order = t := by
      unfold Table.commit; rw [if_pos (by omega)]
    rw [he]
    exact ⟨hn, ht, fun e => absurd e h0⟩

theorem put_mem {cls : Nat → Nat} {t : Table V} {o : Nat} {v : V} {r : Ref}
    (hr : r ∈ (t.put cls o v).entries.map Prod.fst) : r ∈ t.entries.map Prod.fst ∨ r = ⟨t.fresh, o⟩ := by
  rw [put_eq] at hr
  rcases put_refs cls t.live t.fresh o v t.entries with e | e
  · exact Or.inl (by simpa only [e] using hr)
  · have : r ∈ t.entries.map Prod.fst ++ [⟨t.fresh, o⟩] := by simpa only [e] using hr
    rcases List.mem_append.1 this with h | h
    · exact Or.inl h
    · exact Or.inr (List.mem_singleton.1 h)

theorem mem_put {cls : Nat → Nat} {t : Table V} {o : Nat} {v : V} {r : Ref}
    (hr : r ∈ t.entries.map Prod.fst) : r ∈ (t.put cls o v).entries.map Prod.fst := by
  rw [put_eq]
  rcases put_refs cls t.live t.fresh o v t.entries with e | e
  · simpa only [e] using hr
  · show r ∈ (putEntries cls t.live t.fresh o v t.entries).map Prod.fst
    rw [e]; exact List.mem_append_left _ hr

theorem Noted.put {cls : Nat → Nat} {t : Table V} (h : Noted t) {o : Nat} (v : V) (ho : t.live o = true) :
    Noted (t.put cls o v) := by
  have hp : (t.put cls o v).pending = t.pending := by rw [put_eq]
  have hd : ∀ x, (t.put cls o v).live x = t.live x := fun x => by rw [put_eq]; rfl
  have hi : (t.put cls o v).iterating = t.iterating := by rw [put_eq]
  constructor
  · intro r hr hdd
    rw [hd] at hdd; rw [hp]
    rcases put_mem hr with h1 | rfl
    · exact h.noted r h1 hdd
    · rw [ho] at hdd; cases hdd
  · intro h0 r hr
    rw [hd]
    rcases put_mem hr with h1 | rfl
    · exact h.clean (hi ▸ h0) r h1
    · exact ho

theorem Settled.put {cls : Nat → Nat} {t : Table V} (h : Settled t) {o : Nat} (v : V) (ho : t.live o = true) :
    Settled (t.put cls o v) := by
  have hp : (t.put cls o v).pending = t.pending := by rw [put_eq]
  have hi : (t.put cls o v).iterating = t.iterating := by rw [put_eq]
  exact ⟨(h.toNoted.put v ho).noted, fun r hr => mem_put (h.there r (hp ▸ hr)), fun h0 => hp ▸ h.none (hi ▸ h0)⟩

theorem Noted.sub {t : Table V} (h : Noted t) {es : List (Ref × V)} (hs : es.Sublist t.entries) :
    Noted { t with entries := es } :=
  ⟨fun r hr hd => h.noted r ((hs.map _).subset hr) hd, fun h0 r hr => h.clean h0 r ((hs.map _).subset hr)⟩

theorem Noted.die {cls : Nat → Nat} {t : Table V} (hI : Inv t) (h : Noted t) (o : Nat) : Noted (t.die cls o) := by
  obtain ⟨_, _, hd, hit⟩ := die_good (cls := cls) hI o
  obtain ⟨h1, h2⟩ := die_exact (cls := cls) hI o
  have hlive : ∀ x, (t.die cls o).live x = (t.live x && x != o) := fun x => by
    rw [← live_kill]; simp only [Table.live, hd]
  by_cases h0 : t.iterating = 0
  · obtain ⟨hp, he⟩ := h2 h0
    have hc : ∀ r ∈ (t.die cls o).entries.map Prod.fst, (t.die cls o).live r.target = true := by
      intro r hr
      obtain ⟨a, b⟩ := (he r).1 hr
      rw [hlive, h.clean h0 r a]; simp [b]
    exact ⟨fun r hr hdd => absurd hdd (by rw [hc r hr]; simp), fun _ => hc⟩
  · obtain ⟨he, hp⟩ := h1 (by omega)
    refine ⟨fun r hr hdd => ?_, fun e => absurd (hit ▸ e) h0⟩
    rw [he] at hr
    rw [hlive] at hdd
    rw [hp]
    by_cases hl : t.live r.target = true
    · right
      refine ⟨hr, ?_⟩
      simpa [hl] using hdd
    · left; exact h.noted r hr (by simpa using hl)

theorem Settled.die {cls : Nat → Nat} {t : Table V} (hI : Inv t) (h : Settled t) (o : Nat) :
    Settled (t.die cls o) := by
  obtain ⟨_, _, hd, hit⟩ := die_good (cls := cls) hI o
  obtain ⟨h1, h2⟩ := die_exact (cls := cls) hI o
  refine ⟨(h.toNoted.die hI o).noted, ?_, ?_⟩
  · intro r hr
    by_cases h0 : t.iterating = 0
    · rw [(h2 h0).1, h.none h0] at hr; cases hr
    · obtain ⟨he, hp⟩ := h1 (by omega)
      rw [he]
      rcases (hp r).1 hr with h' | h'
      · exact h.there r h'
      · exact h'.1
  · intro h0
    rw [hit] at h0
    rw [(h2 h0).1, h.none h0]

/-- A dead reference is never equal to a new one, so deleting by key leaves the pending references in place. -/
theorem Settled.remove {cls : Nat → Nat} {t : Table V} (hI : Inv t) (h : Settled t) {o : Nat} (ho : t.live o = true) :
    Settled { t with entries := t.entries.eraseP fun e => refEq cls t.live ⟨t.fresh, o⟩ e.1 } := by
  refine ⟨(h.toNoted.sub List.eraseP_sublist).noted, fun r hr => ?_, h.none⟩
  obtain ⟨e, he, rfl⟩ := List.mem_map.1 (h.there r hr)
  refine List.mem_map_of_mem ((List.mem_eraseP_of_neg ?_).2 he)
  rw [refEq_new ho (hI.entry_bound e he), hI.pdead e.1 hr]; simp

/-- The weak set and the weak map note every death, whatever is done. -/
theorem step_noted (cls : Nat → Nat) {kind : Kind} (hk : kind ≠ .keys) {t : Table V} (hI : Inv t) (h : Noted t)
    (op : Op V) : Noted (t.step cls kind op).1 := by
  cases op with
  | put o v =>
    simp only [Table.step]; split
    · next hl => exact h.put v hl
    · exact h
  | setdefault o v =>
    simp only [Table.step]; split
    · next hl =>
      cases t.find cls o
      · exact h.put v hl
      · exact h
    · exact h
  | remove o =>
    simp only [Table.step]; split
    · exact h.sub List.eraseP_sublist
    · exact h
  | look o => simp only [Table.step]; split <;> exact h
  | pop choice =>
    have hs := (popLoop_good (live := t.live) (popPosition_lt kind choice) t.entries.length t.entries (Nat.le_refl _)).1
    cases kind with
    | map => exact h
    | set => exact h.sub hs
    | keys => exact absurd rfl hk
  | clear => exact ⟨fun r hr => by simp [Table.step] at hr, fun _ r hr => by simp [Table.step] at hr⟩
  | enter => exact ⟨h.noted, fun e => absurd e (Nat.succ_ne_zero _)⟩
  | leave order =>
    simp only [Table.step]; split
    · exact Noted.commit (t := { t with iterating := t.iterating - 1 })
        ⟨hI.bound, hI.uniq, hI.nodup, hI.pnodup, hI.pdead⟩ h.noted hk
    · exact h
  | die o =>
    simp only [Table.step]; split
    · exact h.die hI o
    · exact h
  | sweep order =>
    obtain ⟨a, b, c, d, e⟩ := note_good hI
    refine Noted.commit (t := t.note) a (fun r hr hd => ?_) hk
    rw [b] at hr
    exact (e r).2 (Or.inl (h.noted r hr (by simpa only [Table.live, c] using hd)))
  | foreign o =>
    cases kind with
    | map => exact h
    | keys => exact h
    | set =>
      simp only [Table.step]; split
      · exact h
      · exact ⟨fun r hr hd => List.mem_append_left _ (h.noted r hr hd), h.clean⟩

/--
An operation which does not disturb the bookkeeping: no item is popped while an iterator is there, and no symmetric
difference with a set which holds dead references is made in place.
-/
def Quiet (kind : Kind) (t : Table V) : Op V → Prop
  | .pop _ => kind = .map ∨ t.iterating = 0
  | .foreign _ => kind ≠ .set
  | _ => True

theorem step_settled (cls : Nat → Nat) {kind : Kind} {t : Table V} (hI : Inv t) (h : Settled t)
    (op : Op V) (hq : Quiet kind t op) : Settled (t.step cls kind op).1 := by
  cases op with
  | put o v =>
    simp only [Table.step]; split
    · next hl => exact h.put v hl
    · exact h
  | setdefault o v =>
    simp only [Table.step]; split
    · next hl =>
      cases t.find cls o
      · exact h.put v hl
      · exact h
    · exact h
  | remove o =>
    simp only [Table.step]; split
    · next hl => exact h.remove hI hl
    · exact h
  | look o => simp only [Table.step]; split <;> exact h
  | pop choice =>
    have hs := (popLoop_good (live := t.live) (popPosition_lt kind choice) t.entries.length t.entries (Nat.le_refl _)).1
    have main : t.iterating = 0 → Settled ({ t with entries := (Table.popLoop t.live (Table.popPosition kind choice)
        t.entries.length t.entries).1 } : Table V) := fun h0 =>
      ⟨(h.toNoted.sub hs).noted, fun r hr => by
        have hr' : r ∈ t.pending := hr
        rw [h.none h0] at hr'
        exact absurd hr' (by simp), h.none⟩
    cases kind with
    | map => exact h
    | set => exact main (hq.resolve_left (by decide))
    | keys => exact main (hq.resolve_left (by decide))
  | clear => exact ⟨fun r hr => by simp [Table.step] at hr, fun r hr => by simp [Table.step] at hr, fun _ => rfl⟩
  | enter => exact ⟨h.noted, h.there, fun e => absurd e (Nat.succ_ne_zero _)⟩
  | leave order =>
    simp only [Table.step]; split
    · exact Settled.commit (t := { t with iterating := t.iterating - 1 })
        ⟨hI.bound, hI.uniq, hI.nodup, hI.pnodup, hI.pdead⟩ h.noted h.there
    · exact h
  | die o =>
    simp only [Table.step]; split
    · exact h.die hI o
    · exact h
  | sweep order =>
    obtain ⟨a, b, c, d, e⟩ := note_good hI
    refine Settled.commit (t := t.note) a (fun r hr hd => ?_) (fun r hr => ?_)
    · rw [b] at hr
      exact (e r).2 (Or.inl (h.noted r hr (by simpa only [Table.live, c] using hd)))
    · rw [b]
      rcases (e r).1 hr with h' | h'
      · exact h.there r h'
      · exact h'.1
  | foreign o =>
    cases kind with
    | map => exact h
    | keys => exact h
    | set => exact absurd rfl hq

/-- All the operations are quiet when they are made. -/
def AllQuiet (cls : Nat → Nat) (kind : Kind) : Table V → List (Op V) → Prop
  | _, [] => True
  | t, op :: ops => Quiet kind t op ∧ AllQuiet cls kind (t.step cls kind op).1 ops

theorem Settled.init : Settled ({} : Table V) := ⟨by simp, by simp, by simp⟩

theorem run_settled (cls : Nat → Nat) {kind : Kind} : ∀ (ops : List (Op V)) {t : Table V}, Inv t → Settled t →
    AllQuiet cls kind t ops → Settled (t.run cls kind ops).1
  | [], _, _, h, _ => h
  | op :: ops, _, hI, h, hq =>
    run_settled cls ops (step_good cls kind hI op).1 (step_settled cls hI h op hq.1) hq.2

theorem run_noted (cls : Nat → Nat) {kind : Kind} (hk : kind ≠ .keys) : ∀ (ops : List (Op V)) {t : Table V}, Inv t →
    Noted t → Noted (t.run cls kind ops).1
  | [], _, _, h => h
  | op :: ops, _, hI, h =>
    run_noted cls hk ops (step_good cls kind hI op).1 (step_noted cls hk hI h op)

theorem map_quiet (t : Table V) (op : Op V) : Quiet .map t op := by
  cases op <;> simp [Quiet]

theorem map_allQuiet (cls : Nat → Nat) : ∀ (ops : List (Op V)) (t : Table V), AllQuiet cls .map t ops
  | [], _ => trivial
  | op :: ops, t => ⟨map_quiet t op, map_allQuiet cls ops _⟩

theorem vw_length (live : Nat → Bool) : ∀ (es : List (Ref × V)),
    (vw live es).length + ((es.map Prod.fst).filter (fun r => !live r.target)).length = es.length
  | [] => rfl
  | e :: es => by
    have ih := vw_length live es
    by_cases hl : live e.1.target = true
    · rw [vw_cons_live _ hl, List.map_cons, List.filter_cons_of_neg (by simp [hl]), List.length_cons, List.length_cons]
      omega
    · rw [vw_cons_dead _ (by simpa using hl), List.map_cons, List.filter_cons_of_pos (by simp [hl]), List.length_cons,
        List.length_cons]
      omega

theorem Settled.len {t : Table V} (hI : Inv t) (h : Settled t) : t.len = t.view.length := by
  have hv := vw_length t.live t.entries
  have hperm : ((t.entries.map Prod.fst).filter (fun r => !t.live r.target)).Perm t.pending := by
    rw [List.perm_ext_iff_of_nodup (hI.nodup.filter _) hI.pnodup]
    intro r
    rw [List.mem_filter]
    constructor
    · rintro ⟨a, b⟩
      exact h.noted r a (by simpa using b)
    · intro hr
      exact ⟨h.there r hr, by simpa using hI.pdead r hr⟩
  have hl := hperm.length_eq
  unfold Table.len
  rw [view_eq]
  omega

end Verif.Weak
