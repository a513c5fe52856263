import Verif.Weak.Spec

namespace Verif.Weak

variable {V : Type}

def vw (live : Nat → Bool) (es : List (Ref × V)) : List (Nat × V) :=
  es.filterMap fun e => if live e.1.target then some (e.1.target, e.2) else none

theorem view_eq (t : Table V) : t.view = vw t.live t.entries := rfl

@[simp] theorem vw_nil (live : Nat → Bool) : vw live ([] : List (Ref × V)) = [] := rfl

theorem vw_cons_live {live : Nat → Bool} {e : Ref × V} (es : List (Ref × V)) (h : live e.1.target = true) :
    vw live (e :: es) = (e.1.target, e.2) :: vw live es := by
  simp [vw, h]

theorem vw_cons_dead {live : Nat → Bool} {e : Ref × V} (es : List (Ref × V)) (h : live e.1.target = false) :
    vw live (e :: es) = vw live es := by
  simp [vw, h]

theorem vw_append (live : Nat → Bool) (a b : List (Ref × V)) : vw live (a ++ b) = vw live a ++ vw live b := by
  simp [vw]

theorem vw_eraseP_dead {live : Nat → Bool} {p : Ref × V → Bool} :
    ∀ (es : List (Ref × V)), (∀ e ∈ es, p e = true → live e.1.target = false) →
      vw live (es.eraseP p) = vw live es
  | [], _ => rfl
  | e :: es, h => by
    by_cases hp : p e = true
    · rw [List.eraseP_cons_of_pos hp, vw_cons_dead es (h e (by simp) hp)]
    · rw [List.eraseP_cons_of_neg hp]
      have ih := vw_eraseP_dead es (fun e he => h e (List.mem_cons_of_mem _ he))
      by_cases hl : live e.1.target = true
      · rw [vw_cons_live _ hl, vw_cons_live _ hl, ih]
      · rw [vw_cons_dead _ (by simpa using hl), vw_cons_dead _ (by simpa using hl), ih]

/-- A new reference equals exactly the references to living equal objects. -/
theorem refEq_new {cls : Nat → Nat} {live : Nat → Bool} {f o : Nat} {r : Ref} (ho : live o = true) (hr : r.id < f) :
    refEq cls live ⟨f, o⟩ r = (live r.target && decide (cls r.target = cls o)) := by
  have hne : (f == r.id) = false := by simp; omega
  unfold refEq
  by_cases hl : live r.target = true
  · simp only [ho, hl, Bool.and_self, if_true, Bool.true_and]
    by_cases hc : cls r.target = cls o
    · simp [hc]
    · simp [hc, Ne.symm hc]
  · simp [ho, hl, hne]

/-- A reference which is dead equals only itself. -/
theorem refEq_dead {cls : Nat → Nat} {live : Nat → Bool} {a b : Ref} (ha : live a.target = false) :
    refEq cls live a b = (a.id == b.id) := by
  simp [refEq, ha]

theorem vw_find {cls : Nat → Nat} {live : Nat → Bool} {f o : Nat} (ho : live o = true) :
    ∀ (es : List (Ref × V)), (∀ e ∈ es, e.1.id < f) →
      (es.find? (fun e => refEq cls live ⟨f, o⟩ e.1)).map (fun e => (e.1.target, e.2)) =
        Plain.get cls o (vw live es)
  | [], _ => rfl
  | e :: es, h => by
    have hb := h e (by simp)
    have ih := vw_find (cls := cls) ho es (fun e he => h e (List.mem_cons_of_mem _ he))
    by_cases hl : live e.1.target = true
    · rw [vw_cons_live _ hl]
      unfold Plain.get at ih ⊢
      by_cases hc : cls e.1.target = cls o
      · rw [List.find?_cons_of_pos (by rw [refEq_new ho hb]; simp [hl, hc]),
          List.find?_cons_of_pos (by simp [hc])]
        rfl
      · rw [List.find?_cons_of_neg (by rw [refEq_new ho hb]; simp [hc]),
          List.find?_cons_of_neg (by simp [hc]), ih]
    · rw [vw_cons_dead _ (by simpa using hl), List.find?_cons_of_neg (by rw [refEq_new ho hb]; simp [hl]), ih]

theorem vw_without {cls : Nat → Nat} {live : Nat → Bool} {f o : Nat} (ho : live o = true) :
    ∀ (es : List (Ref × V)), (∀ e ∈ es, e.1.id < f) →
      vw live (es.eraseP (fun e => refEq cls live ⟨f, o⟩ e.1)) = Plain.without cls o (vw live es)
  | [], _ => rfl
  | e :: es, h => by
    have hb := h e (by simp)
    have ih := vw_without (cls := cls) ho es (fun e he => h e (List.mem_cons_of_mem _ he))
    by_cases hl : live e.1.target = true
    · rw [vw_cons_live _ hl]
      unfold Plain.without at ih ⊢
      by_cases hc : cls e.1.target = cls o
      · rw [List.eraseP_cons_of_pos (by rw [refEq_new ho hb]; simp [hl, hc]),
          List.eraseP_cons_of_pos (by simp [hc])]
      · rw [List.eraseP_cons_of_neg (by rw [refEq_new ho hb]; simp [hc]),
          List.eraseP_cons_of_neg (by simp [hc]), vw_cons_live _ hl, ih]
    · rw [vw_cons_dead _ (by simpa using hl), List.eraseP_cons_of_neg (by rw [refEq_new ho hb]; simp [hl]),
        vw_cons_dead _ (by simpa using hl), ih]

/-- The list of entries after `put`. -/
def putEntries (cls : Nat → Nat) (live : Nat → Bool) (f o : Nat) (v : V) (es : List (Ref × V)) : List (Ref × V) :=
  match es.findIdx? (fun e => refEq cls live ⟨f, o⟩ e.1) with
  | some i => es.modify i (fun e => (e.1, v))
  | none => es ++ [(⟨f, o⟩, v)]

theorem putEntries_nil (cls : Nat → Nat) (live : Nat → Bool) (f o : Nat) (v : V) :
    putEntries cls live f o v [] = [(⟨f, o⟩, v)] := rfl

theorem putEntries_cons (cls : Nat → Nat) (live : Nat → Bool) (f o : Nat) (v : V) (e : Ref × V) (es : List (Ref × V)) :
    putEntries cls live f o v (e :: es) =
      if refEq cls live ⟨f, o⟩ e.1 then (e.1, v) :: es else e :: putEntries cls live f o v es := by
  unfold putEntries
  rw [List.findIdx?_cons]
  by_cases h : refEq cls live ⟨f, o⟩ e.1 = true
  · simp [h]
  · simp only [h]
    cases hf : es.findIdx? (fun e => refEq cls live ⟨f, o⟩ e.1) <;> simp

theorem put_eq (cls : Nat → Nat) (t : Table V) (o : Nat) (v : V) :
    t.put cls o v = { t with entries := putEntries cls t.live t.fresh o v t.entries, fresh := t.fresh + 1 } := by
  unfold Table.put putEntries
  cases t.entries.findIdx? (fun e => refEq cls t.live ⟨t.fresh, o⟩ e.1) <;> rfl

theorem vw_put {cls : Nat → Nat} {live : Nat → Bool} {f o : Nat} (v : V) (ho : live o = true) :
    ∀ (es : List (Ref × V)), (∀ e ∈ es, e.1.id < f) →
      vw live (putEntries cls live f o v es) = Plain.store cls o v (vw live es)
  | [], _ => by
    rw [putEntries_nil, vw_cons_live [] (by exact ho)]
    rfl
  | e :: es, h => by
    have hb := h e (by simp)
    have ih := vw_put (cls := cls) v ho es (fun e he => h e (List.mem_cons_of_mem _ he))
    rw [putEntries_cons]
    by_cases hl : live e.1.target = true
    · rw [vw_cons_live _ hl, Plain.store]
      by_cases hc : cls e.1.target = cls o
      · rw [if_pos (by rw [refEq_new ho hb]; simp [hl, hc]), if_pos hc]
        exact vw_cons_live (e := (e.1, v)) es hl
      · rw [if_neg (by rw [refEq_new ho hb]; simp [hc]), if_neg hc, vw_cons_live _ hl, ih]
    · have hl' : live e.1.target = false := by simpa using hl
      rw [vw_cons_dead _ hl', if_neg (by rw [refEq_new ho hb]; simp [hl]), vw_cons_dead _ hl', ih]

theorem put_refs (cls : Nat → Nat) (live : Nat → Bool) (f o : Nat) (v : V) :
    ∀ (es : List (Ref × V)), (putEntries cls live f o v es).map Prod.fst = es.map Prod.fst ∨
      (putEntries cls live f o v es).map Prod.fst = es.map Prod.fst ++ [⟨f, o⟩]
  | [] => by right; rfl
  | e :: es => by
    rw [putEntries_cons]
    split
    · left; rfl
    · rcases put_refs cls live f o v es with h | h
      · left; simp [h]
      · right; simp [h]

/-- If nothing equal is there the entry is appended. -/
theorem store_none {cls : Nat → Nat} {o : Nat} {v : V} :
    ∀ (items : List (Nat × V)), Plain.get cls o items = none → Plain.store cls o v items = items ++ [(o, v)]
  | [], _ => rfl
  | (k, w) :: rest, h => by
    unfold Plain.get at h
    by_cases hc : cls k = cls o
    · rw [List.find?_cons_of_pos (by simp [hc])] at h; cases h
    · rw [List.find?_cons_of_neg (by simp [hc])] at h
      rw [Plain.store, if_neg hc, store_none rest h]; rfl

/-- The invariant on which everything rests. -/
structure Inv (t : Table V) : Prop where
  bound : ∀ r ∈ t.entries.map Prod.fst ++ t.pending, r.id < t.fresh
  uniq : ∀ a ∈ t.entries.map Prod.fst ++ t.pending, ∀ b ∈ t.entries.map Prod.fst ++ t.pending, a.id = b.id → a = b
  nodup : (t.entries.map Prod.fst).Nodup
  pnodup : t.pending.Nodup
  pdead : ∀ r ∈ t.pending, t.live r.target = false

theorem Inv.init : Inv ({} : Table V) :=
  ⟨by simp, by simp, by simp, by simp, by simp⟩

theorem Inv.entry_bound {t : Table V} (h : Inv t) : ∀ e ∈ t.entries, e.1.id < t.fresh :=
  fun e he => h.bound e.1 (List.mem_append_left _ (List.mem_map_of_mem he))

/-- Fewer entries and fewer pending references keep the invariant. -/
theorem Inv.shrink {t t' : Table V} (h : Inv t) (hf : t'.fresh = t.fresh) (hd : t'.dead = t.dead)
    (he : (t'.entries.map Prod.fst).Sublist (t.entries.map Prod.fst)) (hp : t'.pending.Sublist t.pending) : Inv t' := by
  have sub : ∀ r ∈ t'.entries.map Prod.fst ++ t'.pending, r ∈ t.entries.map Prod.fst ++ t.pending := by
    intro r hr
    rcases List.mem_append.1 hr with hr | hr
    · exact List.mem_append_left _ (he.subset hr)
    · exact List.mem_append_right _ (hp.subset hr)
  refine ⟨fun r hr => hf ▸ h.bound r (sub r hr), fun a ha b hb => h.uniq a (sub a ha) b (sub b hb),
    he.nodup h.nodup, hp.nodup h.pnodup, fun r hr => ?_⟩
  have := h.pdead r (hp.subset hr)
  simpa only [Table.live, hd] using this

theorem discard_sub (cls : Nat → Nat) (t : Table V) (r : Ref) :
    ((t.discard cls r).entries.map Prod.fst).Sublist (t.entries.map Prod.fst) :=
  (List.eraseP_sublist (l := t.entries)).map Prod.fst

theorem Inv.discard {cls : Nat → Nat} {t : Table V} (h : Inv t) (r : Ref) : Inv (t.discard cls r) :=
  h.shrink rfl rfl (discard_sub cls t r) (List.Sublist.refl _)

theorem view_discard {cls : Nat → Nat} {t : Table V} {r : Ref} (hr : t.live r.target = false)
    (hu : ∀ e ∈ t.entries, r.id = e.1.id → r = e.1) : (t.discard cls r).view = t.view := by
  rw [view_eq, view_eq]
  refine vw_eraseP_dead t.entries (fun e he hp => ?_)
  have hid : r.id = e.1.id := by
    have := hp
    simp only [refEq_dead hr] at this
    simpa using this
  rw [← hu e he hid]; exact hr

theorem Inv.addPending {t : Table V} (h : Inv t) {r : Ref} (hr : r ∈ t.entries.map Prod.fst)
    (hd : t.live r.target = false) : Inv (t.addPending r) := by
  unfold Table.addPending
  split
  · exact h
  · next hn =>
    have hn' : r ∉ t.pending := by simpa using hn
    have sub : ∀ x ∈ t.entries.map Prod.fst ++ (t.pending ++ [r]), x ∈ t.entries.map Prod.fst ++ t.pending := by
      intro x hx
      rcases List.mem_append.1 hx with hx | hx
      · exact List.mem_append_left _ hx
      · rcases List.mem_append.1 hx with hx | hx
        · exact List.mem_append_right _ hx
        · rw [List.mem_singleton.1 hx]; exact List.mem_append_left _ hr
    refine ⟨fun x hx => h.bound x (sub x hx), fun a ha b hb => h.uniq a (sub a ha) b (sub b hb), h.nodup, ?_, ?_⟩
    · rw [List.nodup_append]
      refine ⟨h.pnodup, by simp, fun a ha b hb => ?_⟩
      rw [List.mem_singleton.1 hb]
      exact fun e => hn' (e ▸ ha)
    · intro x hx
      rcases List.mem_append.1 hx with hx | hx
      · exact h.pdead x hx
      · rw [List.mem_singleton.1 hx]; exact hd

@[simp] theorem addPending_entries (t : Table V) (r : Ref) : (t.addPending r).entries = t.entries := by
  unfold Table.addPending; split <;> rfl
@[simp] theorem addPending_dead (t : Table V) (r : Ref) : (t.addPending r).dead = t.dead := by
  unfold Table.addPending; split <;> rfl
@[simp] theorem addPending_iterating (t : Table V) (r : Ref) : (t.addPending r).iterating = t.iterating := by
  unfold Table.addPending; split <;> rfl
@[simp] theorem addPending_fresh (t : Table V) (r : Ref) : (t.addPending r).fresh = t.fresh := by
  unfold Table.addPending; split <;> rfl
@[simp] theorem discard_dead (cls : Nat → Nat) (t : Table V) (r : Ref) : (t.discard cls r).dead = t.dead := rfl
@[simp] theorem discard_pending (cls : Nat → Nat) (t : Table V) (r : Ref) : (t.discard cls r).pending = t.pending := rfl
@[simp] theorem discard_iterating (cls : Nat → Nat) (t : Table V) (r : Ref) :
    (t.discard cls r).iterating = t.iterating := rfl
@[simp] theorem callback_dead (cls : Nat → Nat) (t : Table V) (r : Ref) : (t.callback cls r).dead = t.dead := by
  unfold Table.callback; split <;> simp
@[simp] theorem callback_iterating (cls : Nat → Nat) (t : Table V) (r : Ref) :
    (t.callback cls r).iterating = t.iterating := by
  unfold Table.callback; split <;> simp
@[simp] theorem addPending_view (t : Table V) (r : Ref) : (t.addPending r).view = t.view := by
  simp [Table.view, Table.live]

theorem mem_discard {cls : Nat → Nat} {t : Table V} {r x : Ref} (hr : t.live r.target = false)
    (hx : x ∈ t.entries.map Prod.fst) (hne : r.id ≠ x.id) : x ∈ (t.discard cls r).entries.map Prod.fst := by
  obtain ⟨e, he, rfl⟩ := List.mem_map.1 hx
  refine List.mem_map_of_mem ?_
  refine (List.mem_eraseP_of_neg ?_).2 he
  simp only [refEq_dead hr]
  simpa using hne

/-- Calling back a list of different dead references which are all there. -/
theorem callbacks_good {cls : Nat → Nat} : ∀ (rs : List Ref) (t : Table V), Inv t → rs.Nodup →
    (∀ r ∈ rs, r ∈ t.entries.map Prod.fst ∧ t.live r.target = false) →
    Inv (rs.foldl (Table.callback cls) t) ∧ (rs.foldl (Table.callback cls) t).view = t.view ∧
      (rs.foldl (Table.callback cls) t).dead = t.dead ∧ (rs.foldl (Table.callback cls) t).iterating = t.iterating
  | [], t, h, _, _ => ⟨h, rfl, rfl, rfl⟩
  | r :: rs, t, h, hn, hr => by
    have hr0 := hr r (by simp)
    have hmem0 : r ∈ t.entries.map Prod.fst ++ t.pending := List.mem_append_left _ hr0.1
    have hn' := List.nodup_cons.1 hn
    rw [List.foldl_cons]
    have key : Inv (t.callback cls r) ∧ (t.callback cls r).view = t.view ∧
        (∀ x ∈ rs, x ∈ (t.callback cls r).entries.map Prod.fst ∧ (t.callback cls r).live x.target = false) := by
      by_cases hi : t.iterating > 0
      · simp only [Table.callback, if_pos hi]
        refine ⟨h.addPending hr0.1 hr0.2, addPending_view t r, fun x hx => ?_⟩
        have := hr x (List.mem_cons_of_mem _ hx)
        simpa [Table.live] using this
      · simp only [Table.callback, if_neg hi]
        refine ⟨h.discard r, view_discard hr0.2 (fun e he hid => ?_), fun x hx => ?_⟩
        · exact h.uniq r hmem0 e.1 (List.mem_append_left _ (List.mem_map_of_mem he)) hid
        · have hx' := hr x (List.mem_cons_of_mem _ hx)
          refine ⟨mem_discard hr0.2 hx'.1 (fun hid => ?_), hx'.2⟩
          have := h.uniq r hmem0 x (List.mem_append_left _ hx'.1) hid
          exact hn'.1 (this ▸ hx)
    obtain ⟨k1, k2, k3⟩ := key
    obtain ⟨i1, i2, i3, i4⟩ := callbacks_good rs (t.callback cls r) k1 hn'.2 k3
    exact ⟨i1, i2.trans k2, by rw [i3]; simp, by rw [i4]; simp⟩

theorem Inv.kill {t : Table V} (h : Inv t) (o : Nat) : Inv { t with dead := o :: t.dead } := by
  refine ⟨h.bound, h.uniq, h.nodup, h.pnodup, fun r hr => ?_⟩
  have := h.pdead r hr
  simp only [Table.live, Bool.not_eq_false', List.contains_eq_mem, List.mem_cons, decide_eq_true_eq] at this ⊢
  exact Or.inr this

theorem live_kill (t : Table V) (o x : Nat) :
    ({ t with dead := o :: t.dead } : Table V).live x = (t.live x && x != o) := by
  simp only [Table.live, List.contains_cons, Bool.not_or, Bool.and_comm, bne]

theorem vw_filter {live live' : Nat → Bool} {o : Nat} (hl : ∀ x, live' x = (live x && x != o)) :
    ∀ (es : List (Ref × V)), vw live' es = (vw live es).filter (fun i => i.1 != o)
  | [] => rfl
  | e :: es => by
    have ih := vw_filter hl es
    by_cases h : live e.1.target = true
    · by_cases ho : e.1.target = o
      · rw [vw_cons_dead _ (by rw [hl]; simp [ho]), vw_cons_live _ h, List.filter_cons_of_neg (by simp [ho]), ih]
      · rw [vw_cons_live _ (by rw [hl]; simp [ho, h]), vw_cons_live _ h, List.filter_cons_of_pos (by simp [ho]), ih]
    · have h' : live e.1.target = false := by simpa using h
      rw [vw_cons_dead _ (by rw [hl]; simp [h']), vw_cons_dead _ h', ih]

theorem die_good {cls : Nat → Nat} {t : Table V} (h : Inv t) (o : Nat) :
    Inv (t.die cls o) ∧ (t.die cls o).view = t.view.filter (fun i => i.1 != o) ∧ (t.die cls o).dead = o :: t.dead ∧
      (t.die cls o).iterating = t.iterating := by
  unfold Table.die
  have hk := h.kill o
  obtain ⟨h1, h2, h3, h4⟩ := callbacks_good (cls := cls)
    (((({ t with dead := o :: t.dead } : Table V).entries.map Prod.fst).filter (fun r => r.target == o)))
    { t with dead := o :: t.dead } hk (h.nodup.filter _) (fun r hr => by
      obtain ⟨hr1, hr2⟩ := List.mem_filter.1 hr
      have : r.target = o := by simpa using hr2
      exact ⟨hr1, by rw [live_kill]; simp [this]⟩)
  refine ⟨h1, h2.trans ?_, h3, h4⟩
  rw [view_eq, view_eq]
  exact vw_filter (live_kill t o) t.entries

/-- Discarding dead references, whether they are there or not. -/
theorem discards_good {cls : Nat → Nat} : ∀ (rs : List Ref) (t : Table V), Inv t →
    (∀ r ∈ rs, t.live r.target = false ∧ ∀ e ∈ t.entries, r.id = e.1.id → r = e.1) →
    Inv (rs.foldl (Table.discard cls) t) ∧ (rs.foldl (Table.discard cls) t).view = t.view ∧
      (rs.foldl (Table.discard cls) t).dead = t.dead ∧ (rs.foldl (Table.discard cls) t).iterating = t.iterating ∧
      (rs.foldl (Table.discard cls) t).pending = t.pending
  | [], t, h, _ => ⟨h, rfl, rfl, rfl, rfl⟩
  | r :: rs, t, h, hr => by
    have hr0 := hr r (by simp)
    rw [List.foldl_cons]
    obtain ⟨i1, i2, i3, i4, i5⟩ := discards_good (cls := cls) rs (t.discard cls r) (h.discard r) (fun x hx => by
      have hx' := hr x (List.mem_cons_of_mem _ hx)
      exact ⟨hx'.1, fun e he => hx'.2 e (List.mem_of_mem_eraseP he)⟩)
    exact ⟨i1, i2.trans (view_discard hr0.1 hr0.2), i3, i4, i5⟩

theorem commitKeys_good {cls : Nat → Nat} : ∀ (rs : List Ref) (t : Table V), Inv t →
    (∀ r ∈ rs, t.live r.target = false ∧ ∀ e ∈ t.entries, r.id = e.1.id → r = e.1) →
    Inv (Table.commitKeys cls rs t) ∧ (Table.commitKeys cls rs t).view = t.view ∧
      (Table.commitKeys cls rs t).dead = t.dead ∧ (Table.commitKeys cls rs t).iterating = t.iterating ∧
      (Table.commitKeys cls rs t).pending = t.pending
  | [], t, h, _ => ⟨h, rfl, rfl, rfl, rfl⟩
  | r :: rs, t, h, hr => by
    have hr0 := hr r (by simp)
    rw [Table.commitKeys]
    split
    · obtain ⟨i1, i2, i3, i4, i5⟩ := commitKeys_good (cls := cls) rs (t.discard cls r) (h.discard r) (fun x hx => by
        have hx' := hr x (List.mem_cons_of_mem _ hx)
        exact ⟨hx'.1, fun e he => hx'.2 e (List.mem_of_mem_eraseP he)⟩)
      exact ⟨i1, i2.trans (view_discard hr0.1 hr0.2), i3, i4, i5⟩
    · exact ⟨h, rfl, rfl, rfl, rfl⟩

theorem commit_good {cls : Nat → Nat} {kind : Kind} {order : Order} {t : Table V} (h : Inv t) :
    Inv (t.commit cls kind order) ∧ (t.commit cls kind order).view = t.view ∧
      (t.commit cls kind order).dead = t.dead ∧ (t.commit cls kind order).iterating = t.iterating ∧
      (t.iterating = 0 → (t.commit cls kind order).pending = []) := by
  unfold Table.commit
  split
  · next hi => exact ⟨h, rfl, rfl, rfl, fun h0 => by omega⟩
  · have h0 : Inv ({ t with pending := [] } : Table V) :=
      h.shrink rfl rfl (List.Sublist.refl _) (List.nil_sublist _)
    have hr : ∀ r ∈ order.apply t.pending,
        ({ t with pending := [] } : Table V).live r.target = false ∧
          ∀ e ∈ ({ t with pending := [] } : Table V).entries, r.id = e.1.id → r = e.1 := by
      intro r hr
      have hr' := (order.perm t.pending).mem_iff.1 hr
      exact ⟨h.pdead r hr', fun e he hid =>
        h.uniq r (List.mem_append_right _ hr') e.1 (List.mem_append_left _ (List.mem_map_of_mem he)) hid⟩
    cases kind with
    | keys =>
      obtain ⟨a, b, c, d, e⟩ := commitKeys_good (cls := cls) _ _ h0 hr
      exact ⟨a, b, c, d, fun _ => e⟩
    | set =>
      obtain ⟨a, b, c, d, e⟩ := discards_good (cls := cls) _ _ h0 hr
      exact ⟨a, b, c, d, fun _ => e⟩
    | map =>
      obtain ⟨a, b, c, d, e⟩ := discards_good (cls := cls) _ _ h0 hr
      exact ⟨a, b, c, d, fun _ => e⟩

theorem notes_good : ∀ (rs : List Ref) (t : Table V), Inv t →
    (∀ r ∈ rs, r ∈ t.entries.map Prod.fst ∧ t.live r.target = false) →
    Inv (rs.foldl Table.addPending t) ∧ (rs.foldl Table.addPending t).entries = t.entries ∧
      (rs.foldl Table.addPending t).dead = t.dead ∧ (rs.foldl Table.addPending t).iterating = t.iterating ∧
      ∀ x, x ∈ (rs.foldl Table.addPending t).pending ↔ x ∈ t.pending ∨ x ∈ rs
  | [], t, h, _ => ⟨h, rfl, rfl, rfl, by simp⟩
  | r :: rs, t, h, hr => by
    have hr0 := hr r (by simp)
    rw [List.foldl_cons]
    obtain ⟨i1, i2, i3, i4, i5⟩ := notes_good rs (t.addPending r) (h.addPending hr0.1 hr0.2) (fun x hx => by
      have hx' := hr x (List.mem_cons_of_mem _ hx)
      simpa [Table.live] using hx')
    refine ⟨i1, by rw [i2]; simp, by rw [i3]; simp, by rw [i4]; simp, fun x => ?_⟩
    rw [i5, List.mem_cons]
    unfold Table.addPending
    split
    · next hc =>
      have hc' : r ∈ t.pending := by simpa using hc
      constructor
      · rintro (h | h)
        · exact Or.inl h
        · exact Or.inr (Or.inr h)
      · rintro (h | h | h)
        · exact Or.inl h
        · exact Or.inl (h ▸ hc')
        · exact Or.inr h
    · simp only [List.mem_append, List.mem_singleton, or_assoc]

theorem note_good {t : Table V} (h : Inv t) :
    Inv t.note ∧ t.note.entries = t.entries ∧ t.note.dead = t.dead ∧ t.note.iterating = t.iterating ∧
      ∀ x, x ∈ t.note.pending ↔ x ∈ t.pending ∨ (x ∈ t.entries.map Prod.fst ∧ t.live x.target = false) := by
  have := notes_good ((t.entries.map Prod.fst).filter (fun r => !t.live r.target)) t h (fun r hr => by
    obtain ⟨a, b⟩ := List.mem_filter.1 hr
    exact ⟨a, by simpa using b⟩)
  obtain ⟨a, b, c, d, e⟩ := this
  refine ⟨a, b, c, d, fun x => ?_⟩
  rw [Table.note, e, List.mem_filter]
  simp

theorem note_view {t : Table V} (h : Inv t) : t.note.view = t.view := by
  obtain ⟨_, b, c, _, _⟩ := note_good h
  rw [view_eq, view_eq, b]
  have : t.note.live = t.live := by funext x; simp only [Table.live, c]
  rw [this]

/-- Taking one item out. -/
theorem popLoop_good {live : Nat → Bool} {position : Nat → Nat} (hpos : ∀ n, 0 < n → position n < n) :
    ∀ (n : Nat) (es : List (Ref × V)), es.length ≤ n →
      ((Table.popLoop live position n es).1).Sublist es ∧
      (((Table.popLoop live position n es).2 = none ∧ vw live es = [] ∧ vw live (Table.popLoop live position n es).1 = []) ∨
      ∃ before i after, vw live es = before ++ i :: after ∧
        vw live (Table.popLoop live position n es).1 = before ++ after ∧
        (Table.popLoop live position n es).2 = some i ∧ ((∀ n, position n = n - 1) → after = []))
  | 0, es, h => by
    have : es = [] := List.length_eq_zero_iff.1 (by omega)
    subst this
    exact ⟨List.Sublist.refl _, Or.inl ⟨rfl, rfl, rfl⟩⟩
  | n + 1, es, h => by
    by_cases h0 : es = []
    · subst h0
      exact ⟨by simp [Table.popLoop], Or.inl ⟨by simp [Table.popLoop], rfl, by simp [Table.popLoop]⟩⟩
    · have hlen : 0 < es.length := List.length_pos_iff.2 h0
      have hlt := hpos _ hlen
      have hget : es[position es.length]? = some es[position es.length] := List.getElem?_eq_getElem hlt
      have split : es = es.take (position es.length) ++ es[position es.length] :: es.drop (position es.length + 1) := by
        simp
      have erase : es.eraseIdx (position es.length) =
          es.take (position es.length) ++ es.drop (position es.length + 1) :=
        List.eraseIdx_eq_take_drop_succ ..
      rw [Table.popLoop, hget]
      dsimp only
      by_cases hl : live es[position es.length].1.target = true
      · rw [if_pos hl]
        refine ⟨List.eraseIdx_sublist .., Or.inr
          ⟨vw live (es.take (position es.length)), _, vw live (es.drop (position es.length + 1)), ?_, ?_, rfl, ?_⟩⟩
        · conv => lhs; rw [split]
          rw [vw_append, vw_cons_live _ hl]
        · rw [erase, vw_append]
        · intro hlast
          rw [hlast, List.drop_eq_nil_of_le (by omega)]; rfl
      · rw [if_neg hl]
        have hl' : live es[position es.length].1.target = false := by simpa using hl
        have hv : vw live (es.eraseIdx (position es.length)) = vw live es := by
          rw [erase]
          conv => rhs; rw [split]
          rw [vw_append, vw_append, vw_cons_dead _ hl']
        have hl2 : (es.eraseIdx (position es.length)).length ≤ n := by
          rw [List.length_eraseIdx_of_lt hlt]; omega
        obtain ⟨i1, i2⟩ := popLoop_good hpos n (es.eraseIdx (position es.length)) hl2
        refine ⟨i1.trans (List.eraseIdx_sublist ..), ?_⟩
        rw [hv] at i2
        exact i2

theorem popPosition_lt (kind : Kind) (choice : Nat → Nat) : ∀ n, 0 < n → Table.popPosition kind choice n < n := by
  intro n hn
  cases kind
  · exact Nat.mod_lt _ hn
  · exact Nat.mod_lt _ hn
  · show n - 1 < n
    omega

theorem live_iff (t : Table V) (o : Nat) : t.live o = true ↔ o ∉ t.dead := by
  simp [Table.live]

theorem Inv.put {cls : Nat → Nat} {t : Table V} (h : Inv t) (o : Nat) (v : V) : Inv (t.put cls o v) := by
  rw [put_eq]
  have hmem : ∀ r ∈ (putEntries cls t.live t.fresh o v t.entries).map Prod.fst ++ t.pending,
      r ∈ t.entries.map Prod.fst ++ t.pending ∨ r = ⟨t.fresh, o⟩ := by
    intro r hr
    rcases List.mem_append.1 hr with hr | hr
    · rcases put_refs cls t.live t.fresh o v t.entries with e | e <;> rw [e] at hr
      · exact Or.inl (List.mem_append_left _ hr)
      · rcases List.mem_append.1 hr with hr | hr
        · exact Or.inl (List.mem_append_left _ hr)
        · exact Or.inr (List.mem_singleton.1 hr)
    · exact Or.inl (List.mem_append_right _ hr)
  refine ⟨fun r hr => ?_, fun a ha b hb hab => ?_, ?_, h.pnodup, h.pdead⟩
  · rcases hmem r hr with hr | rfl
    · exact Nat.lt_succ_of_lt (h.bound r hr)
    · exact Nat.lt_succ_self _
  · rcases hmem a ha with ha | rfl <;> rcases hmem b hb with hb | rfl
    · exact h.uniq a ha b hb hab
    · have := h.bound a ha
      simp only at hab; omega
    · have := h.bound b hb
      simp only at hab; omega
    · rfl
  · show ((putEntries cls t.live t.fresh o v t.entries).map Prod.fst).Nodup
    rcases put_refs cls t.live t.fresh o v t.entries with e | e <;> rw [e]
    · exact h.nodup
    · rw [List.nodup_append]
      refine ⟨h.nodup, by simp, fun a ha b hb => ?_⟩
      rw [List.mem_singleton.1 hb]
      rintro rfl
      have := h.bound _ (List.mem_append_left _ ha)
      simp only at this; omega

/-- Every operation keeps the invariant and is one the plain dictionary allows. -/
theorem step_good (cls : Nat → Nat) (kind : Kind) {t : Table V} (h : Inv t) (op : Op V) :
    Inv (t.step cls kind op).1 ∧
      Plain.Allows cls kind t.plain op (t.step cls kind op).1.plain (t.step cls kind op).2 := by
  cases op with
  | put o v =>
    by_cases hl : t.live o = true
    · have hd : o ∉ t.plain.dead := (live_iff t o).1 hl
      simp only [Table.step, if_pos hl]
      refine ⟨h.put o v, ?_⟩
      rw [Plain.Allows]
      rw [if_neg hd]
      refine ⟨?_, rfl⟩
      rw [put_eq]
      show Plain.mk (vw t.live _) t.dead = _
      rw [vw_put v hl _ h.entry_bound]; rfl
    · have hd : o ∈ t.plain.dead := by
        by_cases hm : o ∈ t.plain.dead
        · exact hm
        · exact absurd ((live_iff t o).2 hm) hl
      simp only [Table.step, if_neg hl]
      refine ⟨h, ?_⟩
      rw [Plain.Allows]
      rw [if_pos hd]
      exact ⟨rfl, rfl⟩
  | setdefault o v =>
    by_cases hl : t.live o = true
    · have hd : o ∉ t.plain.dead := (live_iff t o).1 hl
      have hf := vw_find (cls := cls) hl t.entries h.entry_bound
      simp only [Table.step, if_pos hl, Table.find]
      rw [Plain.Allows, if_neg hd]
      cases hfind : t.entries.find? (fun e => refEq cls t.live ⟨t.fresh, o⟩ e.1) with
      | some e =>
        rw [hfind] at hf
        have hg : Plain.get cls o t.plain.items = some (e.1.target, e.2) := hf.symm
        rw [hg]
        exact ⟨h, rfl, rfl⟩
      | none =>
        rw [hfind] at hf
        have hg : Plain.get cls o t.plain.items = none := hf.symm
        rw [hg]
        refine ⟨h.put o v, ?_, rfl⟩
        rw [put_eq]
        show Plain.mk (vw t.live _) t.dead = _
        rw [vw_put v hl _ h.entry_bound, store_none (vw t.live t.entries) hg]; rfl
    · have hd : o ∈ t.plain.dead := by
        by_cases hm : o ∈ t.plain.dead
        · exact hm
        · exact absurd ((live_iff t o).2 hm) hl
      simp only [Table.step, if_neg hl]
      refine ⟨h, ?_⟩
      rw [Plain.Allows]
      rw [if_pos hd]
      exact ⟨rfl, rfl⟩
  | remove o =>
    by_cases hl : t.live o = true
    · have hd : o ∉ t.plain.dead := (live_iff t o).1 hl
      have hf := vw_find (cls := cls) hl t.entries h.entry_bound
      simp only [Table.step, if_pos hl, Table.find]
      rw [Plain.Allows, if_neg hd]
      refine ⟨h.shrink rfl rfl ((List.eraseP_sublist (l := t.entries)).map _) (List.Sublist.refl _), ?_, ?_⟩
      · show Plain.mk (vw t.live _) t.dead = _
        rw [vw_without hl _ h.entry_bound]; rfl
      · rw [hf]; rfl
    · have hd : o ∈ t.plain.dead := by
        by_cases hm : o ∈ t.plain.dead
        · exact hm
        · exact absurd ((live_iff t o).2 hm) hl
      simp only [Table.step, if_neg hl]
      refine ⟨h, ?_⟩
      rw [Plain.Allows]
      rw [if_pos hd]
      exact ⟨rfl, rfl⟩
  | look o =>
    by_cases hl : t.live o = true
    · have hd : o ∉ t.plain.dead := (live_iff t o).1 hl
      have hf := vw_find (cls := cls) hl t.entries h.entry_bound
      simp only [Table.step, if_pos hl, Table.find]
      rw [Plain.Allows, if_neg hd]
      exact ⟨h, rfl, by rw [hf]; rfl⟩
    · have hd : o ∈ t.plain.dead := by
        by_cases hm : o ∈ t.plain.dead
        · exact hm
        · exact absurd ((live_iff t o).2 hm) hl
      simp only [Table.step, if_neg hl]
      refine ⟨h, ?_⟩
      rw [Plain.Allows]
      rw [if_pos hd]
      exact ⟨rfl, rfl⟩
  | pop choice =>
    have hp := popLoop_good (live := t.live) (popPosition_lt kind choice) t.entries.length t.entries (Nat.le_refl _)
    obtain ⟨hs, hp⟩ := hp
    have main : Inv ({ t with entries := (Table.popLoop t.live (Table.popPosition kind choice) t.entries.length t.entries).1 } : Table V) ∧
        ((t.plain.items = [] ∧
          ({ t with entries := (Table.popLoop t.live (Table.popPosition kind choice) t.entries.length t.entries).1 } : Table V).plain = t.plain ∧
          (Out.item (Table.popLoop t.live (Table.popPosition kind choice) t.entries.length t.entries).2) = .item none) ∨
        ∃ before i after, t.plain.items = before ++ i :: after ∧
          ({ t with entries := (Table.popLoop t.live (Table.popPosition kind choice) t.entries.length t.entries).1 } : Table V).plain =
            { t.plain with items := before ++ after } ∧
          (Out.item (Table.popLoop t.live (Table.popPosition kind choice) t.entries.length t.entries).2) = .item (some i) ∧
          (kind = .keys → after = [])) := by
      refine ⟨h.shrink rfl rfl (hs.map _) (List.Sublist.refl _), ?_⟩
      rcases hp with ⟨a, b, c⟩ | ⟨before, i, after, a, b, c, d⟩
      · left
        refine ⟨b, ?_, by rw [a]⟩
        show Plain.mk (vw t.live _) t.dead = Plain.mk (vw t.live _) t.dead
        rw [c, b]
      · right
        refine ⟨before, i, after, a, ?_, by rw [c], fun hk => d (fun n => by subst hk; rfl)⟩
        show Plain.mk (vw t.live _) t.dead = _
        rw [b]; rfl
    cases kind with
    | map => exact ⟨h, by simp [Plain.Allows, Table.step]⟩
    | set =>
      refine ⟨main.1, ?_⟩
      rw [Plain.Allows]
      rw [if_neg (by decide)]
      exact main.2
    | keys =>
      refine ⟨main.1, ?_⟩
      rw [Plain.Allows]
      rw [if_neg (by decide)]
      exact main.2
  | clear =>
    exact ⟨h.shrink rfl rfl (List.nil_sublist _) (List.nil_sublist _), rfl, rfl⟩
  | enter => exact ⟨⟨h.bound, h.uniq, h.nodup, h.pnodup, h.pdead⟩, rfl, rfl⟩
  | leave order =>
    by_cases hi : t.iterating > 0
    · have h' : Inv ({ t with iterating := t.iterating - 1 } : Table V) :=
        ⟨h.bound, h.uniq, h.nodup, h.pnodup, h.pdead⟩
      obtain ⟨a, b, c, _, _⟩ := commit_good (cls := cls) (kind := kind) (order := order) h'
      simp only [Table.step, if_pos hi]
      refine ⟨a, ?_, Or.inl rfl⟩
      show Plain.mk _ _ = Plain.mk _ _
      rw [b, c]; rfl
    · simp only [Table.step, if_neg hi]
      exact ⟨h, rfl, Or.inr rfl⟩
  | die o =>
    by_cases hl : t.live o = true
    · have hd : o ∉ t.plain.dead := (live_iff t o).1 hl
      obtain ⟨a, b, c, _⟩ := die_good (cls := cls) h o
      simp only [Table.step, if_pos hl]
      refine ⟨a, ?_⟩
      rw [Plain.Allows]
      rw [if_neg hd]
      refine ⟨?_, rfl⟩
      show Plain.mk _ _ = _
      rw [b, c]; rfl
    · have hd : o ∈ t.plain.dead := by
        by_cases hm : o ∈ t.plain.dead
        · exact hm
        · exact absurd ((live_iff t o).2 hm) hl
      simp only [Table.step, if_neg hl]
      refine ⟨h, ?_⟩
      rw [Plain.Allows]
      rw [if_pos hd]
      exact ⟨rfl, rfl⟩
  | sweep order =>
    have hn := note_good h
    obtain ⟨a, b, c, _, _⟩ := commit_good (cls := cls) (kind := kind) (order := order) hn.1
    refine ⟨a, ?_, rfl⟩
    show Plain.mk _ _ = Plain.mk _ _
    rw [show (t.step cls kind (.sweep order)).1 = t.note.commit cls kind order from rfl, b, c, note_view h, hn.2.2.1]
  | foreign o =>
    cases kind with
    | map => exact ⟨h, rfl, Or.inr rfl⟩
    | keys => exact ⟨h, rfl, Or.inr rfl⟩
    | set =>
      by_cases hl : t.live o = true
      · simp only [Table.step, if_pos hl]
        exact ⟨h, rfl, Or.inr rfl⟩
      · simp only [Table.step, if_neg hl]
        refine ⟨?_, rfl, Or.inl rfl⟩
        have hmem : ∀ r ∈ t.entries.map Prod.fst ++ (t.pending ++ [⟨t.fresh, o⟩]),
            r ∈ t.entries.map Prod.fst ++ t.pending ∨ r = ⟨t.fresh, o⟩ := by
          intro r hr
          simpa [or_assoc] using hr
        refine ⟨fun r hr => ?_, fun a ha b hb hab => ?_, h.nodup, ?_, fun r hr => ?_⟩
        · rcases hmem r hr with hr | rfl
          · exact Nat.lt_succ_of_lt (h.bound r hr)
          · exact Nat.lt_succ_self _
        · rcases hmem a ha with ha | rfl <;> rcases hmem b hb with hb | rfl
          · exact h.uniq a ha b hb hab
          · have := h.bound a ha
            simp only at hab; omega
          · have := h.bound b hb
            simp only at hab; omega
          · rfl
        · rw [List.nodup_append]
          refine ⟨h.pnodup, by simp, fun a ha b hb => ?_⟩
          rw [List.mem_singleton.1 hb]
          rintro rfl
          have := h.bound _ (List.mem_append_right _ ha)
          simp only at this; omega
        · rcases List.mem_append.1 hr with hr | hr
          · exact h.pdead r hr
          · rw [List.mem_singleton.1 hr]
            show t.live o = false
            simpa using hl

theorem run_good (cls : Nat → Nat) (kind : Kind) : ∀ (ops : List (Op V)) {t : Table V}, Inv t →
    Inv (t.run cls kind ops).1 ∧ Plain.Runs cls kind t.plain ops (t.run cls kind ops).1.plain (t.run cls kind ops).2
  | [], t, h => ⟨h, .nil _⟩
  | op :: ops, t, h => by
    obtain ⟨a, b⟩ := step_good cls kind h op
    obtain ⟨c, d⟩ := run_good cls kind ops a
    exact ⟨c, .cons b d⟩

end Verif.Weak
