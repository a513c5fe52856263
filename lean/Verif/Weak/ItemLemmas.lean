import Verif.Weak.Item
import Verif.Weak.Lemmas

namespace Verif.Weak

/-- A dictionary of which everything is in order. -/
structure DGood (live : Nat → Bool) (fresh : Nat) (which : Bool) (d : IDict) : Prop where
  own : ∀ e ∈ d.entries, e.kowner = which ∧ e.vowner = which
  bound : ∀ e ∈ d.entries, e.kref.id < fresh ∧ e.vkey.id < fresh
  same : ∀ e ∈ d.entries, e.vkey.target = e.kref.target
  ids : ∀ e ∈ d.entries, ∀ e' ∈ d.entries,
    (e.kref.id = e'.kref.id → e.kref.target = e'.kref.target) ∧ (e.vkey.id = e'.kref.id → e.vkey.target = e'.kref.target)
  apart : d.entries.Pairwise fun a b => a.kref.target ≠ b.kref.target
  alive : ∀ e ∈ d.entries, live e.kref.target = true ∧ live e.vref.target = true
  none : d.pending = []

def itemOf (e : Entry) : Nat × Nat := (e.kref.target, e.vref.target)

theorem DGood.sub {live : Nat → Bool} {fresh : Nat} {which : Bool} {d d' : IDict} (h : DGood live fresh which d)
    (hs : d'.entries.Sublist d.entries) (hp : d'.pending = []) : DGood live fresh which d' :=
  ⟨fun e he => h.own e (hs.subset he), fun e he => h.bound e (hs.subset he), fun e he => h.same e (hs.subset he),
    fun e he e' he' => h.ids e (hs.subset he) e' (hs.subset he'), h.apart.sublist hs,
    fun e he => h.alive e (hs.subset he), hp⟩

theorem DGood.view {live : Nat → Bool} {fresh : Nat} {which : Bool} {d : IDict} (h : DGood live fresh which d) :
    d.view live = d.entries.map itemOf := by
  unfold IDict.view
  have ha := h.alive
  generalize d.entries = es at ha
  induction es with
  | nil => rfl
  | cons e es ih =>
    have he := ha e (by simp)
    rw [List.filterMap_cons_some (b := itemOf e) (by simp [he.1, he.2, itemOf]), List.map_cons,
      ih (fun x hx => ha x (List.mem_cons_of_mem _ hx))]

/-- A new reference equals the references to the same object only. -/
theorem refEq_same {cls : Nat → Nat} (hc : ∀ a b, cls a = cls b → a = b) {live : Nat → Bool} {f k : Nat} {r : Ref}
    (hk : live k = true) (hr : live r.target = true) : refEq cls live ⟨f, k⟩ r = (r.target == k) := by
  simp only [refEq, hk, hr, Bool.and_self, if_true]
  by_cases h : r.target = k
  · simp [h]
  · have : cls k ≠ cls r.target := fun e => h (hc _ _ e).symm
    have hb : (r.target == k) = false := by simpa using h
    rw [hb]
    simpa using this

theorem cls_iff {cls : Nat → Nat} (hc : ∀ a b, cls a = cls b → a = b) (a b : Nat) : cls a = cls b ↔ a = b :=
  ⟨hc a b, fun h => by rw [h]⟩

theorem find_items {cls : Nat → Nat} (hc : ∀ a b, cls a = cls b → a = b) {live : Nat → Bool} {f k : Nat}
    (hk : live k = true) : ∀ (es : List Entry), (∀ e ∈ es, live e.kref.target = true) →
    (es.find? fun e => refEq cls live ⟨f, k⟩ e.kref).map itemOf = Plain.get cls k (es.map itemOf)
  | [], _ => rfl
  | e :: es, h => by
    have he := h e (by simp)
    have ih := find_items hc (f := f) hk es (fun x hx => h x (List.mem_cons_of_mem _ hx))
    unfold Plain.get at ih ⊢
    rw [List.map_cons]
    by_cases hkk : e.kref.target = k
    · rw [List.find?_cons_of_pos (by rw [refEq_same hc hk he]; simp [hkk]),
        List.find?_cons_of_pos (by simp [itemOf, hkk])]
      rfl
    · rw [List.find?_cons_of_neg (by rw [refEq_same hc hk he]; simp [hkk]),
        List.find?_cons_of_neg (by simp only [itemOf, decide_eq_true_eq, cls_iff hc]; exact hkk), ih]

theorem erase_items {cls : Nat → Nat} (hc : ∀ a b, cls a = cls b → a = b) {live : Nat → Bool} {f k : Nat}
    (hk : live k = true) : ∀ (es : List Entry), (∀ e ∈ es, live e.kref.target = true) →
    (es.eraseP fun e => refEq cls live ⟨f, k⟩ e.kref).map itemOf = Plain.without cls k (es.map itemOf)
  | [], _ => rfl
  | e :: es, h => by
    have he := h e (by simp)
    have ih := erase_items hc (f := f) hk es (fun x hx => h x (List.mem_cons_of_mem _ hx))
    unfold Plain.without at ih ⊢
    rw [List.map_cons]
    by_cases hkk : e.kref.target = k
    · rw [List.eraseP_cons_of_pos (by rw [refEq_same hc hk he]; simp [hkk]),
        List.eraseP_cons_of_pos (by simp [itemOf, hkk])]
    · rw [List.eraseP_cons_of_neg (by rw [refEq_same hc hk he]; simp [hkk]),
        List.eraseP_cons_of_neg (by simp only [itemOf, decide_eq_true_eq, cls_iff hc]; exact hkk), List.map_cons, ih]

/-- The entries after an assignment. -/
def iput (cls : Nat → Nat) (live : Nat → Bool) (which : Bool) (f k v : Nat) : List Entry → List Entry
  | [] => [{ kref := ⟨f, k⟩, kowner := which, vref := ⟨f + 1, v⟩, vkey := ⟨f, k⟩, vowner := which }]
  | e :: es =>
    if refEq cls live ⟨f, k⟩ e.kref then
      { e with vref := ⟨f + 1, v⟩, vkey := ⟨f, k⟩, vowner := which } :: es
    else e :: iput cls live which f k v es

theorem put_iput (cls : Nat → Nat) (live : Nat → Bool) (which : Bool) (f k v : Nat) : ∀ (es : List Entry),
    (match es.findIdx? (fun e => refEq cls live ⟨f, k⟩ e.kref) with
      | some i => es.modify i fun e => { e with vref := ⟨f + 1, v⟩, vkey := ⟨f, k⟩, vowner := which }
      | none => es ++ [
        { kref := ⟨f, k⟩, kowner := which, vref := ⟨f + 1, v⟩, vkey := ⟨f, k⟩, vowner := which }]) =
      iput cls live which f k v es
  | [] => rfl
  | e :: es => by
    have ih := put_iput cls live which f k v es
    rw [iput, List.findIdx?_cons]
    by_cases h : refEq cls live ⟨f, k⟩ e.kref = true
    · simp [h]
    · simp only [h]
      rw [← ih]
      cases hf : es.findIdx? (fun e => refEq cls live ⟨f, k⟩ e.kref) <;> simp

theorem iput_eq (cls : Nat → Nat) (live : Nat → Bool) (which : Bool) (f k v : Nat) (d : IDict) :
    d.put cls live which f k v = { d with entries := iput cls live which f k v d.entries } := by
  rw [← put_iput]
  unfold IDict.put
  cases d.entries.findIdx? (fun e => refEq cls live ⟨f, k⟩ e.kref) <;> rfl

theorem iput_items {cls : Nat → Nat} (hc : ∀ a b, cls a = cls b → a = b) {live : Nat → Bool} {which : Bool}
    {f k v : Nat} (hk : live k = true) : ∀ (es : List Entry), (∀ e ∈ es, live e.kref.target = true) →
    (iput cls live which f k v es).map itemOf = Plain.store cls k v (es.map itemOf)
  | [], _ => rfl
  | e :: es, h => by
    have he := h e (by simp)
    have ih := iput_items hc (which := which) (f := f) (v := v) hk es (fun x hx => h x (List.mem_cons_of_mem _ hx))
    rw [iput, List.map_cons, show itemOf e = (e.kref.target, e.vref.target) from rfl, Plain.store]
    by_cases hkk : e.kref.target = k
    · rw [if_pos (by rw [refEq_same hc hk he]; simp [hkk]), if_pos (by rw [hkk])]
      rfl
    · rw [if_neg (by rw [refEq_same hc hk he]; simp [hkk]), if_neg (by rw [cls_iff hc]; exact hkk), List.map_cons, ih]
      rfl

/-- The members after an assignment. -/
theorem iput_mem {cls : Nat → Nat} (hc : ∀ a b, cls a = cls b → a = b) {live : Nat → Bool} {which : Bool}
    {f k v : Nat} (hk : live k = true) : ∀ (es : List Entry), (∀ e ∈ es, live e.kref.target = true) →
    ∀ x ∈ iput cls live which f k v es, x ∈ es ∨
      (∃ e ∈ es, e.kref.target = k ∧ x = { e with vref := ⟨f + 1, v⟩, vkey := ⟨f, k⟩, vowner := which }) ∨
      (x = { kref := ⟨f, k⟩, kowner := which, vref := ⟨f + 1, v⟩, vkey := ⟨f, k⟩, vowner := which } ∧
        ∀ e ∈ es, e.kref.target ≠ k)
  | [], _, x, hx => Or.inr (Or.inr ⟨List.mem_singleton.1 hx, by simp⟩)
  | e :: es, h, x, hx => by
    have he := h e (by simp)
    rw [iput] at hx
    by_cases hkk : e.kref.target = k
    · rw [if_pos (by rw [refEq_same hc hk he]; simp [hkk])] at hx
      rcases List.mem_cons.1 hx with hx | hx
      · exact Or.inr (Or.inl ⟨e, by simp, hkk, hx⟩)
      · exact Or.inl (List.mem_cons_of_mem _ hx)
    · rw [if_neg (by rw [refEq_same hc hk he]; simp [hkk])] at hx
      rcases List.mem_cons.1 hx with hx | hx
      · exact Or.inl (by simp [hx])
      · rcases iput_mem hc hk es (fun x hx => h x (List.mem_cons_of_mem _ hx)) x hx with a | ⟨a, b, c, d⟩ | ⟨a, b⟩
        · exact Or.inl (List.mem_cons_of_mem _ a)
        · exact Or.inr (Or.inl ⟨a, List.mem_cons_of_mem _ b, c, d⟩)
        · refine Or.inr (Or.inr ⟨a, fun y hy => ?_⟩)
          rcases List.mem_cons.1 hy with hy | hy
          · rw [hy]; exact hkk
          · exact b y hy

theorem iput_targets {cls : Nat → Nat} {live : Nat → Bool} {which : Bool}
    {f k v : Nat} : ∀ (es : List Entry), 
    ((iput cls live which f k v es).map (fun e => e.kref.target) = es.map (fun e => e.kref.target)) ∨
    ((iput cls live which f k v es).map (fun e => e.kref.target) = es.map (fun e => e.kref.target) ++ [k] ∧
      ∀ e ∈ es, refEq cls live ⟨f, k⟩ e.kref = false)
  | [] => Or.inr ⟨rfl, by simp⟩
  | e :: es => by
    rw [iput]
    by_cases h : refEq cls live ⟨f, k⟩ e.kref = true
    · rw [if_pos h]; exact Or.inl rfl
    · rw [if_neg h]
      rcases iput_targets (cls := cls) (live := live) (which := which) (f := f) (k := k) (v := v) es with a | ⟨a, b⟩
      · exact Or.inl (by rw [List.map_cons, List.map_cons, a])
      · refine Or.inr ⟨by rw [List.map_cons, List.map_cons, a]; rfl, fun x hx => ?_⟩
        rcases List.mem_cons.1 hx with hx | hx
        · rw [hx]; simpa using h
        · exact b x hx

theorem DGood.put {cls : Nat → Nat} (hc : ∀ a b, cls a = cls b → a = b) {live : Nat → Bool} {fresh : Nat} {which : Bool}
    {d : IDict} (h : DGood live fresh which d) {k v : Nat} (hk : live k = true) (hv : live v = true) :
    DGood live (fresh + 2) which (d.put cls live which fresh k v) := by
  rw [iput_eq]
  have hal : ∀ e ∈ d.entries, live e.kref.target = true := fun e he => (h.alive e he).1
  have hm := iput_mem hc (which := which) (f := fresh) (v := v) hk d.entries hal
  refine ⟨fun x hx => ?_, fun x hx => ?_, fun x hx => ?_, fun x hx y hy => ?_, ?_, fun x hx => ?_, h.none⟩
  · rcases hm x hx with a | ⟨e, a, b, c⟩ | ⟨a, b⟩
    · exact h.own x a
    · rw [c]; exact ⟨(h.own e a).1, rfl⟩
    · rw [a]; exact ⟨rfl, rfl⟩
  · rcases hm x hx with a | ⟨e, a, b, c⟩ | ⟨a, b⟩
    · have := h.bound x a; omega
    · rw [c]; have := h.bound e a; simp only; omega
    · rw [a]; simp only; omega
  · rcases hm x hx with a | ⟨e, a, b, c⟩ | ⟨a, b⟩
    · exact h.same x a
    · rw [c]; exact b.symm
    · rw [a]
  · rcases hm x hx with a | ⟨e, a, b, c⟩ | ⟨a, b⟩ <;> rcases hm y hy with a' | ⟨e', a', b', c'⟩ | ⟨a', b'⟩
    · exact h.ids x a y a'
    · rw [c']; exact h.ids x a e' a'
    · rw [a']
      have := h.bound x a
      simp only
      exact ⟨fun _ => by omega, fun _ => by omega⟩
    · rw [c]
      have := h.bound y a'
      refine ⟨(h.ids e a y a').1, ?_⟩
      simp only
      intro; omega
    · rw [c, c']
      have := h.bound e' a'
      refine ⟨(h.ids e a e' a').1, ?_⟩
      simp only
      intro; omega
    · rw [c, a']
      have := h.bound e a
      simp only
      exact ⟨fun _ => by omega, fun _ => by simp⟩
    · rw [a]
      have := h.bound y a'
      simp only
      exact ⟨fun _ => by omega, fun _ => by omega⟩
    · rw [a, c']
      have := h.bound e' a'
      simp only
      exact ⟨fun _ => by omega, fun _ => by omega⟩
    · rw [a, a']; simp
  · have ht := iput_targets (cls := cls) (live := live) (which := which) (f := fresh) (k := k) (v := v) d.entries
    have hpw : (d.entries.map (fun e => e.kref.target)).Pairwise (· ≠ ·) := by
      rw [List.pairwise_map]; exact h.apart
    have : ((iput cls live which fresh k v d.entries).map (fun e => e.kref.target)).Pairwise (· ≠ ·) := by
      rcases ht with ht | ⟨ht, hno⟩
      · rw [ht]; exact hpw
      · rw [ht, List.pairwise_append]
        refine ⟨hpw, by simp, fun a ha b hb => ?_⟩
        rw [List.mem_singleton.1 hb]
        obtain ⟨e, he, rfl⟩ := List.mem_map.1 ha
        have := hno e he
        rw [refEq_same hc hk (hal e he)] at this
        simpa using this
    rw [List.pairwise_map] at this
    exact this
  · rcases hm x hx with a | ⟨e, a, b, c⟩ | ⟨a, b⟩
    · exact h.alive x a
    · rw [c]; exact ⟨(h.alive e a).1, hv⟩
    · rw [a]; exact ⟨hk, hv⟩

theorem DGood.mono {live : Nat → Bool} {fresh fresh' : Nat} {which : Bool} {d : IDict} (h : DGood live fresh which d)
    (hf : fresh ≤ fresh') : DGood live fresh' which d :=
  ⟨h.own, fun e he => ⟨Nat.lt_of_lt_of_le (h.bound e he).1 hf, Nat.lt_of_lt_of_le (h.bound e he).2 hf⟩, h.same, h.ids,
    h.apart, h.alive, h.none⟩

/-- A living dictionary's operations are those of the plain dictionary. -/
theorem istep_good {cls : Nat → Nat} (hc : ∀ a b, cls a = cls b → a = b) {live : Nat → Bool} {dead : List Nat}
    (hlive : ∀ o, live o = true ↔ o ∉ dead) {fresh : Nat} {which : Bool} {d : IDict}
    (h : DGood live fresh which d) (op : IOp) (hq : (∃ order, op = .leave order) → d.iterating > 0) :
    DGood live (fresh + 2) which (d.step cls live which fresh op).1 ∧
      (d.step cls live which fresh op).1.entries.map itemOf = (plainStep cls dead (d.entries.map itemOf) op).1 ∧
      (d.step cls live which fresh op).2 = (plainStep cls dead (d.entries.map itemOf) op).2 := by
  have hal : ∀ e ∈ d.entries, live e.kref.target = true := fun e he => (h.alive e he).1
  have h2 := h.mono (Nat.le_add_right fresh 2)
  have deadOf : ∀ o, ¬live o = true → o ∈ dead := fun o hl => by
    by_cases hm : o ∈ dead
    · exact hm
    · exact absurd ((hlive o).2 hm) hl
  have hfind : ∀ k, live k = true → (d.find cls live fresh k).map itemOf = Plain.get cls k (d.entries.map itemOf) :=
    fun k hk => find_items hc hk d.entries hal
  have hmem : ∀ k e, d.find cls live fresh k = some e → e ∈ d.entries := fun k e he => List.mem_of_find?_eq_some he
  have hread : ∀ k, live k = true → (d.step cls live which fresh (.look k)) =
      (d, .value ((Plain.get cls k (d.entries.map itemOf)).map Prod.snd)) := by
    intro k hk
    simp only [IDict.step, if_pos hk]
    have := hfind k hk
    cases hf : d.find cls live fresh k with
    | none => rw [hf] at this; rw [← this]; rfl
    | some e =>
      rw [hf] at this; rw [← this]
      have hv := (h.alive e (hmem k e hf)).2
      dsimp only
      rw [if_pos hv]; rfl
  have hget : ∀ k, live k = true → (d.step cls live which fresh (.get k)) =
      (d, .value ((Plain.get cls k (d.entries.map itemOf)).map Prod.snd)) := by
    intro k hk
    simp only [IDict.step, if_pos hk]
    have := hfind k hk
    cases hf : d.find cls live fresh k with
    | none => rw [hf] at this; rw [← this]; rfl
    | some e =>
      rw [hf] at this; rw [← this]
      have hv := (h.alive e (hmem k e hf)).2
      dsimp only
      rw [if_pos hv]; rfl
  cases op with
  | put k v =>
    by_cases hl : (live k && live v) = true
    · obtain ⟨hk, hv⟩ := Bool.and_eq_true_iff.1 hl
      simp only [IDict.step, if_pos hl, plainStep]
      rw [if_neg (by rintro (a | a); exact (hlive k).1 hk a; exact (hlive v).1 hv a)]
      refine ⟨h.put hc hk hv, ?_, rfl⟩
      rw [iput_eq]
      exact iput_items hc hk d.entries hal
    · simp only [IDict.step, if_neg hl, plainStep]
      rw [if_pos]
      · exact ⟨h2, rfl, rfl⟩
      · by_cases hk : live k = true
        · right
          refine deadOf v (fun hv => hl (by simp [hk, hv]))
        · exact Or.inl (deadOf k hk)
  | look k =>
    by_cases hk : live k = true
    · rw [hread k hk]
      simp only [plainStep]
      rw [if_neg ((hlive k).1 hk)]
      exact ⟨h2, rfl, rfl⟩
    · simp only [IDict.step, if_neg hk, plainStep]
      rw [if_pos (deadOf k hk)]
      exact ⟨h2, rfl, rfl⟩
  | get k =>
    by_cases hk : live k = true
    · rw [hget k hk]
      simp only [plainStep]
      rw [if_neg ((hlive k).1 hk)]
      exact ⟨h2, rfl, rfl⟩
    · simp only [IDict.step, if_neg hk, plainStep]
      rw [if_pos (deadOf k hk)]
      exact ⟨h2, rfl, rfl⟩
  | pop k =>
    by_cases hk : live k = true
    · simp only [IDict.step, if_pos hk, plainStep]
      rw [if_neg ((hlive k).1 hk)]
      have := hfind k hk
      have herase := erase_items hc (f := fresh) hk d.entries hal
      cases hf : d.find cls live fresh k with
      | none =>
        rw [hf] at this; rw [← this]
        refine ⟨h2, ?_, rfl⟩
        have hno : d.entries.eraseP (fun e => refEq cls live ⟨fresh, k⟩ e.kref) = d.entries := by
          refine List.eraseP_of_forall_not (fun e he => ?_)
          have hnone : d.entries.find? (fun e => refEq cls live ⟨fresh, k⟩ e.kref) = none := hf
          exact List.find?_eq_none.1 hnone e he
        rw [← herase, hno]
      | some e =>
        rw [hf] at this; rw [← this]
        have hv := (h.alive e (hmem k e hf)).2
        refine ⟨h2.sub List.eraseP_sublist h.none, herase, ?_⟩
        dsimp only
        rw [if_pos hv]; rfl
    · simp only [IDict.step, if_neg hk, plainStep]
      rw [if_pos (deadOf k hk)]
      exact ⟨h2, rfl, rfl⟩
  | popitem =>
    simp only [IDict.step, plainStep]
    cases hr : d.entries.reverse with
    | nil =>
      have he : d.entries = [] := List.reverse_eq_nil_iff.1 hr
      exact ⟨h2.sub (List.nil_sublist _) h.none, by simp [he, IDict.popLoop], by simp [he, IDict.popLoop]⟩
    | cons e earlier =>
      have he : d.entries = earlier.reverse ++ [e] := by
        have := congrArg List.reverse hr
        rw [List.reverse_reverse] at this
        rw [this]; simp
      have ha := h.alive e (by rw [he]; simp)
      rw [IDict.popLoop, if_pos (by simp [ha.1, ha.2])]
      refine ⟨h2.sub (by rw [he]; exact List.sublist_append_left _ _) h.none, ?_, ?_⟩
      · rw [he]; simp
      · rw [he]; simp [itemOf]
  | clear => exact ⟨h2.sub (List.nil_sublist _) rfl, rfl, rfl⟩
  | enter => exact ⟨h2.sub (List.Sublist.refl _) h.none, rfl, rfl⟩
  | leave order =>
    have hi := hq ⟨order, rfl⟩
    simp only [IDict.step, if_pos hi, plainStep]
    unfold IDict.commit
    split
    · exact ⟨h2.sub (List.Sublist.refl _) h.none, rfl, trivial⟩
    · have hp : order.apply ({ d with iterating := d.iterating - 1 } : IDict).pending = [] := by
        have := order.perm ({ d with iterating := d.iterating - 1 } : IDict).pending
        rw [show ({ d with iterating := d.iterating - 1 } : IDict).pending = [] from h.none] at this ⊢
        exact List.perm_nil.1 this
      rw [hp]
      exact ⟨h2.sub (List.Sublist.refl _) rfl, rfl, trivial⟩

/-! ## A death without iterators -/

theorem eraseP_filter {α : Type} {q : α → Bool} : ∀ (l : List α), l.Pairwise (fun a b => ¬(q a = true ∧ q b = true)) →
    l.eraseP q = l.filter (fun a => !q a)
  | [], _ => rfl
  | a :: l, h => by
    have h' := List.pairwise_cons.1 h
    by_cases ha : q a = true
    · rw [List.eraseP_cons_of_pos ha, List.filter_cons_of_neg (by simp [ha])]
      refine (List.filter_eq_self.2 (fun b hb => ?_)).symm
      have := h'.1 b hb
      simpa [ha] using this
    · rw [List.eraseP_cons_of_neg ha, List.filter_cons_of_pos (by simpa using ha), eraseP_filter l h'.2]

theorem discards_filter {cls : Nat → Nat} {live : Nat → Bool} : ∀ (rs : List Ref) (d : IDict),
    (∀ r ∈ rs, d.entries.Pairwise (fun a b => ¬(refEq cls live r a.kref = true ∧ refEq cls live r b.kref = true))) →
    rs.foldl (IDict.discard cls live) d =
      { d with entries := d.entries.filter (fun e => rs.all (fun r => !refEq cls live r e.kref)) }
  | [], d, _ => by
    show d = _
    rw [show (d.entries.filter fun e => ([] : List Ref).all fun r => !refEq cls live r e.kref) = d.entries from
      List.filter_eq_self.2 (by simp)]
  | r :: rs, d, h => by
    have hd : d.discard cls live r = { d with entries := d.entries.filter (fun e => !refEq cls live r e.kref) } := by
      unfold IDict.discard
      rw [eraseP_filter d.entries (h r (by simp))]
    rw [List.foldl_cons, hd, discards_filter rs]
    · show IDict.mk _ _ _ = IDict.mk _ _ _
      congr 1
      rw [List.filter_filter]
      refine List.filter_congr (fun e _ => ?_)
      rw [List.all_cons, Bool.and_comm]
    · intro r' hr'
      exact (h r' (List.mem_cons_of_mem _ hr')).sublist List.filter_sublist

theorem icallbacks_idle {cls : Nat → Nat} {live : Nat → Bool} : ∀ (rs : List Ref) (d : IDict), d.iterating = 0 →
    rs.foldl (IDict.callback cls live) d = rs.foldl (IDict.discard cls live) d
  | [], _, _ => rfl
  | r :: rs, d, h => by
    rw [List.foldl_cons, List.foldl_cons]
    have : d.callback cls live r = d.discard cls live r := by
      simp only [IDict.callback, if_neg (by omega : ¬d.iterating > 0)]
    rw [this]
    exact icallbacks_idle rs _ h

theorem apart_ne : ∀ {es : List Entry}, es.Pairwise (fun a b => a.kref.target ≠ b.kref.target) →
    ∀ {a b : Entry}, a ∈ es → b ∈ es → a ≠ b → a.kref.target ≠ b.kref.target
  | e :: es, h, a, b, ha, hb, hne => by
    have h' := List.pairwise_cons.1 h
    rcases List.mem_cons.1 ha with ha | ha <;> rcases List.mem_cons.1 hb with hb | hb
    · exact absurd (ha.trans hb.symm) hne
    · rw [ha]; exact h'.1 b hb
    · rw [hb]; exact (h'.1 a ha).symm
    · exact apart_ne h'.2 ha hb hne

/-- The callbacks of one dictionary's own references. -/
theorem idie_good {cls : Nat → Nat} (hc : ∀ a b, cls a = cls b → a = b) {live live' : Nat → Bool} {o : Nat}
    (hl : ∀ x, live' x = (live x && x != o)) {fresh : Nat} {which : Bool} {d : IDict} (h : DGood live fresh which d)
    (h0 : d.iterating = 0) :
    ((d.events o).map Prod.snd).foldl (IDict.callback cls live') d =
      { d with entries := d.entries.filter (fun e => e.kref.target != o && e.vref.target != o) } := by
  have hlo : live' o = false := by rw [hl]; simp
  have hlx : ∀ x, live x = true → x ≠ o → live' x = true := fun x hx hne => by rw [hl]; simp [hx, hne]
  have hmemE : ∀ r ∈ (d.events o).map Prod.snd, ∃ e ∈ d.entries,
      (r = e.kref ∧ e.kref.target = o) ∨ (r = e.vkey ∧ e.vkey.target = o) ∨ (r = e.vkey ∧ e.vref.target = o) := by
    intro r hr
    obtain ⟨x, hx, rfl⟩ := List.mem_map.1 hr
    obtain ⟨e, he, hxe⟩ := List.mem_flatMap.1 hx
    refine ⟨e, he, ?_⟩
    rcases List.mem_append.1 hxe with hxe | hxe
    · rcases List.mem_append.1 hxe with hxe | hxe
      · by_cases hc1 : e.kref.target = o
        · rw [if_pos hc1, List.mem_singleton] at hxe
          exact Or.inl ⟨by rw [hxe], hc1⟩
        · rw [if_neg hc1] at hxe; cases hxe
      · by_cases hc1 : e.vkey ≠ e.kref ∧ e.vkey.target = o
        · rw [if_pos hc1, List.mem_singleton] at hxe
          exact Or.inr (Or.inl ⟨by rw [hxe], hc1.2⟩)
        · rw [if_neg hc1] at hxe; cases hxe
    · by_cases hc1 : e.vref.target = o
      · rw [if_pos hc1, List.mem_singleton] at hxe
        exact Or.inr (Or.inr ⟨by rw [hxe], hc1⟩)
      · rw [if_neg hc1] at hxe; cases hxe
  have match_dead : ∀ (r x : Ref), r.target = o → refEq cls live' r x = (r.id == x.id) := fun r x hr =>
    refEq_dead (by rw [hr]; exact hlo)
  have match_live : ∀ (r x : Ref), live' r.target = true → refEq cls live' r x = true →
      (x.target = r.target) ∨ (live' x.target = false ∧ r.id = x.id) := by
    intro r x hr hm
    unfold refEq at hm
    by_cases hx : live' x.target = true
    · rw [if_pos (by simp [hr, hx])] at hm
      exact Or.inl (hc _ _ (by simpa using hm)).symm
    · rw [if_neg (by simp [hr, hx])] at hm
      exact Or.inr ⟨by simpa using hx, by simpa using hm⟩
  -- which entries an event reaches
  have hreach : ∀ r ∈ (d.events o).map Prod.snd, ∀ e' ∈ d.entries, refEq cls live' r e'.kref = true →
      (e'.kref.target = o ∨ e'.vref.target = o) ∧ e'.kref.target = r.target := by
    intro r hr e' he' hm
    obtain ⟨e, he, ⟨rfl, ho⟩ | ⟨rfl, ho⟩ | ⟨rfl, ho⟩⟩ := hmemE r hr
    · rw [match_dead _ _ ho] at hm
      have := (h.ids e he e' he').1 (by simpa using hm)
      exact ⟨Or.inl (by rw [← this]; exact ho), this.symm⟩
    · rw [match_dead _ _ ho] at hm
      have := (h.ids e he e' he').2 (by simpa using hm)
      exact ⟨Or.inl (by rw [← this]; exact ho), this.symm⟩
    · by_cases hko : e.vkey.target = o
      · rw [match_dead _ _ hko] at hm
        have := (h.ids e he e' he').2 (by simpa using hm)
        exact ⟨Or.inl (by rw [← this]; exact hko), this.symm⟩
      · have hlive : live' e.vkey.target = true := by
          rw [h.same e he]
          exact hlx _ (h.alive e he).1 (by rw [← h.same e he]; exact hko)
        rcases match_live _ _ hlive hm with hmm | ⟨hd, hid⟩
        · refine ⟨Or.inr ?_, hmm⟩
          have hsame : e'.kref.target = e.kref.target := by rw [hmm, h.same e he]
          have : e = e' := by
            by_cases hee : e = e'
            · exact hee
            · exact absurd hsame.symm (apart_ne h.apart he he' hee)
          rw [← this]; exact ho
        · have := (h.ids e he e' he').2 hid
          rw [← this] at hd
          rw [hlive] at hd; cases hd
  rw [icallbacks_idle _ _ h0, discards_filter]
  · show IDict.mk _ _ _ = IDict.mk _ _ _
    congr 1
    refine List.filter_congr (fun e he => ?_)
    by_cases hgone : e.kref.target = o ∨ e.vref.target = o
    · have hrhs : (e.kref.target != o && e.vref.target != o) = false := by
        rcases hgone with hg | hg <;> simp [hg]
      rw [hrhs, List.all_eq_false]
      by_cases hk : e.kref.target = o
      · refine ⟨e.kref, ?_, by rw [match_dead _ _ hk]; simp⟩
        refine List.mem_map.2 ⟨(e.kowner, e.kref), List.mem_flatMap.2 ⟨e, he, ?_⟩, rfl⟩
        exact List.mem_append_left _ (List.mem_append_left _ (by simp [hk]))
      · have hv : e.vref.target = o := hgone.resolve_left hk
        refine ⟨e.vkey, ?_, ?_⟩
        · refine List.mem_map.2 ⟨(e.vowner, e.vkey), List.mem_flatMap.2 ⟨e, he, ?_⟩, rfl⟩
          exact List.mem_append_right _ (by simp [hv])
        · have h1 : live' e.kref.target = true := hlx _ (h.alive e he).1 hk
          have h2 : live' e.vkey.target = true := by rw [h.same e he]; exact h1
          unfold refEq
          rw [if_pos (by simp [h1, h2]), h.same e he]; simp
    · have hrhs : (e.kref.target != o && e.vref.target != o) = true := by
        have h1 : e.kref.target ≠ o := fun x => hgone (Or.inl x)
        have h2 : e.vref.target ≠ o := fun x => hgone (Or.inr x)
        simp [h1, h2]
      rw [hrhs, List.all_eq_true]
      intro r hr
      by_cases hm : refEq cls live' r e.kref = true
      · exact absurd (hreach r hr e he hm).1 hgone
      · simpa using hm
  · intro r hr
    refine List.Pairwise.imp_of_mem ?_ h.apart
    intro a b ha hb hab hm
    exact hab ((hreach r hr a ha hm.1).2.trans (hreach r hr b hb hm.2).2.symm)

/-- Both dictionaries are in order. -/
structure WGood (w : World) : Prop where
  one : DGood w.live w.fresh false w.one
  two : DGood w.live w.fresh true w.two

theorem fires_one (cls : Nat → Nat) : ∀ (es : List (Bool × Ref)) (w : World), (∀ e ∈ es, e.1 = false) →
    es.foldl (World.fire cls) w = { w with one := (es.map Prod.snd).foldl (IDict.callback cls w.live) w.one }
  | [], _, _ => rfl
  | e :: es, w, h => by
    have he := h e (by simp)
    have hf : w.fire cls e = { w with one := w.one.callback cls w.live e.2 } := by
      unfold World.fire World.set World.dict
      rw [he]; rfl
    rw [List.foldl_cons, hf, fires_one cls es _ (fun x hx => h x (List.mem_cons_of_mem _ hx))]
    rfl

theorem fires_two (cls : Nat → Nat) : ∀ (es : List (Bool × Ref)) (w : World), (∀ e ∈ es, e.1 = true) →
    es.foldl (World.fire cls) w = { w with two := (es.map Prod.snd).foldl (IDict.callback cls w.live) w.two }
  | [], _, _ => rfl
  | e :: es, w, h => by
    have he := h e (by simp)
    have hf : w.fire cls e = { w with two := w.two.callback cls w.live e.2 } := by
      unfold World.fire World.set World.dict
      rw [he]; rfl
    rw [List.foldl_cons, hf, fires_two cls es _ (fun x hx => h x (List.mem_cons_of_mem _ hx))]
    rfl

theorem events_own {live : Nat → Bool} {fresh : Nat} {which : Bool} {d : IDict} (h : DGood live fresh which d)
    (o : Nat) : ∀ e ∈ d.events o, e.1 = which := by
  intro x hx
  obtain ⟨e, he, hxe⟩ := List.mem_flatMap.1 hx
  have ho := h.own e he
  rcases List.mem_append.1 hxe with hxe | hxe
  · rcases List.mem_append.1 hxe with hxe | hxe
    · by_cases hc1 : e.kref.target = o
      · rw [if_pos hc1, List.mem_singleton] at hxe
        rw [hxe]; exact ho.1
      · rw [if_neg hc1] at hxe; cases hxe
    · by_cases hc1 : e.vkey ≠ e.kref ∧ e.vkey.target = o
      · rw [if_pos hc1, List.mem_singleton] at hxe
        rw [hxe]; exact ho.2
      · rw [if_neg hc1] at hxe; cases hxe
  · by_cases hc1 : e.vref.target = o
    · rw [if_pos hc1, List.mem_singleton] at hxe
      rw [hxe]; exact ho.2
    · rw [if_neg hc1] at hxe; cases hxe

/--
An execution which does not disturb the dictionaries: nothing is copied, nothing dies while an iterator is there, and
only iterators which were started are ended.
-/
def WQuiet (w : World) : WOp → Prop
  | .copy => False
  | .die _ => w.one.iterating = 0 ∧ w.two.iterating = 0
  | .on which (.leave _) => (w.dict which).iterating > 0
  | _ => True

def WAllQuiet (cls : Nat → Nat) : World → List WOp → Prop
  | _, [] => True
  | w, op :: ops => WQuiet w op ∧ WAllQuiet cls (w.step cls op).1 ops

theorem wlive_iff (w : World) (o : Nat) : w.live o = true ↔ o ∉ w.dead := by simp [World.live]

theorem WGood.pair {w : World} (h : WGood w) :
    w.pair = { one := w.one.entries.map itemOf, two := w.two.entries.map itemOf, dead := w.dead } := by
  unfold World.pair
  rw [h.one.view, h.two.view]

theorem filter_items (o : Nat) (es : List Entry) :
    (es.filter (fun e => e.kref.target != o && e.vref.target != o)).map itemOf =
      (es.map itemOf).filter (fun i => i.1 != o && i.2 != o) := by
  rw [List.filter_map]; rfl

theorem DGood.kill {live live' : Nat → Bool} {o fresh : Nat} {which : Bool} {d : IDict}
    (h : DGood live fresh which d) (hl : ∀ x, live' x = (live x && x != o)) :
    DGood live' fresh which
      { d with entries := d.entries.filter (fun e => e.kref.target != o && e.vref.target != o) } := by
  have hs := h.sub (d' := { d with entries := d.entries.filter (fun e => e.kref.target != o && e.vref.target != o) })
    List.filter_sublist h.none
  refine ⟨hs.own, hs.bound, hs.same, hs.ids, hs.apart, fun e he => ?_, hs.none⟩
  obtain ⟨h1, h2⟩ := List.mem_filter.1 he
  obtain ⟨h3, h4⟩ := Bool.and_eq_true_iff.1 h2
  have := h.alive e h1
  rw [hl, hl, this.1, this.2, h3, h4]
  exact ⟨rfl, rfl⟩

theorem wstep_good {cls : Nat → Nat} (hc : ∀ a b, cls a = cls b → a = b) {w : World} (h : WGood w) (op : WOp)
    (hq : WQuiet w op) :
    WGood (w.step cls op).1 ∧ (w.step cls op).1.pair = (w.pair.step cls op).1 ∧
      (w.step cls op).2 = (w.pair.step cls op).2 := by
  cases op with
  | copy => exact absurd hq (by simp [WQuiet])
  | on which op =>
    have hql : (∃ order, op = .leave order) → (w.dict which).iterating > 0 := by
      rintro ⟨order, rfl⟩; exact hq
    cases which with
    | false =>
      obtain ⟨a, b, c⟩ := istep_good hc (fun o => wlive_iff w o) h.one op hql
      have hG : WGood (w.step cls (.on false op)).1 := ⟨a, h.two.mono (Nat.le_add_right _ 2)⟩
      refine ⟨hG, ?_, ?_⟩
      · rw [hG.pair, h.pair]
        show Pair.mk _ _ _ = Pair.mk _ _ _
        rw [← b]; rfl
      · rw [h.pair]; exact c
    | true =>
      obtain ⟨a, b, c⟩ := istep_good hc (fun o => wlive_iff w o) h.two op hql
      have hG : WGood (w.step cls (.on true op)).1 := ⟨h.one.mono (Nat.le_add_right _ 2), a⟩
      refine ⟨hG, ?_, ?_⟩
      · rw [hG.pair, h.pair]
        show Pair.mk _ _ _ = Pair.mk _ _ _
        rw [← b]; rfl
      · rw [h.pair]; exact c
  | die o =>
    by_cases hl : w.live o = true
    · have hd := (wlive_iff w o).1 hl
      have hlk : ∀ x, ({ w with dead := o :: w.dead } : World).live x = (w.live x && x != o) := fun x => by
        simp only [World.live, List.contains_cons, Bool.not_or, Bool.and_comm, bne]
      have hdie : w.die cls o = ({ w with
          one := { w.one with entries := w.one.entries.filter (fun e => e.kref.target != o && e.vref.target != o) }
          two := { w.two with entries := w.two.entries.filter (fun e => e.kref.target != o && e.vref.target != o) }
          dead := o :: w.dead } : World) := by
        unfold World.die
        rw [List.foldl_append, fires_one cls _ _ (events_own h.one o), fires_two cls _ _ (events_own h.two o)]
        show World.mk _ _ _ _ = World.mk _ _ _ _
        congr 1
        · exact idie_good hc hlk h.one hq.1
        · exact idie_good hc hlk h.two hq.2
      have hstep : w.step cls (.die o) = (w.die cls o, .unit) := by simp only [World.step, if_pos hl]
      have hG : WGood (w.die cls o) := by
        rw [hdie]
        exact ⟨h.one.kill hlk, h.two.kill hlk⟩
      rw [hstep]
      refine ⟨hG, ?_, ?_⟩
      · show (w.die cls o).pair = _
        rw [hG.pair, h.pair, Pair.step, if_neg hd, hdie]
        show Pair.mk _ _ _ = Pair.mk _ _ _
        rw [filter_items, filter_items]
      · rw [h.pair, Pair.step, if_neg hd]
    · have hd : o ∈ w.dead := by
        by_cases hm : o ∈ w.dead
        · exact hm
        · exact absurd ((wlive_iff w o).2 hm) hl
      have hp : o ∈ w.pair.dead := hd
      simp only [World.step, if_neg hl, Pair.step, if_pos hp]
      exact ⟨h, trivial, trivial⟩

theorem WGood.init : WGood {} :=
  ⟨⟨by simp, by simp, by simp, by simp, by simp, by simp, rfl⟩, ⟨by simp, by simp, by simp, by simp, by simp, by simp, rfl⟩⟩

theorem wrun_good {cls : Nat → Nat} (hc : ∀ a b, cls a = cls b → a = b) : ∀ (ops : List WOp) {w : World}, WGood w →
    WAllQuiet cls w ops → WGood (w.run cls ops).1 ∧ (w.run cls ops).1.pair = (w.pair.run cls ops).1 ∧
      (w.run cls ops).2 = (w.pair.run cls ops).2
  | [], _, h, _ => ⟨h, rfl, rfl⟩
  | op :: ops, w, h, hq => by
    obtain ⟨a, b, c⟩ := wstep_good hc h op hq.1
    obtain ⟨d, e, f⟩ := wrun_good hc ops a hq.2
    refine ⟨d, ?_, ?_⟩
    · show ((w.step cls op).1.run cls ops).1.pair = _
      rw [e, b]; rfl
    · show (w.step cls op).2 :: ((w.step cls op).1.run cls ops).2 = _
      rw [f, b, c]; rfl

theorem DGood.len {live : Nat → Bool} {fresh : Nat} {which : Bool} {d : IDict} (h : DGood live fresh which d) :
    d.len = (d.view live).length := by
  unfold IDict.len
  rw [h.view, h.none]
  simp

end Verif.Weak
