import Verif.Weak.Lemmas

/-!
# Iterating over a weak container while objects die, and the algebra of weak sets
-/

namespace Verif.Weak

variable {V : Type}

namespace Table

/--
One step of an iterator which stands at position `i` of the built in container: `weak_set.py`:345-352,
`weak_map.py`:211-218, `weak_key_dictionary.py`:71-78.
-/
def visit (t : Table V) (i : Nat) : Table V × Option Nat :=
  match t.entries[i]? with
  | none => (t, none)
  | some e => if t.live e.1.target then (t, some e.1.target) else (t.addPending e.1, none)

/-- The objects which die between two steps of the iterator. -/
def dieAll (cls : Nat → Nat) (kind : Kind) (t : Table V) (os : List Nat) : Table V :=
  os.foldl (fun t o => (t.step cls kind (.die o)).1) t

/-- The steps of the iterator; before step `i` the objects of `deaths i` die. -/
def iterateLoop (cls : Nat → Nat) (kind : Kind) (deaths : Nat → List Nat) : Nat → Nat → Table V → Table V × List Nat
  | 0, _, t => (t, [])
  | n + 1, i, t =>
    let r := (t.dieAll cls kind (deaths i)).visit i
    let rest := iterateLoop cls kind deaths n (i + 1) r.1
    (rest.1, r.2.toList ++ rest.2)

/-- A whole `for` loop over the container. -/
def iterate (cls : Nat → Nat) (kind : Kind) (deaths : Nat → List Nat) (t : Table V) : Table V × List Nat :=
  iterateLoop cls kind deaths t.entries.length 0 (t.step cls kind .enter).1

end Table

/-! ## Set algebra

A weak set is given by the references in the built in set. The results which are new sets are given by their objects.
-/

/-- `set.__contains__(self, reference)`. -/
def holds (cls : Nat → Nat) (live : Nat → Bool) (s : List Ref) (r : Ref) : Bool := s.any fun x => refEq cls live r x

/-- `new.add(element)`. -/
def addObject (cls : Nat → Nat) (new : List Nat) (o : Nat) : List Nat :=
  if new.any (fun x => cls x == cls o) then new else new ++ [o]

/-- `set(iter(self))`: the living objects. -/
def objects (live : Nat → Bool) (s : List Ref) : List Nat := (s.map Ref.target).filter live

/-- `element in other_set` for a plain set of objects. -/
def inObjects (cls : Nat → Nat) (os : List Nat) (o : Nat) : Bool := os.any fun x => cls x == cls o

/-- `__and__`, `intersection`: `weak_set.py`:106-115, 811-820. -/
def setAnd (cls : Nat → Nat) (live : Nat → Bool) (s other : List Ref) : List Nat :=
  (other.filter (fun r => holds cls live s r && live r.target)).foldl (fun new r => addObject cls new r.target) []

/-- `__or__`, `union`: `weak_set.py`:480-484, 1167-1171, with `copy` 685-696. -/
def setOr (cls : Nat → Nat) (live : Nat → Bool) (s other : List Ref) : List Nat :=
  (objects live other).foldl (addObject cls) ((objects live s).foldl (addObject cls) [])

/-- `__sub__`, `difference`: `weak_set.py`:629-651, 719-739. -/
def setSub (cls : Nat → Nat) (live : Nat → Bool) (s other : List Ref) : List Nat :=
  ((objects live s).filter (fun o => !inObjects cls (objects live other) o)).foldl (addObject cls) []

/-- `__rxor__`, `symmetric_difference`: `weak_set.py`:591-617, 1059-1081. -/
def setXor (cls : Nat → Nat) (live : Nat → Bool) (s other : List Ref) : List Nat :=
  ((objects live s).filter (fun o => !inObjects cls (objects live other) o) ++
    (objects live other).filter (fun o => !inObjects cls (objects live s) o)).foldl (addObject cls) []

/-- `set.discard(self, reference)`. -/
def discardRef (cls : Nat → Nat) (live : Nat → Bool) (s : List Ref) (r : Ref) : List Ref :=
  s.eraseP fun x => refEq cls live r x

/-- `__isub__`, `difference_update` with another weak set: `weak_set.py`:312-316, 758-760. -/
def setISub (cls : Nat → Nat) (live : Nat → Bool) (s other : List Ref) : List Ref :=
  other.foldl (discardRef cls live) s

/-- The loop body of `__ixor__`, `symmetric_difference_update`: `weak_set.py`:362-371, 1106-1115. -/
def xorBody (cls : Nat → Nat) (live : Nat → Bool) (s : List Ref × Nat) (r : Ref) : List Ref × Nat :=
  if live r.target then
    if holds cls live s.1 r then (discardRef cls live s.1 r, s.2)
    else (s.1 ++ [⟨s.2, r.target⟩], s.2 + 1)
  else s

/-- `__ixor__` with another weak set. The number is the identity of the next reference. -/
def setIXor (cls : Nat → Nat) (live : Nat → Bool) (fresh : Nat) (s other : List Ref) : List Ref :=
  (other.foldl (xorBody cls live) (s, fresh)).1

/-- `__iand__`, `intersection_update`: `weak_set.py`:222-247, 837-872. -/
def setIAnd (cls : Nat → Nat) (live : Nat → Bool) (fresh : Nat) (s other : List Ref) : List Ref :=
  ((objects live s).filter (fun o => !inObjects cls (objects live other) o)).foldl
    (fun s o => discardRef cls live s ⟨fresh, o⟩) s

/--
Iterating over a built in set which the body changes: when the size is not what it was at the beginning the
interpreter raises (second component `true`).
-/
def changingLoop (body : List Ref × Nat → Ref → List Ref × Nat) (size : Nat) :
    List Ref → List Ref × Nat → (List Ref × Nat) × Bool
  | [], s => (s, s.1.length != size)
  | r :: rest, s => if s.1.length ≠ size then (s, true) else changingLoop body size rest (body s r)

/-- `s -= s`, `s.difference_update(s)`. -/
def setISubSelf (cls : Nat → Nat) (live : Nat → Bool) (s : List Ref) : List Ref × Bool :=
  let r := changingLoop (fun s r => (discardRef cls live s.1 r, s.2)) s.length s (s, 0)
  (r.1.1, r.2)

/-- `s ^= s`, `s.symmetric_difference_update(s)`. -/
def setIXorSelf (cls : Nat → Nat) (live : Nat → Bool) (fresh : Nat) (s : List Ref) : List Ref × Bool :=
  let r := changingLoop (xorBody cls live) s.length s (s, fresh)
  (r.1.1, r.2)

/-- `set.__eq__(self, other)`: `weak_set.py`:151-153. -/
def setEq (cls : Nat → Nat) (live : Nat → Bool) (s other : List Ref) : Bool :=
  s.length == other.length && s.all (fun r => holds cls live other r)

/-- `set.__le__(self, other)`: `weak_set.py`:404-407, 938-940. -/
def setLe (cls : Nat → Nat) (live : Nat → Bool) (s other : List Ref) : Bool :=
  s.length ≤ other.length && s.all (fun r => holds cls live other r)

/-! ## Specification -/

/-- A class of equal objects has a living member in the weak set. -/
def Has (cls : Nat → Nat) (live : Nat → Bool) (s : List Ref) (c : Nat) : Prop :=
  ∃ r ∈ s, live r.target = true ∧ cls r.target = c

/-- The references of a set which can exist: no two living ones are equal, every reference is an object of its own. -/
structure IsSet (cls : Nat → Nat) (live : Nat → Bool) (fresh : Nat) (s : List Ref) : Prop where
  bound : ∀ r ∈ s, r.id < fresh
  ids : s.Pairwise fun a b => a.id ≠ b.id
  apart : s.Pairwise fun a b => live a.target = true → live b.target = true → cls a.target ≠ cls b.target

/-! ## Lemmas -/

theorem mem_addObject {cls : Nat → Nat} {new : List Nat} {o c : Nat} :
    (∃ x ∈ addObject cls new o, cls x = c) ↔ (∃ x ∈ new, cls x = c) ∨ cls o = c := by
  unfold addObject
  split
  · next h =>
    obtain ⟨y, hy, hc⟩ := List.any_eq_true.1 h
    constructor
    · exact Or.inl
    · rintro (h | h)
      · exact h
      · exact ⟨y, hy, by rw [← h]; simpa using hc⟩
  · constructor
    · rintro ⟨x, hx, hc⟩
      rcases List.mem_append.1 hx with hx | hx
      · exact Or.inl ⟨x, hx, hc⟩
      · rw [List.mem_singleton.1 hx] at hc; exact Or.inr hc
    · rintro (⟨x, hx, hc⟩ | h)
      · exact ⟨x, List.mem_append_left _ hx, hc⟩
      · exact ⟨o, by simp, h⟩

theorem mem_addObjects {cls : Nat → Nat} {c : Nat} : ∀ (os new : List Nat),
    (∃ x ∈ os.foldl (addObject cls) new, cls x = c) ↔ (∃ x ∈ new, cls x = c) ∨ ∃ x ∈ os, cls x = c
  | [], new => by simp
  | o :: os, new => by
    rw [List.foldl_cons, mem_addObjects os, mem_addObject]
    simp only [List.mem_cons, exists_eq_or_imp, or_assoc]

theorem mem_objects {cls : Nat → Nat} {live : Nat → Bool} {s : List Ref} {c : Nat} :
    (∃ x ∈ objects live s, cls x = c) ↔ Has cls live s c := by
  unfold objects Has
  constructor
  · rintro ⟨x, hx, hc⟩
    obtain ⟨h1, h2⟩ := List.mem_filter.1 hx
    obtain ⟨r, hr, rfl⟩ := List.mem_map.1 h1
    exact ⟨r, hr, h2, hc⟩
  · rintro ⟨r, hr, hl, hc⟩
    exact ⟨r.target, List.mem_filter.2 ⟨List.mem_map_of_mem hr, hl⟩, hc⟩

theorem inObjects_iff {cls : Nat → Nat} {live : Nat → Bool} {s : List Ref} {o : Nat} :
    inObjects cls (objects live s) o = true ↔ Has cls live s (cls o) := by
  rw [← mem_objects]
  unfold inObjects
  rw [List.any_eq_true]
  simp

theorem holds_live {cls : Nat → Nat} {live : Nat → Bool} {s : List Ref} {r : Ref} (hr : live r.target = true)
    (hd : ∀ x ∈ s, live x.target = false → r.id ≠ x.id) :
    holds cls live s r = true ↔ Has cls live s (cls r.target) := by
  unfold holds Has
  rw [List.any_eq_true]
  constructor
  · rintro ⟨x, hx, he⟩
    unfold refEq at he
    by_cases hl : live x.target = true
    · rw [if_pos (by simp [hr, hl])] at he
      exact ⟨x, hx, hl, (by simpa using he : cls r.target = cls x.target).symm⟩
    · rw [if_neg (by simp [hl])] at he
      exact absurd (by simpa using he) (hd x hx (by simpa using hl))
  · rintro ⟨x, hx, hl, hc⟩
    refine ⟨x, hx, ?_⟩
    unfold refEq
    rw [if_pos (by simp [hr, hl]), hc]
    simp

theorem mem_eraseP_of {α : Type} {p : α → Bool} : ∀ {l : List α}, l.Pairwise (fun a b => ¬(p a = true ∧ p b = true)) →
    ∀ x, x ∈ l.eraseP p ↔ x ∈ l ∧ p x = false
  | [], _, x => by simp
  | a :: l, h, x => by
    have h' := List.pairwise_cons.1 h
    by_cases ha : p a = true
    · rw [List.eraseP_cons_of_pos ha]
      constructor
      · intro hx
        have := h'.1 x hx
        exact ⟨List.mem_cons_of_mem _ hx, by simpa [ha] using this⟩
      · rintro ⟨hx, hp⟩
        rcases List.mem_cons.1 hx with hx | hx
        · rw [hx, ha] at hp; cases hp
        · exact hx
    · rw [List.eraseP_cons_of_neg ha, List.mem_cons, mem_eraseP_of h'.2, List.mem_cons]
      constructor
      · rintro (hx | hx)
        · exact ⟨Or.inl hx, by rw [hx]; simpa using ha⟩
        · exact ⟨Or.inr hx.1, hx.2⟩
      · rintro ⟨hx | hx, hp⟩
        · exact Or.inl hx
        · exact Or.inr ⟨hx, hp⟩

/-- A reference equals at most one element of a set. -/
theorem IsSet.once {cls : Nat → Nat} {live : Nat → Bool} {fresh : Nat} {s : List Ref} (h : IsSet cls live fresh s)
    (r : Ref) (hd : ∀ x ∈ s, live x.target = false → live r.target = true → r.id ≠ x.id) :
    s.Pairwise fun a b => ¬(refEq cls live r a = true ∧ refEq cls live r b = true) := by
  refine List.Pairwise.imp_of_mem ?_ (h.ids.and h.apart)
  rintro a b ha hb ⟨hid, hap⟩ ⟨h1, h2⟩
  by_cases hr : live r.target = true
  · have key : ∀ x ∈ s, refEq cls live r x = true → live x.target = true ∧ cls r.target = cls x.target := by
      intro x hx he
      unfold refEq at he
      by_cases hl : live x.target = true
      · rw [if_pos (by simp [hr, hl])] at he
        exact ⟨hl, by simpa using he⟩
      · rw [if_neg (by simp [hl])] at he
        exact absurd (by simpa using he) (hd x hx (by simpa using hl) hr)
    have ka := key a ha h1
    have kb := key b hb h2
    exact hap ka.1 kb.1 (ka.2.symm.trans kb.2)
  · have hr' : live r.target = false := by simpa using hr
    rw [refEq_dead hr'] at h1 h2
    have e1 : r.id = a.id := by simpa using h1
    have e2 : r.id = b.id := by simpa using h2
    exact hid (e1.symm.trans e2)

theorem IsSet.sub {cls : Nat → Nat} {live : Nat → Bool} {fresh : Nat} {s s' : List Ref} (h : IsSet cls live fresh s)
    (hs : s'.Sublist s) : IsSet cls live fresh s' :=
  ⟨fun r hr => h.bound r (hs.subset hr), h.ids.sublist hs, h.apart.sublist hs⟩

/-- Discarding a living reference of another set removes exactly the class. -/
theorem has_discard {cls : Nat → Nat} {live : Nat → Bool} {fresh : Nat} {s : List Ref} (h : IsSet cls live fresh s)
    {r : Ref} (hr : live r.target = true) (hd : ∀ x ∈ s, live x.target = false → r.id ≠ x.id) (c : Nat) :
    Has cls live (discardRef cls live s r) c ↔ Has cls live s c ∧ cls r.target ≠ c := by
  have hm := mem_eraseP_of (h.once r (fun x hx hxd _ => hd x hx hxd))
  unfold Has discardRef
  constructor
  · rintro ⟨x, hx, hl, hc⟩
    obtain ⟨h1, h2⟩ := (hm x).1 hx
    refine ⟨⟨x, h1, hl, hc⟩, fun e => ?_⟩
    unfold refEq at h2
    rw [if_pos (by simp [hr, hl]), e, hc] at h2
    simp at h2
  · rintro ⟨⟨x, hx, hl, hc⟩, hne⟩
    refine ⟨x, (hm x).2 ⟨hx, ?_⟩, hl, hc⟩
    unfold refEq
    rw [if_pos (by simp [hr, hl]), hc]
    simpa using hne

/-- Discarding a dead reference of another set removes nothing. -/
theorem discard_foreign {cls : Nat → Nat} {live : Nat → Bool} {s : List Ref} {r : Ref} (hr : live r.target = false)
    (hd : ∀ x ∈ s, r.id ≠ x.id) : discardRef cls live s r = s := by
  unfold discardRef
  refine List.eraseP_of_forall_not (fun x hx => ?_)
  rw [refEq_dead hr]
  simpa using hd x hx

theorem has_isub {cls : Nat → Nat} {live : Nat → Bool} {fresh : Nat} : ∀ (other s : List Ref),
    IsSet cls live fresh s → (∀ r ∈ other, ∀ x ∈ s, r.id ≠ x.id) → ∀ c,
    (Has cls live (setISub cls live s other) c ↔ Has cls live s c ∧ ¬Has cls live other c)
  | [], s, _, _, c => by simp [setISub, Has]
  | r :: rs, s, h, hd, c => by
    have hr := hd r (by simp)
    have hsub : (discardRef cls live s r).Sublist s := List.eraseP_sublist
    have ih := has_isub rs (discardRef cls live s r) (h.sub hsub)
      (fun x hx y hy => hd x (List.mem_cons_of_mem _ hx) y (hsub.subset hy)) c
    show Has cls live (setISub cls live (discardRef cls live s r) rs) c ↔ _
    rw [ih]
    have hcons : Has cls live (r :: rs) c ↔ (live r.target = true ∧ cls r.target = c) ∨ Has cls live rs c := by
      unfold Has
      simp only [List.mem_cons, exists_eq_or_imp]
    rw [hcons]
    by_cases hl : live r.target = true
    · rw [has_discard h hl (fun x hx _ => hr x hx)]
      constructor
      · rintro ⟨⟨h1, h2⟩, h3⟩
        refine ⟨h1, ?_⟩
        rintro (h4 | h4)
        · exact h2 h4.2
        · exact h3 h4
      · rintro ⟨h1, h2⟩
        exact ⟨⟨h1, fun h4 => h2 (Or.inl ⟨hl, h4⟩)⟩, fun h4 => h2 (Or.inr h4)⟩
    · rw [discard_foreign (by simpa using hl) hr]
      constructor
      · rintro ⟨h1, h2⟩
        refine ⟨h1, ?_⟩
        rintro (h4 | h4)
        · exact hl h4.1
        · exact h2 h4
      · rintro ⟨h1, h2⟩
        exact ⟨h1, fun h4 => h2 (Or.inr h4)⟩

theorem has_iand_loop {cls : Nat → Nat} {live : Nat → Bool} {fresh : Nat} : ∀ (os : List Nat) (s : List Ref),
    IsSet cls live fresh s → (∀ o ∈ os, live o = true) → ∀ c,
    (Has cls live (os.foldl (fun s o => discardRef cls live s ⟨fresh, o⟩) s) c ↔
      Has cls live s c ∧ ∀ o ∈ os, cls o ≠ c)
  | [], s, _, _, c => by simp
  | o :: os, s, h, hl, c => by
    have hsub : (discardRef cls live s ⟨fresh, o⟩).Sublist s := List.eraseP_sublist
    have ih := has_iand_loop os (discardRef cls live s ⟨fresh, o⟩) (h.sub hsub)
      (fun x hx => hl x (List.mem_cons_of_mem _ hx)) c
    rw [List.foldl_cons, ih, has_discard h (r := ⟨fresh, o⟩) (hl o (by simp)) (fun x hx _ => by
      have := h.bound x hx
      simp only; omega)]
    simp only [List.mem_cons, forall_eq_or_imp, and_assoc]

/-- The symmetric difference in place. -/
theorem has_xor_loop {cls : Nat → Nat} {live : Nat → Bool} : ∀ (other s : List Ref) (fresh : Nat),
    IsSet cls live fresh s → (∀ r ∈ other, r.id < fresh ∧ ∀ x ∈ s, r.id ≠ x.id) →
    other.Pairwise (fun a b => live a.target = true → live b.target = true → cls a.target ≠ cls b.target) → ∀ c,
    (Has cls live (other.foldl (xorBody cls live) (s, fresh)).1 c ↔
      (Has cls live s c ∧ ¬Has cls live other c) ∨ (¬Has cls live s c ∧ Has cls live other c))
  | [], s, fresh, _, _, _, c => by simp [Has]
  | r :: rs, s, fresh, h, hd, hp, c => by
    have hp' := List.pairwise_cons.1 hp
    have hr := hd r (by simp)
    have hcons : Has cls live (r :: rs) c ↔ (live r.target = true ∧ cls r.target = c) ∨ Has cls live rs c := by
      unfold Has
      simp only [List.mem_cons, exists_eq_or_imp]
    rw [List.foldl_cons, hcons]
    by_cases hl : live r.target = true
    · have hrs : cls r.target = c → ¬Has cls live rs c := by
        rintro rfl ⟨x, hx, hxl, hxc⟩
        exact hp'.1 x hx hl hxl hxc.symm
      by_cases hh : holds cls live s r = true
      · have hb : xorBody cls live (s, fresh) r = (discardRef cls live s r, fresh) := by
          unfold xorBody
          rw [if_pos hl]
          dsimp only
          rw [if_pos hh]
        have hsub : (discardRef cls live s r).Sublist s := List.eraseP_sublist
        have ih := has_xor_loop rs (discardRef cls live s r) fresh (h.sub hsub)
          (fun x hx => ⟨(hd x (List.mem_cons_of_mem _ hx)).1, fun y hy =>
            (hd x (List.mem_cons_of_mem _ hx)).2 y (hsub.subset hy)⟩) hp'.2 c
        rw [hb, ih, has_discard h hl (fun x hx _ => hr.2 x hx)]
        have hhas := (holds_live hl (fun x hx _ => hr.2 x hx)).1 hh
        by_cases hc : cls r.target = c
        · have h1 := hrs hc
          rw [hc] at hhas
          simp [hc, hl, h1, hhas]
        · simp [hc]
      · have hb : xorBody cls live (s, fresh) r = (s ++ [⟨fresh, r.target⟩], fresh + 1) := by
          unfold xorBody
          rw [if_pos hl]
          dsimp only
          rw [if_neg hh]
        have hnot : ¬Has cls live s (cls r.target) := fun e =>
          hh ((holds_live hl (fun x hx _ => hr.2 x hx)).2 e)
        have hset : IsSet cls live (fresh + 1) (s ++ [⟨fresh, r.target⟩]) := by
          refine ⟨fun x hx => ?_, ?_, ?_⟩
          · rcases List.mem_append.1 hx with hx | hx
            · exact Nat.lt_succ_of_lt (h.bound x hx)
            · rw [List.mem_singleton.1 hx]; exact Nat.lt_succ_self _
          · rw [List.pairwise_append]
            refine ⟨h.ids, by simp, fun a ha b hb => ?_⟩
            rw [List.mem_singleton.1 hb]
            have := h.bound a ha
            simp only; omega
          · rw [List.pairwise_append]
            refine ⟨h.apart, by simp, fun a ha b hb hla hlb => ?_⟩
            rw [List.mem_singleton.1 hb]
            exact fun e => hnot ⟨a, ha, hla, e⟩
        have ih := has_xor_loop rs (s ++ [⟨fresh, r.target⟩]) (fresh + 1) hset
          (fun x hx => by
            have hx' := hd x (List.mem_cons_of_mem _ hx)
            refine ⟨by omega, fun y hy => ?_⟩
            rcases List.mem_append.1 hy with hy | hy
            · exact hx'.2 y hy
            · rw [List.mem_singleton.1 hy]
              have := hx'.1
              simp only; omega) hp'.2 c
        rw [hb, ih]
        have happ : Has cls live (s ++ [⟨fresh, r.target⟩]) c ↔ Has cls live s c ∨ cls r.target = c := by
          unfold Has
          simp only [List.mem_append, List.mem_singleton]
          constructor
          · rintro ⟨x, hx | hx, a, b⟩
            · exact Or.inl ⟨x, hx, a, b⟩
            · rw [hx] at b; exact Or.inr b
          · rintro (⟨x, hx, a, b⟩ | b)
            · exact ⟨x, Or.inl hx, a, b⟩
            · exact ⟨⟨fresh, r.target⟩, Or.inr rfl, hl, b⟩
        rw [happ]
        by_cases hc : cls r.target = c
        · have h1 := hrs hc
          rw [hc] at hnot
          simp [hc, hl, h1, hnot]
        · simp [hc]
    · have hb : xorBody cls live (s, fresh) r = (s, fresh) := by
        unfold xorBody
        rw [if_neg hl]
      have ih := has_xor_loop rs s fresh h (fun x hx => hd x (List.mem_cons_of_mem _ hx)) hp'.2 c
      rw [hb, ih]
      simp [hl]

theorem has_iff_class {cls : Nat → Nat} {live : Nat → Bool} {s other : List Ref} (ha : ∀ r ∈ s, live r.target = true)
    (hb : ∀ r ∈ other, live r.target = true) :
    s.all (fun r => holds cls live other r) = true ↔ ∀ c, Has cls live s c → Has cls live other c := by
  rw [List.all_eq_true]
  constructor
  · rintro h c ⟨r, hr, hl, rfl⟩
    exact (holds_live hl (fun x hx hd => absurd (hb x hx) (by simp [hd]))).1 (h r hr)
  · intro h r hr
    exact (holds_live (ha r hr) (fun x hx hd => absurd (hb x hx) (by simp [hd]))).2 (h _ ⟨r, hr, ha r hr, rfl⟩)

theorem classes_nodup {cls : Nat → Nat} {live : Nat → Bool} {fresh : Nat} {s : List Ref} (h : IsSet cls live fresh s)
    (ha : ∀ r ∈ s, live r.target = true) : (s.map fun r => cls r.target).Nodup := by
  rw [List.Nodup, List.pairwise_map]
  exact List.Pairwise.imp_of_mem (fun hx hy h => h (ha _ hx) (ha _ hy)) h.apart

theorem mem_classes {cls : Nat → Nat} {live : Nat → Bool} {s : List Ref}
    (ha : ∀ r ∈ s, live r.target = true) (c : Nat) : c ∈ (s.map fun r => cls r.target) ↔ Has cls live s c := by
  rw [List.mem_map]
  constructor
  · rintro ⟨r, hr, rfl⟩; exact ⟨r, hr, ha r hr, rfl⟩
  · rintro ⟨r, hr, _, hc⟩; exact ⟨r, hr, hc⟩

end Verif.Weak
