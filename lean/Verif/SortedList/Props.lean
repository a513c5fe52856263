import Mathlib.Order.Nat
import Verif.SortedList.Model

/-! Property C36. -/
namespace Verif.SortedList

variable {α κ μ : Type} [LinearOrder κ] [LinearOrder μ]

/-! ### The order of a list -/

theorem before_irrefl (r : Bool) (a : κ) : before r a a = false := by unfold before; cases r <;> simp

theorem before_trans' {r : Bool} {a b c : κ} (h1 : before r b a = false) (h2 : before r b c = true) : before r a c = true := by
  unfold before at *
  cases r <;> simp_all
  · exact lt_of_le_of_lt h1 h2
  · exact lt_of_lt_of_le h2 h1

theorem not_before_trans {r : Bool} {a b c : κ} (h1 : before r b a = false) (h2 : before r c b = false) : before r c a = false := by
  unfold before at *
  cases r <;> simp_all
  · exact le_trans h1 h2
  · exact le_trans h2 h1

theorem before_trans'' {r : Bool} {a b c : κ} (h1 : before r a b = true) (h2 : before r c b = false) : before r a c = true := by
  unfold before at *
  cases r <;> simp_all
  · exact lt_of_lt_of_le h1 h2
  · exact lt_of_le_of_lt h2 h1

theorem before_asymm {r : Bool} {a b : κ} (h : before r a b = true) : before r b a = false := by
  unfold before at *
  cases r <;> simp_all <;> exact le_of_lt h

theorem eq_of_not_before {r : Bool} {a b : κ} (h1 : before r a b = false) (h2 : before r b a = false) : a = b := by
  unfold before at *
  cases r <;> simp_all
  · exact le_antisymm h2 h1
  · exact le_antisymm h1 h2

theorem ne_of_before {r : Bool} {a b : κ} (h : before r a b = true) : a ≠ b := by
  rintro rfl; rw [before_irrefl] at h; exact absurd h (by simp)

/-! ### Bisection -/

/-- Elements which satisfy `p` come first. -/
def Part (p : α → Bool) (l : List α) : Prop := l.Pairwise fun a b => p b = true → p a = true

/-- How many there are. -/
def cut (p : α → Bool) (l : List α) : Nat := (l.takeWhile p).length

theorem cut_le (p : α → Bool) (l : List α) : cut p l ≤ l.length :=
  (List.takeWhile_sublist p).length_le

theorem part_get {p : α → Bool} {l : List α} (h : Part p l) {i : Nat} {e : α} (he : l[i]? = some e) : p e = true ↔ i < cut p l := by
  induction l generalizing i with
  | nil => simp at he
  | cons a l ih =>
    rw [Part, List.pairwise_cons] at h
    unfold cut
    rw [List.takeWhile_cons]
    cases i with
    | zero =>
      simp only [List.getElem?_cons_zero, Option.some.injEq] at he
      subst he
      by_cases ha : p a = true <;> simp [ha]
    | succ i =>
      simp only [List.getElem?_cons_succ] at he
      have := ih h.2 he
      by_cases ha : p a = true
      · simp only [ha, ↓reduceIte, List.length_cons, Nat.add_lt_add_iff_right]; exact this
      · have : ¬ p e = true := fun hp => ha (h.1 e (List.mem_of_getElem? he) hp)
        simp [ha, this]

theorem bisect_eq {p : α → Bool} {l : List α} (h : Part p l) : ∀ (rounds bot top : Nat), bot ≤ cut p l → cut p l ≤ top → top ≤ l.length →
    top - bot ≤ rounds → bisect p l rounds bot top = cut p l := by
  intro rounds
  induction rounds with
  | zero => intro bot top h1 h2 _ h4; rw [bisect]; omega
  | succ rounds ih =>
    intro bot top h1 h2 h3 h4
    rw [bisect]
    by_cases hb : bot < top
    · rw [if_pos hb]
      simp only
      have hr : (bot + top) / 2 < l.length := by omega
      have he : l[(bot + top) / 2]? = some l[(bot + top) / 2] := List.getElem?_eq_getElem hr
      rw [he]
      simp only
      have hp := part_get h he
      by_cases hpe : p l[(bot + top) / 2] = true
      · rw [if_pos hpe]
        have := hp.1 hpe
        exact ih _ _ (by omega) h2 h3 (by omega)
      · rw [if_neg hpe]
        have : ¬ (bot + top) / 2 < cut p l := fun hh => hpe (hp.2 hh)
        exact ih _ _ h1 (by omega) (by omega) (by omega)
    · rw [if_neg hb]; omega

theorem split_eq (p : α → Bool) (l : List α) : l = l.takeWhile p ++ l.dropWhile p := List.takeWhile_append_dropWhile.symm

theorem take_cut (p : α → Bool) (l : List α) : l.take (cut p l) = l.takeWhile p := by
  have : ∀ l' a b : List α, l' = a ++ b → l'.take a.length = a := by rintro _ a b rfl; simp
  exact this l _ _ (split_eq p l)

theorem drop_cut (p : α → Bool) (l : List α) : l.drop (cut p l) = l.dropWhile p := by
  have : ∀ l' a b : List α, l' = a ++ b → l'.drop a.length = b := by rintro _ a b rfl; simp
  exact this l _ _ (split_eq p l)

theorem set_cut {p : α → Bool} {l t : List α} {e : α} (h : l.dropWhile p = e :: t) (v : α) :
    l.set (cut p l) v = l.takeWhile p ++ v :: t := by
  have : ∀ l' a : List α, l' = a ++ e :: t → l'.set a.length v = a ++ v :: t := by rintro _ a rfl; simp
  exact this l _ (h ▸ split_eq p l)

theorem erase_cut {p : α → Bool} {l t : List α} {e : α} (h : l.dropWhile p = e :: t) :
    l.eraseIdx (cut p l) = l.takeWhile p ++ t := by
  have : ∀ l' a : List α, l' = a ++ e :: t → l'.eraseIdx a.length = a ++ t := by
    rintro _ a rfl; rw [List.eraseIdx_append_of_length_le (Nat.le_refl _)]; simp
  exact this l _ (h ▸ split_eq p l)

theorem part_dropWhile {p : α → Bool} {l : List α} (h : Part p l) : ∀ e ∈ l.dropWhile p, p e = false := by
  induction l with
  | nil => simp
  | cons a l ih =>
    rw [Part, List.pairwise_cons] at h
    rw [List.dropWhile_cons]
    by_cases ha : p a = true
    · rw [if_pos ha]; exact ih h.2
    · rw [if_neg ha]
      intro e he
      rcases List.mem_cons.1 he with rfl | he
      · simpa using ha
      · cases hpe : p e with
        | false => rfl
        | true => exact absurd (h.1 e he hpe) ha

theorem mem_takeWhile {p : α → Bool} {l : List α} : ∀ e ∈ l.takeWhile p, p e = true := by
  induction l with
  | nil => simp
  | cons a l ih =>
    rw [List.takeWhile_cons]
    by_cases ha : p a = true
    · rw [if_pos ha]
      intro e he
      rcases List.mem_cons.1 he with rfl | he
      · exact ha
      · exact ih e he
    · rw [if_neg ha]; simp

/-! ### Sorted lists -/

/-- Sorted by `f` in a direction, equal ones allowed. -/
def SortedBy (f : α → μ) (r : Bool) (l : List α) : Prop := l.Pairwise fun a b => before r (f b) (f a) = false

theorem SortedBy.part {f : α → μ} {r : Bool} {l : List α} (h : SortedBy f r l) (x : μ) : Part (fun e => before r (f e) x) l := by
  unfold Part
  refine List.Pairwise.imp ?_ h
  intro a b hab hb
  exact before_trans' hab hb

theorem keyed_eq {f : α → μ} {s : State α} (h : SortedBy f s.reversed s.items) (x : μ) :
    s.keyedRelativeIndex x f = cut (fun e => before s.reversed (f e) x) s.items :=
  bisect_eq (h.part x) _ _ _ (Nat.zero_le _) (cut_le _ _) (Nat.le_refl _) (by omega)

theorem relative_eq {key : α → κ} {s : State α} (h : SortedBy key s.reversed s.items) (v : α) :
    s.relativeIndex key v = cut (fun e => before s.reversed (key e) (key v)) s.items :=
  bisect_eq (h.part (key v)) _ _ _ (Nat.zero_le _) (cut_le _ _) (Nat.le_refl _) (by omega)

theorem get_cut (p : α → Bool) (l : List α) : l[cut p l]? = (l.dropWhile p).head? := by
  rw [← drop_cut, List.head?_drop]

theorem place_eq (key : α → κ) (r : Bool) (v : α) (l : List α) :
    place key r v l = l.takeWhile (fun e => before r (key e) (key v)) ++ v :: l.dropWhile (fun e => before r (key e) (key v)) := by
  induction l with
  | nil => rfl
  | cons e l ih =>
    rw [place, List.takeWhile_cons, List.dropWhile_cons]
    by_cases h : before r (key e) (key v) = true
    · simp [h, ih]
    · simp [h]

theorem insert_cut (key : α → κ) (r : Bool) (v : α) (l : List α) :
    insertAt l (cut (fun e => before r (key e) (key v)) l) v = place key r v l := by
  rw [insertAt, take_cut, drop_cut, place_eq]

theorem SortedBy.split {key : α → κ} {r : Bool} {l : List α} (h : SortedBy key r l) (v : α) (w : List α)
    (hw : SortedBy key r w) (hw2 : ∀ e ∈ w, key e = key v ∨ e ∈ l.dropWhile fun e => before r (key e) (key v)) :
    SortedBy key r (l.takeWhile (fun e => before r (key e) (key v)) ++ w) := by
  unfold SortedBy at *
  rw [List.pairwise_append]
  refine ⟨h.sublist (List.takeWhile_sublist _), hw, ?_⟩
  intro a ha b hb
  have ha' := mem_takeWhile a ha
  rcases hw2 b hb with hb | hb
  · rw [hb]; exact before_asymm ha'
  · have := List.takeWhile_append_dropWhile (p := fun e => before r (key e) (key v)) (l := l)
    rw [← this, List.pairwise_append] at h
    exact h.2.2 a ha b hb

theorem SortedBy.dropWhile {key : α → κ} {r : Bool} {l : List α} (h : SortedBy key r l) (p : α → Bool) : SortedBy key r (l.dropWhile p) :=
  List.Pairwise.sublist (List.dropWhile_sublist _) h

theorem SortedBy.place {key : α → κ} {r : Bool} {l : List α} (h : SortedBy key r l) (v : α) : SortedBy key r (place key r v l) := by
  rw [place_eq]
  refine h.split v _ ?_ ?_
  · unfold SortedBy
    rw [List.pairwise_cons]
    exact ⟨part_dropWhile (h.part (key v)), h.dropWhile _⟩
  · intro e he
    rcases List.mem_cons.1 he with rfl | he
    · exact Or.inl rfl
    · exact Or.inr he

theorem place_perm (key : α → κ) (r : Bool) (v : α) (l : List α) : (place key r v l).Perm (v :: l) := by
  rw [place_eq]
  have := List.takeWhile_append_dropWhile (p := fun e => before r (key e) (key v)) (l := l)
  refine List.perm_middle.trans ?_
  rw [this]

theorem pySorted_sorted (key : α → κ) (r : Bool) (l : List α) : SortedBy key r (pySorted key r l) := by
  induction l with
  | nil => exact List.Pairwise.nil
  | cons v l ih => exact SortedBy.place ih v

theorem pySorted_perm (key : α → κ) (r : Bool) (l : List α) : (pySorted key r l).Perm l := by
  induction l with
  | nil => exact List.Perm.refl _
  | cons v l ih => exact (place_perm key r v _).trans (List.Perm.cons v ih)

theorem SortedBy.reverse {key : α → κ} {r : Bool} {l : List α} (h : SortedBy key r l) : SortedBy key (!r) l.reverse := by
  unfold SortedBy at *
  rw [List.pairwise_reverse]
  refine List.Pairwise.imp ?_ h
  intro a b hab
  unfold before at *
  cases r <;> simpa using hab

/-- An argument of `extend` is as it should be: another sorted list is sorted. -/
def Arg.Ok (key : α → κ) : Arg α → Prop
  | .iterable _ => True
  | .sortedList s => SortedBy key s.reversed s.items

/-- What is in it. -/
def Arg.contents : Arg α → List α
  | .iterable l => l
  | .sortedList s => s.items

theorem Arg.other_sorted {key : α → κ} {arg : Arg α} (h : arg.Ok key) (r : Bool) : SortedBy key r (arg.other key r) := by
  cases arg with
  | iterable l => exact pySorted_sorted key r l
  | sortedList s =>
    simp only [Arg.other]
    split
    · rename_i hr; rw [← hr]; exact h
    · rename_i hr
      have : r = !s.reversed := by cases r <;> cases hs : s.reversed <;> simp_all
      rw [this]; exact SortedBy.reverse h

theorem Arg.other_perm (key : α → κ) (arg : Arg α) (r : Bool) : (arg.other key r).Perm arg.contents := by
  cases arg with
  | iterable l => exact pySorted_perm key r l
  | sortedList s =>
    simp only [Arg.other]
    split
    · exact List.Perm.refl _
    · exact List.reverse_perm _

theorem cut_place {key : α → κ} {r : Bool} {l : List α} (v w : α) (hvw : before r (key w) (key v) = false) :
    cut (fun e => before r (key e) (key v)) l ≤ cut (fun e => before r (key e) (key w)) (place key r v l) := by
  unfold cut
  induction l with
  | nil => exact Nat.zero_le _
  | cons e l ih =>
    rw [place, List.takeWhile_cons]
    by_cases h : before r (key e) (key v) = true
    · have h' : before r (key e) (key w) = true := before_trans'' h hvw
      simp only [h, ↓reduceIte]
      rw [List.takeWhile_cons]
      simp only [h', ↓reduceIte, List.length_cons]
      omega
    · simp [h]

theorem extendLoop_eq (key : α → κ) (r : Bool) : ∀ (other items : List α) (bot : Nat), SortedBy key r items → SortedBy key r other →
    (∀ v ∈ other.head?, bot ≤ cut (fun e => before r (key e) (key v)) items) →
    extendLoop key r items other bot = other.foldl (fun l v => place key r v l) items := by
  intro other
  induction other with
  | nil => intro items bot _ _ _; rfl
  | cons v other ih =>
    intro items bot h1 h2 h3
    rw [extendLoop]
    have hb := bisect_eq (h1.part (key v)) items.length bot items.length (h3 v (by simp)) (cut_le _ _) (Nat.le_refl _) (by omega)
    rw [hb, insert_cut]
    unfold SortedBy at h2
    rw [List.pairwise_cons] at h2
    rw [ih _ _ (h1.place v) h2.2 ?_]
    · rfl
    · intro w hw
      cases other with
      | nil => simp at hw
      | cons w' other =>
        simp only [List.head?_cons, Option.mem_def, Option.some.injEq] at hw
        subst hw
        exact cut_place v w' (h2.1 w' (by simp))

theorem foldl_place_sorted {key : α → κ} {r : Bool} : ∀ (other items : List α), SortedBy key r items →
    SortedBy key r (other.foldl (fun l v => place key r v l) items) := by
  intro other
  induction other with
  | nil => intro items h; exact h
  | cons v other ih => intro items h; exact ih _ (h.place v)

theorem foldl_place_perm (key : α → κ) (r : Bool) : ∀ (other items : List α),
    (other.foldl (fun l v => place key r v l) items).Perm (other ++ items) := by
  intro other
  induction other with
  | nil => intro items; exact List.Perm.refl _
  | cons v other ih =>
    intro items
    rw [List.foldl_cons]
    refine (ih _).trans ?_
    refine (List.Perm.append_left _ (place_perm key r v items)).trans ?_
    exact List.perm_middle

/-! ### One operation -/

/-- The sorted lists given to operations are sorted. -/
def Op.Ok (key : α → κ) : Op α μ → Prop
  | .extend arg => arg.Ok key
  | _ => True

/-- What `add` makes of a sorted list. -/
def added (key : α → κ) (r : Bool) (v : α) (l : List α) : List α :=
  l.takeWhile (fun e => before r (key e) (key v)) ++ v ::
    (match l.dropWhile (fun e => before r (key e) (key v)) with
      | [] => []
      | e :: t => if key e = key v then t else e :: t)

theorem add_eq {key : α → κ} {s : State α} (h : SortedBy key s.reversed s.items) (v : α) :
    (step (μ := μ) key s (.add v)).1 = { s with items := added key s.reversed v s.items } := by
  simp only [step]
  rw [relative_eq h v, get_cut]
  unfold added
  cases hd : s.items.dropWhile (fun e => before s.reversed (key e) (key v)) with
  | nil =>
    have := split_eq (fun e => before s.reversed (key e) (key v)) s.items
    rw [hd, List.append_nil] at this
    simp only [List.head?_nil]
    rw [← this]
  | cons e t =>
    simp only [List.head?_cons]
    by_cases he : key e = key v
    · rw [if_pos he, if_pos he, set_cut hd]
    · rw [if_neg he, if_neg he, insert_cut, place_eq, hd]

/-- What `remove` makes of a sorted list. -/
def removed (key : α → κ) (r : Bool) (v : α) (l : List α) : List α :=
  match l.dropWhile (fun e => before r (key e) (key v)) with
  | [] => l
  | e :: t => if key e = key v then l.takeWhile (fun e => before r (key e) (key v)) ++ t else l

theorem remove_eq {key : α → κ} {s : State α} (h : SortedBy key s.reversed s.items) (v : α) :
    (step (μ := μ) key s (.remove v)).1 = { s with items := removed key s.reversed v s.items } := by
  simp only [step]
  rw [relative_eq h v, get_cut]
  unfold removed
  cases hd : s.items.dropWhile (fun e => before s.reversed (key e) (key v)) with
  | nil => rfl
  | cons e t =>
    simp only [List.head?_cons]
    by_cases he : key e = key v
    · rw [if_neg (by simpa using he), if_pos he, erase_cut hd]
    · rw [if_pos he, if_neg he]

theorem added_keys {key : α → κ} {r : Bool} {l : List α} (v : α) :
    ∃ A B, added key r v l = A ++ v :: B ∧ A = l.takeWhile (fun e => before r (key e) (key v)) ∧
      ((l = A ++ B ∧ B = l.dropWhile (fun e => before r (key e) (key v)) ∧ ∀ e ∈ B.head?, key e ≠ key v) ∨
        ∃ e, l = A ++ e :: B ∧ key e = key v ∧ e :: B = l.dropWhile (fun e => before r (key e) (key v))) := by
  have hs := split_eq (fun e => before r (key e) (key v)) l
  unfold added
  cases hd : l.dropWhile (fun e => before r (key e) (key v)) with
  | nil => exact ⟨_, _, rfl, rfl, Or.inl ⟨by rw [hd] at hs; exact hs, rfl, by simp⟩⟩
  | cons e t =>
    rw [hd] at hs
    by_cases he : key e = key v
    · exact ⟨_, _, rfl, rfl, Or.inr ⟨e, by simp only [if_pos he]; exact hs, he, by simp only [if_pos he]⟩⟩
    · refine ⟨_, _, rfl, rfl, Or.inl ⟨by simp only [if_neg he]; exact hs, by simp only [if_neg he], ?_⟩⟩
      simp only [if_neg he]
      intro x hx
      simp only [List.head?_cons, Option.mem_def, Option.some.injEq] at hx
      subst hx; exact he

theorem SortedBy.added {key : α → κ} {r : Bool} {l : List α} (h : SortedBy key r l) (v : α) : SortedBy key r (added key r v l) := by
  obtain ⟨A, B, h1, h2, h3⟩ := added_keys (key := key) (r := r) (l := l) v
  have hpd := part_dropWhile (h.part (key v))
  have hB : ∀ e ∈ B, e ∈ l.dropWhile fun e => before r (key e) (key v) := by
    intro e he
    rcases h3 with ⟨_, hb, _⟩ | ⟨_, _, _, hb⟩
    · rw [← hb]; exact he
    · rw [← hb]; exact List.mem_cons_of_mem _ he
  have hBs : SortedBy key r B := by
    rcases h3 with ⟨hl, _⟩ | ⟨e, hl, _⟩
    · exact List.Pairwise.sublist (by rw [hl]; exact List.sublist_append_right _ _) h
    · exact List.Pairwise.sublist (by rw [hl]; exact (List.sublist_cons_self _ _).trans (List.sublist_append_right _ _)) h
  rw [h1, h2]
  refine h.split v _ ?_ ?_
  · unfold SortedBy
    rw [List.pairwise_cons]
    exact ⟨fun e he => hpd e (hB e he), hBs⟩
  · intro e he
    rcases List.mem_cons.1 he with rfl | he
    · exact Or.inl rfl
    · exact Or.inr (hB e he)

theorem removed_sublist (key : α → κ) (r : Bool) (v : α) (l : List α) : (removed key r v l).Sublist l := by
  have hs := split_eq (fun e => before r (key e) (key v)) l
  unfold removed
  cases hd : l.dropWhile (fun e => before r (key e) (key v)) with
  | nil => exact List.Sublist.refl _
  | cons e t =>
    simp only
    split
    · rw [hd] at hs
      have : ∀ l' A : List α, l' = A ++ e :: t → (A ++ t).Sublist l' := by
        rintro _ A rfl; exact List.Sublist.append (List.Sublist.refl _) (List.sublist_cons_self _ _)
      exact this _ _ hs
    · exact List.Sublist.refl _

theorem extend_eq {key : α → κ} {s : State α} (h : SortedBy key s.reversed s.items) {arg : Arg α} (ha : arg.Ok key) :
    (step (μ := μ) key s (.extend arg)).1 =
      { s with items := (arg.other key s.reversed).foldl (fun l v => place key s.reversed v l) s.items } := by
  simp only [step]
  rw [extendLoop_eq key s.reversed _ _ _ h (Arg.other_sorted ha _) (fun _ _ => Nat.zero_le _)]

theorem step_sorted {key : α → κ} {s : State α} (h : SortedBy key s.reversed s.items) {op : Op α μ} (ho : op.Ok key) :
    SortedBy key (step key s op).1.reversed (step key s op).1.items := by
  cases op with
  | add v => rw [add_eq h]; exact h.added v
  | remove v => rw [remove_eq h]; exact List.Pairwise.sublist (removed_sublist key _ v _) h
  | extend arg => rw [extend_eq h ho]; exact foldl_place_sorted _ _ h
  | setReverse value =>
    simp only [step]
    split
    · exact h
    · rename_i hr
      have : value = !s.reversed := by cases value <;> cases hs : s.reversed <;> simp_all
      simp only
      rw [this]; exact h.reverse
  | pop x f =>
    simp only [step]
    split
    · exact h
    · split
      · exact List.Pairwise.sublist (List.eraseIdx_sublist _ _) h
      · exact h
  | resort => exact pySorted_sorted key _ _
  | delItem i => exact List.Pairwise.sublist (List.eraseIdx_sublist _ _) h
  | clear => exact List.Pairwise.nil

theorem run_sorted {key : α → κ} {s : State α} (h : SortedBy key s.reversed s.items) {ops : List (Op α μ)} (ho : ∀ op ∈ ops, op.Ok key) :
    SortedBy key (runAll key s ops).reversed (runAll key s ops).items := by
  induction ops generalizing s with
  | nil => exact h
  | cons op ops ih =>
    exact ih (step_sorted h (ho op List.mem_cons_self)) fun op' h' => ho op' (List.mem_cons_of_mem _ h')

theorem make_sorted (key : α → κ) (arg : Option (Arg α)) (r : Bool) : SortedBy key (make key arg r).reversed (make key arg r).items := by
  unfold make
  split
  · exact List.Pairwise.nil
  · exact pySorted_sorted key r _

/-! ### C36 -/

/-- The specification: in the order of the direction. -/
def InOrder (key : α → κ) (s : State α) : Prop :=
  s.items.Pairwise fun a b => if s.reversed then key b ≤ key a else key a ≤ key b

/-- And without equal ones. -/
def StrictlyInOrder (key : α → κ) (s : State α) : Prop :=
  s.items.Pairwise fun a b => if s.reversed then key b < key a else key a < key b

theorem inOrder_iff (key : α → κ) (s : State α) : InOrder key s ↔ SortedBy key s.reversed s.items := by
  unfold InOrder SortedBy before
  cases s.reversed <;> simp

/-- A sorted list as a program can have it: made from something, then worked on. -/
inductive Reachable (key : α → κ) : State α → Prop where
  | made (arg : Option (Arg α)) (r : Bool) : Reachable key (make key arg r)
  | step {μ : Type} [LinearOrder μ] (s : State α) (op : Op α μ) (h : Reachable key s) (ho : op.Ok key) : Reachable key (step key s op).1

/-- **C36.** A sorted list is always in the order of its direction. -/
theorem C36_sorted (key : α → κ) (s : State α) (h : Reachable key s) : InOrder key s := by
  rw [inOrder_iff]
  induction h with
  | made arg r => exact make_sorted key arg r
  | step s op _ ho ih => exact step_sorted ih ho

theorem head_dropWhile {key : α → κ} {r : Bool} {l : List α} (h : SortedBy key r l) (x : κ) (e : α) (he : e ∈ l) (hx : key e = x) :
    ∃ e' t, l.dropWhile (fun e => before r (key e) x) = e' :: t ∧ key e' = x := by
  have hs := split_eq (fun e => before r (key e) x) l
  have hpd := part_dropWhile (h.part x)
  have hd : e ∈ l.dropWhile (fun e => before r (key e) x) := by
    rw [hs] at he
    rcases List.mem_append.1 he with he | he
    · have := mem_takeWhile e he
      rw [hx, before_irrefl] at this; simp at this
    · exact he
  cases hdw : l.dropWhile (fun e => before r (key e) x) with
  | nil => rw [hdw] at hd; simp at hd
  | cons e' t =>
    refine ⟨e', t, rfl, ?_⟩
    rw [hdw] at hd hpd
    have h1 := hpd e' List.mem_cons_self
    rcases List.mem_cons.1 hd with rfl | hd
    · exact hx
    · have hsd := h.dropWhile (fun e => before r (key e) x)
      rw [hdw] at hsd
      unfold SortedBy at hsd
      rw [List.pairwise_cons] at hsd
      have h2 := hsd.1 e hd
      rw [hx] at h2
      exact eq_of_not_before h1 h2

theorem find_linear {f : α → μ} {r : Bool} {l : List α} (h : SortedBy f r l) (x : μ) :
    l.find? (fun e => decide (f e = x)) =
      match (l.dropWhile fun e => before r (f e) x).head? with
      | none => none
      | some e => if f e = x then some e else none := by
  have hs := split_eq (fun e => before r (f e) x) l
  have hta : (l.takeWhile fun e => before r (f e) x).find? (fun e => decide (f e = x)) = none := by
    rw [List.find?_eq_none]
    intro e he
    have := mem_takeWhile e he
    simpa using ne_of_before this
  cases hd : l.dropWhile (fun e => before r (f e) x) with
  | nil =>
    rw [hd] at hs
    rw [hs, List.find?_append, hta]; rfl
  | cons e t =>
    simp only [List.head?_cons]
    by_cases hx : f e = x
    · rw [if_pos hx]
      rw [hd] at hs
      rw [hs, List.find?_append, hta, List.find?_cons]
      simp [hx]
    · rw [if_neg hx]
      rw [List.find?_eq_none]
      intro e' he'
      simp only [decide_eq_true_eq]
      intro hx'
      obtain ⟨e'', t', h1, h2⟩ := head_dropWhile h x e' he' hx'
      rw [hd] at h1
      exact hx ((List.cons.inj h1).1 ▸ h2)

/-- **C36.** The membership test says whether an equal element is there. -/
theorem C36_contains (key : α → κ) (s : State α) (h : Reachable key s) (v : α) :
    s.contains key v = true ↔ ∃ e ∈ s.items, key e = key v := by
  have h := (inOrder_iff key s).1 (C36_sorted key s h)
  have hf := find_linear h (key v)
  unfold State.contains
  rw [relative_eq h v, get_cut]
  constructor
  · intro hc
    cases hh : (s.items.dropWhile fun e => before s.reversed (key e) (key v)).head? with
    | none => rw [hh] at hc; simp at hc
    | some e =>
      rw [hh] at hc
      simp only [decide_eq_true_eq] at hc
      exact ⟨e, (List.dropWhile_sublist _).mem (List.mem_of_head? hh), hc⟩
  · rintro ⟨e, he, hx⟩
    obtain ⟨e', t, h1, h2⟩ := head_dropWhile h (key v) e he hx
    rw [h1]; simpa using h2

/-- **C36.** `index` gives the first position of an equal element, or raises if there is none. -/
theorem C36_index (key : α → κ) (s : State α) (h : Reachable key s) (v : α) :
    s.index key v = s.items.findIdx? (fun e => decide (key e = key v)) := by
  have h := (inOrder_iff key s).1 (C36_sorted key s h)
  unfold State.index
  rw [relative_eq h v, get_cut]
  have hs := split_eq (fun e => before s.reversed (key e) (key v)) s.items
  have hta : (s.items.takeWhile fun e => before s.reversed (key e) (key v)).findIdx? (fun e => decide (key e = key v)) = none := by
    rw [List.findIdx?_eq_none_iff]
    intro e he
    have := mem_takeWhile e he
    simpa using ne_of_before this
  cases hd : s.items.dropWhile (fun e => before s.reversed (key e) (key v)) with
  | nil =>
    simp only [List.head?_nil]
    rw [hd, List.append_nil] at hs
    rw [hs, hta]
  | cons e t =>
    simp only [List.head?_cons]
    by_cases hx : key e = key v
    · rw [if_neg (by simpa using hx)]
      rw [hd] at hs
      have : ∀ l A : List α, l = A ++ e :: t → A.findIdx? (fun e => decide (key e = key v)) = none →
          l.findIdx? (fun e => decide (key e = key v)) = some A.length := by
        rintro _ A rfl hA
        rw [List.findIdx?_append, hA, List.findIdx?_cons]
        simp [hx]
      rw [this _ _ hs hta]; rfl
    · rw [if_pos hx]
      symm
      rw [List.findIdx?_eq_none_iff]
      intro e' he'
      simp only [decide_eq_false_iff_not]
      intro hx'
      obtain ⟨e'', t', h1, h2⟩ := head_dropWhile h (key v) e' he' hx'
      rw [hd] at h1
      exact hx ((List.cons.inj h1).1 ▸ h2)

/-- **C36, part.** Looking up with a key function which agrees with the order gives what a linear search gives: the first element with that key. -/
theorem C36_keyed_partial (key : α → κ) (s : State α) (h : Reachable key s) (f : α → μ) (x : μ)
    (hf : ∀ a ∈ s.items, ∀ b ∈ s.items, key a ≤ key b → f a ≤ f b) :
    s.get x f = s.items.find? (fun e => decide (f e = x)) := by
  have h := (inOrder_iff key s).1 (C36_sorted key s h)
  have hsf : SortedBy f s.reversed s.items := by
    unfold SortedBy at *
    refine List.Pairwise.imp_of_mem ?_ h
    intro a b ha hb hab
    unfold before at *
    cases hr : s.reversed <;> simp only [hr, Bool.false_eq_true, ↓reduceIte, decide_eq_false_iff_not, not_lt, gt_iff_lt] at hab ⊢
    · exact hf a ha b hb hab
    · exact hf b hb a ha hab
  unfold State.get
  rw [keyed_eq hsf x, get_cut, find_linear hsf x]
  cases (s.items.dropWhile fun e => before s.reversed (f e) x).head? <;> rfl

theorem erase_perm {l : List α} {i : Nat} (h : i < l.length) : l.Perm (l[i] :: l.eraseIdx i) := by
  induction l generalizing i with
  | nil => simp at h
  | cons a l ih =>
    cases i with
    | zero => exact List.Perm.refl _
    | succ i =>
      simp only [List.length_cons, Nat.add_lt_add_iff_right] at h
      simp only [List.getElem_cons_succ, List.eraseIdx_cons_succ]
      exact (List.Perm.cons a (ih h)).trans (List.Perm.swap _ _ _)

/-- **C36.** `pop` with a key function takes out the element `get` gives, and changes nothing if that gives none. -/
theorem C36_pop (key : α → κ) (s : State α) (f : α → μ) (x : μ) :
    match s.get x f with
    | none => step key s (.pop x f) = (s, .default)
    | some e => (step key s (.pop x f)).2 = .element e ∧ (step key s (.pop x f)).1.reversed = s.reversed ∧
        s.items.Perm (e :: (step key s (.pop x f)).1.items) := by
  unfold State.get
  simp only [step]
  cases hi : s.items[s.keyedRelativeIndex x f]? with
  | none => simp
  | some e =>
    by_cases he : f e = x
    · simp only [he, ↓reduceIte]
      refine ⟨trivial, trivial, ?_⟩
      obtain ⟨hlt, hget⟩ := List.getElem?_eq_some_iff.1 hi
      subst hget
      exact erase_perm hlt
    · simp [he]

/-- How many elements with a key there are to be, from what there were. -/
def countAfter (key : α → κ) (x : κ) (n : Nat) : Op α μ × Out α → Nat
  | (.add v, _) => if key v = x then max n 1 else n
  | (.remove v, _) => if key v = x then n - 1 else n
  | (.extend arg, _) => n + (arg.contents.map key).count x
  | (.pop _ _, .element e) => if key e = x then n - 1 else n
  | (.clear, _) => 0
  | _ => n

theorem count_take_drop (key : α → κ) (r : Bool) (v : α) {l : List α} :
    ((l.takeWhile fun e => before r (key e) (key v)).map key).count (key v) = 0 := by
  rw [List.count_eq_zero]
  intro hm
  obtain ⟨e, he, hx⟩ := List.mem_map.1 hm
  have := mem_takeWhile e he
  exact ne_of_before this hx

theorem map_count_perm (key : α → κ) {l l' : List α} (h : l.Perm l') (x : κ) : (l.map key).count x = (l'.map key).count x :=
  (h.map key).count_eq x

theorem added_count (key : α → κ) {r : Bool} {l : List α} (h : SortedBy key r l) (v : α) (x : κ) :
    ((added key r v l).map key).count x = if key v = x then max ((l.map key).count x) 1 else (l.map key).count x := by
  obtain ⟨A, B, h1, h2, h3⟩ := added_keys (key := key) (r := r) (l := l) v
  have hA := count_take_drop key r v (l := l)
  rw [← h2] at hA
  rw [h1]
  rcases h3 with ⟨hl, hb, hh⟩ | ⟨e, hl, he, _⟩
  · rw [List.map_append, List.map_cons, List.count_append, List.count_cons]
    have hl' : (l.map key).count x = (A.map key).count x + (B.map key).count x := by
      have := congrArg (fun l => (l.map key).count x) hl
      simpa [List.count_append] using this
    rw [hl']
    by_cases hx : key v = x
    · subst hx
      have hB : (B.map key).count (key v) = 0 := by
        rw [List.count_eq_zero]
        intro hm
        obtain ⟨e, he, hx⟩ := List.mem_map.1 hm
        have he' : e ∈ l := by rw [hl]; exact List.mem_append_right _ he
        obtain ⟨e', t, h4, h5⟩ := head_dropWhile h (key v) e he' hx
        rw [← hb] at h4
        rw [h4] at hh
        exact hh e' (by simp) h5
      simp [hA, hB]
    · simp [hx]
  · rw [List.map_append, List.map_cons, List.count_append, List.count_cons]
    have hl' : (l.map key).count x = (A.map key).count x + ((B.map key).count x + if key e == x then 1 else 0) := by
      have := congrArg (fun l => (l.map key).count x) hl
      simpa [List.count_append, List.count_cons] using this
    rw [hl', he]
    by_cases hx : key v = x
    · simp only [hx, beq_self_eq_true, ↓reduceIte]; omega
    · simp [hx]

theorem removed_count (key : α → κ) {r : Bool} {l : List α} (h : SortedBy key r l) (v : α) (x : κ) :
    ((removed key r v l).map key).count x = if key v = x then (l.map key).count x - 1 else (l.map key).count x := by
  have hs := split_eq (fun e => before r (key e) (key v)) l
  unfold removed
  cases hd : l.dropWhile (fun e => before r (key e) (key v)) with
  | nil =>
    simp only
    rw [hd, List.append_nil] at hs
    by_cases hx : key v = x
    · rw [if_pos hx]
      subst hx
      have hA := count_take_drop key r v (l := l)
      rw [← hs] at hA; rw [hA]
    · rw [if_neg hx]
  | cons e t =>
    rw [hd] at hs
    simp only
    by_cases he : key e = key v
    · rw [if_pos he]
      have hl' := congrArg (fun l => (l.map key).count x) hs
      simp only [List.map_append, List.map_cons, List.count_append, List.count_cons] at hl'
      rw [hl', List.map_append, List.count_append, he]
      by_cases hx : key v = x
      · subst hx; simp
      · simp [hx]
    · rw [if_neg he]
      by_cases hx : key v = x
      · rw [if_pos hx]
        subst hx
        have : (l.map key).count (key v) = 0 := by
          rw [List.count_eq_zero]
          intro hm
          obtain ⟨e₁, he₁, hx₁⟩ := List.mem_map.1 hm
          obtain ⟨e', t', h4, h5⟩ := head_dropWhile h (key v) e₁ he₁ hx₁
          rw [hd] at h4
          exact he ((List.cons.inj h4).1 ▸ h5)
        rw [this]
      · rw [if_neg hx]

theorem contents {key : α → κ} {s : State α} (h : SortedBy key s.reversed s.items) (op : Op α μ) (ho : op.Ok key) (hd : ∀ i, op ≠ .delItem i)
    (x : κ) : ((step key s op).1.items.map key).count x = countAfter key x ((s.items.map key).count x) (op, (step key s op).2) := by
  cases op with
  | add v => rw [add_eq h]; exact added_count key h v x
  | remove v => rw [remove_eq h]; exact removed_count key h v x
  | extend arg =>
    rw [extend_eq h ho]
    simp only [countAfter]
    rw [map_count_perm key (foldl_place_perm key s.reversed _ _), List.map_append, List.count_append,
      map_count_perm key (Arg.other_perm key arg s.reversed), Nat.add_comm]
  | setReverse value =>
    simp only [step, countAfter]
    split
    · rfl
    · simp
  | pop x' f =>
    have := C36_pop key s f x'
    cases hg : s.get x' f with
    | none => rw [hg] at this; simp only at this; rw [this]; rfl
    | some e =>
      rw [hg] at this
      simp only at this
      rw [this.1]
      simp only [countAfter]
      rw [map_count_perm key this.2.2 x, List.map_cons, List.count_cons]
      by_cases hx : key e = x
      · simp [hx]
      · simp [hx]
  | resort => exact map_count_perm key (pySorted_perm key _ _) x
  | delItem i => exact absurd rfl (hd i)
  | clear => rfl

/-- **C36.** Every operation but a deletion by position changes how many elements of a key there are as it is to: `add` sees to it that there is
one, `remove` takes one away, `extend` adds all that are given, the others change nothing. -/
theorem C36_contents (key : α → κ) (s : State α) (h : Reachable key s) (op : Op α μ) (ho : op.Ok key) (hd : ∀ i, op ≠ .delItem i) (x : κ) :
    ((step key s op).1.items.map key).count x = countAfter key x ((s.items.map key).count x) (op, (step key s op).2) := by
  exact contents ((inOrder_iff key s).1 (C36_sorted key s h)) op ho hd x

/-- An operation which cannot bring in an element twice. -/
def Op.noExtend : Op α μ → Prop
  | .extend _ => False
  | _ => True

/-- **C36, part.** Without `extend`, no two elements are equal. -/
theorem C36_strict_partial (key : α → κ) (r : Bool) (ops : List (Op α μ)) (hops : ∀ op ∈ ops, op.noExtend) :
    StrictlyInOrder key (runAll key (make key none r) ops) := by
  have hcount : ∀ (s : State α), SortedBy key s.reversed s.items → (s.items.map key).Nodup → ∀ op : Op α μ, op.noExtend →
      ((step key s op).1.items.map key).Nodup := by
    intro s hs hn op hop
    have hdel : ∀ i, ((s.items.eraseIdx i).map key).Nodup := fun i =>
      ((List.eraseIdx_sublist s.items i).map key).nodup hn
    by_cases hd : ∃ i, op = .delItem i
    · obtain ⟨i, rfl⟩ := hd; exact hdel i
    · by_cases hp : ∃ x f, op = .pop x f
      · obtain ⟨x', f, rfl⟩ := hp
        simp only [step]
        split
        · exact hn
        · split
          · exact hdel _
          · exact hn
      · rw [List.nodup_iff_count] at hn ⊢
        intro x
        have hx := hn x
        rw [contents hs op (by cases op <;> simp_all [Op.Ok, Op.noExtend]) (fun i e => hd ⟨i, e⟩) x]
        cases op with
        | extend arg => exact absurd hop (by simp [Op.noExtend])
        | add v => simp only [countAfter]; split <;> omega
        | remove v => simp only [countAfter]; split <;> omega
        | pop x f => exact absurd ⟨x, f, rfl⟩ hp
        | delItem i => exact absurd ⟨i, rfl⟩ hd
        | setReverse value => exact hx
        | resort => exact hx
        | clear => exact Nat.zero_le _
  have hrun : ∀ (ops : List (Op α μ)) (s : State α), (∀ op ∈ ops, op.noExtend) → SortedBy key s.reversed s.items → (s.items.map key).Nodup →
      SortedBy key (runAll key s ops).reversed (runAll key s ops).items ∧ ((runAll key s ops).items.map key).Nodup := by
    intro ops
    induction ops with
    | nil => intro s _ hs hn; exact ⟨hs, hn⟩
    | cons op ops ih =>
      intro s ho hs hn
      have hop := ho op List.mem_cons_self
      exact ih _ (fun o h => ho o (List.mem_cons_of_mem _ h)) (step_sorted hs (by cases op <;> simp_all [Op.Ok, Op.noExtend]))
        (hcount s hs hn op hop)
  obtain ⟨h1, h2⟩ := hrun ops _ hops (make_sorted key none r) List.nodup_nil
  unfold StrictlyInOrder
  unfold SortedBy at h1
  rw [List.Nodup, List.pairwise_map] at h2
  refine List.Pairwise.imp ?_ (List.Pairwise.and h1 h2)
  rintro a b ⟨hab, hne⟩
  unfold before at hab
  cases hr : (runAll key (make key none r) ops).reversed <;>
    simp only [hr, Bool.false_eq_true, ↓reduceIte, decide_eq_false_iff_not, not_lt, gt_iff_lt] at hab ⊢
  · exact lt_of_le_of_ne hab hne
  · exact lt_of_le_of_ne hab fun e => hne e.symm

/-- **C36 is violated**: `extend` keeps equal elements, `add` does not: whatever sorted list is extended with an element twice has it twice. -/
theorem C36_duplicates_violated (key : α → κ) (s : State α) (h : Reachable key s) (v : α) :
    ¬ StrictlyInOrder key (step (μ := μ) key s (.extend (.iterable [v, v]))).1 ∧
      ((step (μ := μ) key s (.extend (.iterable [v, v]))).1.items.map key).count (key v) = (s.items.map key).count (key v) + 2 := by
  have hc := C36_contents (μ := μ) key s h (.extend (.iterable [v, v])) trivial (by simp) (key v)
  have hc' : ((step (μ := μ) key s (.extend (.iterable [v, v]))).1.items.map key).count (key v) = (s.items.map key).count (key v) + 2 := by
    rw [hc]; simp [countAfter, Arg.contents]
  refine ⟨?_, hc'⟩
  intro hs
  have hn : ((step (μ := μ) key s (.extend (.iterable [v, v]))).1.items.map key).Nodup := by
    rw [List.Nodup, List.pairwise_map]
    refine List.Pairwise.imp ?_ hs
    intro a b hab
    split at hab
    · exact (ne_of_lt hab).symm
    · exact ne_of_lt hab
  rw [List.nodup_iff_count] at hn
  have := hn (key v)
  omega

theorem insertAt_length (l : List α) (i : Nat) (v : α) : (insertAt l i v).length = l.length + 1 := by
  unfold insertAt; rw [List.length_append, List.length_cons, List.length_take, List.length_drop]; omega

/-- **C36 is violated**: extending a sorted list which is not empty with itself never ends; whatever number of rounds were done, there is a next
one. -/
theorem C36_extend_self_violated (key : α → κ) (s : State α) (hne : s.items ≠ []) (n : Nat) :
    (SelfLoop.rounds key s.reversed { items := s.items } n).isSome ∧
      ∀ s', SelfLoop.rounds key s.reversed { items := s.items } n = some s' → (s'.next key s.reversed).isSome := by
  have hnext : ∀ (r : Bool) (s' : SelfLoop α), s'.position < s'.items.length → ∃ s'', s'.next key r = some s'' ∧
      s''.position = s'.position + 1 ∧ s''.items.length = s'.items.length + 1 := by
    intro r s' hs
    unfold SelfLoop.next
    rw [List.getElem?_eq_getElem hs]
    exact ⟨_, rfl, rfl, insertAt_length _ _ _⟩
  have : ∃ s', SelfLoop.rounds key s.reversed { items := s.items } n = some s' ∧ s'.position < s'.items.length := by
    induction n with
    | zero => exact ⟨_, rfl, List.length_pos_iff.2 hne⟩
    | succ n ih =>
      obtain ⟨s', h1, h2⟩ := ih
      obtain ⟨s'', h3, h4, h5⟩ := hnext s.reversed s' h2
      exact ⟨s'', by rw [SelfLoop.rounds, h1]; exact h3, by omega⟩
  obtain ⟨s', h1, h2⟩ := this
  refine ⟨by rw [h1]; rfl, ?_⟩
  intro s'' h
  rw [h1] at h
  obtain rfl := Option.some.inj h
  obtain ⟨s₃, h3, _⟩ := hnext s.reversed s' h2
  rw [h3]; rfl

/-! ### Instances -/

example : (runAll (μ := Nat) (fun n : Nat => n) (make (fun n => n) none true) [.add 3, .add 5, .add 4, .add 5, .remove 3]).items = [5, 4] := by
  decide
example : (make (fun n : Nat => n) (some (.iterable [3, 1, 2, 3])) false).items = [1, 2, 3, 3] := by decide
example : (make (fun n : Nat => n) (some (.iterable [3, 1, 2, 3])) false).index (fun n => n) 3 = some 2 := by decide
example : (make (fun n : Nat × Char => n.1) (some (.iterable [(3, 'a'), (1, 'b')])) false).get 3 (fun n => n.1) = some (3, 'a') := by decide

end Verif.SortedList
